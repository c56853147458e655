import Verif.Core.Cost
/-! The length of what saving writes: each kind of object, and all objects (used for C111). -/
set_option linter.unusedSimpArgs false
namespace Verif.Core
open Spec

local macro "lenomega" : tactic => `(tactic| ((try simp only [List.length_cons, List.length_nil]); omega))

section
variable {W : World} {dom : List Addr} {I : List (Addr × List Red) → Prop}

/-- `A`: the objects being created.  `E A` is the value of a state on the account, `G A` says what may be saved. -/
structure Modes (W : World) (dom : List Addr) (I : List (Addr × List Red) → Prop) (E : List Addr → P → Nat)
    (G : List Addr → Val → P → Prop) : Prop where
  mono : ∀ (A : List Addr) (v : Val) (p p' : P), G A v p → CF W dom I p p' → G A v p'
  memo : ∀ (A : List Addr) (k : Key) (p : P), E A { p with memo := p.memo ++ [k] } ≤ E A p
  mem : ∀ (A : List Addr) (v : Val) (p : P), Mem W v p → G A v p
  inD : ∀ (A : List Addr) (v : Val) (p : P), G A v p → Mem W v p ∨ InD dom v
  fin : ∀ (A : List Addr) (x : Addr) (p : P), .obj x ∈ p.memo → E A p ≤ E (x :: A) p
  /-- the saving of an object starts -/
  start : ∀ (A : List Addr) (x : Addr) (p : P), x ∈ dom → free p x = true → ¬ Mem W (.ref x) p → ¬ isFC (W.H x) →
    G A (.ref x) p → E (x :: A) p + sz W x ≤ E A p
  child : ∀ (A : List Addr) (x : Addr) (p : P), x ∈ dom → ¬ Mem W (.ref x) p → ¬ isFC (W.H x) → G A (.ref x) p →
    ∀ w ∈ creationRefs (W.H x), InD dom w → G (x :: A) w p
  /-- a container becomes memoised -/
  release : ∀ (A : List Addr) (x : Addr) (p p1 : P), x ∈ dom → ¬ Mem W (.ref x) p → G A (.ref x) p → CF W dom I p p1 →
    free p1 x = true → (∃ con lits dits st, W.H x = .node con lits dits st) → ∃ A' : List Addr,
      E A' { p1 with memo := p1.memo ++ [.obj x] } ≤ E (x :: A) p1 ∧
      (∀ v ∈ refs (W.H x), InD dom v → G A' v { p1 with memo := p1.memo ++ [.obj x] }) ∧ ∀ q : P, E A q ≤ E A' q
  /-- a function or class is put on the stack -/
  stack : ∀ (A : List Addr) (x : Addr) (p : P) (l0 : List Red), x ∈ dom → ¬ Mem W (.ref x) p → G A (.ref x) p → CI W dom I p →
    p.onStack x = false → isFC (W.H x) → (∀ r ∈ l0, ∀ v ∈ redVals r, v = .ref x ∨ v ∈ refs (W.H x)) → ∃ A' : List Addr,
      E A' { p with post := p.post ++ [(x, l0)] } + sz W x ≤ E A p + cRs l0 ∧ I (p.post ++ [(x, l0)]) ∧
      (∀ v ∈ refs (W.H x), InD dom v → G A' v { p with post := p.post ++ [(x, l0)] }) ∧ (∀ q : P, E A q ≤ E A' q) ∧
      ∀ p2 : P, CF W dom I { p with post := p.post ++ [(x, l0)] } p2 → .obj x ∈ p2.memo →
        I (p2.post.filter (fun e => decide (e.1 ≠ x))) ∧
        E A' { p2 with post := p2.post.filter (fun e => decide (e.1 ≠ x)) } +
          cRs ((p2.post.find? (fun e => decide (e.1 = x))).map (·.2) |>.getD []) ≤ E A' p2 ∧
        ∀ e ∈ p2.post, e.1 = x → ∀ r ∈ e.2, ∀ v ∈ redVals r, InD dom v →
          G A' v { p2 with post := p2.post.filter (fun e => decide (e.1 ≠ x)) }
  addR : ∀ (A : List Addr) (p : P) (y : Addr) (r : Red), CI W dom I p →
    E A { p with post := addRed y r p.post } ≤ E A p + cR r
  addI : ∀ (A : List Addr) (x : Addr) (p p1 : P) (y : Addr) (r : Red), x ∈ dom → ¬ Mem W (.ref x) p → G A (.ref x) p →
    CF W dom I p p1 → y ∈ p.post.map (·.1) → (∀ v ∈ redVals r, v = .ref x ∨ v ∈ refs (W.H x)) → I (addRed y r p1.post)

variable {E : List Addr → P → Nat} {G : List Addr → Val → P → Prop} {sv : Val → PM} {A : List Addr}

/-- what saving an object guarantees -/
abbrev PostM (W : World) (dom : List Addr) (I : List (Addr × List Red) → Prop) (EA : P → Nat) (x : Addr) (p : P) (c : Nat) (p' : P) (b' : Nat) : Prop :=
  CF W dom I p p' ∧ .obj x ∈ p'.memo ∧ EA p' + c ≤ b'

/-- the end of saving a tuple or a frozenset: the elements are saved -/
theorem finish_c (hM : Modes W dom I E G) {x} (hn : ∀ con lits dits st, W.H x ≠ .node con lits dits st) (ops : Nat → List Op) (op : Op) (p p1 b1 c)
    (hl : ∀ i, (ops i).length + c ≤ b1 - E (x :: A) p1) (h2 : 2 + c + E (x :: A) p1 ≤ b1)
    (hl' : ∀ i, (ops i).length + c + E (x :: A) p1 ≤ b1)
    (h1 : CF W dom I p p1) :
    Tr (fun p => match idx p.memo (.obj x) with
      | some i => .ok (p, ops i)
      | none => (emit [op] ;; memoize (.obj x)) p) p1 b1 (PostM W dom I (E A) x p c) := by
  intro p' o ho
  simp only at ho
  cases hi : idx p1.memo (.obj x) with
  | some i =>
    rw [hi] at ho
    cases ho
    have hm : .obj x ∈ p1.memo := List.mem_of_getElem? (idx_some hi)
    have := hl' i
    have := hM.fin A x _ hm
    exact ⟨b1 - (ops i).length, by omega, h1, hm, by omega⟩
  | none =>
    rw [hi] at ho
    refine Tr.seq (Q1 := fun p' b' => p1 = p' ∧ b' = b1 - 1) (Q := PostM W dom I (E A) x p c)
      (Tr.emit (by lenomega) ⟨rfl, rfl⟩) ?_ p' o ho
    rintro _ _ ⟨rfl, rfl⟩
    have hm : .obj x ∈ ({ p1 with memo := p1.memo ++ [.obj x] } : P).memo := by simp
    have e1 := hM.fin A x _ hm
    have e2 := hM.memo (x :: A) (.obj x) p1
    exact Tr.memoize (by omega) ⟨h1.memoObj hn, hm, by omega⟩

theorem saveTuple_c (hM : Modes W dom I E G) (hs : ∀ A, Cg W dom I (E A) (G A) sv) (x es) (he : es ≠ []) (hX : W.H x = .tuple es) (p b c) (hp : CI W dom I p)
    (h : ∀ v ∈ es, G (x :: A) v p) (hb : E (x :: A) p + sz W x + c ≤ b) :
    Tr (saveTuple sv x es) p b (PostM W dom I (E A) x p c) := by
  have hn : ∀ con lits dits st, W.H x ≠ .node con lits dits st := by intro _ _ _ _; rw [hX]; simp
  have hz : sz W x = 40 + 6 * es.length := by rw [sz, hX]; rfl
  rw [hz] at hb
  unfold saveTuple
  split
  · rename_i h0; exact absurd (List.isEmpty_iff.1 h0) he
  · split
    · refine Tr.seq (saveAll_c (hs (x :: A)) es p b (10 + es.length + c) hp h (by omega)) ?_
      rintro p1 b1 ⟨h1, _, e1⟩
      exact finish_c hM hn _ _ p p1 b1 c (by intro i; simp; omega) (by omega) (by intro i; simp; omega) h1
    · refine Tr.seq (Q1 := fun p' b' => p = p' ∧ b' = b - 1) (Tr.emit (by lenomega) ⟨rfl, rfl⟩) ?_
      rintro _ _ ⟨rfl, rfl⟩
      refine Tr.seq (saveAll_c (hs (x :: A)) es p _ (10 + c) hp h (by lenomega)) ?_
      rintro p1 b1 ⟨h1, _, e1⟩
      exact finish_c hM hn _ _ p p1 b1 c (by intro i; simp; omega) (by omega) (by intro i; simp; omega) h1

theorem saveFset_c (hM : Modes W dom I E G) (hs : ∀ A, Cg W dom I (E A) (G A) sv) (x es) (hX : W.H x = .fset es) (p b c) (hp : CI W dom I p)
    (h : ∀ v ∈ es, G (x :: A) v p) (hb : E (x :: A) p + sz W x + c ≤ b) :
    Tr (saveFset sv x es) p b (PostM W dom I (E A) x p c) := by
  have hn : ∀ con lits dits st, W.H x ≠ .node con lits dits st := by intro _ _ _ _; rw [hX]; simp
  have hz : sz W x = 40 + 6 * es.length := by rw [sz, hX]; rfl
  rw [hz] at hb
  unfold saveFset
  refine Tr.seq (Q1 := fun p' b' => p = p' ∧ b' = b - 1) (Tr.emit (by lenomega) ⟨rfl, rfl⟩) ?_
  rintro _ _ ⟨rfl, rfl⟩
  refine Tr.seq (saveAll_c (hs (x :: A)) es p _ (10 + c) hp h (by lenomega)) ?_
  rintro p1 b1 ⟨h1, _, e1⟩
  exact finish_c hM hn _ _ p p1 b1 c (by intro i; simp; omega) (by omega) (by intro i; simp; omega) h1

theorem kvVals_length (es : List (Val × Val)) : (kvVals es).length = 2 * es.length := by
  induction es with
  | nil => rfl
  | cons e es ih =>
    have : kvVals (e :: es) = [e.1, e.2] ++ kvVals es := rfl
    rw [this, List.length_append, ih]; simp; omega

theorem stCost_le (st : Option St) : stCost st ≤ 3 + 3 * (stRefs st).length := by
  cases st with
  | none => simp [stCost]
  | some st => cases st <;> simp [stCost, stRefs, kvVals_length]; omega

theorem argsCost_vals (as : List Val) : argsCost (as.map .val) = 2 * as.length := by
  induction as with
  | nil => rfl
  | cons a as ih =>
    have : argsCost ((a :: as).map Arg.val) = 2 + argsCost (as.map .val) := by simp [argsCost, argCost]
    rw [this, ih]; simp; omega

/-- the parts of a container, its creation being over -/
theorem saveNode_c (hM : Modes W dom I E G) (hs : ∀ A, Cg W dom I (E A) (G A) sv) {x con lits dits st} (hd : Closed W dom) (hx : x ∈ dom)
    (hX : W.H x = .node con lits dits st) (p b c) (hp : CI W dom I p) (hf : free p x = true)
    (hfc : ¬ isFC (W.H x)) (h : ∀ v ∈ conRefs con, G (x :: A) v p) (hnm : ¬ Mem W (.ref x) p) (hG : G A (.ref x) p)
    (hb : E (x :: A) p + sz W x + c ≤ b) (hwf : WFObj W (W.H x)) :
    Tr (saveNode sv x con lits dits st) p b (PostM W dom I (E A) x p c) := by
  have hR : ∀ v ∈ lits ++ kvVals dits ++ stRefs st, InD dom v := by
    intro v hv
    refine inD_refs hd hx ?_
    rw [hX]; simp only [refs, List.append_assoc, List.mem_append] at hv ⊢; exact .inr hv
  have hRr : ∀ v ∈ lits ++ kvVals dits ++ stRefs st, v ∈ refs (W.H x) := by
    intro v hv
    rw [hX]; simp only [refs, List.append_assoc, List.mem_append] at hv ⊢; exact .inr hv
  have hz : sz W x = 40 + 6 * ((conRefs con).length + lits.length + 2 * dits.length + (stRefs st).length) := by
    rw [sz, hX]; simp [refs, kvVals_length]; omega
  have hst := stCost_le st
  -- the end: everything is saved
  have fin : ∀ {p1 : P} {p' : P}, CF W dom I p p1 → CF W dom I { p1 with memo := p1.memo ++ [.obj x] } p' →
      (∀ v ∈ lits ++ kvVals dits ++ stRefs st, Mem W v p') → CF W dom I p p' := by
    intro p1 p' h1 h2 hm
    refine h1.around h2 ?_
    intro con' lits' dits' st' hX'
    rw [hX] at hX'
    injection hX' with _ e2 e3 e4
    subst e2; subst e3; subst e4; exact hm
  have stays : ∀ {p1}, CF W dom I p p1 → .obj x ∉ p1.memo → free p1 x = true := by
    intro p1 h1 hm
    have hst : p1.onStack x = false := by
      cases h : p1.onStack x with
      | false => rfl
      | true =>
        simp only [P.onStack, List.any_eq_true, decide_eq_true_eq] at h
        obtain ⟨e, he, rfl⟩ := h
        exact absurd (h1.fr.inv e he).1 hfc
    simp [free, hm, hst]
  -- lists, dicts, sets
  have first : ∀ (op : Op) (g : PM) (n : Nat), n + 10 ≤ sz W x →
      (∀ A' p2 b2 c2, CI W dom I p2 → (∀ v ∈ lits ++ kvVals dits ++ stRefs st, G A' v p2) → E A' p2 + n + c2 ≤ b2 →
        Tr g p2 b2 fun p' b' => CF W dom I p2 p' ∧ (∀ v ∈ lits ++ kvVals dits ++ stRefs st, Mem W v p') ∧ E A' p' + c2 ≤ b') →
      Tr (emit [op] ;; memoize (.obj x) ;; g) p b (PostM W dom I (E A) x p c) := by
    intro op g n hn hg
    refine Tr.seq (Q1 := fun p' b' => p = p' ∧ b' = b - 1) (Tr.emit (by lenomega) ⟨rfl, rfl⟩) ?_
    rintro _ _ ⟨rfl, rfl⟩
    obtain ⟨A', e1, gA, up⟩ := hM.release A x p p hx hnm hG (CF.refl hp) hf ⟨_, _, _, _, hX⟩
    refine Tr.seq (Q1 := fun p' b' => { p with memo := p.memo ++ [.obj x] } = p' ∧ b' = b - 2)
      (Tr.memoize (by omega) ⟨rfl, by omega⟩) ?_
    rintro _ _ ⟨rfl, rfl⟩
    refine (hg A' _ _ c hp.memo (fun v hv => gA v (hRr v hv) (hR v hv)) (by omega)).conseq ?_
    rintro p' b' ⟨h2, hm, e2⟩
    have := up p'
    exact ⟨fin (CF.refl hp) h2 hm, h2.fr.memo _ (by simp), by omega⟩
  -- the others
  have rest : ∀ p1 b1, CF W dom I p p1 → E (x :: A) p1 + (5 + 4 * lits.length + 6 * dits.length + stCost st) + c ≤ b1 →
      Tr (memoOrGet x ;; batchAppends sv lits ;; batchSetitems sv dits ;; saveState sv st) p1 b1 (PostM W dom I (E A) x p c) := by
    intro p1 b1 h1 e1
    have parts : ∀ (A' : List Addr) p2 b2, CI W dom I p2 → (∀ v ∈ lits ++ kvVals dits ++ stRefs st, G A' v p2) →
        E A' p2 + (4 * lits.length + 6 * dits.length + stCost st) + c ≤ b2 →
        Tr (batchAppends sv lits ;; batchSetitems sv dits ;; saveState sv st) p2 b2
          fun p' b' => CF W dom I p2 p' ∧ (∀ v ∈ lits ++ kvVals dits ++ stRefs st, Mem W v p') ∧ E A' p' + c ≤ b' := by
      intro A' p2 b2 hp2 L e2
      refine Tr.seq (batchAppends_c (hs A') lits p2 b2 (6 * dits.length + stCost st + c) hp2 (fun v hv => L v (by simp [hv])) (by omega)) ?_
      rintro p3 b3 ⟨h3, m3, e3⟩
      refine Tr.seq (batchSetitems_c (hs A') dits p3 b3 (stCost st + c) h3.ci (fun v hv => hM.mono _ _ _ _ (L v (by simp [hv])) h3) (by omega)) ?_
      rintro p4 b4 ⟨h4, m4, e4⟩
      refine (saveState_c (hs A') st p4 b4 c h4.ci (fun v hv => hM.mono _ _ _ _ (L v (by simp [hv])) (h3.trans h4)) (by omega)).conseq ?_
      rintro p5 b5 ⟨h5, m5, e5⟩
      refine ⟨(h3.trans h4).trans h5, ?_, e5⟩
      intro v hv
      rcases List.mem_append.1 hv with hv | hv
      · rcases List.mem_append.1 hv with hv | hv
        · exact ((m3 v hv).mono h4.fr.memo).mono h5.fr.memo
        · exact (m4 v hv).mono h5.fr.memo
      · exact m5 v hv
    refine Tr.seq (Q1 := fun p' b' => (.obj x ∈ p1.memo ∧ p1 = p' ∧ b' = b1 - 2) ∨
      (.obj x ∉ p1.memo ∧ { p1 with memo := p1.memo ++ [.obj x] } = p' ∧ b' = b1 - 1))
      (Tr.memoOrGet (by omega) (fun hm => .inl ⟨hm, rfl, rfl⟩) (fun hm => .inr ⟨hm, rfl, rfl⟩)) ?_
    rintro p2 b2 (⟨hm, rfl, rfl⟩ | ⟨hm, rfl, rfl⟩)
    · have hnx : .obj x ∉ p.memo := by
        intro hm; exact hnm (.inr ⟨x, rfl, hm⟩)
      refine (parts (x :: A) p1 _ h1.ci (fun v hv => hM.mem _ _ _ (h1.sat x hnx hm con lits dits st hX v hv)) (by omega)).conseq ?_
      rintro p' b' ⟨h2, _, e2⟩
      have hm' := h2.fr.memo _ hm
      have := hM.fin A x _ hm'
      exact ⟨h1.trans h2, hm', by omega⟩
    · have hf1 := stays h1 hm
      obtain ⟨A', e2, gA, up⟩ := hM.release A x p p1 hx hnm hG h1 hf1 ⟨_, _, _, _, hX⟩
      refine (parts A' _ _ h1.ci.memo (fun v hv => gA v (hRr v hv) (hR v hv)) (by omega)).conseq ?_
      rintro p' b' ⟨h2, hm2, e3⟩
      have := up p'
      exact ⟨fin h1 h2 hm2, h2.fr.memo _ (by simp), by omega⟩
  rw [hX] at hwf
  unfold saveNode
  cases con with
  | list =>
    obtain ⟨rfl, rfl⟩ := hwf
    refine first _ _ (4 * lits.length) (by omega) ?_
    intro A' p2 b2 c2 hp2 L e2
    refine (batchAppends_c (hs A') lits p2 b2 c2 hp2 (fun v hv => L v (by simp [hv])) e2).conseq ?_
    rintro p' b' ⟨h3, m3, e3⟩
    exact ⟨h3, by simpa [kvVals, stRefs] using m3, e3⟩
  | set =>
    obtain ⟨rfl, rfl⟩ := hwf
    refine first _ _ (4 * lits.length) (by omega) ?_
    intro A' p2 b2 c2 hp2 L e2
    refine (batchAdds_c (hs A') lits p2 b2 c2 hp2 (fun v hv => L v (by simp [hv])) e2).conseq ?_
    rintro p' b' ⟨h3, m3, e3⟩
    exact ⟨h3, by simpa [kvVals, stRefs] using m3, e3⟩
  | dict =>
    obtain ⟨rfl, rfl, _⟩ := hwf
    refine first _ _ (6 * dits.length) (by omega) ?_
    intro A' p2 b2 c2 hp2 L e2
    refine (batchSetitems_c (hs A') dits p2 b2 c2 hp2 (fun v hv => L v (by simp [hv])) e2).conseq ?_
    rintro p' b' ⟨h3, m3, e3⟩
    exact ⟨h3, by simpa [stRefs] using m3, e3⟩
  | red f as =>
    simp only
    simp only [conRefs, List.length_cons] at hz
    refine Tr.seq (callReduce_c (hs (x :: A)) f _ (by simp [argKey]) p b
      (5 + 4 * lits.length + 6 * dits.length + stCost st + c) hp (h f (by simp [conRefs])) ?_ ?_) ?_
    · intro a ha v hv
      obtain ⟨w, hw, rfl⟩ := List.mem_map.1 ha
      simp [argVals] at hv; subst hv
      exact h _ (by simp [conRefs, hw])
    · rw [argsCost_vals]; omega
    · rintro p1 b1 ⟨h1, e1⟩
      exact rest p1 b1 h1 (by omega)
  | newobj k as =>
    simp only
    simp only [conRefs, List.length_cons] at hz
    refine Tr.seq ((hs (x :: A)).ok k p b (4 + 2 * as.length + (5 + 4 * lits.length + 6 * dits.length + stCost st + c)) hp
      (h k (by simp [conRefs])) (by omega)) ?_
    rintro p1 b1 ⟨h1, _, e1⟩
    refine Tr.seq (anonTuple_c (hs (x :: A)) _ (by simp [argKey]) p1 b1 (1 + (5 + 4 * lits.length + 6 * dits.length + stCost st + c)) h1.ci ?_ ?_) ?_
    · intro a ha v hv
      obtain ⟨w, hw, rfl⟩ := List.mem_map.1 ha
      simp [argVals] at hv; subst hv
      exact hM.mono _ _ _ _ (h _ (by simp [conRefs, hw])) h1
    · rw [argsCost_vals]; omega
    · rintro p2 b2 ⟨h2, e2⟩
      refine Tr.seq (Q1 := fun p' b' => p2 = p' ∧ b' = b2 - 1) (Tr.emit (by lenomega) ⟨rfl, rfl⟩) ?_
      rintro _ _ ⟨rfl, rfl⟩
      exact rest p2 _ (h1.trans h2) (by omega)

/-! ### deferred steps -/

theorem cRs_append (a b : List Red) : cRs (a ++ b) = cRs a + cRs b := by simp [cRs]
theorem cRs_reverse (a : List Red) : cRs a.reverse = cRs a := by simp [cRs, List.map_reverse]

theorem pend_addRed (y : Addr) (r : Red) (post : List (Addr × List Red)) (h : (post.map (·.1)).Nodup) :
    pend (addRed y r post) ≤ pend post + cR r := by
  induction post with
  | nil => simp [addRed, pend]
  | cons e post ih =>
    obtain ⟨z, l⟩ := e
    simp only [List.map_cons, List.nodup_cons] at h
    by_cases hz : z = y
    · subst hz
      have hid : addRed z r post = post := by
        unfold addRed
        conv => rhs; rw [← List.map_id post]
        refine List.map_congr_left ?_
        rintro ⟨w, l'⟩ hw
        have : w ≠ z := by rintro rfl; exact h.1 (List.mem_map.2 ⟨_, hw, rfl⟩)
        simp [this]
      have : addRed z r ((z, l) :: post) = (z, l ++ [r]) :: addRed z r post := by simp [addRed]
      rw [this, hid]
      simp only [pend, List.map_cons, List.sum_cons, cRs_append]
      simp [cRs]; omega
    · have : addRed y r ((z, l) :: post) = (z, l) :: addRed y r post := by simp [addRed, hz]
      rw [this]
      have := ih h.2
      simp only [pend, List.map_cons, List.sum_cons] at this ⊢
      omega

theorem CI.addRed {p : P} (hp : CI W dom I p) {y r} (h : ∀ v ∈ redVals r, InD dom v) (hI : I (Core.addRed y r p.post)) :
    CI W dom I { p with post := Core.addRed y r p.post } :=
  ⟨hp.inv.addRed h, by simp only [addRed_keys]; exact hp.nd, hI⟩

theorem CF.addRed {p q : P} (h : CF W dom I p q) {y r} (hr : ∀ v ∈ redVals r, InD dom v) (hI : I (Core.addRed y r q.post)) :
    CF W dom I p { q with post := Core.addRed y r q.post } :=
  ⟨h.fr.addRed hr, by simp only [addRed_keys]; exact h.nd, hI, h.sat⟩

theorem free_keys {p q : P} (hm : q.memo = p.memo) (h : q.post.map (·.1) = p.post.map (·.1)) (x : Addr) : free q x = free p x := by
  unfold free; rw [hm, onStack_keys h]

theorem cellHost_mem {p v y} (h : cellHost p v = some y) : y ∈ p.post.map (·.1) := by
  have head : ∀ {y}, p.post.head?.map (·.1) = some y → y ∈ p.post.map (·.1) := by
    intro y h
    cases hp : p.post with
    | nil => rw [hp] at h; cases h
    | cons e l => rw [hp] at h; simp at h; simp [h]
  unfold cellHost at h
  split at h
  · split at h
    · rename_i hs
      cases h
      simp only [P.onStack, List.any_eq_true, decide_eq_true_eq] at hs
      obtain ⟨e, he, rfl⟩ := hs
      exact List.mem_map_of_mem he
    · exact head h
  · exact head h

theorem saveCell_c (hw : WF W) (hM : Modes W dom I E G) (hs : ∀ A, Cg W dom I (E A) (G A) sv) {x k} (hd : Closed W dom) (hx : x ∈ dom) (hX : W.H x = .cell k)
    (p b c) (hp : CI W dom I p) (h : ∀ v, k = some v → G (x :: A) v p) (hnm : ¬ Mem W (.ref x) p) (hG : G A (.ref x) p)
    (hb : E (x :: A) p + sz W x + c ≤ b) :
    Tr (saveCell W sv x k) p b (PostM W dom I (E A) x p c) := by
  have hn : ∀ con lits dits st, W.H x ≠ .node con lits dits st := by intro _ _ _ _; rw [hX]; simp
  have hz : 40 ≤ sz W x := by unfold sz; omega
  have mg : ∀ (c' : Nat) p1 b1, CF W dom I p p1 → E (x :: A) p1 + 2 + c' ≤ b1 →
      Tr (memoOrGet x) p1 b1 fun p' b' => CF W dom I p p' ∧ .obj x ∈ p'.memo ∧ E (x :: A) p' + c' ≤ b' := by
    intro c' p1 b1 h1 e1
    refine Tr.memoOrGet (by omega) (fun hm => ⟨h1, hm, by omega⟩) (fun hm => ⟨h1.memoObj hn, by simp, ?_⟩)
    have := hM.memo (x :: A) (.obj x) p1
    omega
  have mk : ∀ w (c' : Nat), G (x :: A) w p → E (x :: A) p + 10 + c' ≤ b →
      Tr (callReduce sv W.createCell [.val w] ;; memoOrGet x) p b
        fun p' b' => CF W dom I p p' ∧ .obj x ∈ p'.memo ∧ E (x :: A) p' + c' ≤ b' := by
    intro w c' hw' e0
    refine Tr.seq (callReduce_c (hs (x :: A)) _ _ (by simp [argKey]) p b (2 + c') hp ((hs _).atom ⟨_, hw.createCell⟩) ?_ ?_) ?_
    · intro a ha v hv
      simp at ha; subst ha
      simp [argVals] at hv; subst hv
      exact hw'
    · simp [argsCost, argCost]; omega
    · rintro p1 b1 ⟨h1, e1⟩
      exact mg c' p1 b1 h1 (by omega)
  have wk : ∀ p' b', (CF W dom I p p' ∧ .obj x ∈ p'.memo ∧ E (x :: A) p' + c ≤ b') → PostM W dom I (E A) x p c p' b' := by
    rintro p' b' ⟨h1, h2, h3⟩
    have := hM.fin A x _ h2
    exact ⟨h1, h2, by omega⟩
  cases k with
  | none =>
    simp only [saveCell]
    refine Tr.seq (callReduce_c (hs (x :: A)) _ _ (by simp [argKey]) p b (20 + c) hp ((hs _).atom ⟨_, hw.createCell⟩) ?_ ?_) ?_
    · intro a ha v hv
      simp at ha; subst ha
      simp [argVals] at hv; subst hv
      exact (hs _).atom ⟨_, hw.cellEmpty⟩
    · simp [argsCost, argCost]; omega
    · rintro p1 b1 ⟨h1, e1⟩
      refine Tr.seq (mg (18 + c) p1 b1 h1 (by omega)) ?_
      rintro p2 b2 ⟨h2, m2, e2⟩
      refine Tr.seq (callReduce_c (hs (x :: A)) _ _ (by simp [argKey]) p2 b2 (1 + c) h2.ci ((hs _).atom ⟨_, hw.delattr⟩) ?_ ?_) ?_
      · intro a ha v hv
        simp at ha
        rcases ha with rfl | rfl <;> simp [argVals] at hv <;> subst hv
        · exact hM.mem _ _ _ (.inr ⟨x, rfl, m2⟩)
        · exact (hs _).atom ⟨_, hw.contents⟩
      · simp [argsCost, argCost]; omega
      · rintro p3 b3 ⟨h3, e3⟩
        refine (Tr.emit (Q := fun p' b' => CF W dom I p p' ∧ .obj x ∈ p'.memo ∧ E (x :: A) p' + c ≤ b') (by lenomega)
          ⟨h2.trans h3, h3.fr.memo _ m2, by lenomega⟩).conseq wk
  | some v =>
    have hv : InD dom v := inD_refs hd hx (by rw [hX]; simp [refs])
    intro p' o ho
    simp only [saveCell] at ho
    cases hh : cellHost p v with
    | none =>
      simp only [hh] at ho
      exact (mk v c (h v rfl) (by omega)).conseq wk p' o ho
    | some y =>
      simp only [hh] at ho
      cases hb' : (callReduce sv W.createCell [.val (.atom .none)] ;; memoOrGet x) p with
      | error e => rw [hb'] at ho; cases ho
      | ok r =>
        obtain ⟨p1, o1⟩ := r
        rw [hb'] at ho
        cases ho
        obtain ⟨b1, hb1, h1, m1, e1⟩ := mk (.atom .none) (13 + c) ((hs _).atom ⟨_, rfl⟩) (by omega) p1 _ hb'
        have hr : ∀ w ∈ redVals (.setCell x v), InD dom w := by
          intro w hw'
          simp [redVals] at hw'
          rcases hw' with rfl | rfl
          · exact hx
          · exact hv
        have e2 := hM.addR (x :: A) p1 y (.setCell x v) h1.ci
        simp only [cR] at e2
        have hI : I (addRed y (.setCell x v) p1.post) := by
          refine hM.addI A x p p1 y _ hx hnm hG h1 (cellHost_mem hh) ?_
          intro w hw'
          simp [redVals] at hw'
          rcases hw' with rfl | rfl
          · exact .inl rfl
          · exact .inr (by rw [hX]; simp [refs])
        exact ⟨b1, hb1, wk _ _ ⟨h1.addRed hr hI, m1, by omega⟩⟩

theorem saveGlobal_c (hM : Modes W dom I E G) {x} (hfc : isFC (W.H x)) (p b c) (hp : CI W dom I p) (hb : E A p + 2 + c ≤ b) :
    Tr (saveGlobal W x) p b (PostM W dom I (E A) x p c) := by
  have hn : ∀ con lits dits st, W.H x ≠ .node con lits dits st := by
    intro _ _ _ _ h; rw [h] at hfc; exact hfc
  unfold saveGlobal
  split
  · refine Tr.seq (Q1 := fun p' b' => p = p' ∧ b' = b - 1) (Tr.emit (by lenomega) ⟨rfl, rfl⟩) ?_
    rintro _ _ ⟨rfl, rfl⟩
    have := hM.memo A (.obj x) p
    exact Tr.memoize (by omega) ⟨(CF.refl hp).memoObj hn, by simp, by omega⟩
  · intro p' o ho; cases ho

theorem pend_split {post : List (Addr × List Red)} {x : Addr} :
    cRs ((post.find? (fun e => decide (e.1 = x))).map (·.2) |>.getD []) + pend (post.filter (fun e => decide (e.1 ≠ x))) ≤ pend post := by
  induction post with
  | nil => simp [pend, cRs]
  | cons e post ih =>
    have mono : pend (post.filter (fun e => decide (e.1 ≠ x))) ≤ pend post := by omega
    by_cases h : e.1 = x
    · rw [List.find?_cons_of_pos (by simpa using h), List.filter_cons_of_neg (by simpa using h)]
      simp only [Option.map_some, Option.getD_some]
      simp only [pend, List.map_cons, List.sum_cons] at mono ⊢
      omega
    · rw [List.find?_cons_of_neg (by simpa using h), List.filter_cons_of_pos (by simpa using h)]
      simp only [pend, List.map_cons, List.sum_cons] at ih ⊢
      omega

theorem withPost_c (hw : WF W) (hM : Modes W dom I E G) (hs : ∀ A, Cg W dom I (E A) (G A) sv) {x l0} {body : PM} (hx : x ∈ dom) (hfc : isFC (W.H x))
    (p b c) (hp : CI W dom I p) (hnm : ¬ Mem W (.ref x) p) (hG : G A (.ref x) p) (hl0 : ∀ r ∈ l0, ∀ v ∈ redVals r, InD dom v)
    (hl1 : ∀ r ∈ l0, ∀ v ∈ redVals r, v = .ref x ∨ v ∈ refs (W.H x)) (hR : ∀ v ∈ refs (W.H x), InD dom v) (kb e : Nat)
    (hstk : p.onStack x = true → E A p + 2 + c ≤ b)
    (hnew : p.onStack x = false → E A p + c ≤ b + e ∧ kb + cRs l0 + e ≤ sz W x)
    (hb : ∀ A' p1 b1 c1, CI W dom I p1 → (∀ v ∈ refs (W.H x), G A' v p1) → E A' p1 + kb + c1 ≤ b1 →
      Tr body p1 b1 (PostM W dom I (E A') x p1 c1)) :
    Tr (withPost W sv x l0 body) p b (PostM W dom I (E A) x p c) := by
  intro p' o ho
  unfold withPost at ho
  by_cases hns : p.onStack x = true
  · rw [if_pos hns] at ho
    exact saveGlobal_c hM hfc p b c hp (hstk hns) p' o ho
  · rw [if_neg hns] at ho
    have hns : p.onStack x = false := by simpa using hns
    obtain ⟨ea, eb⟩ := hnew hns
    have hnx : x ∉ p.post.map (·.1) := by
      intro hm
      obtain ⟨e, he, e'⟩ := List.mem_map.1 hm
      have : p.onStack x = true := by
        simp only [P.onStack, List.any_eq_true, decide_eq_true_eq]; exact ⟨e, he, e'⟩
      rw [this] at hns; cases hns
    obtain ⟨A', er, i1, gA, up, aft⟩ := hM.stack A x p l0 hx hnm hG hp hns hfc hl1
    have hp1 : CI W dom I { p with post := p.post ++ [(x, l0)] } := by
      refine ⟨?_, ?_, i1⟩
      · intro e he
        rcases List.mem_append.1 he with he | he
        · exact hp.inv e he
        · simp at he; subst he; exact ⟨hfc, hl0⟩
      · simp only [List.map_append, List.map_cons, List.map_nil]
        rw [List.nodup_append]
        refine ⟨hp.nd, by simp, ?_⟩
        rintro a ha b hb rfl
        simp at hb; subst hb; exact hnx ha
    cases hbd : body { p with post := p.post ++ [(x, l0)] } with
    | error e => rw [hbd] at ho; cases ho
    | ok r =>
      obtain ⟨p1, o1⟩ := r
      rw [hbd] at ho
      obtain ⟨b1, hb1, h1, m1, e1⟩ := hb A' _ b c hp1 (fun v hv => gA v hv (hR v hv)) (by omega) p1 o1 hbd
      obtain ⟨i2, ef, gr⟩ := aft p1 h1 m1
      simp only at ho
      have keys1 : p1.post.map (·.1) = p.post.map (·.1) ++ [x] := by rw [h1.fr.keys]; simp
      have keys2 : (p1.post.filter (·.1 ≠ x)).map (·.1) = p.post.map (·.1) := by
        have : (p1.post.filter (·.1 ≠ x)).map (·.1) = (p1.post.map (·.1)).filter (· ≠ x) := by
          rw [List.filter_map]; rfl
        rw [this, keys1, List.filter_append]
        have e1 : (p.post.map (·.1)).filter (· ≠ x) = p.post.map (·.1) := by
          rw [List.filter_eq_self]
          intro a ha
          simp only [ne_eq, decide_eq_true_eq]
          rintro rfl; exact hnx ha
        rw [e1]; simp
      have hp2 : PI W dom { p1 with post := p1.post.filter (·.1 ≠ x) } :=
        fun e he => h1.fr.inv e (List.mem_filter.1 he).1
      have hF : CF W dom I p { p1 with post := p1.post.filter (·.1 ≠ x) } :=
        ⟨⟨fun k hk => h1.fr.memo k hk, keys2, hp2⟩, by simp only [keys2]; exact hp.nd, i2, h1.sat⟩
      generalize hl : ((p1.post.find? (·.1 = x)).map (·.2) |>.getD []) = l at ho ef
      have hR := runReds_c hw (hs A') l.reverse { p1 with post := p1.post.filter (·.1 ≠ x) } b1 c hF.ci (by
          intro r hr v hv
          rw [List.mem_reverse, ← hl] at hr
          cases hfd : p1.post.find? (·.1 = x) with
          | none => rw [hfd] at hr; simp at hr
          | some e =>
            rw [hfd] at hr
            simp at hr
            have hem := List.mem_of_find?_eq_some hfd
            exact gr e hem (by simpa using List.find?_some hfd) r hr v hv ((h1.fr.inv e hem).2 r hr v hv)) (by
          rw [cRs_reverse]
          omega)
      cases hrr : runReds W sv l.reverse { p1 with post := p1.post.filter (·.1 ≠ x) } with
      | error e => rw [hrr] at ho; cases ho
      | ok r =>
        obtain ⟨p2, o2⟩ := r
        rw [hrr] at ho
        cases ho
        obtain ⟨b2, hb2, h2, e4⟩ := hR p' o2 hrr
        have := up p'
        exact ⟨b2, by rw [List.length_append]; omega, hF.trans h2, h2.fr.memo _ m1, by omega⟩

theorem memoOrGet_c (hM : Modes W dom I E G) {x} (hfc : isFC (W.H x)) (p p1 b c) (hp : CF W dom I p p1) (hb : E A p1 + 2 + c ≤ b) :
    Tr (memoOrGet x) p1 b (PostM W dom I (E A) x p c) := by
  have hn : ∀ con lits dits st, W.H x ≠ .node con lits dits st := by
    intro _ _ _ _ h; rw [h] at hfc; exact hfc
  refine Tr.memoOrGet (by omega) (fun hm => ⟨hp, hm, by omega⟩) (fun hm => ⟨hp.memoObj hn, by simp, ?_⟩)
  have := hM.memo A (.obj x) p1
  omega

theorem saveCls_c (hw : WF W) (hM : Modes W dom I E G) (hs : ∀ A, Cg W dom I (E A) (G A) sv) {x mt name bases dict qual} (hd : Closed W dom) (hx : x ∈ dom)
    (hX : W.H x = .cls mt name bases dict qual) (p b c) (hp : CI W dom I p) (hnm : ¬ Mem W (.ref x) p) (hG : G A (.ref x) p)
    (hb : E A p + 2 + c ≤ b) :
    Tr (saveCls W sv x mt name bases dict qual) p b (PostM W dom I (E A) x p c) := by
  have R : ∀ v ∈ refs (W.H x), InD dom v := fun v hv => inD_refs hd hx hv
  have hz : sz W x = 40 + 6 * (4 + 2 * dict.length) := by rw [sz, hX]; simp [refs, kvVals_length]; omega
  have hfc : isFC (W.H x) := by rw [hX]; trivial
  have R0 := R
  have K : ∀ v ∈ refs (.cls mt name bases dict qual), v ∈ refs (W.H x) := by rw [hX]; exact fun v hv => hv
  rw [hX] at R
  simp only [refs, List.mem_append, List.mem_cons, List.not_mem_nil, or_false] at R K
  refine withPost_c hw hM hs hx hfc p b c hp hnm hG ?_ ?_ R0 (20 + 6 * dict.length) 0 (fun _ => hb)
    (fun _ => ⟨by omega, by simp [cRs, cR]; omega⟩) ?_
  · intro r hr v hv
    simp at hr; subst hr
    simp [redVals] at hv
    rcases hv with rfl | rfl
    · exact hx
    · exact R _ (by simp)
  · intro r hr v hv
    simp at hr; subst hr
    simp [redVals] at hv
    rcases hv with rfl | rfl
    · exact .inl rfl
    · exact .inr (K _ (by simp))
  · intro A' p1 b1 c1 hp1 L e1
    refine Tr.seq (callReduce_c (hs A') _ _ (by simp [argKey]) p1 b1 (2 + c1) hp1 ((hs A').atom ⟨_, hw.createType⟩) ?_ ?_) ?_
    · intro a ha v hv
      simp at ha
      rcases ha with rfl | rfl | rfl | rfl <;> simp only [argVals, List.mem_singleton] at hv
      · subst hv; exact L _ (K _ (by simp))
      · subst hv; exact L _ (K _ (by simp))
      · subst hv; exact L _ (K _ (by simp))
      · exact L _ (K _ (.inr hv))
    · simp [argsCost, argCost]; omega
    · rintro p2 b2 ⟨h2, e2⟩
      exact memoOrGet_c hM hfc p1 p2 b2 c1 h2 (by omega)

theorem saveFunc_c (hw : WF W) (hM : Modes W dom I E G) (hs : ∀ A, Cg W dom I (E A) (G A) sv) {x code g name df cl attrs slots} (hd : Closed W dom) (hx : x ∈ dom)
    (hX : W.H x = .func code g name df cl attrs slots) (p b c) (hp : CI W dom I p) (hnm : ¬ Mem W (.ref x) p) (hG : G A (.ref x) p)
    (hb : E A p + 2 + c ≤ b) :
    Tr (saveFunc W sv x code g name df cl attrs slots) p b (PostM W dom I (E A) x p c) := by
  have R : ∀ v ∈ refs (W.H x), InD dom v := fun v hv => inD_refs hd hx hv
  have hz0 : sz W x = 40 + 6 * (refs (W.H x)).length := rfl
  have R0 := R
  have K : ∀ v ∈ refs (.func code g name df cl attrs slots), v ∈ refs (W.H x) := by rw [hX]; exact fun v hv => hv
  rw [hX] at R hz0
  have hfc : isFC (W.H x) := by rw [hX]; trivial
  have body : ∀ (gArg : Arg), argKey gArg → (∀ v ∈ argVals gArg, v ∈ refs (W.H x)) → ∀ A' p1 b1 c1, CI W dom I p1 →
      (∀ v ∈ refs (W.H x), G A' v p1) →
      E A' p1 + (27 + argCost gArg + 6 * attrs.length + 6 * slots.length) + c1 ≤ b1 →
      Tr (callReduce sv W.createFunction [.val code, gArg, .val name, .val df, .val cl] ;; memoOrGet x ;;
        saveFuncState sv attrs slots) p1 b1 (PostM W dom I (E A') x p1 c1) := by
    intro gArg hgk hg A' p1 b1 c1 hp1 L e1
    refine Tr.seq (callReduce_c (hs A') _ _ ?_ p1 b1 (9 + 6 * attrs.length + 6 * slots.length + c1) hp1
      ((hs A').atom ⟨_, hw.createFunction⟩) ?_ ?_) ?_
    · intro a ha
      simp at ha
      rcases ha with rfl | rfl | rfl | rfl | rfl
      · trivial
      · exact hgk
      · trivial
      · trivial
      · trivial
    · intro a ha v hv
      simp at ha
      rcases ha with rfl | rfl | rfl | rfl | rfl
      · simp [argVals] at hv; subst hv; exact L _ (K _ (by simp [refs]))
      · exact L _ (hg v hv)
      · simp [argVals] at hv; subst hv; exact L _ (K _ (by simp [refs]))
      · simp [argVals] at hv; subst hv; exact L _ (K _ (by simp [refs]))
      · simp [argVals] at hv; subst hv; exact L _ (K _ (by simp [refs]))
    · have : argsCost [.val code, gArg, .val name, .val df, .val cl] = 8 + argCost gArg := by
        simp [argsCost, argCost]; omega
      rw [this]; omega
    · rintro p2 b2 ⟨h2, e2⟩
      refine Tr.seq (memoOrGet_c hM (A := A') hfc p1 p2 b2 (7 + 6 * attrs.length + 6 * slots.length + c1) h2 (by omega)) ?_
      rintro p3 b3 ⟨h3, m3, e3⟩
      refine (saveFuncState_c (hs A') attrs slots p3 b3 c1 h3.ci ?_ ?_ (by omega)).conseq ?_
      · intro v hv
        exact hM.mono _ _ _ _ (L _ (K _ (by simp only [refs, List.mem_append]; exact .inl (.inr hv)))) h3
      · intro v hv
        exact hM.mono _ _ _ _ (L _ (K _ (by simp only [refs, List.mem_append]; exact .inr hv))) h3
      · rintro p4 b4 ⟨h4, e4⟩
        exact ⟨h3.trans h4, h4.fr.memo _ m3, e4⟩
  cases g with
  | byRef v =>
    refine withPost_c hw hM hs hx hfc p b c hp hnm hG (by simp) (by simp) R0 (29 + 6 * attrs.length + 6 * slots.length) 0 (fun _ => hb)
      (fun _ => ⟨by omega, ?_⟩) ?_
    · rw [hz0]; simp [refs, kvVals_length, cRs]; omega
    · intro A' p1 b1 c1 hp1 L e1
      exact body (.val v) trivial (by
        intro w hw'; simp [argVals] at hw'; subst hw'; exact K _ (by simp [refs])) A' p1 b1 c1 hp1 L (by simp only [argCost]; omega)
  | copied init copy =>
    have hz : sz W x = 64 + 12 * init.length + 12 * copy.length + 12 * attrs.length + 12 * slots.length := by
      rw [hz0]; simp [refs, kvVals_length]; omega
    have hinit : ∀ v ∈ argVals (.dict (.globs x) init), v ∈ refs (W.H x) := by
      intro w hw'
      exact K _ (by simp only [refs, List.mem_append]; exact .inl (.inl (.inr (.inl hw'))))
    have hcopy : ∀ v ∈ redVals (.setItems x copy), InD dom v := by
      intro w hw'
      exact R _ (by simp only [refs, List.mem_append]; exact .inl (.inl (.inr (.inr hw'))))
    have hcopyK : ∀ v ∈ redVals (.setItems x copy), v = .ref x ∨ v ∈ refs (W.H x) := by
      intro w hw'
      exact .inr (K _ (by simp only [refs, List.mem_append]; exact .inl (.inl (.inr (.inr hw')))))
    have hbody : ∀ A' p1 b1 c1, CI W dom I p1 → (∀ v ∈ refs (W.H x), G A' v p1) → E A' p1 + (29 + 6 * init.length + 6 * attrs.length + 6 * slots.length) + c1 ≤ b1 →
        Tr (callReduce sv W.createFunction [.val code, .dict (.globs x) init, .val name, .val df, .val cl] ;; memoOrGet x ;;
          saveFuncState sv attrs slots) p1 b1 (PostM W dom I (E A') x p1 c1) := by
      intro A' p1 b1 c1 hp1 L e1
      exact body (.dict (.globs x) init) (by intro y hy; cases hy) hinit A' p1 b1 c1 hp1 L (by simp only [argCost]; omega)
    intro p' o ho
    simp only [saveFunc] at ho
    cases hfd : p.post.find? (fun e => decide (e.1 ∈ valueAddrs copy)) with
    | none =>
      simp only [hfd] at ho
      exact withPost_c hw hM hs hx hfc p b c hp hnm hG (by intro r hr; simp at hr; subst hr; exact hcopy)
        (by intro r hr; simp at hr; subst hr; exact hcopyK) R0 _ 0 (fun _ => hb)
        (fun _ => ⟨by omega, by simp [cRs, cR]; omega⟩) hbody p' o ho
    | some e =>
      simp only [hfd] at ho
      generalize hr0 : (if p.onStack x then Red.setDead x copy else Red.setItems x copy) = r0 at ho
      have hcopy : ∀ v ∈ redVals r0, InD dom v := by
        subst hr0
        split
        · intro v hv'; simp [redVals] at hv'
        · exact hcopy
      have hcopyK : ∀ v ∈ redVals r0, v = .ref x ∨ v ∈ refs (W.H x) := by
        subst hr0
        split
        · intro v hv'; simp [redVals] at hv'
        · exact hcopyK
      have eadd := hM.addR A p e.1 r0 hp
      have hI : I (addRed e.1 r0 p.post) :=
        hM.addI A x p p e.1 r0 hx hnm hG (CF.refl hp) (List.mem_map_of_mem (List.mem_of_find?_eq_some hfd)) hcopyK
      have hst : ({ p with post := addRed e.1 r0 p.post } : P).onStack x = p.onStack x := onStack_keys addRed_keys x
      have hF := (CF.refl hp).addRed hcopy hI
      obtain ⟨b', hb', h1, m1, e1⟩ := withPost_c (A := A) (l0 := []) (x := x) hw hM hs hx hfc { p with post := addRed e.1 r0 p.post } b c
        (hp.addRed hcopy hI) hnm (hM.mono _ _ _ _ hG hF) (by simp) (by simp) R0 (29 + 6 * init.length + 6 * attrs.length + 6 * slots.length) (cR r0)
        (by
          intro h
          rw [hst] at h
          rw [if_pos h] at hr0
          subst hr0
          simp only [cR] at eadd; omega)
        (by
          intro h
          rw [hst] at h
          rw [if_neg (by simp [h])] at hr0
          subst hr0
          simp only [cR] at eadd ⊢
          exact ⟨by omega, by simp [cRs]; omega⟩) hbody p' o ho
      refine ⟨b', hb', hF.trans h1, m1, e1⟩

end

/-! ### all objects -/

theorem save_c {W dom I} {E : List Addr → P → Nat} {G : List Addr → Val → P → Prop} (hw : WF W) (hd : Closed W dom)
    (hM : Modes W dom I E G) (n : Nat) : ∀ A, Cg W dom I (E A) (G A) (save W n) := by
  induction n with
  | zero =>
    refine fun A => ⟨?_, hM.mono A, hM.memo A, hM.mem A⟩
    intro v p b c _ _ _ p' o ho
    cases ho
  | succ n ih =>
    refine fun A => ⟨?_, hM.mono A, hM.memo A, hM.mem A⟩
    intro v p b c hp hg hb
    cases v with
    | atom a =>
      exact Tr.emit (by simp; omega) ⟨CF.refl hp, .inl ⟨_, rfl⟩, by simp; omega⟩
    | ref x =>
      intro p' o ho
      simp only [save, saveStep] at ho
      cases hi : idx p.memo (.obj x) with
      | some i =>
        rw [hi] at ho
        cases ho
        exact ⟨b - 1, by simp; omega, CF.refl hp, .inr ⟨x, rfl, List.mem_of_getElem? (idx_some hi)⟩, by omega⟩
      | none =>
        rw [hi] at ho
        simp only at ho
        have hn := idx_none hi
        by_cases hl : isAtomV W (.ref x)
        · obtain ⟨a, ha⟩ := hl
          simp only [res] at ha
          cases hx : W.H x <;> rw [hx] at ha <;> simp at ha
          subst ha
          rw [hx] at ho
          have e1 := hM.memo A (.obj x) p
          refine ((Tr.seq (Q1 := fun p' b' => p = p' ∧ b' = b - 1) (Tr.emit (by simp; omega) ⟨rfl, rfl⟩) ?_) :
            Tr _ p b fun p' b' => CF W dom I p p' ∧ Mem W (.ref x) p' ∧ E A p' + c ≤ b') p' o ho
          rintro _ _ ⟨rfl, rfl⟩
          refine Tr.memoize (by omega) ⟨(CF.refl hp).memoObj (by intro _ _ _ _; rw [hx]; simp), .inr ⟨x, rfl, by simp⟩, by omega⟩
        · have hnm : ¬ Mem W (.ref x) p := by
            rintro (h | ⟨y, hy, hm⟩)
            · exact hl h
            · cases hy; exact hn hm
          have hv : x ∈ dom := (hM.inD A _ _ hg).resolve_left hnm
          have cr : ¬ isFC (W.H x) → ∀ w ∈ creationRefs (W.H x), (∀ v ∈ creationRefs (W.H x), v ∈ refs (W.H x)) → G (x :: A) w p :=
            fun hf w hw' hsub => hM.child A x p hv hnm hf hg w hw' (inD_refs hd hv (hsub _ hw'))
          have hfree : ¬ isFC (W.H x) → free p x = true := by
            intro hfc
            have : p.onStack x = false := by
              cases h : p.onStack x with
              | false => rfl
              | true =>
                simp only [P.onStack, List.any_eq_true, decide_eq_true_eq] at h
                obtain ⟨e, he, rfl⟩ := h
                exact absurd (hp.inv e he).1 hfc
            simp [free, hn, this]
          have hstart : ¬ isFC (W.H x) → E (x :: A) p + sz W x + c ≤ b := by
            intro h
            have := hM.start A x p hv (hfree h) hnm h hg
            omega
          have wk : ∀ p' b', PostM W dom I (E A) x p c p' b' → CF W dom I p p' ∧ Mem W (.ref x) p' ∧ E A p' + c ≤ b' :=
            fun p' b' h => ⟨h.1, .inr ⟨x, rfl, h.2.1⟩, h.2.2⟩
          have hwx := hw.obj x
          cases hx : W.H x with
          | leaf a => exact absurd ⟨a, by simp [res, hx]⟩ hl
          | tuple es =>
            rw [hx] at cr hstart ho hwx
            exact (saveTuple_c hM ih x es hwx hx p b c hp (fun v hv' => cr (fun h => h) v hv' (fun v hv => hv)) (hstart fun h => h)).conseq wk p' o ho
          | fset es =>
            rw [hx] at cr hstart ho
            exact (saveFset_c hM ih x es hx p b c hp (fun v hv' => cr (fun h => h) v hv' (fun v hv => hv)) (hstart fun h => h)).conseq wk p' o ho
          | node con lits dits st =>
            have hfc : ¬ isFC (W.H x) := by rw [hx]; exact fun h => h
            have hb' := hstart hfc
            rw [hx] at cr ho
            exact (saveNode_c hM ih hd hv hx p b c hp (hfree hfc) hfc (fun v hv' =>
              cr (fun h => h) v hv' (fun v hv => by simp only [refs, List.append_assoc, List.mem_append]; exact .inl hv)) hnm hg hb' hwx).conseq wk p' o ho
          | cell k =>
            rw [hx] at cr hstart ho
            refine (saveCell_c hw hM ih hd hv hx p b c hp ?_ hnm hg (hstart fun h => h)).conseq wk p' o ho
            rintro v rfl
            exact cr (fun h => h) v (by simp [creationRefs]) (fun v hv => by simpa [creationRefs, refs] using hv)
          | func code g name df cl attrs slots =>
            rw [hx] at ho
            exact (saveFunc_c hw hM ih hd hv hx p b c hp hnm hg hb).conseq wk p' o ho
          | cls mt name bases dict qual =>
            rw [hx] at ho
            exact (saveCls_c hw hM ih hd hv hx p b c hp hnm hg hb).conseq wk p' o ho
          | bad => rw [hx] at ho; cases ho

end Verif.Core
