import Verif.Core.Term2
/-! The length of what saving writes (used for C111): an account that every action pays from. -/
set_option linter.unusedSimpArgs false
namespace Verif.Core
open Spec

/-- If the action succeeds, what it writes is paid for by `b`, and what is left of `b` is as `Q` says. -/
def Tr (f : PM) (p : P) (b : Nat) (Q : P → Nat → Prop) : Prop :=
  ∀ p' o, f p = .ok (p', o) → ∃ b', o.length + b' ≤ b ∧ Q p' b'

theorem Tr.conseq {f p b} {Q Q' : P → Nat → Prop} (h : Tr f p b Q) (hq : ∀ p' b', Q p' b' → Q' p' b') : Tr f p b Q' := by
  intro p' o ho
  obtain ⟨b', h1, h2⟩ := h p' o ho
  exact ⟨b', h1, hq _ _ h2⟩

theorem Tr.seq {f g p b} {Q Q1 : P → Nat → Prop} (h : Tr f p b Q1) (hg : ∀ p1 b1, Q1 p1 b1 → Tr g p1 b1 Q) :
    Tr (f ;; g) p b Q := by
  intro p' o ho
  obtain ⟨p1, o1, o2, h1, h2, rfl⟩ := andThen_ok ho
  obtain ⟨b1, hb1, hq1⟩ := h p1 o1 h1
  obtain ⟨b2, hb2, hq2⟩ := hg p1 b1 hq1 p' o2 h2
  exact ⟨b2, by rw [List.length_append]; omega, hq2⟩

theorem Tr.emit {ops p b} {Q : P → Nat → Prop} (h : ops.length ≤ b) (hq : Q p (b - ops.length)) : Tr (Core.emit ops) p b Q := by
  intro p' o ho
  cases ho
  exact ⟨_, by omega, hq⟩

theorem Tr.memoize {k p b} {Q : P → Nat → Prop} (h : 1 ≤ b) (hq : Q { p with memo := p.memo ++ [k] } (b - 1)) :
    Tr (Core.memoize k) p b Q := by
  intro p' o ho
  cases ho
  exact ⟨b - 1, by simp; omega, hq⟩

theorem Tr.memoOrGet {x p b} {Q : P → Nat → Prop} (h : 2 ≤ b) (hit : .obj x ∈ p.memo → Q p (b - 2))
    (miss : .obj x ∉ p.memo → Q { p with memo := p.memo ++ [.obj x] } (b - 1)) : Tr (Core.memoOrGet x) p b Q := by
  intro p' o ho
  unfold Core.memoOrGet at ho
  cases hi : idx p.memo (.obj x) with
  | some i =>
    rw [hi] at ho
    cases ho
    exact ⟨b - 2, by simp; omega, hit (List.mem_of_getElem? (idx_some hi))⟩
  | none =>
    rw [hi] at ho
    exact Tr.memoize (Q := Q) (by omega) (miss (idx_none hi)) p' o ho

/-! ### the potential -/

/-- what a deferred step costs -/
def cR : Red → Nat
  | .setCell _ _ => 13
  | .setQual _ _ => 13
  | .setItems _ copy => 2 + 6 * copy.length
  | .setDead _ _ => 0

def cRs (rs : List Red) : Nat := (rs.map cR).sum
def pend (post : List (Addr × List Red)) : Nat := (post.map fun e => cRs e.2).sum

/-- what one object costs each time its saving starts -/
def sz (W : World) (x : Addr) : Nat := 40 + 6 * (refs (W.H x)).length
def total (W : World) (dom : List Addr) : Nat := (dom.map (sz W)).sum

theorem sum_le {α : Type} {l : List α} {f g : α → Nat} (h : ∀ a ∈ l, f a ≤ g a) : (l.map f).sum ≤ (l.map g).sum := by
  induction l with
  | nil => simp
  | cons a l ih =>
    have := ih fun b hb => h b (by simp [hb])
    have := h a (by simp)
    simp only [List.map_cons, List.sum_cons]; omega

theorem sum_le_of_mem {α : Type} {l : List α} {f g : α → Nat} {x} {c : Nat} (hx : x ∈ l) (h : ∀ a ∈ l, f a ≤ g a)
    (hc : f x + c ≤ g x) : (l.map f).sum + c ≤ (l.map g).sum := by
  induction l with
  | nil => cases hx
  | cons a l ih =>
    have h1 := h a (by simp)
    rcases List.mem_cons.1 hx with rfl | hx
    · have := sum_le (l := l) (f := f) (g := g) fun b hb => h b (by simp [hb])
      simp; omega
    · have := ih hx fun b hb => h b (by simp [hb])
      simp; omega

theorem sum_add {α : Type} (l : List α) (f g : α → Nat) : (l.map fun a => f a + g a).sum = (l.map f).sum + (l.map g).sum := by
  induction l with
  | nil => rfl
  | cons a l ih => simp [ih]; omega

section
variable {W : World} {dom : List Addr} {I : List (Addr × List Red) → Prop}

/-! ### frames -/

/-- the value is written as one opcode (and perhaps memoised) from now on -/
def Mem (W : World) (v : Val) (p : P) : Prop := isAtomV W v ∨ ∃ x, v = .ref x ∧ .obj x ∈ p.memo

theorem Mem.mono {v p p'} (h : Mem W v p) (hm : ∀ k ∈ p.memo, k ∈ p'.memo) : Mem W v p' := by
  rcases h with h | ⟨x, h, h'⟩
  · exact .inl h
  · exact .inr ⟨x, h, hm _ h'⟩

/-- the parts of every container memoised in between are memoised too -/
def Sat (W : World) (p p' : P) : Prop :=
  ∀ x, .obj x ∉ p.memo → .obj x ∈ p'.memo → ∀ con lits dits st, W.H x = .node con lits dits st →
    ∀ v ∈ lits ++ kvVals dits ++ stRefs st, Mem W v p'

structure CI (W : World) (dom : List Addr) (I : List (Addr × List Red) → Prop) (p : P) : Prop where
  inv : PI W dom p
  nd : (p.post.map (·.1)).Nodup
  i : I p.post

structure CF (W : World) (dom : List Addr) (I : List (Addr × List Red) → Prop) (p p' : P) : Prop where
  fr : Fr W dom p p'
  nd : (p'.post.map (·.1)).Nodup
  i : I p'.post
  sat : Sat W p p'

theorem CF.refl {p} (h : CI W dom I p) : CF W dom I p p := ⟨Fr.refl h.inv, h.nd, h.i, fun _ h h' => absurd h' h⟩
theorem CF.ci {p p'} (h : CF W dom I p p') : CI W dom I p' := ⟨h.fr.inv, h.nd, h.i⟩

theorem CF.trans {p q r} (h : CF W dom I p q) (h' : CF W dom I q r) : CF W dom I p r := by
  refine ⟨h.fr.trans h'.fr, h'.nd, h'.i, ?_⟩
  intro x hx hr con lits dits st hX v hv
  by_cases hq : .obj x ∈ q.memo
  · exact (h.sat x hx hq con lits dits st hX v hv).mono h'.fr.memo
  · exact h'.sat x hq hr con lits dits st hX v hv

theorem CI.memo {p k} (h : CI W dom I p) : CI W dom I { p with memo := p.memo ++ [k] } := ⟨h.inv, h.nd, h.i⟩

/-- memoising `x` and then going on -/
theorem CF.around {p q r x} (h : CF W dom I p q) (h' : CF W dom I { q with memo := q.memo ++ [.obj x] } r)
    (hl : ∀ con lits dits st, W.H x = .node con lits dits st → ∀ v ∈ lits ++ kvVals dits ++ stRefs st, Mem W v r) :
    CF W dom I p r := by
  refine ⟨h.fr.memoized.trans h'.fr, h'.nd, h'.i, ?_⟩
  intro z hz hr con lits dits st hZ v hv
  by_cases hq : .obj z ∈ q.memo
  · exact (h.sat z hz hq con lits dits st hZ v hv).mono fun k hk => h'.fr.memo k (by simp [hk])
  · by_cases hzx : z = x
    · subst hzx; exact hl con lits dits st hZ v hv
    · exact h'.sat z (by simp [hq, hzx]) hr con lits dits st hZ v hv

theorem CF.memoKey {p q k} (h : CF W dom I p q) (hk : ∀ x, k ≠ .obj x) : CF W dom I p { q with memo := q.memo ++ [k] } := by
  refine ⟨h.fr.memoized, h.nd, h.i, ?_⟩
  intro z hz hr con lits dits st hZ v hv
  have hq : .obj z ∈ q.memo := by
    rcases List.mem_append.1 hr with h | h
    · exact h
    · simp at h; exact absurd h.symm (hk z)
  exact (h.sat z hz hq con lits dits st hZ v hv).mono fun k hk => by simp [hk]

theorem CF.memoObj {p q x} (h : CF W dom I p q) (hn : ∀ con lits dits st, W.H x ≠ .node con lits dits st) :
    CF W dom I p { q with memo := q.memo ++ [.obj x] } :=
  h.around (CF.refl h.ci.memo) fun con lits dits st hX => absurd hX (hn con lits dits st)

/-! ### actions built from an action on values -/

/-- Values for which `G` holds can be saved at the price of two opcodes, in a state whose value on the account is `E`. -/
structure Cg (W : World) (dom : List Addr) (I : List (Addr × List Red) → Prop) (E : P → Nat) (G : Val → P → Prop)
    (sv : Val → PM) : Prop where
  ok : ∀ v p b c, CI W dom I p → G v p → E p + 2 + c ≤ b →
    Tr (sv v) p b fun p' b' => CF W dom I p p' ∧ Mem W v p' ∧ E p' + c ≤ b'
  mono : ∀ v p p', G v p → CF W dom I p p' → G v p'
  memo : ∀ k p, E { p with memo := p.memo ++ [k] } ≤ E p
  mem : ∀ v p, Mem W v p → G v p

variable {sv : Val → PM} {E : P → Nat} {G : Val → P → Prop}

theorem Cg.atom (hs : Cg W dom I E G sv) {v p} (h : isAtomV W v) : G v p := hs.mem _ _ (.inl h)

local macro "lenomega" : tactic => `(tactic| ((try simp only [List.length_cons, List.length_nil]); omega))

theorem saveAll_c (hs : Cg W dom I E G sv) (vs : List Val) (p b c) (hp : CI W dom I p) (h : ∀ v ∈ vs, G v p)
    (hb : E p + 2 * vs.length + c ≤ b) :
    Tr (saveAll sv vs) p b fun p' b' => CF W dom I p p' ∧ (∀ v ∈ vs, Mem W v p') ∧ E p' + c ≤ b' := by
  induction vs generalizing p b with
  | nil => exact Tr.emit (by simp) ⟨CF.refl hp, by simp, by simpa using hb⟩
  | cons v vs ih =>
    simp only [List.length_cons] at hb
    refine Tr.seq (hs.ok v p b (2 * vs.length + c) hp (h v (by simp)) (by omega)) ?_
    rintro p1 b1 ⟨h1, m1, e1⟩
    refine (ih p1 b1 h1.ci (fun w hw => hs.mono _ _ _ (h w (by simp [hw])) h1) (by omega)).conseq ?_
    rintro p2 b2 ⟨h2, m2, e2⟩
    refine ⟨h1.trans h2, ?_, e2⟩
    intro w hw
    rcases List.mem_cons.1 hw with rfl | hw
    · exact m1.mono h2.fr.memo
    · exact m2 w hw

theorem saveKVs_c (hs : Cg W dom I E G sv) (es : List (Val × Val)) (p b c) (hp : CI W dom I p)
    (h : ∀ v ∈ kvVals es, G v p) (hb : E p + 4 * es.length + c ≤ b) :
    Tr (saveKVs sv es) p b fun p' b' => CF W dom I p p' ∧ (∀ v ∈ kvVals es, Mem W v p') ∧ E p' + c ≤ b' := by
  induction es generalizing p b with
  | nil => exact Tr.emit (by simp) ⟨CF.refl hp, by simp [kvVals], by simpa using hb⟩
  | cons e es ih =>
    obtain ⟨k, v⟩ := e
    simp only [List.length_cons] at hb
    refine Tr.seq (hs.ok k p b (2 + 4 * es.length + c) hp (h k (by simp [kvVals])) (by omega)) ?_
    rintro p1 b1 ⟨h1, m1, e1⟩
    refine Tr.seq (hs.ok v p1 b1 (4 * es.length + c) h1.ci (hs.mono _ _ _ (h v (by simp [kvVals])) h1) (by omega)) ?_
    rintro p2 b2 ⟨h2, m2, e2⟩
    have h12 := h1.trans h2
    refine (ih p2 b2 h2.ci (fun w hw => hs.mono _ _ _ (h w (by simp [kvVals] at hw ⊢; exact .inr (.inr hw))) h12) (by omega)).conseq ?_
    rintro p3 b3 ⟨h3, m3, e3⟩
    refine ⟨h12.trans h3, ?_, e3⟩
    intro w hw
    simp only [kvVals, List.flatMap_cons, List.mem_append, List.mem_cons, List.not_mem_nil, or_false] at hw
    rcases hw with (rfl | rfl) | hw
    · exact (m1.mono h2.fr.memo).mono h3.fr.memo
    · exact m2.mono h3.fr.memo
    · exact m3 w hw

theorem chunksAux_ne {α : Type} (n : Nat) (l : List α) : ∀ c ∈ chunksAux n l, c ≠ [] := by
  induction n generalizing l with
  | zero => simp [chunksAux]
  | succ n ih =>
    unfold chunksAux
    cases l with
    | nil => simp
    | cons a l =>
      simp only [List.isEmpty_cons, Bool.false_eq_true, if_false, List.mem_cons]
      rintro c (rfl | hc)
      · simp
      · exact ih _ c hc

theorem chunks_ne {α : Type} (l : List α) : ∀ c ∈ chunks l, c ≠ [] := chunksAux_ne _ _

theorem len_pos {α : Type} {l : List α} (h : l ≠ []) : 1 ≤ l.length := List.length_pos_iff.2 h

theorem batchAppends_c (hs : Cg W dom I E G sv) (vs : List Val) (p b c) (hp : CI W dom I p) (h : ∀ v ∈ vs, G v p)
    (hb : E p + 4 * vs.length + c ≤ b) :
    Tr (batchAppends sv vs) p b fun p' b' => CF W dom I p p' ∧ (∀ v ∈ vs, Mem W v p') ∧ E p' + c ≤ b' := by
  unfold batchAppends
  have hne := chunks_ne vs
  have hfl := chunks_flatten vs
  generalize chunks vs = cs at hne hfl
  subst hfl
  induction cs generalizing p b with
  | nil => exact Tr.emit (by simp) ⟨CF.refl hp, by simp, by simpa using hb⟩
  | cons k cs ih =>
    simp only [List.foldr_cons]
    rw [List.flatten_cons, List.length_append] at hb
    have hk := len_pos (hne k (by simp))
    refine Tr.seq (Q1 := fun p' b' => CF W dom I p p' ∧ (∀ v ∈ k, Mem W v p') ∧ E p' + (4 * cs.flatten.length + c) ≤ b') ?_ ?_
    · split
      · rename_i w
        refine Tr.seq (hs.ok w p b (2 + (4 * cs.flatten.length + c)) hp (h _ (by simp)) (by simp only [List.length_singleton] at hb; omega)) ?_
        rintro p1 b1 ⟨h1, m1, e1⟩
        exact Tr.emit (by lenomega) ⟨h1, by simpa using m1, by lenomega⟩
      · refine Tr.seq (Q1 := fun p' b' => p = p' ∧ b' = b - 1) (Tr.emit (by lenomega) ⟨rfl, rfl⟩) ?_
        rintro _ _ ⟨rfl, rfl⟩
        refine Tr.seq (saveAll_c hs k _ _ (1 + (4 * cs.flatten.length + c)) hp (fun v hv => h v (by simp [hv])) (by omega)) ?_
        rintro p1 b1 ⟨h1, m1, e1⟩
        exact Tr.emit (by lenomega) ⟨h1, m1, by lenomega⟩
    · rintro p1 b1 ⟨h1, m1, e1⟩
      refine (ih p1 b1 h1.ci (fun k hk => hne k (by simp [hk])) (fun w hw => hs.mono _ _ _ (h w (by
        simp only [List.flatten_cons, List.mem_append]; exact .inr hw)) h1) (by omega)).conseq ?_
      rintro p2 b2 ⟨h2, m2, e2⟩
      refine ⟨h1.trans h2, ?_, e2⟩
      intro v hv
      rw [List.flatten_cons, List.mem_append] at hv
      rcases hv with hv | hv
      · exact (m1 v hv).mono h2.fr.memo
      · exact m2 v hv

theorem batchAdds_c (hs : Cg W dom I E G sv) (vs : List Val) (p b c) (hp : CI W dom I p) (h : ∀ v ∈ vs, G v p)
    (hb : E p + 4 * vs.length + c ≤ b) :
    Tr (batchAdds sv vs) p b fun p' b' => CF W dom I p p' ∧ (∀ v ∈ vs, Mem W v p') ∧ E p' + c ≤ b' := by
  unfold batchAdds
  have hne := chunks_ne vs
  have hfl := chunks_flatten vs
  generalize chunks vs = cs at hne hfl
  subst hfl
  induction cs generalizing p b with
  | nil => exact Tr.emit (by simp) ⟨CF.refl hp, by simp, by simpa using hb⟩
  | cons k cs ih =>
    simp only [List.foldr_cons]
    rw [List.flatten_cons, List.length_append] at hb
    have hk := len_pos (hne k (by simp))
    refine Tr.seq (Q1 := fun p' b' => CF W dom I p p' ∧ (∀ v ∈ k, Mem W v p') ∧ E p' + (4 * cs.flatten.length + c) ≤ b') ?_ ?_
    · refine Tr.seq (Q1 := fun p' b' => p = p' ∧ b' = b - 1) (Tr.emit (by lenomega) ⟨rfl, rfl⟩) ?_
      rintro _ _ ⟨rfl, rfl⟩
      refine Tr.seq (saveAll_c hs k _ _ (1 + (4 * cs.flatten.length + c)) hp (fun v hv => h v (by simp [hv])) (by omega)) ?_
      rintro p1 b1 ⟨h1, m1, e1⟩
      exact Tr.emit (by lenomega) ⟨h1, m1, by lenomega⟩
    · rintro p1 b1 ⟨h1, m1, e1⟩
      refine (ih p1 b1 h1.ci (fun k hk => hne k (by simp [hk])) (fun w hw => hs.mono _ _ _ (h w (by
        simp only [List.flatten_cons, List.mem_append]; exact .inr hw)) h1) (by omega)).conseq ?_
      rintro p2 b2 ⟨h2, m2, e2⟩
      refine ⟨h1.trans h2, ?_, e2⟩
      intro v hv
      rw [List.flatten_cons, List.mem_append] at hv
      rcases hv with hv | hv
      · exact (m1 v hv).mono h2.fr.memo
      · exact m2 v hv

theorem batchSetitems_c (hs : Cg W dom I E G sv) (es : List (Val × Val)) (p b c) (hp : CI W dom I p)
    (h : ∀ v ∈ kvVals es, G v p) (hb : E p + 6 * es.length + c ≤ b) :
    Tr (batchSetitems sv es) p b fun p' b' => CF W dom I p p' ∧ (∀ v ∈ kvVals es, Mem W v p') ∧ E p' + c ≤ b' := by
  unfold batchSetitems
  have hne := chunks_ne es
  have hfl := chunks_flatten es
  generalize chunks es = cs at hne hfl
  subst hfl
  induction cs generalizing p b with
  | nil => exact Tr.emit (by simp) ⟨CF.refl hp, by simp [kvVals], by simpa using hb⟩
  | cons k cs ih =>
    simp only [List.foldr_cons]
    rw [List.flatten_cons, List.length_append] at hb
    rw [List.flatten_cons, kvVals_append] at h
    have hk := len_pos (hne k (by simp))
    refine Tr.seq (Q1 := fun p' b' => CF W dom I p p' ∧ (∀ v ∈ kvVals k, Mem W v p') ∧ E p' + (6 * cs.flatten.length + c) ≤ b') ?_ ?_
    · split
      · rename_i u w
        simp only [List.length_singleton] at hb
        refine Tr.seq (hs.ok u p b (4 + (6 * cs.flatten.length + c)) hp (h _ (by simp [kvVals])) (by omega)) ?_
        rintro p1 b1 ⟨h1, m1, e1⟩
        refine Tr.seq (hs.ok w p1 b1 (2 + (6 * cs.flatten.length + c)) h1.ci (hs.mono _ _ _ (h _ (by simp [kvVals])) h1) (by omega)) ?_
        rintro p2 b2 ⟨h2, m2, e2⟩
        refine Tr.emit (by lenomega) ⟨h1.trans h2, ?_, by lenomega⟩
        intro v hv
        simp [kvVals] at hv
        rcases hv with rfl | rfl
        · exact m1.mono h2.fr.memo
        · exact m2
      · refine Tr.seq (Q1 := fun p' b' => p = p' ∧ b' = b - 1) (Tr.emit (by lenomega) ⟨rfl, rfl⟩) ?_
        rintro _ _ ⟨rfl, rfl⟩
        refine Tr.seq (saveKVs_c hs k _ _ (1 + (6 * cs.flatten.length + c)) hp (fun v hv => h v (by simp [hv])) (by omega)) ?_
        rintro p1 b1 ⟨h1, m1, e1⟩
        exact Tr.emit (by lenomega) ⟨h1, m1, by lenomega⟩
    · rintro p1 b1 ⟨h1, m1, e1⟩
      refine (ih p1 b1 h1.ci (fun k hk => hne k (by simp [hk])) (fun w hw => hs.mono _ _ _ (h w (by simp [hw])) h1) (by omega)).conseq ?_
      rintro p2 b2 ⟨h2, m2, e2⟩
      refine ⟨h1.trans h2, ?_, e2⟩
      intro v hv
      rw [List.flatten_cons, kvVals_append, List.mem_append] at hv
      rcases hv with hv | hv
      · exact (m1 v hv).mono h2.fr.memo
      · exact m2 v hv

theorem saveDict_c (hs : Cg W dom I E G sv) (k : Key) (hk : ∀ x, k ≠ .obj x) (es : List (Val × Val)) (p b c) (hp : CI W dom I p)
    (h : ∀ v ∈ kvVals es, G v p) (hb : E p + (2 + 6 * es.length) + c ≤ b) :
    Tr (saveDict sv k es) p b fun p' b' => CF W dom I p p' ∧ (∀ v ∈ kvVals es, Mem W v p') ∧ E p' + c ≤ b' := by
  unfold saveDict
  refine Tr.seq (Q1 := fun p' b' => p = p' ∧ b' = b - 1) (Tr.emit (by lenomega) ⟨rfl, rfl⟩) ?_
  rintro _ _ ⟨rfl, rfl⟩
  refine Tr.seq (Q1 := fun p' b' => CF W dom I p p' ∧ E p' + 6 * es.length + c ≤ b')
    (Tr.memoize (by omega) ⟨(CF.refl hp).memoKey hk, ?_⟩) ?_
  · have := hs.memo k p; omega
  rintro p1 b1 ⟨h1, e1⟩
  refine (batchSetitems_c hs es p1 b1 c h1.ci (fun w hw => hs.mono _ _ _ (h w hw) h1) (by omega)).conseq ?_
  rintro p2 b2 ⟨h2, m2, e2⟩
  exact ⟨h1.trans h2, m2, e2⟩

def argKey : Arg → Prop
  | .val _ => True
  | .dict k _ => ∀ x, k ≠ .obj x

def argCost : Arg → Nat
  | .val _ => 2
  | .dict _ es => 2 + 6 * es.length

def argsCost (as : List Arg) : Nat := (as.map argCost).sum

theorem saveArgs_c (hs : Cg W dom I E G sv) (as : List Arg) (hk : ∀ a ∈ as, argKey a) (p b c) (hp : CI W dom I p)
    (h : ∀ a ∈ as, ∀ v ∈ argVals a, G v p) (hb : E p + argsCost as + c ≤ b) :
    Tr (saveArgs sv as) p b fun p' b' => CF W dom I p p' ∧ E p' + c ≤ b' := by
  induction as generalizing p b with
  | nil => exact Tr.emit (by simp) ⟨CF.refl hp, by simp [argsCost] at hb ⊢; exact hb⟩
  | cons a as ih =>
    have e0 : argsCost (a :: as) = argCost a + argsCost as := by simp [argsCost]
    rw [e0] at hb
    refine Tr.seq (Q1 := fun p' b' => CF W dom I p p' ∧ E p' + (argsCost as + c) ≤ b') ?_ ?_
    · cases a with
      | val v =>
        refine (hs.ok v p b (argsCost as + c) hp (h (.val v) (by simp) v (by simp [argVals])) (by simp only [argCost] at hb; omega)).conseq ?_
        rintro p1 b1 ⟨h1, _, e1⟩; exact ⟨h1, e1⟩
      | dict k es =>
        refine (saveDict_c hs k (hk (.dict k es) (by simp)) es p b (argsCost as + c) hp
          (fun v hv => h (.dict k es) (by simp) v hv) (by simp only [argCost] at hb; omega)).conseq ?_
        rintro p1 b1 ⟨h1, _, e1⟩; exact ⟨h1, e1⟩
    · rintro p1 b1 ⟨h1, e1⟩
      refine (ih (fun a ha => hk a (by simp [ha])) p1 b1 h1.ci (fun b hb v hv => hs.mono _ _ _ (h b (by simp [hb]) v hv) h1) (by omega)).conseq ?_
      rintro p2 b2 ⟨h2, e2⟩
      exact ⟨h1.trans h2, e2⟩

theorem anonTuple_c (hs : Cg W dom I E G sv) (as : List Arg) (hk : ∀ a ∈ as, argKey a) (p b c) (hp : CI W dom I p)
    (h : ∀ a ∈ as, ∀ v ∈ argVals a, G v p) (hb : E p + (3 + argsCost as) + c ≤ b) :
    Tr (anonTuple sv as) p b fun p' b' => CF W dom I p p' ∧ E p' + c ≤ b' := by
  have fin : ∀ p1 b1, CF W dom I p p1 → E p1 + (1 + c) ≤ b1 →
      Tr (memoize .anon) p1 b1 fun p' b' => CF W dom I p p' ∧ E p' + c ≤ b' := by
    intro p1 b1 h1 e1
    refine Tr.memoize (by omega) ⟨h1.memoKey (by intro x hx; cases hx), ?_⟩
    have := hs.memo .anon p1; omega
  unfold anonTuple
  split
  · exact Tr.emit (by lenomega) ⟨CF.refl hp, by lenomega⟩
  · split
    · refine Tr.seq (saveArgs_c hs as hk p b (2 + c) hp h (by omega)) ?_
      rintro p1 b1 ⟨h1, e1⟩
      refine Tr.seq (Q1 := fun p' b' => p1 = p' ∧ b' = b1 - 1) (Tr.emit (by lenomega) ⟨rfl, rfl⟩) ?_
      rintro _ _ ⟨rfl, rfl⟩
      exact fin _ _ h1 (by omega)
    · refine Tr.seq (Q1 := fun p' b' => p = p' ∧ b' = b - 1) (Tr.emit (by lenomega) ⟨rfl, rfl⟩) ?_
      rintro _ _ ⟨rfl, rfl⟩
      refine Tr.seq (saveArgs_c hs as hk _ _ (2 + c) hp h (by omega)) ?_
      rintro p1 b1 ⟨h1, e1⟩
      refine Tr.seq (Q1 := fun p' b' => p1 = p' ∧ b' = b1 - 1) (Tr.emit (by lenomega) ⟨rfl, rfl⟩) ?_
      rintro _ _ ⟨rfl, rfl⟩
      exact fin _ _ h1 (by omega)

theorem callReduce_c (hs : Cg W dom I E G sv) (f : Val) (as : List Arg) (hk : ∀ a ∈ as, argKey a) (p b c) (hp : CI W dom I p)
    (hf : G f p) (h : ∀ a ∈ as, ∀ v ∈ argVals a, G v p)
    (hb : E p + (6 + argsCost as) + c ≤ b) :
    Tr (callReduce sv f as) p b fun p' b' => CF W dom I p p' ∧ E p' + c ≤ b' := by
  unfold callReduce
  refine Tr.seq (hs.ok f p b (4 + argsCost as + c) hp hf (by omega)) ?_
  rintro p1 b1 ⟨h1, _, e1⟩
  refine Tr.seq (anonTuple_c hs as hk p1 b1 (1 + c) h1.ci (fun a ha v hv => hs.mono _ _ _ (h a ha v hv) h1) (by omega)) ?_
  rintro p2 b2 ⟨h2, e2⟩
  exact Tr.emit (by lenomega) ⟨h1.trans h2, by lenomega⟩

def stCost : Option St → Nat
  | none => 0
  | some (.opaque _) => 3
  | some (.attrs es) => 3 + 6 * es.length

theorem saveState_c (hs : Cg W dom I E G sv) (st : Option St) (p b c) (hp : CI W dom I p) (h : ∀ v ∈ stRefs st, G v p)
    (hb : E p + stCost st + c ≤ b) :
    Tr (saveState sv st) p b fun p' b' => CF W dom I p p' ∧ (∀ v ∈ stRefs st, Mem W v p') ∧ E p' + c ≤ b' := by
  cases st with
  | none => exact Tr.emit (by simp) ⟨CF.refl hp, by simp [stRefs], by simpa [stCost] using hb⟩
  | some st =>
    cases st with
    | «opaque» v =>
      simp only [stCost] at hb
      simp only [saveState]
      refine Tr.seq (hs.ok v p b (1 + c) hp (h v (by simp [stRefs])) (by omega)) ?_
      rintro p1 b1 ⟨h1, m1, e1⟩
      exact Tr.emit (by lenomega) ⟨h1, by simpa [stRefs] using m1, by lenomega⟩
    | attrs es =>
      simp only [stCost] at hb
      simp only [saveState]
      refine Tr.seq (saveDict_c hs _ (by intro x hx; cases hx) es p b (1 + c) hp h (by omega)) ?_
      rintro p1 b1 ⟨h1, m1, e1⟩
      exact Tr.emit (by lenomega) ⟨h1, m1, by lenomega⟩

theorem runRed_c (hw : WF W) (hs : Cg W dom I E G sv) (r : Red) (p b c) (hp : CI W dom I p) (h : ∀ v ∈ redVals r, G v p)
    (hb : E p + cR r + c ≤ b) :
    Tr (runRed W sv r) p b fun p' b' => CF W dom I p p' ∧ E p' + c ≤ b' := by
  cases r with
  | setCell x v =>
    simp only [cR] at hb
    simp only [runRed]
    refine Tr.seq (callReduce_c hs _ _ (by simp [argKey]) p b (1 + c) hp (hs.atom ⟨_, hw.setattr⟩) ?_ ?_) ?_
    · intro a ha w hw'
      simp at ha
      rcases ha with rfl | rfl | rfl <;> simp [argVals] at hw' <;> subst hw'
      · exact h _ (by simp [redVals])
      · exact hs.atom ⟨_, hw.contents⟩
      · exact h _ (by simp [redVals])
    · simp [argsCost, argCost]; omega
    · rintro p1 b1 ⟨h1, e1⟩; exact Tr.emit (by lenomega) ⟨h1, by lenomega⟩
  | setQual x v =>
    simp only [cR] at hb
    simp only [runRed]
    refine Tr.seq (callReduce_c hs _ _ (by simp [argKey]) p b (1 + c) hp (hs.atom ⟨_, hw.setattr⟩) ?_ ?_) ?_
    · intro a ha w hw'
      simp at ha
      rcases ha with rfl | rfl | rfl <;> simp [argVals] at hw' <;> subst hw'
      · exact h _ (by simp [redVals])
      · exact hs.atom ⟨_, hw.qualname⟩
      · exact h _ (by simp [redVals])
    · simp [argsCost, argCost]; omega
    · rintro p1 b1 ⟨h1, e1⟩; exact Tr.emit (by lenomega) ⟨h1, by lenomega⟩
  | setItems f copy =>
    simp only [cR] at hb
    simp only [runRed]
    split
    · exact Tr.emit (by simp) ⟨CF.refl hp, by lenomega⟩
    · have : ∀ i, Tr (emit [.get i] ;; batchSetitems sv copy ;; emit [.pop]) p b
          (fun p' b' => CF W dom I p p' ∧ E p' + c ≤ b') := by
        intro i
        refine Tr.seq (Q1 := fun p' b' => p = p' ∧ b' = b - 1) (Tr.emit (by lenomega) ⟨rfl, rfl⟩) ?_
        rintro _ _ ⟨rfl, rfl⟩
        refine Tr.seq (batchSetitems_c hs copy _ _ (1 + c) hp h (by omega)) ?_
        rintro p1 b1 ⟨h1, _, e1⟩; exact Tr.emit (by lenomega) ⟨h1, by lenomega⟩
      intro p' o ho
      cases hi : idx p.memo (.globs f) with
      | none => simp only [hi] at ho; cases ho
      | some i => simp only [hi] at ho; exact this i p' o ho
  | setDead f copy =>
    simp only [cR] at hb
    simp only [runRed]
    split
    · exact Tr.emit (by simp) ⟨CF.refl hp, by lenomega⟩
    · intro p' o ho; cases ho

theorem runReds_c (hw : WF W) (hs : Cg W dom I E G sv) (rs : List Red) (p b c) (hp : CI W dom I p)
    (h : ∀ r ∈ rs, ∀ v ∈ redVals r, G v p) (hb : E p + cRs rs + c ≤ b) :
    Tr (runReds W sv rs) p b fun p' b' => CF W dom I p p' ∧ E p' + c ≤ b' := by
  induction rs generalizing p b with
  | nil => exact Tr.emit (by simp) ⟨CF.refl hp, by simpa [cRs] using hb⟩
  | cons r rs ih =>
    have e0 : cRs (r :: rs) = cR r + cRs rs := by simp [cRs]
    rw [e0] at hb
    refine Tr.seq (runRed_c hw hs r p b (cRs rs + c) hp (h r (by simp)) (by omega)) ?_
    rintro p1 b1 ⟨h1, e1⟩
    refine (ih p1 b1 h1.ci (fun r' hr v hv => hs.mono _ _ _ (h r' (by simp [hr]) v hv) h1) (by omega)).conseq ?_
    rintro p2 b2 ⟨h2, e2⟩
    exact ⟨h1.trans h2, e2⟩

/-- the object is memoised already, and the attributes follow -/
theorem saveFuncState_c (hs : Cg W dom I E G sv) (attrs slots : List (Val × Val)) (p b c) (hp : CI W dom I p)
    (ha : ∀ v ∈ kvVals attrs, G v p) (hb' : ∀ v ∈ kvVals slots, G v p)
    (hb : E p + (7 + 6 * attrs.length + 6 * slots.length) + c ≤ b) :
    Tr (saveFuncState sv attrs slots) p b fun p' b' => CF W dom I p p' ∧ E p' + c ≤ b' := by
  unfold saveFuncState
  split
  · refine Tr.seq (saveDict_c hs _ (by intro x hx; cases hx) attrs p b (5 + c) hp ha (by omega)) ?_
    rintro p1 b1 ⟨h1, _, e1⟩
    exact Tr.emit (by lenomega) ⟨h1, by lenomega⟩
  · refine Tr.seq (saveDict_c hs _ (by intro x hx; cases hx) attrs p b (5 + 6 * slots.length + c) hp ha (by omega)) ?_
    rintro p1 b1 ⟨h1, _, e1⟩
    refine Tr.seq (saveDict_c hs _ (by intro x hx; cases hx) slots p1 b1 (3 + c) h1.ci (fun v hv => hs.mono _ _ _ (hb' v hv) h1) (by omega)) ?_
    rintro p2 b2 ⟨h2, _, e2⟩
    refine Tr.seq (Q1 := fun p' b' => p2 = p' ∧ b' = b2 - 1) (Tr.emit (by lenomega) ⟨rfl, rfl⟩) ?_
    rintro _ _ ⟨rfl, rfl⟩
    have := hs.memo .anon p2
    refine Tr.seq (Q1 := fun p' b' => CF W dom I p p' ∧ E p' + (1 + c) ≤ b')
      (Tr.memoize (by omega) ⟨(h1.trans h2).memoKey (by intro x hx; cases hx), by omega⟩) ?_
    rintro p3 b3 ⟨h3, e3⟩
    exact Tr.emit (by lenomega) ⟨h3, by lenomega⟩

end

end Verif.Core
