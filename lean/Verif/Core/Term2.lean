import Verif.Core.Term
import Mathlib.Tactic.Linarith
/-! The termination measure, and saving each kind of object (used for C02). -/
set_option linter.unusedSimpArgs false
namespace Verif.Core
open Spec

/-! ### counting -/

theorem filter_len_le {α : Type} {l : List α} {f g : α → Bool} (h : ∀ a ∈ l, f a = true → g a = true) :
    (l.filter f).length ≤ (l.filter g).length := by
  induction l with
  | nil => simp
  | cons a l ih =>
    have h1 := ih fun b hb => h b (by simp [hb])
    have h2 := h a (by simp)
    simp only [List.filter_cons]
    cases hf : f a <;> cases hg : g a <;> simp_all <;> omega

theorem filter_len_lt {α : Type} {l : List α} {f g : α → Bool} (h : ∀ a ∈ l, f a = true → g a = true) {x}
    (hx : x ∈ l) (hf : f x = false) (hg : g x = true) : (l.filter f).length < (l.filter g).length := by
  induction l with
  | nil => cases hx
  | cons a l ih =>
    have h1 := filter_len_le (l := l) fun b hb => h b (by simp [hb])
    have h2 := h a (by simp)
    simp only [List.filter_cons]
    rcases List.mem_cons.1 hx with rfl | hx
    · simp [hf, hg]; omega
    · have h3 := ih (fun b hb => h b (by simp [hb])) hx
      cases hf : f a <;> cases hg : g a <;> simp_all <;> omega

/-- objects neither memoised nor being saved -/
def free (p : P) (x : Addr) : Bool := decide (.obj x ∉ p.memo) && !p.onStack x

def U (dom : List Addr) (p : P) : Nat := (dom.filter (free p)).length

theorem onStack_keys {p q : P} (h : q.post.map (·.1) = p.post.map (·.1)) (x : Addr) : q.onStack x = p.onStack x := by
  have : ∀ p : P, p.onStack x = (p.post.map (·.1)).any (· = x) := by
    intro p; simp only [P.onStack, List.any_map, Function.comp_def]
  rw [this, this, h]

theorem U_mono {W dom p q} (h : Fr W dom p q) : U dom q ≤ U dom p := by
  refine filter_len_le ?_
  intro a _ hf
  simp only [free, Bool.and_eq_true, decide_eq_true_eq, Bool.not_eq_true', onStack_keys h.keys] at hf ⊢
  exact ⟨fun hm => hf.1 (h.memo _ hm), hf.2⟩

theorem U_lt {W dom p q x} (h : Fr W dom p q) (hx : x ∈ dom) (hf : free p x = true) (hm : .obj x ∈ q.memo) :
    U dom q < U dom p := by
  refine filter_len_lt ?_ hx ?_ hf
  · intro a _ hf
    simp only [free, Bool.and_eq_true, decide_eq_true_eq, Bool.not_eq_true', onStack_keys h.keys] at hf ⊢
    exact ⟨fun hm => hf.1 (h.memo _ hm), hf.2⟩
  · simp [free, hm]

/-! ### rank -/

section
open Classical

/-- number of objects needed, directly or not, to create an object -/
noncomputable def rank (W : World) (dom : List Addr) (x : Addr) : Nat :=
  (dom.filter fun y => decide (Relation.TransGen (CreationRef W) x y)).length

theorem rank_le (W dom x) : rank W dom x ≤ dom.length := List.length_filter_le _ _

theorem rank_lt {W dom} (hc : NoCreationCycle W) {x y} (h : CreationRef W x y) (hy : y ∈ dom) :
    rank W dom y < rank W dom x := by
  refine filter_len_lt (x := y) ?_ hy ?_ ?_
  · intro a _ ha
    simp only [decide_eq_true_eq] at ha ⊢
    exact Relation.TransGen.head h ha
  · simp only [decide_eq_false_iff_not]; exact hc y
  · simp only [decide_eq_true_eq]; exact .single h

noncomputable def vrank (W : World) (dom : List Addr) : Val → Nat
  | .atom _ => 0
  | .ref x => rank W dom x

end

/-! ### one object -/

/-- while saving an object with `u` free objects and rank `k`: what may be saved next -/
def May (W : World) (dom : List Addr) (u k : Nat) (v : Val) (p : P) : Prop :=
  isAtomV W v ∨ (InD dom v ∧ (U dom p < u ∨ (U dom p ≤ u ∧ vrank W dom v < k)))

theorem May.mono {W dom u k v p p'} (h : May W dom u k v p) (hf : Fr W dom p p') : May W dom u k v p' := by
  have := U_mono hf
  rcases h with h | ⟨h, h' | h'⟩
  · exact .inl h
  · exact .inr ⟨h, .inl (by omega)⟩
  · exact .inr ⟨h, .inr (by omega)⟩

section
variable {W : World} {dom : List Addr} {sv : Val → PM} {u k : Nat}

theorem may_atom (W dom u k) (a : Atom) (p : P) : May W dom u k (.atom a) p := .inl ⟨a, rfl⟩

theorem may_late {v p} (h : InD dom v) (hu : U dom p < u) : May W dom u k v p := .inr ⟨h, .inl hu⟩

theorem inD_refs (hd : Closed W dom) {x} (hx : x ∈ dom) {v} (h : v ∈ refs (W.H x)) : InD dom v := by
  cases v with
  | atom a => trivial
  | ref y => exact hd x hx y h

theorem saveTuple_t (hs : Good' W dom (May W dom u k) sv) (x es) (p) (hp : PI W dom p)
    (h : ∀ v ∈ es, May W dom u k v p) : Ok (saveTuple sv x es) p (Fr W dom p) := by
  unfold saveTuple
  split
  · exact Ok.emit (Fr.refl hp)
  · split
    · refine Ok.seq (saveAll_t hs es p hp h) ?_
      intro p1 h1
      unfold Ok
      cases hi : idx p1.memo (.obj x) with
      | some i => simp only [hi]; exact h1
      | none =>
        simp only [hi]
        exact (show Ok (emit [.tupleN es.length] ;; memoize (.obj x)) p1 (Fr W dom p) from
          Ok.seq (Q1 := fun q => p1 = q) (Ok.emit rfl) (by rintro _ rfl; exact Ok.memoize h1.memoized))
    · refine Ok.seq (Q1 := fun q => p = q) (Ok.emit rfl) ?_
      rintro _ rfl
      refine Ok.seq (saveAll_t hs es p hp h) ?_
      intro p1 h1
      unfold Ok
      cases hi : idx p1.memo (.obj x) with
      | some i => simp only [hi]; exact h1
      | none =>
        simp only [hi]
        exact (show Ok (emit [.tuple] ;; memoize (.obj x)) p1 (Fr W dom p) from
          Ok.seq (Q1 := fun q => p1 = q) (Ok.emit rfl) (by rintro _ rfl; exact Ok.memoize h1.memoized))

theorem saveFset_t (hs : Good' W dom (May W dom u k) sv) (x es) (p) (hp : PI W dom p)
    (h : ∀ v ∈ es, May W dom u k v p) : Ok (saveFset sv x es) p (Fr W dom p) := by
  unfold saveFset
  refine Ok.seq (Q1 := fun q => p = q) (Ok.emit rfl) ?_
  rintro _ rfl
  refine Ok.seq (saveAll_t hs es p hp h) ?_
  intro p1 h1
  unfold Ok
  cases hi : idx p1.memo (.obj x) with
  | some i => simp only [hi]; exact h1
  | none =>
    simp only [hi]
    exact (show Ok (emit [.frozenset] ;; memoize (.obj x)) p1 (Fr W dom p) from
      Ok.seq (Q1 := fun q => p1 = q) (Ok.emit rfl) (by rintro _ rfl; exact Ok.memoize h1.memoized))

/-- the common end of saving a container: memoised already, parts follow -/
theorem saveNode_t (hs : Good' W dom (May W dom (U dom p) k) sv) {x con lits dits st} (hd : Closed W dom)
    (hx : x ∈ dom) (hX : W.H x = .node con lits dits st) (hp : PI W dom p) (hf : free p x = true)
    (h : ∀ v ∈ conRefs con, May W dom (U dom p) k v p) :
    Ok (saveNode sv x con lits dits st) p (Fr W dom p) := by
  have late : ∀ {p1}, Fr W dom p p1 → .obj x ∈ p1.memo → ∀ v ∈ lits ++ kvVals dits ++ stRefs st,
      May W dom (U dom p) k v p1 := by
    intro p1 h1 hm v hv
    refine may_late (inD_refs hd hx ?_) (U_lt h1 hx hf hm)
    rw [hX]; simp only [refs, List.append_assoc, List.mem_append] at hv ⊢
    exact .inr hv
  have rest : ∀ {p1}, Fr W dom p p1 → Ok (memoOrGet x ;; batchAppends sv lits ;; batchSetitems sv dits ;;
      saveState sv st) p1 (Fr W dom p) := by
    intro p1 h1
    refine Ok.seq (memoOrGet_t x p1 h1.inv) ?_
    rintro p2 ⟨h2, hm⟩
    have h12 := h1.trans h2
    have L := late h12 hm
    refine Ok.seq (batchAppends_t hs lits p2 h2.inv fun v hv => L v (by simp [hv])) ?_
    intro p3 h3
    refine Ok.seq (batchSetitems_t hs dits p3 h3.inv fun v hv => (L v (by simp [hv])).mono h3) ?_
    intro p4 h4
    refine (saveState_t hs st p4 h4.inv fun v hv => ((L v (by simp [hv])).mono h3).mono h4).conseq ?_
    intro p5 h5
    exact ((h12.trans h3).trans h4).trans h5
  unfold saveNode
  cases con with
  | list =>
    simp only
    refine Ok.seq (Q1 := fun q => p = q) (Ok.emit rfl) ?_
    rintro _ rfl
    refine Ok.seq (Q1 := fun q => Fr W dom p q ∧ .obj x ∈ q.memo)
      (Ok.memoize ⟨(Fr.refl hp).memoized, by simp⟩) ?_
    rintro p1 ⟨h1, hm⟩
    refine (batchAppends_t hs lits p1 h1.inv fun v hv => late h1 hm v (by simp [hv])).conseq ?_
    intro p2 h2; exact h1.trans h2
  | set =>
    simp only
    refine Ok.seq (Q1 := fun q => p = q) (Ok.emit rfl) ?_
    rintro _ rfl
    refine Ok.seq (Q1 := fun q => Fr W dom p q ∧ .obj x ∈ q.memo)
      (Ok.memoize ⟨(Fr.refl hp).memoized, by simp⟩) ?_
    rintro p1 ⟨h1, hm⟩
    refine (batchAdds_t hs lits p1 h1.inv fun v hv => late h1 hm v (by simp [hv])).conseq ?_
    intro p2 h2; exact h1.trans h2
  | dict =>
    simp only
    refine Ok.seq (Q1 := fun q => p = q) (Ok.emit rfl) ?_
    rintro _ rfl
    refine Ok.seq (Q1 := fun q => Fr W dom p q ∧ .obj x ∈ q.memo)
      (Ok.memoize ⟨(Fr.refl hp).memoized, by simp⟩) ?_
    rintro p1 ⟨h1, hm⟩
    refine (batchSetitems_t hs dits p1 h1.inv fun v hv => late h1 hm v (by simp [hv])).conseq ?_
    intro p2 h2; exact h1.trans h2
  | red f as =>
    simp only
    refine Ok.seq (callReduce_t hs f _ p hp (h f (by simp [conRefs])) ?_) (fun p1 h1 => rest h1)
    intro a ha v hv
    obtain ⟨w, hw, rfl⟩ := List.mem_map.1 ha
    simp [argVals] at hv; subst hv
    exact h _ (by simp [conRefs, hw])
  | newobj c as =>
    simp only
    refine Ok.seq (hs.ok c p hp (h c (by simp [conRefs]))) ?_
    intro p1 h1
    refine Ok.seq (anonTuple_t hs _ p1 h1.inv ?_) ?_
    · intro a ha v hv
      obtain ⟨w, hw, rfl⟩ := List.mem_map.1 ha
      simp [argVals] at hv; subst hv
      exact (h _ (by simp [conRefs, hw])).mono h1
    · intro p2 h2
      refine Ok.seq (Q1 := fun q => p2 = q) (Ok.emit rfl) ?_
      rintro _ rfl
      exact rest (h1.trans h2)

theorem PI.addRed {p : P} (hp : PI W dom p) {y r} (h : ∀ v ∈ redVals r, InD dom v) :
    PI W dom { p with post := addRed y r p.post } := by
  intro e he
  obtain ⟨e0, h0, h1, h2⟩ := mem_addRed he
  obtain ⟨g1, g2⟩ := hp e0 h0
  refine ⟨by rw [h1]; exact g1, ?_⟩
  intro r' hr v hv
  rcases h2 r' hr with h3 | rfl
  · exact g2 r' h3 v hv
  · exact h v hv

theorem addRed_keys {y r post} : (addRed y r post).map (·.1) = post.map (·.1) := by
  unfold addRed
  rw [List.map_map]
  refine List.map_congr_left ?_
  rintro ⟨z, l⟩ _
  simp only [Function.comp]
  split <;> rfl

theorem Fr.addRed {p q : P} (h : Fr W dom p q) {y r} (hr : ∀ v ∈ redVals r, InD dom v) :
    Fr W dom p { q with post := Core.addRed y r q.post } :=
  ⟨h.memo, addRed_keys.trans h.keys, h.inv.addRed hr⟩

theorem saveCell_t (hw : WF W) {p} (hs : Good' W dom (May W dom (U dom p) k) sv) {x c} (hd : Closed W dom)
    (hx : x ∈ dom) (hX : W.H x = .cell c) (hp : PI W dom p) (hf : free p x = true)
    (h : ∀ v, c = some v → May W dom (U dom p) k v p) :
    Ok (saveCell W sv x c) p (Fr W dom p) := by
  cases c with
  | none =>
    simp only [saveCell]
    refine Ok.seq (callReduce_t hs _ _ p hp (.inl ⟨_, hw.createCell⟩) ?_) ?_
    · intro a ha v hv
      simp at ha; subst ha
      simp [argVals] at hv; subst hv
      exact .inl ⟨_, hw.cellEmpty⟩
    · intro p1 h1
      refine Ok.seq (memoOrGet_t x p1 h1.inv) ?_
      rintro p2 ⟨h2, hm⟩
      have h12 := h1.trans h2
      refine Ok.seq (callReduce_t hs _ _ p2 h2.inv (.inl ⟨_, hw.delattr⟩) ?_) ?_
      · intro a ha v hv
        simp at ha
        rcases ha with rfl | rfl <;> simp [argVals] at hv <;> subst hv
        · exact may_late hx (U_lt h12 hx hf hm)
        · exact .inl ⟨_, hw.contents⟩
      · intro p3 h3
        exact Ok.emit (h12.trans h3)
  | some v =>
    have mk : ∀ w, May W dom (U dom p) k w p →
        Ok (callReduce sv W.createCell [.val w] ;; memoOrGet x) p (Fr W dom p) := by
      intro w hw'
      refine Ok.seq (callReduce_t hs _ _ p hp (.inl ⟨_, hw.createCell⟩) ?_) ?_
      · intro a ha v hv
        simp at ha; subst ha
        simp [argVals] at hv; subst hv
        exact hw'
      · intro p1 h1
        refine (memoOrGet_t x p1 h1.inv).conseq ?_
        rintro p2 ⟨h2, _⟩; exact h1.trans h2
    have hv : InD dom v := inD_refs hd hx (by rw [hX]; simp [refs])
    unfold Ok
    simp only [saveCell]
    cases hh : cellHost p v with
    | none => simp only; exact mk v (h v rfl)
    | some y =>
      simp only
      have := mk (.atom .none) (may_atom _ _ _ _ _ _)
      unfold Ok at this
      cases hb : (callReduce sv W.createCell [.val (.atom .none)] ;; memoOrGet x) p with
      | error e => rw [hb] at this; rcases e with ⟨e, q⟩; cases e <;> simp_all
      | ok r =>
        rw [hb] at this
        simp only at this ⊢
        refine this.addRed ?_
        intro w hw'
        simp [redVals] at hw'
        rcases hw' with rfl | rfl
        · exact hx
        · exact hv

theorem withPost_t (hw : WF W) {p} (hs : Good' W dom (May W dom (U dom p) k) sv) {x l0} {body : PM}
    (hx : x ∈ dom) (hfc : isFC (W.H x)) (hp : PI W dom p) (hn : .obj x ∉ p.memo)
    (hl0 : ∀ r ∈ l0, ∀ v ∈ redVals r, InD dom v)
    (hb : ∀ p1, PI W dom p1 → U dom p1 < U dom p →
      Ok body p1 (fun p2 => Fr W dom p1 p2 ∧ .obj x ∈ p2.memo)) :
    Ok (withPost W sv x l0 body) p (Fr W dom p) := by
  unfold Ok withPost
  by_cases hns : p.onStack x = true
  · rw [if_pos hns]; exact saveGlobal_t x p hp
  · rw [if_neg hns]
    have hns : p.onStack x = false := by simpa using hns
    have hf : free p x = true := by simp [free, hn, hns]
    have hp1 : PI W dom { p with post := p.post ++ [(x, l0)] } := by
      intro e he
      rcases List.mem_append.1 he with he | he
      · exact hp e he
      · simp at he; subst he; exact ⟨hfc, hl0⟩
    have hu1 : U dom { p with post := p.post ++ [(x, l0)] } < U dom p := by
      refine filter_len_lt ?_ hx ?_ hf
      · intro a _ ha
        simp only [free, P.onStack, List.any_append, Bool.and_eq_true, decide_eq_true_eq, Bool.not_eq_true',
          Bool.or_eq_false_iff] at ha ⊢
        exact ⟨ha.1, ha.2.1⟩
      · simp [free, P.onStack]
    have hB := hb _ hp1 hu1
    unfold Ok at hB
    cases hbd : body { p with post := p.post ++ [(x, l0)] } with
    | error e => rw [hbd] at hB; rcases e with ⟨e, q⟩; cases e <;> simp_all
    | ok r =>
      obtain ⟨p1, o1⟩ := r
      rw [hbd] at hB
      obtain ⟨hB1, hB2⟩ := hB
      simp only
      -- the list of deferred reductions
      have keys1 : p1.post.map (·.1) = p.post.map (·.1) ++ [x] := by rw [hB1.keys]; simp
      have hnx : x ∉ p.post.map (·.1) := by
        intro hm
        obtain ⟨e, he, e'⟩ := List.mem_map.1 hm
        have : p.onStack x = true := by
          simp only [P.onStack, List.any_eq_true, decide_eq_true_eq]; exact ⟨e, he, e'⟩
        rw [this] at hns; cases hns
      have keys2 : (p1.post.filter (·.1 ≠ x)).map (·.1) = p.post.map (·.1) := by
        have : (p1.post.filter (·.1 ≠ x)).map (·.1) = (p1.post.map (·.1)).filter (· ≠ x) := by
          rw [List.filter_map]; rfl
        rw [this, keys1, List.filter_append]
        have e1 : (p.post.map (·.1)).filter (· ≠ x) = p.post.map (·.1) := by
          rw [List.filter_eq_self]
          intro a ha
          simp only [ne_eq, decide_eq_true_eq]
          rintro rfl; exact hnx ha
        rw [e1]; simp
      have hp2 : PI W dom { p1 with post := p1.post.filter (·.1 ≠ x) } := by
        intro e he
        exact hB1.inv e (List.mem_filter.1 he).1
      have hF : Fr W dom p { p1 with post := p1.post.filter (·.1 ≠ x) } :=
        ⟨fun k hk => hB1.memo k hk, keys2, hp2⟩
      have hu2 : U dom { p1 with post := p1.post.filter (·.1 ≠ x) } < U dom p := U_lt hF hx hf hB2
      have hR := runReds_t hs ((p1.post.find? (·.1 = x)).map (·.2) |>.getD []).reverse
        { p1 with post := p1.post.filter (·.1 ≠ x) } hp2 (.inl ⟨_, hw.setattr⟩) (.inl ⟨_, hw.contents⟩)
        (.inl ⟨_, hw.qualname⟩) (by
          intro r hr v hv
          refine may_late ?_ hu2
          cases hfd : p1.post.find? (·.1 = x) with
          | none => rw [hfd] at hr; simp at hr
          | some e =>
            rw [hfd] at hr
            simp at hr
            exact (hB1.inv e (List.mem_of_find?_eq_some hfd)).2 r hr v hv)
      unfold Ok at hR
      cases hrr : runReds W sv ((p1.post.find? (·.1 = x)).map (·.2) |>.getD []).reverse
        { p1 with post := p1.post.filter (·.1 ≠ x) } with
      | error e => rw [hrr] at hR; rcases e with ⟨e, q⟩; cases e <;> simp_all
      | ok r =>
        rw [hrr] at hR
        exact hF.trans hR

theorem saveCls_t (hw : WF W) {p} (hs : Good' W dom (May W dom (U dom p) k) sv) {x mt name bases dict qual}
    (hd : Closed W dom) (hx : x ∈ dom) (hX : W.H x = .cls mt name bases dict qual) (hp : PI W dom p)
    (hn : .obj x ∉ p.memo) :
    Ok (saveCls W sv x mt name bases dict qual) p (Fr W dom p) := by
  have R : ∀ v ∈ refs (W.H x), InD dom v := fun v hv => inD_refs hd hx hv
  rw [hX] at R
  simp only [refs, List.mem_append, List.mem_cons, List.not_mem_nil, or_false] at R
  refine withPost_t hw hs hx (by rw [hX]; trivial) hp hn ?_ ?_
  · intro r hr v hv
    simp at hr; subst hr
    simp [redVals] at hv
    rcases hv with rfl | rfl
    · exact hx
    · exact R _ (by simp)
  · intro p1 hp1 hu
    refine Ok.seq (callReduce_t hs _ _ p1 hp1 (.inl ⟨_, hw.createType⟩) ?_) ?_
    · intro a ha v hv
      simp at ha
      rcases ha with rfl | rfl | rfl | rfl <;> simp only [argVals, List.mem_singleton] at hv
      · subst hv; exact may_late (R _ (by simp)) hu
      · subst hv; exact may_late (R _ (by simp)) hu
      · subst hv; exact may_late (R _ (by simp)) hu
      · exact may_late (R _ (.inr hv)) hu
    · intro p2 h2
      refine (memoOrGet_t x p2 h2.inv).conseq ?_
      rintro p3 ⟨h3, h4⟩; exact ⟨h2.trans h3, h4⟩

theorem U_post_keys {p q : P} (h1 : q.memo = p.memo) (h2 : q.post.map (·.1) = p.post.map (·.1)) :
    U dom q = U dom p := by
  unfold U
  congr 2
  funext x
  unfold free
  rw [h1, onStack_keys h2]

theorem saveFunc_t (hw : WF W) {p} (hs : Good' W dom (May W dom (U dom p) k) sv) {x code g name df cl attrs slots}
    (hd : Closed W dom) (hx : x ∈ dom) (hX : W.H x = .func code g name df cl attrs slots) (hp : PI W dom p)
    (hn : .obj x ∉ p.memo) :
    Ok (saveFunc W sv x code g name df cl attrs slots) p (Fr W dom p) := by
  have R : ∀ v ∈ refs (W.H x), InD dom v := fun v hv => inD_refs hd hx hv
  rw [hX] at R
  have body : ∀ (gArg : Arg), (∀ v ∈ argVals gArg, InD dom v) → ∀ p1, PI W dom p1 → U dom p1 < U dom p →
      Ok (callReduce sv W.createFunction [.val code, gArg, .val name, .val df, .val cl] ;; memoOrGet x ;;
        saveFuncState sv attrs slots) p1 (fun p2 => Fr W dom p1 p2 ∧ .obj x ∈ p2.memo) := by
    intro gArg hg p1 hp1 hu
    refine Ok.seq (callReduce_t hs _ _ p1 hp1 (.inl ⟨_, hw.createFunction⟩) ?_) ?_
    · intro a ha v hv
      simp at ha
      rcases ha with rfl | rfl | rfl | rfl | rfl
      · simp [argVals] at hv; subst hv; exact may_late (R _ (by simp [refs])) hu
      · exact may_late (hg v hv) hu
      · simp [argVals] at hv; subst hv; exact may_late (R _ (by simp [refs])) hu
      · simp [argVals] at hv; subst hv; exact may_late (R _ (by simp [refs])) hu
      · simp [argVals] at hv; subst hv; exact may_late (R _ (by simp [refs])) hu
    · intro p2 h2
      refine Ok.seq (memoOrGet_t x p2 h2.inv) ?_
      rintro p3 ⟨h3, h4⟩
      have h23 := h2.trans h3
      have hu3 : U dom p3 < U dom p := Nat.lt_of_le_of_lt (U_mono h23) hu
      refine (saveFuncState_t hs attrs slots p3 h3.inv ?_ ?_).conseq ?_
      · intro v hv
        exact may_late (R _ (by simp only [refs, List.mem_append]; exact .inl (.inr hv))) hu3
      · intro v hv
        exact may_late (R _ (by simp only [refs, List.mem_append]; exact .inr hv)) hu3
      · intro p4 h5
        exact ⟨h23.trans h5, h5.memo _ h4⟩
  have hfc : isFC (W.H x) := by rw [hX]; trivial
  cases g with
  | byRef v =>
    exact withPost_t hw hs hx hfc hp hn (by simp) (body (.val v) (by
      intro w hw'; simp [argVals] at hw'; subst hw'; exact R _ (by simp [refs])))
  | copied init copy =>
    have hinit : ∀ v ∈ argVals (.dict (.globs x) init), InD dom v := by
      intro w hw'
      exact R _ (by simp only [refs, List.mem_append]; exact .inl (.inl (.inr (.inl hw'))))
    have hcopy : ∀ v ∈ redVals (.setItems x copy), InD dom v := by
      intro w hw'
      exact R _ (by simp only [refs, List.mem_append]; exact .inl (.inl (.inr (.inr hw'))))
    unfold Ok
    simp only [saveFunc]
    cases hfd : p.post.find? (fun e => decide (e.1 ∈ valueAddrs copy)) with
    | none =>
      simp only
      exact withPost_t hw hs hx hfc hp hn (by intro r hr; simp at hr; subst hr; exact hcopy) (body _ hinit)
    | some e =>
      simp only
      generalize hr0 : (if p.onStack x then Red.setDead x copy else Red.setItems x copy) = r0
      have hcopy : ∀ v ∈ redVals r0, InD dom v := by
        subst hr0
        split
        · intro v hv'; simp [redVals] at hv'
        · exact hcopy
      have hk : ({ p with post := addRed e.1 r0 p.post } : P).post.map (·.1) = p.post.map (·.1) :=
        addRed_keys
      have hU : U dom ({ p with post := addRed e.1 r0 p.post } : P) = U dom p :=
        U_post_keys rfl hk
      have := withPost_t (l0 := []) (x := x) hw (p := { p with post := addRed e.1 r0 p.post }) (by rw [hU]; exact hs) hx hfc
        (hp.addRed hcopy) hn (by simp) (body := callReduce sv W.createFunction [.val code, .dict (.globs x) init, .val name, .val df, .val cl] ;; memoOrGet x ;;
        saveFuncState sv attrs slots) (by rw [hU]; exact body _ hinit)
      unfold Ok at this
      have conv : ∀ q, Fr W dom { p with post := addRed e.1 r0 p.post } q → Fr W dom p q :=
        fun q h => ⟨h.memo, h.keys.trans hk, h.inv⟩
      revert this
      generalize withPost W sv x [] _ _ = r
      intro this
      cases r with
      | error e => rcases e with ⟨e, q⟩; cases e <;> simp_all
      | ok r => exact conv _ this

end

/-! ### all objects -/

theorem saveStep_t {W dom} (hw : WF W) (hd : Closed W dom) (hc : NoCreationCycle W) {sv : Val → PM} {v p}
    (hv : InD dom v) (hp : PI W dom p)
    (hs : Good' W dom (May W dom (U dom p) (vrank W dom v)) sv) :
    Ok (saveStep W sv v) p (Fr W dom p) := by
  cases v with
  | atom a => exact Fr.refl hp
  | ref x =>
    unfold Ok
    simp only [saveStep]
    cases hi : idx p.memo (.obj x) with
    | some i => exact Fr.refl hp
    | none =>
      simp only
      have hn := idx_none hi
      have cr : ∀ w ∈ creationRefs (W.H x), (∀ v ∈ creationRefs (W.H x), v ∈ refs (W.H x)) →
          May W dom (U dom p) (vrank W dom (.ref x)) w p := by
        intro w hw' hsub
        cases w with
        | atom a => exact may_atom _ _ _ _ _ _
        | ref y =>
          have hy : y ∈ dom := hd x hv y (hsub _ hw')
          exact .inr ⟨hy, .inr ⟨Nat.le_refl _, rank_lt hc hw' hy⟩⟩
      have hfree : ¬ isFC (W.H x) → free p x = true := by
        intro hfc
        have : p.onStack x = false := by
          cases h : p.onStack x with
          | false => rfl
          | true =>
            simp only [P.onStack, List.any_eq_true, decide_eq_true_eq] at h
            obtain ⟨e, he, rfl⟩ := h
            exact absurd (hp e he).1 hfc
        simp [free, hn, this]
      cases hx : W.H x with
      | leaf a => exact (Fr.refl hp).memoized
      | tuple es =>
        rw [hx] at cr
        exact saveTuple_t hs x es p hp fun v hv' => cr v hv' (fun v hv => hv)
      | fset es =>
        rw [hx] at cr
        exact saveFset_t hs x es p hp fun v hv' => cr v hv' (fun v hv => hv)
      | node con lits dits st =>
        rw [hx] at cr hfree
        exact saveNode_t hs hd hv hx hp (hfree fun h => h) fun v hv' =>
          cr v hv' (fun v hv => by simp only [refs, List.append_assoc, List.mem_append]; exact .inl hv)
      | cell c =>
        rw [hx] at cr hfree
        refine saveCell_t hw hs hd hv hx hp (hfree fun h => h) ?_
        rintro v rfl
        exact cr v (by simp [creationRefs]) (fun v hv => by simpa [creationRefs, refs] using hv)
      | func code g name df cl attrs slots => exact saveFunc_t hw hs hd hv hx hp hn
      | cls mt name bases dict qual => exact saveCls_t hw hs hd hv hx hp hn
      | bad => trivial

theorem save_leaf_ok {W dom n v p} (hv : isAtomV W v) (hp : PI W dom p) : Ok (save W (n + 1) v) p (Fr W dom p) := by
  obtain ⟨a, ha⟩ := hv
  cases v with
  | atom b => exact Fr.refl hp
  | ref x =>
    unfold Ok
    simp only [save, saveStep]
    cases hi : idx p.memo (.obj x) with
    | some i => exact Fr.refl hp
    | none =>
      simp only [res] at ha
      cases hx : W.H x <;> rw [hx] at ha <;> simp at ha
      exact (Fr.refl hp).memoized

theorem save_t {W dom} (hw : WF W) (hd : Closed W dom) (hc : NoCreationCycle W) (n : Nat) :
    ∀ v p, InD dom v → PI W dom p → U dom p * (dom.length + 1) + vrank W dom v < n →
      Ok (save W n v) p (Fr W dom p) := by
  induction n with
  | zero => intro v p _ _ h; omega
  | succ n ih =>
    intro v p hv hp hlt
    by_cases h0 : ∃ x, v = .ref x ∧ .obj x ∉ p.memo ∧ ¬ isAtomV W v
    · obtain ⟨x, rfl, hn, hna⟩ := h0
      by_cases hst : p.onStack x = true
      · -- already being saved
        have : isFC (W.H x) := by
          simp only [P.onStack, List.any_eq_true, decide_eq_true_eq] at hst
          obtain ⟨e, he, rfl⟩ := hst
          exact (hp e he).1
        have hi : idx p.memo (.obj x) = none := by
          cases h : idx p.memo (.obj x) with
          | none => rfl
          | some i => exact absurd (List.mem_of_getElem? (idx_some h)) hn
        unfold Ok
        simp only [save, saveStep, hi]
        cases hx : W.H x <;> rw [hx] at this <;> simp only [isFC] at this
        · rename_i code g name df cl attrs slots
          simp only [saveFunc]
          cases g with
          | byRef v => simp only [withPost, hst, if_true]; exact saveGlobal_t x p hp
          | copied init copy =>
            simp only
            cases hfd : p.post.find? (fun e => decide (e.1 ∈ valueAddrs copy)) with
            | none => simp only [withPost, hst, if_true]; exact saveGlobal_t x p hp
            | some e =>
              have : ({ p with post := addRed e.1 (.setDead x copy) p.post } : P).onStack x = true := by
                rw [onStack_keys (p := p) addRed_keys]; exact hst
              simp only [withPost, hst, this, if_true]
              have g := saveGlobal_t (W := W) x { p with post := addRed e.1 (.setDead x copy) p.post }
                (hp.addRed (r := .setDead x copy) (by intro v hv'; simp [redVals] at hv'))
              have conv : ∀ q, Fr W dom { p with post := addRed e.1 (.setDead x copy) p.post } q → Fr W dom p q :=
                fun q h => ⟨h.memo, h.keys.trans addRed_keys, h.inv⟩
              exact g.conseq conv
        · simp only [saveCls, withPost, hst, if_true]; exact saveGlobal_t x p hp
      · have hst : p.onStack x = false := by simpa using hst
        have hU : 0 < U dom p := by
          unfold U
          refine List.length_pos_of_mem (a := x) (List.mem_filter.2 ⟨hv, ?_⟩)
          simp [free, hn, hst]
        have hn1 : 1 ≤ n := by
          have : 1 * (dom.length + 1) ≤ U dom p * (dom.length + 1) := Nat.mul_le_mul_right _ hU
          omega
        obtain ⟨n', rfl⟩ : ∃ n', n = n' + 1 := ⟨n - 1, by omega⟩
        refine saveStep_t hw hd hc hv hp ⟨?_, fun _ _ _ h hf => h.mono hf⟩
        intro w q hq hm
        rcases hm with hm | ⟨hm, hm'⟩
        · exact save_leaf_ok hm hq
        · refine ih w q hm hq ?_
          have hw1 : vrank W dom w ≤ dom.length := by
            cases w with
            | atom a => exact Nat.zero_le _
            | ref y => exact rank_le _ _ _
          rcases hm' with hlt' | ⟨hle, hr⟩
          · have : (U dom q + 1) * (dom.length + 1) ≤ U dom p * (dom.length + 1) := Nat.mul_le_mul_right _ hlt'
            rw [Nat.add_mul] at this
            omega
          · have : U dom q * (dom.length + 1) ≤ U dom p * (dom.length + 1) := Nat.mul_le_mul_right _ hle
            omega
    · -- memoised already, or found by name
      cases v with
      | atom a => exact Fr.refl hp
      | ref x =>
        by_cases ha : isAtomV W (.ref x)
        · exact save_leaf_ok ha hp
        · have : .obj x ∈ p.memo := by
            by_contra h; exact h0 ⟨x, rfl, h, ha⟩
          obtain ⟨i, hi⟩ := idx_isSome this
          unfold Ok
          simp only [save, saveStep, hi]
          exact Fr.refl hp

end Verif.Core
