import Verif.Core.Term
/-! When pickling cannot fail (used for C86): actions that raise nothing but RecursionError. -/
set_option linter.unusedSimpArgs false
set_option linter.unusedSectionVars false
namespace Verif.Core
open Spec

/-- the action raises nothing but RecursionError, and if it succeeds the new state satisfies `Q` -/
def Fine (f : PM) (p : P) (Q : P → Prop) : Prop :=
  match f p with
  | .error (e, _) => e = .fuel
  | .ok (p', _) => Q p'

theorem Fine.conseq {f p} {Q Q' : P → Prop} (h : Fine f p Q) (hq : ∀ p', Q p' → Q' p') : Fine f p Q' := by
  unfold Fine at *
  cases hf : f p with
  | error e => rw [hf] at h; exact h
  | ok r => rw [hf] at h; exact hq _ h

theorem Fine.seq {f g p} {Q Q1 : P → Prop} (h : Fine f p Q1) (hg : ∀ p1, Q1 p1 → Fine g p1 Q) : Fine (f ;; g) p Q := by
  unfold Fine at *
  unfold andThen
  cases hf : f p with
  | error e => rw [hf] at h; exact h
  | ok r =>
    obtain ⟨p1, o1⟩ := r
    rw [hf] at h
    have := hg p1 h
    simp only
    cases hg' : g p1 with
    | error e => rw [hg'] at this; exact this
    | ok r => rw [hg'] at this; exact this

theorem Fine.emit {ops p} {Q : P → Prop} (h : Q p) : Fine (Core.emit ops) p Q := h

theorem Fine.memoize {k p} {Q : P → Prop} (h : Q { p with memo := p.memo ++ [k] }) : Fine (Core.memoize k) p Q := h

/-- memoising keeps the invariant -/
def Stable (I : P → Prop) : Prop := ∀ p k, I p → I { p with memo := p.memo ++ [k] }

/-- what every action keeps: the memo grows, the objects being saved are the same -/
structure Keep (I : P → Prop) (p p' : P) : Prop where
  memo : ∀ k ∈ p.memo, k ∈ p'.memo
  keys : p'.post.map (·.1) = p.post.map (·.1)
  inv : I p'

theorem Keep.refl {I p} (h : I p) : Keep I p p := ⟨fun _ h => h, rfl, h⟩
theorem Keep.trans {I p q r} (h : Keep I p q) (h' : Keep I q r) : Keep I p r :=
  ⟨fun k hk => h'.memo k (h.memo k hk), h'.keys.trans h.keys, h'.inv⟩

theorem Keep.memoized {I p q k} (h : Keep I p q) (hI : Stable I) : Keep I p { q with memo := q.memo ++ [k] } :=
  ⟨fun j hj => by simp [h.memo j hj], h.keys, hI _ _ h.inv⟩

/-! ### actions built from an action on values -/

section
variable {I : P → Prop} {A : Val → P → Prop} {sv : Val → PM}

/-- values satisfying `A` can be saved -/
structure Sav (I : P → Prop) (A : Val → P → Prop) (sv : Val → PM) : Prop where
  ok : ∀ v p, I p → A v p → Fine (sv v) p (Keep I p)
  mono : ∀ v p p', A v p → Keep I p p' → A v p'
  stable : Stable I

theorem saveAll_f (hs : Sav I A sv) (vs : List Val) (p) (hp : I p) (h : ∀ v ∈ vs, A v p) :
    Fine (saveAll sv vs) p (Keep I p) := by
  induction vs generalizing p with
  | nil => exact Fine.emit (Keep.refl hp)
  | cons v vs ih =>
    refine Fine.seq (hs.ok v p hp (h v (by simp))) ?_
    intro p1 h1
    refine (ih p1 h1.inv fun w hw => hs.mono _ _ _ (h w (by simp [hw])) h1).conseq ?_
    intro p2 h2; exact h1.trans h2

theorem saveKVs_f (hs : Sav I A sv) (es : List (Val × Val)) (p) (hp : I p)
    (h : ∀ v ∈ kvVals es, A v p) : Fine (saveKVs sv es) p (Keep I p) := by
  induction es generalizing p with
  | nil => exact Fine.emit (Keep.refl hp)
  | cons e es ih =>
    obtain ⟨k, v⟩ := e
    refine Fine.seq (hs.ok k p hp (h k (by simp [kvVals]))) ?_
    intro p1 h1
    refine Fine.seq (hs.ok v p1 h1.inv (hs.mono _ _ _ (h v (by simp [kvVals])) h1)) ?_
    intro p2 h2
    have h12 := h1.trans h2
    refine (ih p2 h2.inv fun w hw => hs.mono _ _ _ (h w (by simp [kvVals] at hw ⊢; exact .inr (.inr hw))) h12).conseq ?_
    intro p3 h3; exact h12.trans h3

theorem batchAppends_f (hs : Sav I A sv) (vs : List Val) (p) (hp : I p) (h : ∀ v ∈ vs, A v p) :
    Fine (batchAppends sv vs) p (Keep I p) := by
  unfold batchAppends
  rw [← chunks_flatten vs] at h
  generalize chunks vs = cs at h
  induction cs generalizing p with
  | nil => exact Fine.emit (Keep.refl hp)
  | cons c cs ih =>
    simp only [List.foldr_cons]
    refine Fine.seq (Q1 := Keep I p) ?_ ?_
    · split
      · refine Fine.seq (hs.ok _ p hp (h _ (by simp))) ?_
        intro p1 h1; exact Fine.emit h1
      · refine Fine.seq (Q1 := fun q => p = q) (Fine.emit rfl) ?_
        rintro _ rfl
        refine Fine.seq (saveAll_f hs c _ hp fun v hv => h v (by simp [hv])) ?_
        intro p1 h1; exact Fine.emit h1
    · intro p1 h1
      refine (ih p1 h1.inv fun w hw => hs.mono _ _ _ (h w (by
        simp only [List.flatten_cons, List.mem_append]; exact .inr hw)) h1).conseq ?_
      intro p2 h2; exact h1.trans h2

theorem batchAdds_f (hs : Sav I A sv) (vs : List Val) (p) (hp : I p) (h : ∀ v ∈ vs, A v p) :
    Fine (batchAdds sv vs) p (Keep I p) := by
  unfold batchAdds
  rw [← chunks_flatten vs] at h
  generalize chunks vs = cs at h
  induction cs generalizing p with
  | nil => exact Fine.emit (Keep.refl hp)
  | cons c cs ih =>
    simp only [List.foldr_cons]
    refine Fine.seq (Q1 := Keep I p) ?_ ?_
    · refine Fine.seq (Q1 := fun q => p = q) (Fine.emit rfl) ?_
      rintro _ rfl
      refine Fine.seq (saveAll_f hs c _ hp fun v hv => h v (by simp [hv])) ?_
      intro p1 h1; exact Fine.emit h1
    · intro p1 h1
      refine (ih p1 h1.inv fun w hw => hs.mono _ _ _ (h w (by
        simp only [List.flatten_cons, List.mem_append]; exact .inr hw)) h1).conseq ?_
      intro p2 h2; exact h1.trans h2

theorem batchSetitems_f (hs : Sav I A sv) (es : List (Val × Val)) (p) (hp : I p)
    (h : ∀ v ∈ kvVals es, A v p) : Fine (batchSetitems sv es) p (Keep I p) := by
  unfold batchSetitems
  rw [← chunks_flatten es] at h
  generalize chunks es = cs at h
  induction cs generalizing p with
  | nil => exact Fine.emit (Keep.refl hp)
  | cons c cs ih =>
    simp only [List.foldr_cons]
    rw [List.flatten_cons, kvVals_append] at h
    refine Fine.seq (Q1 := Keep I p) ?_ ?_
    · split
      · refine Fine.seq (hs.ok _ p hp (h _ (by simp [kvVals]))) ?_
        intro p1 h1
        refine Fine.seq (hs.ok _ p1 h1.inv (hs.mono _ _ _ (h _ (by simp [kvVals])) h1)) ?_
        intro p2 h2; exact Fine.emit (h1.trans h2)
      · refine Fine.seq (Q1 := fun q => p = q) (Fine.emit rfl) ?_
        rintro _ rfl
        refine Fine.seq (saveKVs_f hs c _ hp fun v hv => h v (by simp [hv])) ?_
        intro p1 h1; exact Fine.emit h1
    · intro p1 h1
      refine (ih p1 h1.inv fun w hw => hs.mono _ _ _ (h w (by simp [hw])) h1).conseq ?_
      intro p2 h2; exact h1.trans h2

theorem saveDict_f (hs : Sav I A sv) (k : Key) (es : List (Val × Val)) (p) (hp : I p)
    (h : ∀ v ∈ kvVals es, A v p) : Fine (saveDict sv k es) p (Keep I p) := by
  unfold saveDict
  refine Fine.seq (Q1 := fun q => p = q) (Fine.emit rfl) ?_
  rintro _ rfl
  refine Fine.seq (Q1 := Keep I p) (Fine.memoize (Keep.refl hp |>.memoized hs.stable)) ?_
  intro p1 h1
  refine (batchSetitems_f hs es p1 h1.inv fun w hw => hs.mono _ _ _ (h w hw) h1).conseq ?_
  intro p2 h2; exact h1.trans h2

theorem saveArgs_f (hs : Sav I A sv) (as : List Arg) (p) (hp : I p)
    (h : ∀ a ∈ as, ∀ v ∈ argVals a, A v p) : Fine (saveArgs sv as) p (Keep I p) := by
  induction as generalizing p with
  | nil => exact Fine.emit (Keep.refl hp)
  | cons a as ih =>
    refine Fine.seq (Q1 := Keep I p) ?_ ?_
    · cases a with
      | val v => exact hs.ok v p hp (h (.val v) (by simp) v (by simp [argVals]))
      | dict k es => exact saveDict_f hs k es p hp fun v hv => h (.dict k es) (by simp) v hv
    · intro p1 h1
      refine (ih p1 h1.inv fun b hb v hv => hs.mono _ _ _ (h b (by simp [hb]) v hv) h1).conseq ?_
      intro p2 h2; exact h1.trans h2

theorem anonTuple_f (hs : Sav I A sv) (as : List Arg) (p) (hp : I p)
    (h : ∀ a ∈ as, ∀ v ∈ argVals a, A v p) : Fine (anonTuple sv as) p (Keep I p) := by
  unfold anonTuple
  split
  · exact Fine.emit (Keep.refl hp)
  · split
    · refine Fine.seq (saveArgs_f hs as p hp h) ?_
      intro p1 h1
      refine Fine.seq (Q1 := fun q => p1 = q) (Fine.emit rfl) ?_
      rintro _ rfl
      exact Fine.memoize (h1.memoized hs.stable)
    · refine Fine.seq (Q1 := fun q => p = q) (Fine.emit rfl) ?_
      rintro _ rfl
      refine Fine.seq (saveArgs_f hs as _ hp h) ?_
      intro p1 h1
      refine Fine.seq (Q1 := fun q => p1 = q) (Fine.emit rfl) ?_
      rintro _ rfl
      exact Fine.memoize (h1.memoized hs.stable)

theorem callReduce_f (hs : Sav I A sv) (f : Val) (as : List Arg) (p) (hp : I p) (hf : A f p)
    (h : ∀ a ∈ as, ∀ v ∈ argVals a, A v p) : Fine (callReduce sv f as) p (Keep I p) := by
  unfold callReduce
  refine Fine.seq (hs.ok f p hp hf) ?_
  intro p1 h1
  refine Fine.seq (anonTuple_f hs as p1 h1.inv fun a ha v hv => hs.mono _ _ _ (h a ha v hv) h1) ?_
  intro p2 h2
  exact Fine.emit (h1.trans h2)

theorem memoOrGet_f (hI : Stable I) (x : Addr) (p) (hp : I p) :
    Fine (memoOrGet x) p (fun p' => Keep I p p' ∧ .obj x ∈ p'.memo) := by
  unfold Fine memoOrGet
  cases h : idx p.memo (.obj x) with
  | some i => exact ⟨Keep.refl hp, List.mem_of_getElem? (idx_some h)⟩
  | none => exact ⟨(Keep.refl hp |>.memoized hI), by simp⟩

theorem saveState_f (hs : Sav I A sv) (st : Option St) (p) (hp : I p)
    (h : ∀ v ∈ stRefs st, A v p) : Fine (saveState sv st) p (Keep I p) := by
  cases st with
  | none => exact Fine.emit (Keep.refl hp)
  | some st =>
    cases st with
    | «opaque» v =>
      simp only [saveState]
      refine Fine.seq (hs.ok v p hp (h v (by simp [stRefs]))) ?_
      intro p1 h1; exact Fine.emit h1
    | attrs es =>
      simp only [saveState]
      refine Fine.seq (saveDict_f hs _ es p hp h) ?_
      intro p1 h1; exact Fine.emit h1

theorem saveFuncState_f (hs : Sav I A sv) (attrs slots : List (Val × Val)) (p) (hp : I p)
    (ha : ∀ v ∈ kvVals attrs, A v p) (hb : ∀ v ∈ kvVals slots, A v p) :
    Fine (saveFuncState sv attrs slots) p (Keep I p) := by
  unfold saveFuncState
  split
  · refine Fine.seq (saveDict_f hs _ attrs p hp ha) ?_
    intro p1 h1; exact Fine.emit h1
  · refine Fine.seq (saveDict_f hs _ attrs p hp ha) ?_
    intro p1 h1
    refine Fine.seq (saveDict_f hs _ slots p1 h1.inv fun v hv => hs.mono _ _ _ (hb v hv) h1) ?_
    intro p2 h2
    refine Fine.seq (Q1 := fun q => p2 = q) (Fine.emit rfl) ?_
    rintro _ rfl
    refine Fine.seq (Q1 := Keep I p) (Fine.memoize ((h1.trans h2).memoized hs.stable)) ?_
    intro p3 h3
    exact Fine.emit h3


end

end Verif.Core
