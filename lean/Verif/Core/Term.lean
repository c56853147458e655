import Verif.Core.Sim6
import Verif.Spec.CoreTerm
/-! Termination of saving (used for C02). -/
set_option linter.unusedSimpArgs false
namespace Verif.Core
open Spec

/-! ### results other than running out of fuel -/

/-- the action does not run out of fuel, and if it succeeds the new state satisfies `Q` -/
def Ok (f : PM) (p : P) (Q : P → Prop) : Prop :=
  match f p with
  | .error (.fuel, _) => False
  | .error _ => True
  | .ok (p', _) => Q p'

theorem Ok.conseq {f p} {Q Q' : P → Prop} (h : Ok f p Q) (hq : ∀ p', Q p' → Q' p') : Ok f p Q' := by
  unfold Ok at *
  cases hf : f p with
  | error e => rw [hf] at h; rcases e with ⟨e, q⟩; cases e <;> simp_all
  | ok r => rw [hf] at h; exact hq _ h

theorem Ok.seq {f g p} {Q Q1 : P → Prop} (h : Ok f p Q1) (hg : ∀ p1, Q1 p1 → Ok g p1 Q) : Ok (f ;; g) p Q := by
  unfold Ok at *
  unfold andThen
  cases hf : f p with
  | error e => rw [hf] at h; rcases e with ⟨e, q⟩; cases e <;> simp_all
  | ok r =>
    obtain ⟨p1, o1⟩ := r
    rw [hf] at h
    have := hg p1 h
    simp only
    cases hg' : g p1 with
    | error e => rw [hg'] at this; rcases e with ⟨e, q⟩; cases e <;> simp_all
    | ok r => rw [hg'] at this; exact this

theorem Ok.emit {ops p} {Q : P → Prop} (h : Q p) : Ok (Core.emit ops) p Q := h

theorem Ok.memoize {k p} {Q : P → Prop} (h : Q { p with memo := p.memo ++ [k] }) : Ok (Core.memoize k) p Q := h

/-! ### frames -/

/-- the value is in the given finite set of addresses, or has no address -/
def InD (dom : List Addr) : Val → Prop
  | .atom _ => True
  | .ref x => x ∈ dom

/-- invariant of the pickler state -/
def PI (W : World) (dom : List Addr) (p : P) : Prop :=
  ∀ e ∈ p.post, isFC (W.H e.1) ∧ ∀ r ∈ e.2, ∀ v ∈ redVals r, InD dom v

/-- what every action keeps: the memo grows, the objects being saved are the same -/
structure Fr (W : World) (dom : List Addr) (p p' : P) : Prop where
  memo : ∀ k ∈ p.memo, k ∈ p'.memo
  keys : p'.post.map (·.1) = p.post.map (·.1)
  inv : PI W dom p'

theorem Fr.refl {W dom p} (h : PI W dom p) : Fr W dom p p := ⟨fun _ h => h, rfl, h⟩
theorem Fr.trans {W dom p q r} (h : Fr W dom p q) (h' : Fr W dom q r) : Fr W dom p r :=
  ⟨fun k hk => h'.memo k (h.memo k hk), h'.keys.trans h.keys, h'.inv⟩

theorem Fr.memoized {W dom p q k} (h : Fr W dom p q) : Fr W dom p { q with memo := q.memo ++ [k] } :=
  ⟨fun j hj => by simp [h.memo j hj], h.keys, h.inv⟩

/-! ### actions built from an action on values -/

section
variable {W : World} {dom : List Addr} {A : Val → P → Prop} {sv : Val → PM}

/-- values satisfying `A` can be saved -/
structure Good' (W : World) (dom : List Addr) (A : Val → P → Prop) (sv : Val → PM) : Prop where
  ok : ∀ v p, PI W dom p → A v p → Ok (sv v) p (Fr W dom p)
  mono : ∀ v p p', A v p → Fr W dom p p' → A v p'

theorem saveAll_t (hs : Good' W dom A sv) (vs : List Val) (p) (hp : PI W dom p) (h : ∀ v ∈ vs, A v p) :
    Ok (saveAll sv vs) p (Fr W dom p) := by
  induction vs generalizing p with
  | nil => exact Ok.emit (Fr.refl hp)
  | cons v vs ih =>
    refine Ok.seq (hs.ok v p hp (h v (by simp))) ?_
    intro p1 h1
    refine (ih p1 h1.inv fun w hw => hs.mono _ _ _ (h w (by simp [hw])) h1).conseq ?_
    intro p2 h2; exact h1.trans h2

theorem saveKVs_t (hs : Good' W dom A sv) (es : List (Val × Val)) (p) (hp : PI W dom p)
    (h : ∀ v ∈ kvVals es, A v p) : Ok (saveKVs sv es) p (Fr W dom p) := by
  induction es generalizing p with
  | nil => exact Ok.emit (Fr.refl hp)
  | cons e es ih =>
    obtain ⟨k, v⟩ := e
    refine Ok.seq (hs.ok k p hp (h k (by simp [kvVals]))) ?_
    intro p1 h1
    refine Ok.seq (hs.ok v p1 h1.inv (hs.mono _ _ _ (h v (by simp [kvVals])) h1)) ?_
    intro p2 h2
    have h12 := h1.trans h2
    refine (ih p2 h2.inv fun w hw => hs.mono _ _ _ (h w (by simp [kvVals] at hw ⊢; exact .inr (.inr hw))) h12).conseq ?_
    intro p3 h3; exact h12.trans h3

theorem batchAppends_t (hs : Good' W dom A sv) (vs : List Val) (p) (hp : PI W dom p) (h : ∀ v ∈ vs, A v p) :
    Ok (batchAppends sv vs) p (Fr W dom p) := by
  unfold batchAppends
  rw [← chunks_flatten vs] at h
  generalize chunks vs = cs at h
  induction cs generalizing p with
  | nil => exact Ok.emit (Fr.refl hp)
  | cons c cs ih =>
    simp only [List.foldr_cons]
    refine Ok.seq (Q1 := Fr W dom p) ?_ ?_
    · split
      · refine Ok.seq (hs.ok _ p hp (h _ (by simp))) ?_
        intro p1 h1; exact Ok.emit h1
      · refine Ok.seq (Q1 := fun q => p = q) (Ok.emit rfl) ?_
        rintro _ rfl
        refine Ok.seq (saveAll_t hs c _ hp fun v hv => h v (by simp [hv])) ?_
        intro p1 h1; exact Ok.emit h1
    · intro p1 h1
      refine (ih p1 h1.inv fun w hw => hs.mono _ _ _ (h w (by
        simp only [List.flatten_cons, List.mem_append]; exact .inr hw)) h1).conseq ?_
      intro p2 h2; exact h1.trans h2

theorem batchAdds_t (hs : Good' W dom A sv) (vs : List Val) (p) (hp : PI W dom p) (h : ∀ v ∈ vs, A v p) :
    Ok (batchAdds sv vs) p (Fr W dom p) := by
  unfold batchAdds
  rw [← chunks_flatten vs] at h
  generalize chunks vs = cs at h
  induction cs generalizing p with
  | nil => exact Ok.emit (Fr.refl hp)
  | cons c cs ih =>
    simp only [List.foldr_cons]
    refine Ok.seq (Q1 := Fr W dom p) ?_ ?_
    · refine Ok.seq (Q1 := fun q => p = q) (Ok.emit rfl) ?_
      rintro _ rfl
      refine Ok.seq (saveAll_t hs c _ hp fun v hv => h v (by simp [hv])) ?_
      intro p1 h1; exact Ok.emit h1
    · intro p1 h1
      refine (ih p1 h1.inv fun w hw => hs.mono _ _ _ (h w (by
        simp only [List.flatten_cons, List.mem_append]; exact .inr hw)) h1).conseq ?_
      intro p2 h2; exact h1.trans h2

theorem kvVals_append (a b : List (Val × Val)) : kvVals (a ++ b) = kvVals a ++ kvVals b := by simp [kvVals]

theorem batchSetitems_t (hs : Good' W dom A sv) (es : List (Val × Val)) (p) (hp : PI W dom p)
    (h : ∀ v ∈ kvVals es, A v p) : Ok (batchSetitems sv es) p (Fr W dom p) := by
  unfold batchSetitems
  rw [← chunks_flatten es] at h
  generalize chunks es = cs at h
  induction cs generalizing p with
  | nil => exact Ok.emit (Fr.refl hp)
  | cons c cs ih =>
    simp only [List.foldr_cons]
    rw [List.flatten_cons, kvVals_append] at h
    refine Ok.seq (Q1 := Fr W dom p) ?_ ?_
    · split
      · refine Ok.seq (hs.ok _ p hp (h _ (by simp [kvVals]))) ?_
        intro p1 h1
        refine Ok.seq (hs.ok _ p1 h1.inv (hs.mono _ _ _ (h _ (by simp [kvVals])) h1)) ?_
        intro p2 h2; exact Ok.emit (h1.trans h2)
      · refine Ok.seq (Q1 := fun q => p = q) (Ok.emit rfl) ?_
        rintro _ rfl
        refine Ok.seq (saveKVs_t hs c _ hp fun v hv => h v (by simp [hv])) ?_
        intro p1 h1; exact Ok.emit h1
    · intro p1 h1
      refine (ih p1 h1.inv fun w hw => hs.mono _ _ _ (h w (by simp [hw])) h1).conseq ?_
      intro p2 h2; exact h1.trans h2

theorem saveDict_t (hs : Good' W dom A sv) (k : Key) (es : List (Val × Val)) (p) (hp : PI W dom p)
    (h : ∀ v ∈ kvVals es, A v p) : Ok (saveDict sv k es) p (Fr W dom p) := by
  unfold saveDict
  refine Ok.seq (Q1 := fun q => p = q) (Ok.emit rfl) ?_
  rintro _ rfl
  refine Ok.seq (Q1 := Fr W dom p) (Ok.memoize (Fr.refl hp).memoized) ?_
  intro p1 h1
  refine (batchSetitems_t hs es p1 h1.inv fun w hw => hs.mono _ _ _ (h w hw) h1).conseq ?_
  intro p2 h2; exact h1.trans h2

def argVals : Arg → List Val
  | .val v => [v]
  | .dict _ es => kvVals es

theorem saveArgs_t (hs : Good' W dom A sv) (as : List Arg) (p) (hp : PI W dom p)
    (h : ∀ a ∈ as, ∀ v ∈ argVals a, A v p) : Ok (saveArgs sv as) p (Fr W dom p) := by
  induction as generalizing p with
  | nil => exact Ok.emit (Fr.refl hp)
  | cons a as ih =>
    refine Ok.seq (Q1 := Fr W dom p) ?_ ?_
    · cases a with
      | val v => exact hs.ok v p hp (h (.val v) (by simp) v (by simp [argVals]))
      | dict k es => exact saveDict_t hs k es p hp fun v hv => h (.dict k es) (by simp) v hv
    · intro p1 h1
      refine (ih p1 h1.inv fun b hb v hv => hs.mono _ _ _ (h b (by simp [hb]) v hv) h1).conseq ?_
      intro p2 h2; exact h1.trans h2

theorem anonTuple_t (hs : Good' W dom A sv) (as : List Arg) (p) (hp : PI W dom p)
    (h : ∀ a ∈ as, ∀ v ∈ argVals a, A v p) : Ok (anonTuple sv as) p (Fr W dom p) := by
  unfold anonTuple
  split
  · exact Ok.emit (Fr.refl hp)
  · split
    · refine Ok.seq (saveArgs_t hs as p hp h) ?_
      intro p1 h1
      refine Ok.seq (Q1 := fun q => p1 = q) (Ok.emit rfl) ?_
      rintro _ rfl
      exact Ok.memoize h1.memoized
    · refine Ok.seq (Q1 := fun q => p = q) (Ok.emit rfl) ?_
      rintro _ rfl
      refine Ok.seq (saveArgs_t hs as _ hp h) ?_
      intro p1 h1
      refine Ok.seq (Q1 := fun q => p1 = q) (Ok.emit rfl) ?_
      rintro _ rfl
      exact Ok.memoize h1.memoized

theorem callReduce_t (hs : Good' W dom A sv) (f : Val) (as : List Arg) (p) (hp : PI W dom p) (hf : A f p)
    (h : ∀ a ∈ as, ∀ v ∈ argVals a, A v p) : Ok (callReduce sv f as) p (Fr W dom p) := by
  unfold callReduce
  refine Ok.seq (hs.ok f p hp hf) ?_
  intro p1 h1
  refine Ok.seq (anonTuple_t hs as p1 h1.inv fun a ha v hv => hs.mono _ _ _ (h a ha v hv) h1) ?_
  intro p2 h2
  exact Ok.emit (h1.trans h2)

theorem memoOrGet_t (x : Addr) (p) (hp : PI W dom p) :
    Ok (memoOrGet x) p (fun p' => Fr W dom p p' ∧ .obj x ∈ p'.memo) := by
  unfold Ok memoOrGet
  cases h : idx p.memo (.obj x) with
  | some i => exact ⟨Fr.refl hp, List.mem_of_getElem? (idx_some h)⟩
  | none => exact ⟨(Fr.refl hp).memoized, by simp⟩

theorem saveState_t (hs : Good' W dom A sv) (st : Option St) (p) (hp : PI W dom p)
    (h : ∀ v ∈ stRefs st, A v p) : Ok (saveState sv st) p (Fr W dom p) := by
  cases st with
  | none => exact Ok.emit (Fr.refl hp)
  | some st =>
    cases st with
    | «opaque» v =>
      simp only [saveState]
      refine Ok.seq (hs.ok v p hp (h v (by simp [stRefs]))) ?_
      intro p1 h1; exact Ok.emit h1
    | attrs es =>
      simp only [saveState]
      refine Ok.seq (saveDict_t hs _ es p hp h) ?_
      intro p1 h1; exact Ok.emit h1

theorem runRed_t (hs : Good' W dom A sv) (r : Red) (p) (hp : PI W dom p) (hset : A W.setattr p)
    (hc : A W.contents p) (hq : A W.qualname p) (h : ∀ v ∈ redVals r, A v p) :
    Ok (runRed W sv r) p (Fr W dom p) := by
  cases r with
  | setCell c v =>
    simp only [runRed]
    refine Ok.seq (callReduce_t hs _ _ p hp hset ?_) ?_
    · intro a ha w hw
      simp at ha
      rcases ha with rfl | rfl | rfl <;> simp [argVals] at hw <;> subst hw
      · exact h _ (by simp [redVals])
      · exact hc
      · exact h _ (by simp [redVals])
    · intro p1 h1; exact Ok.emit h1
  | setQual c v =>
    simp only [runRed]
    refine Ok.seq (callReduce_t hs _ _ p hp hset ?_) ?_
    · intro a ha w hw
      simp at ha
      rcases ha with rfl | rfl | rfl <;> simp [argVals] at hw <;> subst hw
      · exact h _ (by simp [redVals])
      · exact hq
      · exact h _ (by simp [redVals])
    · intro p1 h1; exact Ok.emit h1
  | setItems f copy =>
    simp only [runRed]
    split
    · exact Ok.emit (Fr.refl hp)
    · have : ∀ i, Ok (emit [.get i] ;; batchSetitems sv copy ;; emit [.pop]) p (Fr W dom p) := by
        intro i
        refine Ok.seq (Q1 := fun q => p = q) (Ok.emit rfl) ?_
        rintro _ rfl
        refine Ok.seq (batchSetitems_t hs copy _ hp h) ?_
        intro p1 h1; exact Ok.emit h1
      unfold Ok
      cases hi : idx p.memo (.globs f) with
      | none => simp only [hi]
      | some i => simp only [hi]; exact this i
  | setDead f copy =>
    simp only [runRed]
    split
    · exact Ok.emit (Fr.refl hp)
    · trivial

theorem saveGlobal_t (x : Addr) (p) (hp : PI W dom p) : Ok (saveGlobal W x) p (Fr W dom p) := by
  unfold saveGlobal
  split
  · refine Ok.seq (Q1 := fun q => p = q) (Ok.emit rfl) ?_
    rintro _ rfl
    exact Ok.memoize (Fr.refl hp).memoized
  · trivial

theorem runReds_t (hs : Good' W dom A sv) (rs : List Red) (p) (hp : PI W dom p) (hset : A W.setattr p)
    (hc : A W.contents p) (hq : A W.qualname p) (h : ∀ r ∈ rs, ∀ v ∈ redVals r, A v p) :
    Ok (runReds W sv rs) p (Fr W dom p) := by
  induction rs generalizing p with
  | nil => exact Ok.emit (Fr.refl hp)
  | cons r rs ih =>
    refine Ok.seq (runRed_t hs r p hp hset hc hq (h r (by simp))) ?_
    intro p1 h1
    refine (ih p1 h1.inv (hs.mono _ _ _ hset h1) (hs.mono _ _ _ hc h1) (hs.mono _ _ _ hq h1)
      fun r' hr v hv => hs.mono _ _ _ (h r' (by simp [hr]) v hv) h1).conseq ?_
    intro p2 h2; exact h1.trans h2

theorem saveFuncState_t (hs : Good' W dom A sv) (attrs slots : List (Val × Val)) (p) (hp : PI W dom p)
    (ha : ∀ v ∈ kvVals attrs, A v p) (hb : ∀ v ∈ kvVals slots, A v p) :
    Ok (saveFuncState sv attrs slots) p (Fr W dom p) := by
  unfold saveFuncState
  split
  · refine Ok.seq (saveDict_t hs _ attrs p hp ha) ?_
    intro p1 h1; exact Ok.emit h1
  · refine Ok.seq (saveDict_t hs _ attrs p hp ha) ?_
    intro p1 h1
    refine Ok.seq (saveDict_t hs _ slots p1 h1.inv fun v hv => hs.mono _ _ _ (hb v hv) h1) ?_
    intro p2 h2
    refine Ok.seq (Q1 := fun q => p2 = q) (Ok.emit rfl) ?_
    rintro _ rfl
    refine Ok.seq (Q1 := Fr W dom p) (Ok.memoize (h1.trans h2).memoized) ?_
    intro p3 h3
    exact Ok.emit h3

end

end Verif.Core
