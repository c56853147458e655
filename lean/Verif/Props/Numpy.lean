import Verif.Model.Numpy
set_option linter.unusedSimpArgs false
/-! C90: instances of numpy classes. -/
namespace Verif.Numpy

/-! ### Specification -/

/-- a class of arrays -/
def ArrayClass (c : Cls) : Prop := ("numpy", "ndarray") ∈ c.mro

/-- a class of universal functions -/
def UfuncClass (c : Cls) : Prop := ("numpy", "ufunc") ∈ c.mro

/-- a class of numpy's -/
def NumpyClass (c : Cls) : Prop := ArrayClass c ∨ UfuncClass c ∨ ("numpy", "dtype") ∈ c.mro

instance (c : Cls) : Decidable (ArrayClass c) := by unfold ArrayClass; infer_instance
instance (c : Cls) : Decidable (UfuncClass c) := by unfold UfuncClass; infer_instance
instance (c : Cls) : Decidable (NumpyClass c) := by unfold NumpyClass; infer_instance

/-- nothing in the history registers a function for the class -/
def NotRegistered (t : Ty) (ops : List Op) : Prop := ∀ f, .register t f ∉ ops

/-- in the history every definition of the class satisfies `P` -/
def Always (P : Cls → Prop) (t : Ty) (ops : List Op) : Prop := ∀ c, .define t c ∈ ops → P c

/-- how the object is saved when it is pickled after the history -/
def saved (np : Bool) (dm : Ty) (s : St) (ops : List Op) (t : Ty) : Option Way := (step np dm (run np dm s ops) (.pickle t)).2

/-! ### Proofs -/

theorem isArray_iff (c : Cls) : isArray c = true ↔ ArrayClass c ∧ c.ownReduce = false := by
  unfold isArray ArrayClass
  by_cases h : ("numpy", "ndarray") ∈ c.mro
  · have : c.mro.all (· ≠ ("numpy", "ndarray")) = false := by
      rw [List.all_eq_false]; exact ⟨_, h, by simp⟩
    rw [this]; cases c.ownReduce <;> simp [h]
  · have : c.mro.all (· ≠ ("numpy", "ndarray")) = true := by
      rw [List.all_eq_true]; intro x hx; simp only [decide_eq_true_eq]; rintro rfl; exact h hx
    rw [this]; simp [h]

theorem isUfunc_iff (c : Cls) : isUfunc c = true ↔ UfuncClass c := by
  simp [isUfunc, UfuncClass]

theorem isDtype_iff (dm t : Ty) (c : Cls) : isDtype dm t c = true ↔ ("numpy", "dtype") ∈ c.mro ∧ t = dm := by
  unfold isDtype
  by_cases h : ("numpy", "dtype") ∈ c.mro
  · have : c.mro.all (· ≠ ("numpy", "dtype")) = false := by
      rw [List.all_eq_false]; exact ⟨_, h, by simp⟩
    rw [this]; simp [h]
  · have : c.mro.all (· ≠ ("numpy", "dtype")) = true := by
      rw [List.all_eq_true]; intro x hx; simp only [decide_eq_true_eq]; rintro rfl; exact h hx
    rw [this]; simp [h]

theorem hack_cls (np : Bool) (dm : Ty) (s : St) (t : Ty) : (hack np dm s t).cls = s.cls := by
  unfold hack; split <;> rfl

theorem hack_other (np : Bool) (dm : Ty) (s : St) (t u : Ty) (h : u ≠ t) : (hack np dm s t).dispatch.get u = s.dispatch.get u := by
  unfold hack
  split
  · dsimp only
    repeat' split
    all_goals simp [Dict.get_set, h]
  · rfl

theorem hack_kept (np : Bool) (dm : Ty) (s : St) (t : Ty) (w : Way) (u : Ty) (h : s.dispatch.get u = some w) :
    (hack np dm s t).dispatch.get u = some w := by
  by_cases e : u = t
  · subst e
    unfold hack
    rw [if_neg]
    · exact h
    · rintro ⟨_, h'⟩; exact h' (.inr (by rw [h]; rfl))
  · rw [hack_other _ _ _ _ _ e]; exact h

theorem hack_none (np : Bool) (dm : Ty) (s : St) (t : Ty) (h : isUfunc (s.cls t) = false) (h' : isDtype dm t (s.cls t) = false)
    (h'' : isArray (s.cls t) = false) : hack np dm s t = s := by
  unfold hack
  rw [h, h', h'']
  simp

theorem hack_array (dm : Ty) (s : St) (t : Ty) (h : isArray (s.cls t) = true) (h0 : t ≠ 0) (hd : s.dispatch.get t = none) :
    (hack true dm s t).dispatch.get t = some .array := by
  unfold hack
  rw [if_pos ⟨rfl, by simp [h0, hd]⟩, h]
  simp [Dict.get_set]

theorem run_cons (np : Bool) (dm : Ty) (s : St) (o : Op) (ops : List Op) : run np dm s (o :: ops) = run np dm (step np dm s o).1 ops := rfl

theorem run_append (np : Bool) (dm : Ty) (s : St) (a b : List Op) : run np dm s (a ++ b) = run np dm (run np dm s a) b := by
  simp [run, List.foldl_append]

/-- the class after a history satisfies what all its definitions satisfy -/
theorem run_cls (np : Bool) (dm : Ty) (P : Cls → Prop) (t : Ty) : ∀ (ops : List Op) (s : St), P (s.cls t) → Always P t ops →
    P ((run np dm s ops).cls t)
  | [], s, h, _ => h
  | o :: ops, s, h, ha => by
    rw [run_cons]
    refine run_cls np dm P t ops _ ?_ (fun c hc => ha c (List.mem_cons_of_mem _ hc))
    cases o with
    | pickle u => simp only [step, hack_cls]; exact h
    | register u f => exact h
    | define u c =>
      simp only [step]
      split
      · rename_i e; subst e; exact ha c (List.mem_cons_self ..)
      · exact h

/-- C90: an object whose class has its own reduction (so far as the class has always had it, and no one registered a function for it) is
saved by that reduction, whatever was pickled before: a function in copyreg's table, else `__reduce_ex__`. -/
theorem C90_own_reduction_partial (np : Bool) (dm : Ty) (s : St) (ops : List Op) (t : Ty) (hs : s.dispatch.get t = none)
    (hr : NotRegistered t ops)
    (h0 : (s.cls t).ownReduce = true ∧ ¬ UfuncClass (s.cls t) ∧ ("numpy", "dtype") ∉ (s.cls t).mro)
    (ha : Always (fun c => c.ownReduce = true ∧ ¬ UfuncClass c ∧ ("numpy", "dtype") ∉ c.mro) t ops)
    (hm : ((run np dm s ops).cls t).isMeta = false) :
    saved np dm s ops t = some (if ((run np dm s ops).cls t).copyreg then .copyreg else .reduceEx) := by
  have none3 : ∀ c, (c.ownReduce = true ∧ ¬ UfuncClass c ∧ ("numpy", "dtype") ∉ c.mro) →
      isUfunc c = false ∧ isDtype dm t c = false ∧ isArray c = false := by
    rintro c ⟨h1, h2, h3⟩
    refine ⟨?_, ?_, ?_⟩
    · rw [Bool.eq_false_iff]; intro h; exact h2 ((isUfunc_iff c).1 h)
    · rw [Bool.eq_false_iff]; intro h; exact h3 ((isDtype_iff dm t c).1 h).1
    · rw [Bool.eq_false_iff]; intro h; rw [((isArray_iff c).1 h).2] at h1; cases h1
  have key : (run np dm s ops).dispatch.get t = none ∧
      ((run np dm s ops).cls t).ownReduce = true ∧ ¬ UfuncClass ((run np dm s ops).cls t) ∧
        ("numpy", "dtype") ∉ ((run np dm s ops).cls t).mro := by
    clear hm
    refine ⟨?_, run_cls np dm (fun c => c.ownReduce = true ∧ ¬ UfuncClass c ∧ ("numpy", "dtype") ∉ c.mro) t ops s h0 ha⟩
    induction ops generalizing s with
    | nil => exact hs
    | cons o ops ih =>
      rw [run_cons]
      have hr' : NotRegistered t ops := fun f hf => hr f (List.mem_cons_of_mem _ hf)
      have ha' : Always (fun c => c.ownReduce = true ∧ ¬ UfuncClass c ∧ ("numpy", "dtype") ∉ c.mro) t ops :=
        fun c hc => ha c (List.mem_cons_of_mem _ hc)
      cases o with
      | pickle u =>
        refine ih _ ?_ hr' ?_ ha'
        · simp only [step]
          by_cases e : t = u
          · subst e
            obtain ⟨a, b, c⟩ := none3 _ h0
            rw [hack_none np dm s t a b c]; exact hs
          · rw [hack_other _ _ _ _ _ e]; exact hs
        · simp only [step, hack_cls]; exact h0
      | register u f =>
        refine ih _ ?_ hr' h0 ha'
        simp only [step]
        rw [Dict.get_set, if_neg]
        · exact hs
        · rintro rfl; exact hr f (List.mem_cons_self ..)
      | define u c =>
        refine ih _ hs hr' ?_ ha'
        simp only [step]
        split
        · rename_i e; subst e; exact ha c (List.mem_cons_self ..)
        · exact h0
  obtain ⟨k1, k2⟩ := key
  obtain ⟨a, b, c⟩ := none3 _ k2
  simp only [saved, step, hack_none np dm _ t a b c, way, k1, hm]
  simp only [Bool.false_eq_true, if_false]

/-- C90: an array whose class has (and always had) ndarray's reduction, and for which no one registered a function, is saved with its data
and attributes, whatever was pickled before. -/
theorem C90_array_saved_partial (dm : Ty) (s : St) (ops : List Op) (t : Ty) (h00 : t ≠ 0) (hs : s.dispatch.get t = none)
    (hr : NotRegistered t ops)
    (h0 : ArrayClass (s.cls t) ∧ (s.cls t).ownReduce = false)
    (ha : Always (fun c => ArrayClass c ∧ c.ownReduce = false) t ops) :
    saved true dm s ops t = some .array := by
  have key : ((run true dm s ops).dispatch.get t = none ∨ (run true dm s ops).dispatch.get t = some .array) := by
    have : (s.dispatch.get t = none ∨ s.dispatch.get t = some .array) := .inl hs
    clear hs
    induction ops generalizing s with
    | nil => exact this
    | cons o ops ih =>
      rw [run_cons]
      have hr' : NotRegistered t ops := fun f hf => hr f (List.mem_cons_of_mem _ hf)
      have ha' : Always (fun c => ArrayClass c ∧ c.ownReduce = false) t ops := fun c hc => ha c (List.mem_cons_of_mem _ hc)
      cases o with
      | pickle u =>
        refine ih _ hr' ?_ ha' ?_
        · simp only [step, hack_cls]; exact h0
        · simp only [step]
          rcases this with h | h
          · by_cases e : t = u
            · subst e; exact .inr (hack_array dm s t ((isArray_iff _).2 h0) h00 h)
            · rw [hack_other _ _ _ _ _ e]; exact .inl h
          · exact .inr (hack_kept _ _ _ _ _ _ h)
      | register u f =>
        refine ih _ hr' h0 ha' ?_
        simp only [step]
        rw [Dict.get_set, if_neg]
        · exact this
        · rintro rfl; exact hr f (List.mem_cons_self ..)
      | define u c =>
        refine ih _ hr' ?_ ha' this
        simp only [step]
        split
        · rename_i e; subst e; exact ha c (List.mem_cons_self ..)
        · exact h0
  have k2 := run_cls true dm (fun c => ArrayClass c ∧ c.ownReduce = false) t ops s h0 ha
  have : (hack true dm (run true dm s ops) t).dispatch.get t = some .array := by
    rcases key with h | h
    · exact hack_array dm _ t ((isArray_iff _).2 k2) h00 h
    · exact hack_kept _ _ _ _ _ _ h
  simp only [saved, step, way, this]

/-- C90: the function last registered for a class is used, whatever was pickled before or after it was registered. -/
theorem C90_registration_wins (np : Bool) (dm : Ty) (s : St) (pre post : List Op) (t : Ty) (f : Nat) (hr : NotRegistered t post) :
    saved np dm s (pre ++ .register t f :: post) t = some (.registered f) := by
  have : ∀ (ops : List Op) (s : St), s.dispatch.get t = some (.registered f) → NotRegistered t ops →
      (run np dm s ops).dispatch.get t = some (.registered f) := by
    intro ops
    induction ops with
    | nil => intro s h _; exact h
    | cons o ops ih =>
      intro s h hr
      rw [run_cons]
      refine ih _ ?_ (fun g hg => hr g (List.mem_cons_of_mem _ hg))
      cases o with
      | pickle u => exact hack_kept _ _ _ _ _ _ h
      | register u g =>
        simp only [step]
        rw [Dict.get_set, if_neg]
        · exact h
        · rintro rfl; exact hr g (List.mem_cons_self ..)
      | define u c => exact h
  rw [saved, run_append, run_cons]
  have := this post (step np dm (run np dm s pre) (.register t f)).1 (by simp [step, Dict.get_set]) hr
  simp only [step] at this ⊢
  have := hack_kept np dm _ t _ _ this
  simp only [way, this]

/-- the registrations of a history -/
def registered (init : Dict Ty Way) (t : Ty) : List Op → Option Way
  | [] => init.get t
  | .register u f :: ops => registered (init.set u (.registered f)) t ops
  | _ :: ops => registered init t ops

/-- C90: pickling objects never changes how objects of classes that are not numpy's are saved: what is used is what was registered. -/
theorem C90_other_classes (np : Bool) (dm : Ty) (t : Ty) : ∀ (ops : List Op) (s : St),
    ¬ NumpyClass (s.cls t) → Always (fun c => ¬ NumpyClass c) t ops →
    (run np dm s ops).dispatch.get t = registered s.dispatch t ops
  | [], s, _, _ => rfl
  | o :: ops, s, h0, ha => by
    have ha' : Always (fun c => ¬ NumpyClass c) t ops := fun c hc => ha c (List.mem_cons_of_mem _ hc)
    have congr : ∀ (ops : List Op) (d e : Dict Ty Way), d.get t = e.get t → registered d t ops = registered e t ops := by
      intro ops
      induction ops with
      | nil => intro d e h; exact h
      | cons o ops ih =>
        intro d e h
        cases o with
        | pickle u => exact ih d e h
        | register u f => exact ih _ _ (by rw [Dict.get_set, Dict.get_set, h])
        | define u c => exact ih d e h
    rw [run_cons]
    cases o with
    | pickle u =>
      rw [C90_other_classes np dm t ops _ (by simp only [step, hack_cls]; exact h0) ha']
      simp only [step, registered]
      apply congr
      by_cases e : t = u
      · subst e
        rw [hack_none]
        · rw [Bool.eq_false_iff]; intro h; exact h0 (.inr (.inl ((isUfunc_iff _).1 h)))
        · rw [Bool.eq_false_iff]; intro h; exact h0 (.inr (.inr ((isDtype_iff dm t _).1 h).1))
        · rw [Bool.eq_false_iff]; intro h; exact h0 (.inl ((isArray_iff _).1 h).1)
      · rw [hack_other _ _ _ _ _ e]
    | register u f => exact C90_other_classes np dm t ops _ h0 ha'
    | define u c =>
      refine C90_other_classes np dm t ops _ ?_ ha'
      simp only [step]
      split
      · rename_i e; subst e; exact ha c (List.mem_cons_self ..)
      · exact h0

/-- C90: without numpy installed, pickling registers nothing at all. -/
theorem C90_without_numpy (dm : Ty) (s : St) (t : Ty) : (step false dm s (.pickle t)).1 = s := by
  simp [step, hack]

/-- C90: universal functions are saved by name, and `type` itself is never registered. -/
theorem C90_ufunc (dm : Ty) (s : St) (t : Ty) (h : UfuncClass (s.cls t)) (ha : ¬ ArrayClass (s.cls t))
    (hd : ("numpy", "dtype") ∉ (s.cls t).mro) (h0 : t ≠ 0) (hs : s.dispatch.get t = none) :
    saved true dm s [] t = some .byName := by
  have h1 := (isUfunc_iff (s.cls t)).2 h
  have h2 : isDtype dm t (s.cls t) = false := by rw [Bool.eq_false_iff]; intro h; exact hd ((isDtype_iff dm t _).1 h).1
  have h3 : isArray (s.cls t) = false := by rw [Bool.eq_false_iff]; intro h; exact ha ((isArray_iff _).1 h).1
  have : (hack true dm s t).dispatch.get t = some .byName := by
    unfold hack
    rw [if_pos ⟨rfl, by simp [h0, hs]⟩, h1, h2, h3]
    simp [Dict.get_set]
  simp only [saved, run, List.foldl_nil, step, way, this]

/-- The dtype branch is dead: the metaclass of `numpy.dtype` does not have `numpy.dtype` among its bases, and then no object is ever saved by
`save_numpy_dtype`. -/
theorem C90_dtype_never (np : Bool) (dm : Ty) (s : St) (ops : List Op) (t : Ty) (hs : ∀ u, s.dispatch.get u ≠ some .dtype)
    (h0 : ("numpy", "dtype") ∉ (s.cls dm).mro) (ha : Always (fun c => ("numpy", "dtype") ∉ c.mro) dm ops) :
    saved np dm s ops t ≠ some .dtype := by
  have hk : ∀ (s : St) (v : Ty), ("numpy", "dtype") ∉ (s.cls dm).mro → (∀ u, s.dispatch.get u ≠ some .dtype) →
      ∀ u, (hack np dm s v).dispatch.get u ≠ some .dtype := by
    intro s v h0 hs u
    by_cases e : u = v
    · subst e
      unfold hack
      split
      · dsimp only
        have : isDtype dm u (s.cls u) = false := by
          rw [Bool.eq_false_iff]; intro h
          obtain ⟨h1, rfl⟩ := (isDtype_iff dm u _).1 h
          exact h0 h1
        rw [this]
        simp only [Bool.false_eq_true, if_false]
        repeat' split
        all_goals simp [Dict.get_set, hs]
      · exact hs u
    · rw [hack_other _ _ _ _ _ e]; exact hs u
  have key : ∀ u, (run np dm s ops).dispatch.get u ≠ some .dtype := by
    induction ops generalizing s with
    | nil => exact hs
    | cons o ops ih =>
      rw [run_cons]
      have ha' : Always (fun c => ("numpy", "dtype") ∉ c.mro) dm ops := fun c hc => ha c (List.mem_cons_of_mem _ hc)
      cases o with
      | pickle u => exact ih _ (hk s u h0 hs) (by simp only [step, hack_cls]; exact h0) ha'
      | register u f =>
        refine ih _ ?_ h0 ha'
        intro v
        simp only [step]
        rw [Dict.get_set]
        split
        · simp
        · exact hs v
      | define u c =>
        refine ih _ hs ?_ ha'
        simp only [step]
        split
        · rename_i e; subst e; exact ha c (List.mem_cons_self ..)
        · exact h0
  have k0 := run_cls np dm (fun c => ("numpy", "dtype") ∉ c.mro) dm ops s h0 ha
  have := hk _ t k0 key t
  simp only [saved, step, way]
  cases h : (hack np dm (run np dm s ops) t).dispatch.get t with
  | some w => intro h'; rw [h] at this; exact this h'
  | none => simp only; repeat' split
            all_goals simp

/-- C90: a saved array comes back with its class, its data and every attribute it had. -/
theorem C90_array_restored (final : Ty → Option (Dict String Nat)) (a : Arr) (hd : a.attrs.isSome ↔ (final a.cls).isSome)
    (hw : ∀ d, a.attrs = some d → d.WF) :
    ∃ b, createArray final (saveArray a) = some b ∧ b.cls = a.cls ∧ b.data = a.data ∧ (b.attrs.isSome ↔ a.attrs.isSome) ∧
      (∀ d e, a.attrs = some d → b.attrs = some e → ∀ k v, d.get k = some v → e.get k = some v) ∧
      ((∀ d e, a.attrs = some d → final a.cls = some e → ∀ k, (e.get k).isSome → (d.get k).isSome) →
        ∀ d e, a.attrs = some d → b.attrs = some e → ∀ k, e.get k = d.get k) := by
  obtain ⟨c, dat, at'⟩ := a
  cases at' with
  | none =>
    have : final c = none := by
      cases h : final c with
      | none => rfl
      | some e => simp [h] at hd
    exact ⟨⟨c, dat, none⟩, by simp [createArray, saveArray, this], rfl, rfl, by simp, by simp, by simp⟩
  | some d =>
    obtain ⟨e, he⟩ : ∃ e, final c = some e := by
      cases h : final c with
      | none => simp [h] at hd
      | some e => exact ⟨e, rfl⟩
    refine ⟨⟨c, dat, some (e.update d)⟩, by simp [createArray, saveArray, he], rfl, rfl, by simp, ?_, ?_⟩
    · intro d' e' h1 h2 k v hk
      cases h1; cases h2
      rw [Dict.get_update _ _ (hw d rfl), hk]
    · intro hall d' e' h1 h2 k
      cases h1; cases h2
      rw [Dict.get_update _ _ (hw d rfl)]
      cases hk : d.get k with
      | some v => rfl
      | none =>
        simp only
        cases hk' : e.get k with
        | none => rfl
        | some v =>
          have := hall d e rfl he k (by rw [hk']; rfl)
          rw [hk] at this; cases this

/-! ### What is false -/

/-- an ndarray subclass -/
def sub (own reg : Bool) : Cls := ⟨[("m", "A"), ("numpy", "ndarray"), ("builtins", "object")], own, false, reg⟩

def exSt (own reg : Bool) : St := ⟨[], fun t => if t = 1 then sub own reg else ⟨[("builtins", "object")], true, false, false⟩⟩

/-- The property for every history: an instance of an ndarray subclass that has its own reduction is saved by it. -/
def C90_full : Prop := ∀ (dm : Ty) (s : St) (ops : List Op) (t : Ty), s.dispatch.get t = none → NotRegistered t ops → t ≠ 0 →
  ((run true dm s ops).cls t).isMeta = false → ((run true dm s ops).cls t).ownReduce = true → ((run true dm s ops).cls t).copyreg = false →
  ¬ UfuncClass ((run true dm s ops).cls t) → ("numpy", "dtype") ∉ ((run true dm s ops).cls t).mro →
  saved true dm s ops t = some .reduceEx

/-- A `__reduce__` given to the class after one of its instances was pickled is never used; without that first pickle it is. -/
theorem C90_history_matters : saved true 9 (exSt false false) [.pickle 1, .define 1 (sub true false)] 1 = some .array ∧
    saved true 9 (exSt false false) [.define 1 (sub true false)] 1 = some .reduceEx := by decide

theorem C90_full_false : ¬ C90_full := by
  intro h
  have := h 9 (exSt false false) [.pickle 1, .define 1 (sub true false)] 1 rfl
    (by intro f hf; simp at hf) (by decide) rfl rfl rfl (by decide) (by decide)
  rw [C90_history_matters.1] at this
  cases this

/-- A function registered with copyreg for an ndarray subclass is not used. -/
theorem C90_copyreg_ignored : saved true 9 (exSt false true) [] 1 = some .array ∧ saved false 9 (exSt false true) [] 1 = some .copyreg := by
  decide

/-- An attribute that the class gives to new instances, deleted from this one, comes back. -/
theorem C90_deleted_attribute_returns : ∃ (final : Ty → Option (Dict String Nat)) (a b : Arr), createArray final (saveArray a) = some b ∧
    a.attrs = some [] ∧ b.attrs = some [("unit", 1)] :=
  ⟨fun _ => some [("unit", 1)], ⟨1, 5, some []⟩, ⟨1, 5, some [("unit", 1)]⟩, rfl, rfl, rfl⟩

/-! ### concrete cases -/

/-- a subclass with its own reduction, pickled twice, with other classes in between -/
example : saved true 9 (exSt true false) [.pickle 1, .pickle 2, .register 2 7, .pickle 2] 1 = some .reduceEx := by decide

example : (exSt true false).dispatch.get 1 = none ∧ NotRegistered 1 [.pickle 1, .pickle 2, .register 2 7] ∧
    ((exSt true false).cls 1).ownReduce = true ∧ ArrayClass ((exSt true false).cls 1) :=
  ⟨rfl, by intro f hf; simp at hf, rfl, by decide⟩

example : saved true 9 (exSt false false) [.pickle 1, .pickle 2, .register 2 7, .pickle 2] 1 = some .array := by decide
example : saved true 9 (exSt false false) [.pickle 1, .register 1 7, .pickle 1, .pickle 2] 1 = some (.registered 7) := by decide
example : ¬ NumpyClass ((exSt false false).cls 2) := by decide
/-- an instance with a changed and an added attribute -/
example : createArray (fun _ => some [("unit", 1)]) (saveArray ⟨1, 5, some [("unit", 2), ("note", 3)]⟩) =
    some ⟨1, 5, some [("unit", 2), ("note", 3)]⟩ := by decide

end Verif.Numpy
