import Verif.Model.ClassHooks
/-! C94: the copy of a class with hooks has the attributes of the class. -/
set_option linter.unusedSimpArgs false
namespace Verif.ClassHooks

variable {V : Type}

/-! ### Specification -/

/-- the classes a program can have: made by a class statement (keywords `kw`), then changed by assigning and deleting attributes -/
inductive Made (m : Meta) (hooks : List (Hook V)) (g : Bool) : Dict String V → Cls V → Prop where
  | statement {kw body d} : classStatement m hooks kw body = .ok d → Made m hooks g kw ⟨m, hooks, d, g⟩
  | assign {kw c} (a : String) (v : V) : Made m hooks g kw c → Made m hooks g kw { c with dict := c.dict.set a v }
  | delete {kw c} (a : String) : Made m hooks g kw c → Made m hooks g kw { c with dict := c.dict.del a }

/-- the hook assignments, in the order they are run -/
def steps (hooks : List (Hook V)) : List (String × Src V) := hooks.flatten

/-- the last thing that is assigned to `a` -/
def lastFor (a : String) : List (String × Src V) → Option (Src V)
  | [] => none
  | p :: ps => match lastFor a ps with
    | some s => some s
    | none => if p.1 = a then some p.2 else none

/-- what is assigned when the hook is called without keywords -/
def noKeywords : Src V → Option V
  | .made v => some v
  | .param _ default => default

/-- some hook has a parameter without default that `kw` does not give -/
def Missing (kw : Dict String V) (hooks : List (Hook V)) : Prop :=
  ∃ a k, (a, Src.param k none) ∈ steps hooks ∧ kw.get k = none

/-! ### Lemmas -/

theorem value_none (kw : Dict String V) (s : Src V) : s.value kw = none ↔ ∃ k, s = .param k none ∧ kw.get k = none := by
  cases s with
  | made v => simp [Src.value]
  | param k d => cases hk : kw.get k <;> cases d <;> simp [Src.value, hk]

def fill (kw : Dict String V) (d : Dict String V) (l : List (String × Src V)) : Dict String V :=
  l.foldl (fun d p => match p.2.value kw with | some v => d.set p.1 v | none => d) d

theorem fill_get (kw : Dict String V) (l : List (String × Src V)) (hl : ∀ p ∈ l, p.2.value kw ≠ none) (a : String) : ∀ d : Dict String V,
    (fill kw d l).get a = match lastFor a l with | some s => s.value kw | none => d.get a := by
  induction l with
  | nil => intro d; rfl
  | cons p l ih =>
    intro d
    obtain ⟨v, hv⟩ : ∃ v, p.2.value kw = some v := Option.ne_none_iff_exists'.1 (hl p (by simp))
    have e : fill kw d (p :: l) = fill kw (d.set p.1 v) l := by simp only [fill, List.foldl_cons, hv]
    rw [e, ih (fun q hq => hl q (by simp [hq])), lastFor]
    cases lastFor a l with
    | some s => rfl
    | none =>
      simp only [Dict.get_set]
      by_cases h : p.1 = a
      · rw [if_pos h.symm, if_pos h, ← hv]
      · rw [if_neg (Ne.symm h), if_neg h]

theorem runHooks_eq (kw : Dict String V) (hooks : List (Hook V)) : ∀ d,
    (¬ Missing kw hooks → runHooks kw hooks d = .ok (fill kw d (steps hooks))) ∧ (Missing kw hooks → runHooks kw hooks d = .error .typeError) := by
  induction hooks with
  | nil => intro d; exact ⟨fun _ => rfl, fun ⟨a, k, h, _⟩ => by simp [steps] at h⟩
  | cons h hs ih =>
    intro d
    by_cases hh : (h.all fun p => (p.2.value kw).isSome) = true
    · have hok : runHook kw h d = .ok (fill kw d h) := by unfold runHook; rw [if_pos hh]; rfl
      have hno : ∀ a k, (a, Src.param k none) ∈ h → kw.get k ≠ none := by
        intro a k hm hk
        have := (List.all_eq_true.1 hh) _ hm
        simp [Src.value, hk] at this
      have hiff : Missing kw (h :: hs) ↔ Missing kw hs := by
        constructor
        · rintro ⟨a, k, hm, hk⟩
          simp only [steps, List.flatten_cons, List.mem_append] at hm
          rcases hm with hm | hm
          · exact absurd hk (hno a k hm)
          · exact ⟨a, k, hm, hk⟩
        · rintro ⟨a, k, hm, hk⟩
          exact ⟨a, k, by simp only [steps, List.flatten_cons, List.mem_append]; exact .inr hm, hk⟩
      simp only [hiff, runHooks, hok]
      have := ih (fill kw d h)
      refine ⟨fun hn => ?_, this.2⟩
      rw [this.1 hn]
      simp [fill, steps, List.foldl_append]
    · have her : runHook kw h d = .error .typeError := by unfold runHook; rw [if_neg hh]
      have hmiss : Missing kw (h :: hs) := by
        have hf : (h.all fun p => (p.2.value kw).isSome) = false := by simpa using hh
        obtain ⟨p, hp, hv⟩ := List.all_eq_false.1 hf
        have hv : p.2.value kw = none := by simpa using hv
        obtain ⟨k, e1, e2⟩ := (value_none kw p.2).1 hv
        refine ⟨p.1, k, ?_, e2⟩
        simp only [steps, List.flatten_cons, List.mem_append]
        left; rw [← e1]; exact hp
      refine ⟨fun hn => absurd hmiss hn, fun _ => ?_⟩
      simp only [runHooks, her]

theorem not_missing {kw : Dict String V} {hooks : List (Hook V)} (h : ¬ Missing kw hooks) : ∀ p ∈ steps hooks, p.2.value kw ≠ none := by
  intro p hp hv
  obtain ⟨k, e1, e2⟩ := (value_none kw p.2).1 hv
  exact h ⟨p.1, k, by rw [← e1]; exact hp, e2⟩

theorem lastFor_some {a : String} {l : List (String × Src V)} {s : Src V} (h : lastFor a l = some s) : (a, s) ∈ l := by
  induction l with
  | nil => cases h
  | cons p l ih =>
    rw [lastFor] at h
    cases hl : lastFor a l with
    | some s' => rw [hl] at h; cases h; exact List.mem_cons_of_mem _ (ih hl)
    | none =>
      rw [hl] at h
      simp only at h
      split at h
      · next e => cases h; subst e; simp
      · cases h

theorem lastFor_none {a : String} {l : List (String × Src V)} (h : lastFor a l = none) : ∀ s, (a, s) ∉ l := by
  induction l with
  | nil => intro s; simp
  | cons p l ih =>
    rw [lastFor] at h
    cases hl : lastFor a l with
    | some s' => rw [hl] at h; cases h
    | none =>
      rw [hl] at h
      simp only at h
      split at h
      · cases h
      · next e =>
        intro s hs
        rcases List.mem_cons.1 hs with rfl | hs
        · exact e rfl
        · exact ih hl s hs

theorem setAll (body : List (String × V)) : ∀ d : Dict String V,
    body.foldl (fun (n : Namespace V) p => n.set p.1 p.2) (.dict d) = .dict (body.foldl (fun d p => Dict.set d p.1 p.2) d) := by
  induction body with
  | nil => intro d; rfl
  | cons p b ih => intro d; exact ih _

theorem set_snoc (d : Dict String V) (k : String) (v : V) (h : k ∉ d.keys) : d.set k v = d ++ [(k, v)] := by
  induction d with
  | nil => rfl
  | cons p d ih =>
    obtain ⟨k', v'⟩ := p
    simp only [Dict.keys_cons, List.mem_cons, not_or] at h
    simp only [Dict.set, if_neg (Ne.symm h.1), ih h.2, List.cons_append]

theorem refill (l : List (String × V)) : ∀ d : Dict String V, ((d ++ l).map (·.1)).Nodup →
    l.foldl (fun d p => Dict.set d p.1 p.2) d = d ++ l := by
  induction l with
  | nil => intro d _; simp
  | cons p l ih =>
    intro d h
    have hp : p.1 ∉ Dict.keys d := by
      intro hm
      rw [List.map_append, List.nodup_append] at h
      exact h.2.2 _ hm _ (by simp) rfl
    rw [List.foldl_cons, set_snoc d p.1 p.2 hp, ih]
    · simp
    · simpa using h

theorem keys_set' (d : Dict String V) (k : String) (v : V) (h : d.WF) : (d.set k v).WF := Dict.wf_set h k v

theorem wf_fill (kw : Dict String V) (l : List (String × Src V)) : ∀ d : Dict String V, d.WF → (fill kw d l).WF := by
  induction l with
  | nil => intro d h; exact h
  | cons p l ih =>
    intro d h
    simp only [fill, List.foldl_cons]
    cases p.2.value kw with
    | none => exact ih d h
    | some v => exact ih _ (keys_set' d p.1 v h)

theorem wf_foldl (l : List (String × V)) : ∀ d : Dict String V, d.WF → (l.foldl (fun d p => Dict.set d p.1 p.2) d).WF := by
  induction l with
  | nil => intro d h; exact h
  | cons p l ih => intro d h; exact ih _ (keys_set' d p.1 p.2 h)

theorem made_wf {hooks : List (Hook V)} {g : Bool} {kw : Dict String V} {c : Cls V} (h : Made .plain hooks g kw c) :
    c.kind = .plain ∧ c.hooks = hooks ∧ c.generic = g ∧ c.dict.WF := by
  induction h with
  | statement hs =>
    refine ⟨rfl, rfl, rfl, ?_⟩
    simp only [classStatement, prepare, setAll, callMeta] at hs
    by_cases hm : Missing kw hooks
    · rw [(runHooks_eq _ hooks _).2 hm] at hs; cases hs
    · rw [(runHooks_eq _ hooks _).1 hm] at hs
      cases hs
      exact wf_fill _ _ _ (wf_foldl _ _ (by simp [Dict.WF]))
  | assign a v _ ih => exact ⟨ih.1, ih.2.1, ih.2.2.1, keys_set' _ _ _ ih.2.2.2⟩
  | delete a _ ih => exact ⟨ih.1, ih.2.1, ih.2.2.1, Dict.wf_del ih.2.2.2 a⟩

theorem load_eq {hooks : List (Hook V)} {g : Bool} {kw : Dict String V} {c : Cls V} (h : Made .plain hooks g kw c) :
    load c = runHooks [] hooks c.dict := by
  obtain ⟨h1, h2, h3, h4⟩ := made_wf h
  unfold load
  split
  · rw [classStatement, h1, prepare, setAll, callMeta, h2]
    rw [refill c.dict [] (by simpa [Dict.WF, Dict.keys] using h4)]
    rfl
  · rw [h1, h2]; rfl

/-! ### C94 -/

/-- C94 for a class whose bases and metaclass have no hooks: the copy is made of the same dictionary, in the same order, however the
class was made and changed, generic or not. -/
theorem C94_no_hooks (g : Bool) (kw : Dict String V) (c : Cls V) (h : Made .plain [] g kw c) : load c = .ok c.dict := by
  rw [load_eq h]; rfl

/-- C94 for any class that can be loaded: attributes that no hook assigns are kept. -/
theorem C94_other_attributes_partial (hooks : List (Hook V)) (g : Bool) (kw : Dict String V) (c : Cls V) (h : Made .plain hooks g kw c)
    (d : Dict String V) (hl : load c = .ok d) (a : String) (ha : ∀ s, (a, s) ∉ steps hooks) : d.get a = c.dict.get a := by
  rw [load_eq h] at hl
  by_cases hm : Missing ([] : Dict String V) hooks
  · rw [(runHooks_eq [] hooks _).2 hm] at hl; cases hl
  · rw [(runHooks_eq [] hooks _).1 hm] at hl
    cases hl
    rw [fill_get [] _ (not_missing hm)]
    cases hs : lastFor a (steps hooks) with
    | none => rfl
    | some s => exact absurd (lastFor_some hs) (ha s)

/-- C94 for the attributes that hooks assign: the copy has what the last hook assigns when it is called without keywords - not what the
class had.  So such an attribute is kept exactly when the two agree. -/
theorem C94_hook_attributes (hooks : List (Hook V)) (g : Bool) (kw : Dict String V) (c : Cls V) (h : Made .plain hooks g kw c)
    (d : Dict String V) (hl : load c = .ok d) (a : String) (s : Src V) (ha : lastFor a (steps hooks) = some s) :
    d.get a = noKeywords s := by
  rw [load_eq h] at hl
  by_cases hm : Missing ([] : Dict String V) hooks
  · rw [(runHooks_eq [] hooks _).2 hm] at hl; cases hl
  · rw [(runHooks_eq [] hooks _).1 hm] at hl
    cases hl
    rw [fill_get [] _ (not_missing hm), ha]
    cases s with
    | made v => rfl
    | param k dflt => rfl

/-- C94: a class is not loadable, for a TypeError, exactly when some hook has a parameter without default. -/
theorem C94_loads_iff (hooks : List (Hook V)) (g : Bool) (kw : Dict String V) (c : Cls V) (h : Made .plain hooks g kw c) :
    (load c = .error .typeError ↔ ∃ a k, (a, Src.param k none) ∈ steps hooks) ∧
    ((¬ ∃ a k, (a, Src.param k none) ∈ steps hooks) → ∃ d, load c = .ok d) := by
  rw [load_eq h]
  have hiff : Missing ([] : Dict String V) hooks ↔ ∃ a k, (a, Src.param k none) ∈ steps hooks :=
    ⟨fun ⟨a, k, h, _⟩ => ⟨a, k, h⟩, fun ⟨a, k, h⟩ => ⟨a, k, h, rfl⟩⟩
  by_cases hm : Missing ([] : Dict String V) hooks
  · rw [(runHooks_eq [] hooks _).2 hm]
    exact ⟨⟨fun _ => hiff.1 hm, fun _ => rfl⟩, fun hn => absurd (hiff.1 hm) hn⟩
  · rw [(runHooks_eq [] hooks _).1 hm]
    exact ⟨⟨fun e => (nomatch e), fun e => absurd (hiff.2 e) hm⟩, fun _ => ⟨_, rfl⟩⟩

/-- C94, exactly: a class that was not changed after its statement has all its attributes in the copy if and only if the keyword that
each hook attribute was last assigned from had its default value, or was not given. -/
theorem C94_unchanged_iff (hooks : List (Hook V)) (g : Bool) (kw : Dict String V) (body : List (String × V)) (c0 : Dict String V)
    (hc : classStatement .plain hooks kw body = .ok c0) (d : Dict String V) (hl : load ⟨.plain, hooks, c0, g⟩ = .ok d) :
    (∀ a, d.get a = c0.get a) ↔ ∀ a k dflt v, lastFor a (steps hooks) = some (.param k dflt) → kw.get k = some v → dflt = some v := by
  have hM : Made .plain hooks g kw ⟨.plain, hooks, c0, g⟩ := .statement hc
  have horig : ∀ a, c0.get a = match lastFor a (steps hooks) with
      | some s => s.value kw
      | none => (body.foldl (fun d p => Dict.set d p.1 p.2) []).get a := by
    intro a
    simp only [classStatement, prepare, setAll, callMeta] at hc
    by_cases hm : Missing kw hooks
    · rw [(runHooks_eq kw hooks _).2 hm] at hc; cases hc
    · rw [(runHooks_eq kw hooks _).1 hm] at hc
      cases hc
      rw [fill_get kw _ (not_missing hm)]
  constructor
  · intro h a k dflt v h1 h2
    have e1 := C94_hook_attributes hooks g kw _ hM d hl a _ h1
    have e2 := horig a
    rw [h1] at e2
    simp only [Src.value, h2, Option.some_or] at e2
    have e3 : dflt = d.get a := e1.symm
    rw [e3, h a]; exact e2
  · intro h a
    cases hs : lastFor a (steps hooks) with
    | none => exact C94_other_attributes_partial hooks g kw _ hM d hl a (lastFor_none hs)
    | some s =>
      rw [C94_hook_attributes hooks g kw _ hM d hl a s hs, horig a, hs]
      cases s with
      | made v => rfl
      | param k dflt =>
        simp only [Src.value]
        cases hk : kw.get k with
        | none => rfl
        | some v => exact h a k dflt v hs hk

/-- C94 fails for every enumeration that is saved by value: whatever its members, loading it raises AttributeError. -/
theorem C94_enum_never_loads (hooks : List (Hook V)) (kw : Dict String V) (c : Cls V) (h : Made .enum hooks false kw c) :
    load c = .error .attributeError := by
  have : c.kind = .enum ∧ c.generic = false := by
    induction h with
    | statement => exact ⟨rfl, rfl⟩
    | assign _ _ _ ih => exact ih
    | delete _ _ ih => exact ih
  unfold load
  rw [this.1, this.2]
  rfl

/-! ### Witnesses -/

/-- `def __init_subclass__(cls, tag=None): cls.tag = tag; cls.registry = {}` (0 is None, 1 the empty dictionary) -/
def tagHook : Hook Nat := [("tag", .param "tag" (some 0)), ("registry", .made 1)]

/-- C94 fails for `class A(Base, tag=7)`: the copy's tag is None. -/
theorem C94_keyword_lost : ∃ c0, classStatement .plain [tagHook] [("tag", 7)] [("f", 9)] = .ok c0 ∧ Dict.get c0 "tag" = some 7 ∧
    ∃ d, load ⟨.plain, [tagHook], c0, false⟩ = .ok d ∧ Dict.get d "tag" = some 0 := ⟨_, rfl, rfl, _, rfl, rfl⟩

/-- C94 fails for a registry that a hook makes and that is filled (here: replaced by 5) afterwards: the copy's is empty. -/
theorem C94_registry_emptied : ∃ c : Cls Nat, Made .plain [tagHook] false [] c ∧ c.dict.get "registry" = some 5 ∧
    ∃ d, load c = .ok d ∧ Dict.get d "registry" = some 1 :=
  ⟨_, .assign "registry" 5 (.statement (kw := []) (body := [("f", 9)]) rfl), rfl, _, rfl, rfl⟩

/-- C94 fails for `def __init_subclass__(cls, *, tag)`: the copy cannot be made. -/
theorem C94_required_keyword_fails : ∃ c : Cls Nat, Made .plain [[("tag", .param "tag" none)]] false [("tag", 7)] c ∧
    load c = .error .typeError :=
  ⟨_, .statement (body := []) rfl, rfl⟩

/-! ### concrete cases -/

example : ∃ c : Cls Nat, Made .enum [] false [] c ∧ c.dict.get "RED" = some 1 := ⟨_, .statement (body := [("RED", 1), ("BLUE", 2)]) rfl, rfl⟩
example : ∃ c : Cls Nat, Made .plain [] true [] c ∧ load c = .ok [("f", 1), ("g", 3)] :=
  ⟨_, .assign "g" 3 (.statement (body := [("f", 1), ("g", 2)]) rfl), rfl⟩
example : lastFor "tag" (steps [tagHook]) = some (.param "tag" (some 0)) := rfl
example : ∀ s, ("f", s) ∉ steps [tagHook] := lastFor_none rfl

/-- Making a class is the same for both kinds of metaclass: the body's assignments in order, then the hooks; no class statement fails but
for a keyword that a hook demands. -/
theorem C94_statement (m : Meta) (hooks : List (Hook V)) (kw : Dict String V) (body : List (String × V)) :
    (Missing kw hooks → classStatement m hooks kw body = .error .typeError) ∧
    (¬ Missing kw hooks → ∃ d, classStatement m hooks kw body = .ok d ∧
      ∀ a, d.get a = match lastFor a (body.map (fun p => (p.1, Src.made p.2)) ++ steps hooks) with
        | some (.made v) => some v
        | some (.param k default) => (kw.get k).or default
        | none => none) := by
  have hb : ∃ n : Namespace V, body.foldl (fun n p => n.set p.1 p.2) (prepare m) = n ∧
      callMeta m hooks kw n = runHooks kw hooks (body.foldl (fun d p => d.set p.1 p.2) []) := by
    cases m with
    | plain =>
      have : ∀ d : Dict String V, body.foldl (fun n p => n.set p.1 p.2) (Namespace.dict d) = .dict (body.foldl (fun d p => d.set p.1 p.2) d) := by
        induction body with
        | nil => intro d; rfl
        | cons p l ih => intro d; simp only [List.foldl_cons]; exact ih _
      exact ⟨_, this [], rfl⟩
    | enum =>
      have : ∀ (d : Dict String V) ms, ∃ ms', body.foldl (fun n p => n.set p.1 p.2) (Namespace.enumDict d ms) =
          .enumDict (body.foldl (fun d p => d.set p.1 p.2) d) ms' := by
        induction body with
        | nil => intro d ms; exact ⟨ms, rfl⟩
        | cons p l ih => intro d ms; simp only [List.foldl_cons]; exact ih _ _
      obtain ⟨ms', h⟩ := this [] []
      exact ⟨_, h, rfl⟩
  obtain ⟨n, h1, h2⟩ := hb
  have e : classStatement m hooks kw body = runHooks kw hooks (body.foldl (fun d p => d.set p.1 p.2) []) := by
    unfold classStatement; rw [h1, h2]
  rw [e]
  refine ⟨fun h => (runHooks_eq kw hooks _).2 h, fun h => ⟨_, (runHooks_eq kw hooks _).1 h, ?_⟩⟩
  intro a
  have hbody : body.foldl (fun (d : Dict String V) p => d.set p.1 p.2) [] = fill kw [] (body.map (fun p => (p.1, Src.made p.2))) := by
    unfold fill; rw [List.foldl_map]; rfl
  have happ : ∀ l d, fill kw (fill kw d l) (steps hooks) = fill kw d (l ++ steps hooks) := by
    intro l d; unfold fill; rw [List.foldl_append]
  rw [hbody, happ, fill_get]
  · cases lastFor a (body.map (fun p => (p.1, Src.made p.2)) ++ steps hooks) with
    | none => rfl
    | some s => cases s <;> rfl
  · intro p hp
    rcases List.mem_append.1 hp with hp | hp
    · obtain ⟨q, _, rfl⟩ := List.mem_map.1 hp
      simp [Src.value]
    · intro hv
      obtain ⟨k, hk, hg⟩ := (value_none kw p.2).1 hv
      obtain ⟨pa, ps⟩ := p
      cases hk
      exact h ⟨pa, k, hp, hg⟩

end Verif.ClassHooks
