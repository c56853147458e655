import Verif.Model.FuncAttrs
/-! C41: function attributes survive a round trip. -/
set_option linter.unusedSimpArgs false
namespace Verif.FuncAttrs
variable {V : Type}

theorem update_nil_get (d : Dict String V) (h : d.WF) (k : String) :
    (Dict.update ([] : Dict String V) d).get k = d.get k := by
  rw [Dict.get_update _ _ h]; cases d.get k <;> rfl

/-- C41 for `__name__`, `__module__`, `__defaults__`, `__kwdefaults__`, `__annotations__`, the code object and the
entries of `__dict__`: always preserved, whatever globals the function is saved with. -/
theorem C41_attributes (noAnn : V) (globName : Option (Option String)) (f : Func V) (hd : f.dict.WF) :
    let g := copyFunc noAnn globName f
    g.name = f.name ∧ g.module = f.module ∧ g.defaults = f.defaults ∧ g.kwdefaults = f.kwdefaults ∧
    g.annotations = f.annotations ∧ g.code = f.code ∧ (∀ k, g.dict.get k = f.dict.get k) := by
  obtain ⟨code, name, qual, mod, doc, df, kw, ann, dict, plain⟩ := f
  simp only at hd
  simp only [copyFunc, saveFunc, loadFunc, Slots.isEmpty, Option.isNone_some, Bool.and_false, Bool.false_and,
    setSlots, functionType]
  cases plain <;> cases doc <;> cases kw <;> rcases globName with _ | m <;> by_cases hq : qual = name <;>
    first
    | (simp [hq, update_nil_get _ hd]; done)
    | (by_cases hm : mod = m <;> simp [hq, hm, update_nil_get _ hd])

/-- C41 for `__qualname__` and `__doc__`: preserved unless the qualified name equals the name but differs from
the code's, or the function has no docstring but its code has one. -/
theorem C41_qualname_doc_partial (noAnn : V) (globName : Option (Option String)) (f : Func V) :
    let g := copyFunc noAnn globName f
    (f.qualname ≠ f.name ∨ f.code.qualname = f.name → g.qualname = f.qualname) ∧
    (f.doc ≠ none ∨ f.code.doc = none → g.doc = f.doc) := by
  obtain ⟨code, name, qual, mod, doc, df, kw, ann, dict, plain⟩ := f
  simp only [copyFunc, saveFunc, loadFunc, Slots.isEmpty, Option.isNone_some, Bool.and_false, Bool.false_and,
    setSlots, functionType]
  cases plain <;> cases doc <;> cases kw <;> rcases globName with _ | m <;> by_cases hq : qual = name <;>
    first
    | (simp [hq]; done)
    | (by_cases hm : mod = m <;> simp [hq, hm])

/-- C41 is false for `__qualname__`: a function that took over the name and qualified name of another one (as
`functools.wraps` does) comes back with the qualified name of its own code. -/
theorem C41_qualname_lost (noAnn : V) (globName : Option (Option String)) (f : Func V)
    (h : f.qualname = f.name) (hc : f.code.qualname ≠ f.name) :
    (copyFunc noAnn globName f).qualname = f.code.qualname ∧ (copyFunc noAnn globName f).qualname ≠ f.qualname := by
  obtain ⟨code, name, qual, mod, doc, df, kw, ann, dict, plain⟩ := f
  simp only at h hc
  subst h
  have : (copyFunc noAnn globName ⟨code, qual, qual, mod, doc, df, kw, ann, dict, plain⟩).qualname = code.qualname := by
    simp only [copyFunc, saveFunc, loadFunc, Slots.isEmpty, Option.isNone_some, Bool.and_false, Bool.false_and,
      setSlots, functionType]
    cases plain <;> cases doc <;> cases kw <;> rcases globName with _ | m <;>
      first
      | (simp; done)
      | (by_cases hm : mod = m <;> simp [hm])
  exact ⟨this, by rw [this]; exact hc⟩

/-- C41 is false for `__doc__`: a docstring removed from a function comes back. -/
theorem C41_doc_reappears (noAnn : V) (globName : Option (Option String)) (f : Func V) (d : V)
    (h : f.doc = none) (hc : f.code.doc = some d) : (copyFunc noAnn globName f).doc = some d := by
  obtain ⟨code, name, qual, mod, doc, df, kw, ann, dict, plain⟩ := f
  simp only at h hc
  subst h
  simp only [copyFunc, saveFunc, loadFunc, Slots.isEmpty, Option.isNone_some, Bool.and_false, Bool.false_and,
    setSlots, functionType]
  cases plain <;> cases kw <;> rcases globName with _ | m <;> by_cases hq : qual = name <;>
    first
    | (simp [hq, hc]; done)
    | (by_cases hm : mod = m <;> simp [hq, hm, hc])

/-- C41: the copy has a plain `dict` as its `__dict__` exactly if the function has (else the copied mapping of the other class). -/
theorem C41_dict_class (noAnn : V) (globName : Option (Option String)) (f : Func V) :
    (copyFunc noAnn globName f).plainDict = f.plainDict := by
  obtain ⟨code, name, qual, mod, doc, df, kw, ann, dict, plain⟩ := f
  simp only [copyFunc, saveFunc, loadFunc, Slots.isEmpty, Option.isNone_some, Bool.and_false, Bool.false_and,
    setSlots, functionType]
  cases plain <;> cases doc <;> cases kw <;> rcases globName with _ | m <;> by_cases hq : qual = name <;>
    first
    | (simp [hq]; done)
    | (by_cases hm : mod = m <;> simp [hq, hm])

/-! ### concrete cases -/

/-- a method with a docstring, an attribute and annotations, whose module's name is not that of its globals -/
def exF : Func Nat :=
  { code := ⟨"C.f", some 1, 7⟩, name := "f", qualname := "C.f", module := some "m", doc := some 1
    defaults := some 2, kwdefaults := some 3, annotations := 4, dict := [("note", 5)], plainDict := true }
example : exF.dict.WF := by decide
example : copyFunc 0 (some (some "other")) exF = exF := rfl
/-- what functools.wraps makes of a decorator's inner function -/
def exWrapped : Func Nat :=
  { exF with code := ⟨"deco.<locals>.wrapper", none, 8⟩, name := "f", qualname := "f" }
example : (copyFunc 0 (some (some "m")) exWrapped).qualname = "deco.<locals>.wrapper" := rfl

end Verif.FuncAttrs
