import Verif.Model.IsDill
import Verif.Props.Modules
set_option linter.unusedSimpArgs false
/-! C88: a pickler derived from dill's is treated as dill's. -/
namespace Verif.Modules

/-- a pickler made by `dill.Pickler.__init__`: derived from dill.Pickler exactly if it has the attribute `_main` -/
def Pickler.Built (P : Pickler) : Prop := P.derived = true ↔ P.main.isSome = true

/-- somewhere in the name -/
def Mentions (needle s : Str) : Prop := ∃ a b : Str, s = a ++ needle ++ b

theorem isDill_false_iff (P : Pickler) : isDill P (some false) = true ↔ Mentions "dill".toList P.module_ := by
  simp only [isDill, if_true, Mentions]
  generalize hn : "dill".toList = n
  have hne : n ≠ [] := by rw [← hn]; decide
  clear hn
  generalize P.module_ = s
  induction s with
  | nil =>
    simp only [contains]
    constructor
    · intro h
      obtain ⟨r, hr⟩ := isPrefixOf_iff.1 h
      cases n with
      | nil => exact absurd rfl hne
      | cons c n => cases hr
    · rintro ⟨a, b, h⟩
      exact absurd (List.append_eq_nil_iff.1 (List.append_eq_nil_iff.1 h.symm).1).2 hne
  | cons c s ih =>
    simp only [contains, Bool.or_eq_true, ih]
    constructor
    · rintro (h | ⟨a, b, h⟩)
      · obtain ⟨r, hr⟩ := isPrefixOf_iff.1 h
        exact ⟨[], r, by simpa using hr⟩
      · exact ⟨c :: a, b, by simp [h]⟩
    · rintro ⟨a, b, h⟩
      cases a with
      | nil => left; exact isPrefixOf_iff.2 ⟨b, by simpa using h⟩
      | cons d a => right; simp only [List.cons_append, List.cons.injEq] at h; exact ⟨a, b, h.2⟩

/-- the property: what is asked of the class's module agrees with what is asked of its ancestors -/
def C88_full : Prop := ∀ (P : Pickler), P.Built → ∀ child, isDill P child = P.derived

/-- C88: picklers are told apart by their class whenever a caller allows subclasses, … -/
theorem C88_children (P : Pickler) (child : Option Bool) (h : child ≠ some false) : isDill P child = P.derived := by
  simp [isDill, h]

/-- … and otherwise too if the module's name mentions dill exactly for derived classes. -/
theorem C88_same_answer_partial (P : Pickler) (h : Mentions "dill".toList P.module_ ↔ P.derived = true) (child : Option Bool) :
    isDill P child = P.derived := by
  by_cases hc : child = some false
  · subst hc
    have := (isDill_false_iff P).trans h
    cases h1 : isDill P (some false) <;> cases h2 : P.derived <;> simp_all
  · exact C88_children P child hc

/-- C88 for the namespace of `__main__`: pickled by any pickler derived from dill's, wherever that class was defined, outside a
session and with `_main` being `__main__`, it is stored by reference, and loads as the namespace itself. -/
theorem C88_main_namespace (I : ImportSys) (eq : Val → Val → Except Exc Bool) (P : Pickler) (w : World) (top fresh m : Obj)
    (hmain : P.main = some (m, top)) (hs : P.session = false)
    (himp : ImportedAs w "__main__".toList m) (hns : w.nsId m = some top) (hwf : (w.dicts top).WF) :
    ∃ r, routeOf I eq P top w top = (w, .ok r) ∧ loadDict I top fresh w r = (w, .ok top) := by
  unfold routeOf
  rw [hmain]
  cases hd : isDill P (some false) with
  | true =>
    simp only
    obtain ⟨r, h1, h2⟩ := C55_main_namespace I eq ⟨true, P.session, P.firstPass, top, top⟩ w top fresh rfl hs rfl hwf
    exact ⟨r, h1, h2⟩
  | false =>
    simp only
    refine ⟨.top, ?_, ?_⟩
    · simp only [route, Bool.false_eq_true, if_false, dictEq_refl hwf, if_true]
    · unfold ImportedAs at himp
      simp only [loadDict, importName, himp]
      rw [if_neg (by decide)]
      simp only [loadDict.namespaceOf, hns]

/-- C88 for modules: the module a derived pickler works for is saved with its contents, whatever module the class is from. -/
theorem C88_main_module (S : Sys) (P : Pickler) (w : World) (o d : Obj) (st : Stored) (hP : P.Built) (hmain : P.main = some (o, d))
    (hs : saveModuleOf S P w o = .ok st) : ∃ n e, st = .state n e := by
  have hd : P.derived = true := hP.2 (by simp [hmain])
  unfold saveModuleOf at hs
  rw [C88_children P _ (by simp), hd, if_pos rfl, hmain] at hs
  exact C53_main_saved_with_contents S w o st hs

/-- a pickler without dill's attributes is left alone unless its module's name mentions dill -/
theorem C88_stock_pickler_partial (I : ImportSys) (eq : Val → Val → Except Exc Bool) (P : Pickler) (w : World) (top o : Obj)
    (hn : ¬ Mentions "dill".toList P.module_) :
    routeOf I eq P top w o = route I eq ⟨false, P.session, P.firstPass, top, top⟩ w o := by
  have : isDill P (some false) = false := by
    cases h : isDill P (some false)
    · rfl
    · exact absurd ((isDill_false_iff P).1 h) hn
  simp only [routeOf, this]

/-- … and if it does, no dict can be pickled with it: AttributeError. (`class P(pickle._Pickler)` in a module `armadillo`,
after `import dill`.) -/
theorem C88_stock_pickler_raises (I : ImportSys) (eq : Val → Val → Except Exc Bool) (P : Pickler) (w : World) (top o : Obj)
    (hm : P.main = none) (hn : Mentions "dill".toList P.module_) :
    routeOf I eq P top w o = (w, .error .attributeError) := by
  simp only [routeOf, (isDill_false_iff P).2 hn, hm]

/-- A subclass of dill.Pickler defined elsewhere, working for a module other than `__main__`: the namespace of that module is
copied, where dill's own pickler with the same attributes stores a reference to it. -/
theorem C88_subclass_copies_namespace : ∃ (I : ImportSys) (eq : Val → Val → Except Exc Bool) (P : Pickler) (w : World) (top o : Obj),
    P.Built ∧ P.derived = true ∧ P.main = some (0, o) ∧
    (routeOf I eq P top w o).2 = .ok .value ∧ (routeOf I eq { P with module_ := "dill._dill".toList } top w o).2 = .ok .main :=
  ⟨exI, exEq, ⟨"mine".toList, true, false, true, some (0, 10)⟩, exW, 15, 10, by simp [Pickler.Built], rfl, rfl,
    by decide +kernel, by decide +kernel⟩

/-- hence C88 as stated is false, for both reasons -/
theorem C88_full_false : ¬ C88_full := by
  intro h
  have := h ⟨"armadillo".toList, false, false, true, none⟩ (by simp [Pickler.Built]) (some false)
  exact absurd this (by decide +kernel)

/-! ### concrete cases -/

example : ¬ Mentions "dill".toList "mine".toList := by
  intro h
  have := (isDill_false_iff ⟨"mine".toList, true, false, true, none⟩).2 h
  exact absurd this (by decide +kernel)
example : Mentions "dill".toList "armadillo".toList := ⟨"arma".toList, "o".toList, by decide +kernel⟩
/-- the hypotheses of `C88_main_namespace` hold of a subclass from `mine` in the example interpreter -/
example : ImportedAs exW "__main__".toList 5 ∧ exW.nsId 5 = some 15 ∧ (exW.dicts 15).WF ∧
    (routeOf exI exEq ⟨"mine".toList, true, false, true, some (5, 15)⟩ 15 exW 15).2 = .ok .top := by
  refine ⟨by decide +kernel, by decide, exW_wf 15, by decide +kernel⟩

end Verif.Modules
