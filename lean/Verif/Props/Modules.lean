import Verif.Model.Modules
/-! C52-C56: pickling modules and dicts that look like module namespaces. -/
set_option linter.unusedSimpArgs false
namespace Verif.Modules

deriving instance DecidableEq for Except

/-! ### specification -/

/-- `o` is the module imported under `name`: `sys.modules[name] is o`. -/
def ImportedAs (w : World) (name : Str) (o : Obj) : Prop := w.sysModules.get name = some (some o)

instance (w : World) (name : Str) (o : Obj) : Decidable (ImportedAs w name o) := by unfold ImportedAs; infer_instance

/-- neither a module nor a class -/
def Plain (w : World) (v : Val) : Prop := ∀ x, v = .obj x → w.kind x = .other

/-- the usual state after importing a submodule: its package is imported and has it as an attribute; or that attribute has
been rebound to something that is neither a module nor a class (a function of the same name), and the submodule is not
itself a package. -/
def BoundInPackage (w : World) (name : Str) (o : Obj) : Prop :=
  ∀ pkg last, name = pkg ++ '.' :: last → '.' ∉ last →
    pkg ≠ [] ∧ ∃ p, ImportedAs w pkg p ∧ (attr w p last = some (.obj o) ∨
      ∃ v, attr w p last = some v ∧ Plain w v ∧ attr w o "__path__".toList = none)

/-- nothing observable changed: same sys.modules, every dict has the same items -/
def Unchanged (w w' : World) : Prop :=
  w'.sysModules = w.sysModules ∧ w'.kind = w.kind ∧ w'.nsId = w.nsId ∧ ∀ d k, (w'.dicts d).get k = (w.dicts d).get k

/-! ### strings -/

theorem dropWhile_no {p : Char → Bool} (l r : List Char) (h : ∀ c ∈ l, p c = true) : (l ++ r).dropWhile p = r.dropWhile p := by
  induction l with
  | nil => rfl
  | cons a l ih => simp [List.dropWhile, h a (by simp), ih (fun c hc => h c (by simp [hc]))]

theorem takeWhile_no {p : Char → Bool} (l r : List Char) (h : ∀ c ∈ l, p c = true) :
    (l ++ r).takeWhile p = l ++ r.takeWhile p := by
  induction l with
  | nil => rfl
  | cons a l ih => simp [List.takeWhile, h a (by simp), ih (fun c hc => h c (by simp [hc]))]

theorem takeWhile_ne_dot (l : List Char) : '.' ∉ l.takeWhile (· != '.') := by
  induction l with
  | nil => simp
  | cons a l ih =>
    rw [List.takeWhile_cons]
    split
    · rename_i h
      intro hm
      rcases List.mem_cons.1 hm with rfl | hm
      · simp at h
      · exact ih hm
    · simp

theorem dropWhile_nil_dot (l : List Char) (h : l.dropWhile (· != '.') = []) : '.' ∉ l := by
  induction l with
  | nil => simp
  | cons a l ih =>
    rw [List.dropWhile_cons] at h
    split at h
    · rename_i h'
      intro hm
      rcases List.mem_cons.1 hm with rfl | hm
      · simp at h'
      · exact ih h hm
    · cases h

theorem rsplitDot_some {s a b : Str} (h : rsplitDot s = some (a, b)) : s = a ++ '.' :: b ∧ '.' ∉ b := by
  have hs : s.reverse = s.reverse.takeWhile (· != '.') ++ s.reverse.dropWhile (· != '.') :=
    (List.takeWhile_append_dropWhile ..).symm
  unfold rsplitDot at h
  cases hd : s.reverse.dropWhile (· != '.') with
  | nil => rw [hd] at h; cases h
  | cons c r =>
    rw [hd] at h
    have hc : c = '.' := by
      have := List.head?_dropWhile_not (p := (· != '.')) (l := s.reverse)
      rw [hd] at this
      simpa using this
    subst hc
    simp only [Option.some.injEq, Prod.mk.injEq] at h
    obtain ⟨rfl, rfl⟩ := h
    refine ⟨?_, ?_⟩
    · have := congrArg List.reverse hs
      rw [hd] at this
      simpa using this
    · intro hm
      have := List.mem_reverse.1 hm
      exact takeWhile_ne_dot _ this

theorem rsplitDot_eq {a b : Str} (h : '.' ∉ b) : rsplitDot (a ++ '.' :: b) = some (a, b) := by
  have hb : ∀ c ∈ b.reverse, (c != '.') = true := by
    intro c hc; simp only [bne_iff_ne]; rintro rfl; exact h (List.mem_reverse.1 hc)
  have e : (a ++ '.' :: b).reverse = b.reverse ++ '.' :: a.reverse := by simp
  unfold rsplitDot
  rw [e, dropWhile_no _ _ hb, takeWhile_no _ _ hb]
  simp [List.dropWhile, List.takeWhile]

theorem rsplitDot_none {s : Str} (h : rsplitDot s = none) : '.' ∉ s := by
  unfold rsplitDot at h
  cases hd : s.reverse.dropWhile (· != '.') with
  | cons c r => rw [hd] at h; cases h
  | nil =>
    have := dropWhile_nil_dot _ hd
    simpa using this

/-! ### importing something already imported -/

theorem importName_imported {I : ImportSys} {w : World} {name : Str} {o : Obj} (hn : name ≠ []) (h : ImportedAs w name o) :
    importName I w name = (w, .ok (.obj o)) := by
  unfold ImportedAs at h
  simp only [importName, if_neg hn, h]

theorem importBody_imported {I : ImportSys} {w : World} {name : Str} {o : Obj} (hn : name ≠ []) (h : ImportedAs w name o)
    (hk : w.kind o = .modl) (hb : BoundInPackage w name o) : importBody I w name = (w, .ok (.obj o)) := by
  unfold importBody
  split
  · unfold ImportedAs at h; simp only [h]
  · cases hr : rsplitDot name with
    | none => exact importName_imported hn h
    | some ab =>
      obtain ⟨a, b⟩ := ab
      obtain ⟨he, hd⟩ := rsplitDot_some hr
      obtain ⟨ha, p, hp, hpa⟩ := hb a b he hd
      rcases hpa with hpa | ⟨v, hpa, hv, hpath⟩
      · have hf : importFrom I w a b = (w, .ok (.obj p)) := by
          simp only [importFrom, importName_imported ha hp, hpa, Option.isNone_some, Bool.false_eq_true, and_false, if_false]
        simp only [hf, hpa, isModOrType, hk, true_or, decide_true, if_true]
      · have hf : importFrom I w a b = (w, .ok (.obj p)) := by
          simp only [importFrom, importName_imported ha hp, hpa, Option.isNone_some, Bool.false_eq_true, and_false, if_false]
        have hm : isModOrType w v = false := by
          unfold isModOrType
          cases v with
          | obj x => simp [hv x rfl]
          | none => rfl
          | str _ => rfl
        have hf2 : importFrom I w name b = (w, .ok (.obj o)) := by
          simp only [importFrom, importName_imported hn h, hpath, Option.isSome_none, Bool.false_eq_true, false_and, if_false]
        simp only [hf, hpa, hm, Bool.false_eq_true, if_false, hf2]

theorem importModule_imported {I : ImportSys} {safe : Bool} {w : World} {name : Str} {o : Obj} (hn : name ≠ [])
    (h : ImportedAs w name o) (hk : w.kind o = .modl) (hb : BoundInPackage w name o) :
    importModule I safe w name = (w, .ok (.obj o)) := by
  simp only [importModule, importBody_imported hn h hk hb]

theorem contains_sys {d : Dict Str (Option Obj)} {k : Str} {v : Option Obj} (h : d.get k = some v) :
    d.values.contains v = true := by
  have := Dict.mem_of_get h
  simp only [Dict.values, List.contains_iff_mem, List.mem_map]
  exact ⟨_, this, rfl⟩

/-! ### the stored state -/

/-- an entry of an IPython namespace that is not stored -/
def IPythonEntry (S : Sys) (d : Dict Str Val) (k : Str) : Prop :=
  (k = "exit".toList ∨ k = "quit".toList ∨ k = "get_ipython".toList) ∧
  ∃ v m, d.get k = some v ∧ S.moduleOf v = some (.str ("IPython".toList ++ m))

theorem isPrefixOf_iff {a b : Str} : a.isPrefixOf b = true ↔ ∃ r, b = a ++ r := by
  rw [List.isPrefixOf_iff_prefix]
  constructor
  · rintro ⟨r, rfl⟩; exact ⟨r, rfl⟩
  · rintro ⟨r, rfl⟩; exact ⟨r, rfl⟩

/-- the value of `k` belongs to IPython -/
def IPyVal (S : Sys) (d : Dict Str Val) (k : Str) : Prop :=
  ∃ v m, d.get k = some v ∧ S.moduleOf v = some (.str ("IPython".toList ++ m))

theorem dropIPython_get {S : Sys} (hN : S.moduleOf .none = none) : ∀ (xs : List Str) (d st : Dict Str Val),
    dropIPython S xs d = .ok st → ∀ k, (st.get k = d.get k ∧ ¬ (k ∈ xs ∧ IPyVal S d k)) ∨
      (st.get k = none ∧ k ∈ xs ∧ IPyVal S d k) := by
  intro xs
  induction xs with
  | nil =>
    intro d st h k
    simp only [dropIPython, Except.ok.injEq] at h
    subst h; left; simp
  | cons x xs ih =>
    intro d st h k
    have hgen : ¬ IPyVal S d x → dropIPython S xs d = .ok st → (st.get k = d.get k ∧ ¬ (k ∈ x :: xs ∧ IPyVal S d k)) ∨
      (st.get k = none ∧ k ∈ x :: xs ∧ IPyVal S d k) := fun hno h' => by
      rcases ih d st h' k with ⟨h1, h2⟩ | ⟨h1, h2, h3⟩
      · refine Or.inl ⟨h1, ?_⟩
        rintro ⟨hm, hv⟩
        rcases List.mem_cons.1 hm with rfl | hm
        · exact hno hv
        · exact h2 ⟨hm, hv⟩
      · exact Or.inr ⟨h1, List.mem_cons_of_mem _ h2, h3⟩
    simp only [dropIPython] at h
    cases hm : S.moduleOf ((d.get x).getD .none) with
    | none =>
      rw [hm] at h
      refine hgen ?_ h
      rintro ⟨v, m, hv, hvm⟩
      rw [hv] at hm; simp only [Option.getD_some] at hm; rw [hm] at hvm; cases hvm
    | some mv =>
      rw [hm] at h
      cases mv with
      | none => cases h
      | obj o => cases h
      | str m =>
        simp only at h
        by_cases hp : "IPython".toList.isPrefixOf m = true
        · rw [if_pos hp] at h
          obtain ⟨r, hr⟩ := isPrefixOf_iff.1 hp
          have hx : IPyVal S d x := by
            cases hd : d.get x with
            | none => rw [hd] at hm; simp only [Option.getD_none] at hm; rw [hN] at hm; cases hm
            | some v => rw [hd] at hm; exact ⟨v, r, hd, by rw [← hr]; exact hm⟩
          by_cases hk : k = x
          · subst hk
            refine Or.inr ⟨?_, by simp, hx⟩
            rcases ih _ st h k with ⟨h1, _⟩ | ⟨h1, _⟩
            · rw [h1, Dict.get_del_self]
            · exact h1
          · have hg : (d.del x).get k = d.get k := by rw [Dict.get_del, if_neg hk]
            rcases ih _ st h k with ⟨h1, h2⟩ | ⟨h1, h2, h3⟩
            · unfold IPyVal at h2; rw [hg] at h1 h2
              refine Or.inl ⟨h1, ?_⟩
              rintro ⟨hmem, hv⟩
              rcases List.mem_cons.1 hmem with rfl | hmem
              · exact hk rfl
              · exact h2 ⟨hmem, hv⟩
            · unfold IPyVal at h3; rw [hg] at h3
              exact Or.inr ⟨h1, List.mem_cons_of_mem _ h2, h3⟩
        · rw [if_neg hp] at h
          refine hgen ?_ h
          rintro ⟨v, m', hv, hvm⟩
          rw [hv] at hm; simp only [Option.getD_some] at hm; rw [hm] at hvm
          cases hvm
          exact hp (isPrefixOf_iff.2 ⟨_, rfl⟩)

/-- the names a saved module comes with -/
def Saved (S : Sys) (d : Dict Str Val) (k : Str) : Prop :=
  k ≠ "__builtins__".toList ∧ k ≠ "__loader__".toList ∧ ¬ IPythonEntry S d k

theorem stateOf_get {S : Sys} (hN : S.moduleOf .none = none) {d st : Dict Str Val} (h : stateOf S d = .ok st) (k : Str) :
    (Saved S d k → st.get k = d.get k) ∧ (¬ Saved S d k → st.get k = none) := by
  have key := dropIPython_get hN _ _ _ h k
  have e : ∀ k : Str, ((d.del "__builtins__".toList).del "__loader__".toList).get k =
      if k = "__loader__".toList then none else if k = "__builtins__".toList then none else d.get k := by
    intro k; rw [Dict.get_del]; split
    · rfl
    · rw [Dict.get_del]
  have memIff : k ∈ ipythonSingletons ↔ (k = "exit".toList ∨ k = "quit".toList ∨ k = "get_ipython".toList) := by
    simp only [ipythonSingletons, List.mem_cons, List.not_mem_nil, or_false]
  unfold IPyVal at key
  rw [memIff, e k] at key
  constructor
  · rintro ⟨h1, h2, h3⟩
    rw [if_neg h2, if_neg h1] at key
    rcases key with ⟨h4, _⟩ | ⟨_, h5, h6⟩
    · exact h4
    · exact absurd ⟨h5, h6⟩ h3
  · intro hns
    by_cases h2 : k = "__loader__".toList
    · rw [if_pos h2] at key
      rcases key with ⟨h4, _⟩ | ⟨h4, _⟩ <;> exact h4
    · by_cases h1 : k = "__builtins__".toList
      · rw [if_neg h2, if_pos h1] at key
        rcases key with ⟨h4, _⟩ | ⟨h4, _⟩ <;> exact h4
      · rw [if_neg h2, if_neg h1] at key
        have : IPythonEntry S d k := by
          by_cases hi : IPythonEntry S d k
          · exact hi
          · exact absurd ⟨h1, h2, hi⟩ hns
        rcases key with ⟨_, h5⟩ | ⟨h4, _⟩
        · exact absurd this h5
        · exact h4

theorem dropIPython_wf {S : Sys} : ∀ (xs : List Str) (d st : Dict Str Val), dropIPython S xs d = .ok st → d.WF → st.WF := by
  intro xs
  induction xs with
  | nil => intro d st h hw; simp only [dropIPython, Except.ok.injEq] at h; exact h ▸ hw
  | cons x xs ih =>
    intro d st h hw
    simp only [dropIPython] at h
    split at h
    · exact ih _ _ h hw
    · split at h
      · exact ih _ _ h (Dict.wf_del hw _)
      · exact ih _ _ h hw
    · cases h

theorem stateOf_wf {S : Sys} {d st : Dict Str Val} (h : stateOf S d = .ok st) (hw : d.WF) : st.WF :=
  dropIPython_wf _ _ _ h (Dict.wf_del (Dict.wf_del hw _) _)

theorem get_map {d : Dict Str Val} (f : Val → Val) (k : Str) :
    Dict.get (d.map fun p => (p.1, f p.2) : Dict Str Val) k = (d.get k).map f := by
  induction d with
  | nil => rfl
  | cons p d ih =>
    obtain ⟨a, b⟩ := p
    simp only [List.map_cons, Dict.get]
    split
    · rfl
    · exact ih

theorem wf_map {d : Dict Str Val} (f : Val → Val) (h : d.WF) : Dict.WF (d.map fun p => (p.1, f p.2) : Dict Str Val) := by
  have : Dict.keys (d.map fun p => (p.1, f p.2) : Dict Str Val) = d.keys := by
    simp only [Dict.keys, List.map_map]; rfl
  unfold Dict.WF at *; rw [this]; exact h

/-! ### C53: what a module's contents become on load -/

/-- Loading the pickle of a module saved with its contents, in any interpreter `w2` where that name is imported as the
module `o2`, which has no global named `__setstate__` (else: `C53_setstate_called`): the result is `o2`; every saved name has the loaded value of what it had when dumped; every other name of
`o2`, every other dict and sys.modules stay as they were. -/
theorem C53_contents_overlay_partial (S : Sys) (hN : S.moduleOf .none = none) (I : ImportSys) (tr : Val → Val) (main : Option Obj)
    (w : World) (o : Obj) (name : Str) (d : Obj) (sname : Str) (st : Dict Str Val)
    (_hname : attr w o "__name__".toList = some (.str name)) (hd : w.nsId o = some d) (hwf : (w.dicts d).WF)
    (hs : saveModule S main w o = .ok (.state sname st))
    (w2 : World) (o2 d2 : Obj) (hne : sname ≠ []) (himp : ImportedAs w2 sname o2) (hk : w2.kind o2 = .modl)
    (hb : BoundInPackage w2 sname o2) (hset : attr w2 o2 "__setstate__".toList = none) (hd2 : w2.nsId o2 = some d2) :
    ∃ w3, loadModule I tr w2 (.state sname st) = (w3, .ok (.obj o2)) ∧
      (∀ k v, Saved S (w.dicts d) k → (w.dicts d).get k = some v → (w3.dicts d2).get k = some (tr v)) ∧
      (∀ k, (¬ Saved S (w.dicts d) k ∨ (w.dicts d).get k = none) → (w3.dicts d2).get k = (w2.dicts d2).get k) ∧
      (∀ x, x ≠ d2 → w3.dicts x = w2.dicts x) ∧
      w3.sysModules = w2.sysModules ∧ w3.kind = w2.kind ∧ w3.nsId = w2.nsId := by
  have hst : stateOf S (w.dicts d) = .ok st := by
    unfold saveModule at hs
    rw [_hname, hd] at hs
    split at hs
    · cases hs
    · simp only at hs
      split at hs
      · split at hs
        · cases hs
        · rename_i st' h'
          simp only [Except.ok.injEq, Stored.state.injEq] at hs
          rw [h', hs.2]
      · split at hs <;> simp at hs
  have hw := wf_map tr (stateOf_wf hst hwf)
  refine ⟨setNs w2 d2 (st.map fun p => (p.1, tr p.2)), ?_, ?_, ?_, ?_, rfl, rfl, rfl⟩
  · simp only [loadModule, importModule_imported hne himp hk hb, build, hset, hd2]
  · intro k v hsv hv
    have := (stateOf_get hN hst k).1 hsv
    simp only [setNs, if_true]
    rw [Dict.get_update _ _ hw, get_map, this, hv]; rfl
  · intro k hor
    have : st.get k = none := by
      rcases hor with h | h
      · exact (stateOf_get hN hst k).2 h
      · by_cases hsv : Saved S (w.dicts d) k
        · rw [(stateOf_get hN hst k).1 hsv, h]
        · exact (stateOf_get hN hst k).2 hsv
    simp only [setNs, if_true]
    rw [Dict.get_update _ _ hw, get_map, this]; rfl
  · intro x hx
    simp only [setNs, if_neg hx]

/-- Loading the pickle of a module saved by name, where it is already imported, returns it and changes nothing. -/
theorem C53_by_name_changes_nothing (S : Sys) (I : ImportSys) (tr : Val → Val) (main : Option Obj) (w : World) (o : Obj)
    (name : Str) (_hs : saveModule S main w o = .ok (.byName name)) (w2 : World) (o2 : Obj) (hne : name ≠ [])
    (himp : ImportedAs w2 name o2) (hk : w2.kind o2 = .modl) (hb : BoundInPackage w2 name o2) :
    loadModule I tr w2 (.byName name) = (w2, .ok (.obj o2)) ∧ attr w o "__name__".toList = some (.str name) := by
  refine ⟨by simp only [loadModule, importModule_imported hne himp hk hb], ?_⟩
  unfold saveModule at _hs
  split at _hs
  · cases _hs
  · split at _hs
    · rename_i n _ h1 _
      split at _hs
      · split at _hs <;> simp at _hs
      · split at _hs
        · simp at _hs
        · simp only [Except.ok.injEq, Stored.byName.injEq] at _hs
          rw [h1, _hs]
    · cases _hs

/-! ### C52: same process -/

theorem dillDill_bound {w : World} {o p : Obj} (h2 : ImportedAs w "dill".toList p) (h3 : attr w p "_dill".toList = some (.obj o))
    (I : ImportSys) : findDillDill I w = (w, .ok (.obj o)) := by
  simp only [findDillDill, importName_imported (by decide) h2, h3]

/-- Pickling a module that is imported under its name and unpickling it in the same interpreter returns the same module
object, and no name in any namespace changes. -/
theorem C52_same_module_partial (S : Sys) (hN : S.moduleOf .none = none) (I : ImportSys) (main : Option Obj) (w : World)
    (o : Obj) (name : Str) (d : Obj) (st : Stored) (hk : w.kind o = .modl)
    (hname : attr w o "__name__".toList = some (.str name)) (hd : w.nsId o = some d) (hwf : (w.dicts d).WF)
    (hne : name ≠ []) (himp : ImportedAs w name o) (hb : BoundInPackage w name o)
    (hset : attr w o "__setstate__".toList = none)
    (hdill : name = "dill._dill".toList → ∃ p, ImportedAs w "dill".toList p ∧ attr w p "_dill".toList = some (.obj o))
    (hs : saveModule S main w o = .ok st) :
    ∃ w', loadModule I id w st = (w', .ok (.obj o)) ∧ Unchanged w w' := by
  have himp' : isImported w o = true := by
    simp only [isImported, contains_sys himp, Bool.or_true]
  have hs' := hs
  unfold saveModule at hs
  rw [hname, hd] at hs
  split at hs
  · cases hs
  · simp only at hs
    split at hs
    · split at hs
      · cases hs
      · rename_i st' h'
        simp only [himp', if_true, Except.ok.injEq] at hs
        subst hs
        obtain ⟨w3, h1, h2, h3, h4, h5, h6, h7⟩ := C53_contents_overlay_partial S hN I id main w o name d name st' hname hd hwf hs'
          w o d hne himp hk hb hset hd
        refine ⟨w3, h1, h5, h6, h7, ?_⟩
        intro x k
        by_cases hx : x = d
        · subst hx
          by_cases hsv : Saved S (w.dicts x) k
          · cases hg : (w.dicts x).get k with
            | none => rw [h3 k (Or.inr hg), hg]
            | some v => rw [h2 k v hsv hg]; rfl
          · exact h3 k (Or.inl hsv)
        · rw [h4 x hx]
    · split at hs
      · rename_i h'
        simp only [Except.ok.injEq] at hs
        subst hs
        obtain ⟨p, h2, h3⟩ := hdill h'
        exact ⟨w, dillDill_bound h2 h3 I, rfl, rfl, rfl, fun _ _ => rfl⟩
      · simp only [Except.ok.injEq] at hs
        subst hs
        exact ⟨w, by simp only [loadModule, importModule_imported hne himp hk hb], rfl, rfl, rfl, fun _ _ => rfl⟩

/-- Such a module can always be dumped when its `__file__` is absent, None or a string, and the IPython helper names, if
bound at all, are bound to objects whose `__module__` is not None. -/
theorem C52_dump_succeeds (S : Sys) (main : Option Obj) (w : World) (o : Obj) (name : Str) (d : Obj)
    (hname : attr w o "__name__".toList = some (.str name)) (hd : w.nsId o = some d)
    (hf : ∀ x, attr w o "__file__".toList ≠ some (.obj x))
    (hI : ∀ v, S.moduleOf v = none ∨ ∃ m, S.moduleOf v = some (.str m)) : ∃ st, saveModule S main w o = .ok st := by
  have hdrop : ∀ (xs : List Str) (e : Dict Str Val), ∃ st, dropIPython S xs e = .ok st := by
    intro xs
    induction xs with
    | nil => intro e; exact ⟨e, rfl⟩
    | cons x xs ih =>
      intro e
      simp only [dropIPython]
      rcases hI ((e.get x).getD .none) with h | ⟨m, h⟩
      · rw [h]; exact ih e
      · rw [h]; simp only; split
        · exact ih _
        · exact ih _
  have hbi : ∃ b, isBuiltin S w o = .ok b := by
    unfold isBuiltin
    split
    · exact ⟨_, rfl⟩
    · exact ⟨_, rfl⟩
    · exact ⟨_, rfl⟩
    · rename_i x hx; exact absurd hx (hf x)
  obtain ⟨b, hb⟩ := hbi
  obtain ⟨st, hst⟩ := hdrop ipythonSingletons (((w.dicts d).del "__builtins__".toList).del "__loader__".toList)
  unfold saveModule
  rw [hb, hname, hd]
  simp only [stateOf, hst]
  split
  · exact ⟨_, rfl⟩
  · split <;> exact ⟨_, rfl⟩

/-! #### C52 fails otherwise -/

/-- an interpreter for the examples: `__main__` (5), a package `p` (2) whose attribute `sub` is the class 3 although the
submodule `p.sub` (4) is imported, an installed module `math` (1), and a module object 0 named `math` made with
`types.ModuleType`.  The dict of object `n` is `10 + n`. -/
def exDicts : Obj → Dict Str Val
  | 10 => [("__name__".toList, .str "math".toList), ("__loader__".toList, .none), ("secret".toList, .obj 99)]
  | 11 => [("__name__".toList, .str "math".toList), ("__loader__".toList, .obj 50), ("__file__".toList, .str "/usr/lib/math.py".toList)]
  | 12 => [("__name__".toList, .str "p".toList), ("__path__".toList, .obj 51), ("sub".toList, .obj 3),
      ("__file__".toList, .str "/home/u/p/__init__.py".toList)]
  | 14 => [("__name__".toList, .str "p.sub".toList), ("__loader__".toList, .obj 52), ("sub".toList, .obj 3),
      ("__file__".toList, .str "/home/u/p/sub.py".toList)]
  | 15 => [("__name__".toList, .str "__main__".toList), ("__builtins__".toList, .obj 53), ("x".toList, .obj 98)]
  | 16 => [("__name__".toList, .str "mine".toList), ("__loader__".toList, .obj 54), ("f".toList, .obj 97),
      ("__file__".toList, .str "/home/u/mine.py".toList)]
  | 20 => [("__name__".toList, .str "__main__".toList), ("__builtins__".toList, .obj 53), ("x".toList, .obj 98)]
  | 21 => [("__name__".toList, .str [])]
  | 22 => [("__name__".toList, .str "lazy".toList)]
  | 23 => [("a".toList, .obj 90)]
  | _ => []

def exW : World where
  sysModules := [("math".toList, some 1), ("p".toList, some 2), ("p.sub".toList, some 4), ("__main__".toList, some 5),
    ("mine".toList, some 6)]
  kind := fun o => if o = 3 then .type else if o ≤ 6 then .modl else .other
  nsId := fun o => if o = 3 then none else if o ≤ 6 then some (10 + o) else none
  dicts := exDicts

def exS : Sys where
  prefixes := ["/usr".toList]
  realpath := id
  extSuffixes := [".so".toList]
  moduleOf := fun _ => none

/-- nothing else can be imported, except `lazy`, which defines a module object 7 -/
def exI : ImportSys where
  run := fun w n => if n = "lazy".toList then ({ w with sysModules := w.sysModules.set n (some 7) }, none) else (w, some .importError)
  fromlist := fun w _ _ => (w, none)
  setstate := fun w _ _ => (w, none)

theorem exW_wf : ∀ x, (exW.dicts x).WF := by
  intro x
  show (exDicts x).WF
  unfold exDicts
  split <;> first | exact List.nodup_nil | (unfold Dict.WF; decide +kernel)

/-- A module object that was made at run time is replaced on load by an unrelated installed module of the same name. -/
theorem C52_runtime_module_replaced : ∃ (S : Sys) (I : ImportSys) (w : World) (o : Obj) (st : Stored),
    w.kind o = .modl ∧ saveModule S none w o = .ok st ∧
    ∃ o2, (loadModule I id w st).2 = .ok (.obj o2) ∧ o2 ≠ o ∧
      attr w o "secret".toList = some (.obj 99) ∧ attr w o2 "secret".toList = none :=
  ⟨exS, exI, exW, 0, .byName "math".toList, by decide, by decide +kernel, 1, by decide +kernel, by decide, by decide +kernel,
    by decide +kernel⟩

/-- An imported submodule that shares its name with a class exported by its package cannot be loaded in the very
interpreter that dumped it (the class is found instead of the module, and takes no state) … -/
theorem C52_shadowed_submodule_fails : ∃ (S : Sys) (I : ImportSys) (w : World) (o : Obj) (name : Str) (st : Stored),
    w.kind o = .modl ∧ attr w o "__name__".toList = some (.str name) ∧ ImportedAs w name o ∧
    saveModule S none w o = .ok st ∧ (loadModule I id w st).2 = .error .typeError :=
  ⟨exS, exI, exW, 4, "p.sub".toList, .state "p.sub".toList (exDicts 14 |>.del "__loader__".toList), by decide,
    by decide +kernel, by decide +kernel, by decide +kernel, by decide +kernel⟩

/-- … and if it is installed, the class is returned in its place. -/
theorem C52_shadowed_submodule_replaced : ∃ (S : Sys) (I : ImportSys) (w : World) (o : Obj) (name : Str) (st : Stored),
    w.kind o = .modl ∧ attr w o "__name__".toList = some (.str name) ∧ ImportedAs w name o ∧
    saveModule S none w o = .ok st ∧ ∃ c, (loadModule I id w st).2 = .ok (.obj c) ∧ w.kind c = .type :=
  ⟨{ exS with prefixes := ["/home".toList] }, exI, exW, 4, "p.sub".toList, .byName "p.sub".toList, by decide,
    by decide +kernel, by decide +kernel, by decide +kernel, 3, by decide +kernel, by decide⟩

/-- If the module that is being restored has a global named `__setstate__`, that is called with the state, and nothing is restored but
what it restores. -/
theorem C53_setstate_called (I : ImportSys) (tr : Val → Val) (w2 : World) (o2 : Obj) (sname : Str) (st : Dict Str Val) (g : Val)
    (hne : sname ≠ []) (himp : ImportedAs w2 sname o2) (hk : w2.kind o2 = .modl) (hb : BoundInPackage w2 sname o2)
    (hset : attr w2 o2 "__setstate__".toList = some g) :
    (loadModule I tr w2 (.state sname st)).1 = (I.setstate w2 g (st.map fun p => (p.1, tr p.2))).1 := by
  simp only [loadModule, importModule_imported hne himp hk hb, build, hset]
  split
  · next h => rw [h]
  · next h => rw [h]

/-- the module `mine` with a function `__setstate__` (as a class would have it) that does nothing, and `f` as given -/
def exHijack (f : Obj) : World := { exW with dicts := fun x => if x = 16 then
  [("__name__".toList, .str "mine".toList), ("f".toList, .obj f), ("__setstate__".toList, .obj 60),
  ("__file__".toList, .str "/home/u/mine.py".toList)] else exDicts x }

/-- C53 is false for such a module: it is saved with `f`, and after loading in an interpreter where `f` is another object, `f` still is that
other object; no exception. -/
theorem C53_setstate_hijacks : ∃ st, saveModule exS none (exHijack 97) 6 = .ok (.state "mine".toList st) ∧
    Dict.get st "f".toList = some (.obj 97) ∧ (loadModule exI id (exHijack 96) (.state "mine".toList st)).2 = .ok (.obj 6) ∧
    Dict.get ((loadModule exI id (exHijack 96) (.state "mine".toList st)).1.dicts 16) "f".toList = some (.obj 96) :=
  ⟨[("__name__".toList, .str "mine".toList), ("f".toList, .obj 97), ("__setstate__".toList, .obj 60),
    ("__file__".toList, .str "/home/u/mine.py".toList)], by decide +kernel, by decide +kernel,
    by decide +kernel, by decide +kernel⟩

-- non-vacuity of C52_same_module_partial and C53: module `mine` (6) meets the hypotheses and is saved with its contents
example : exW.kind 6 = .modl ∧ attr exW 6 "__name__".toList = some (.str "mine".toList) ∧ exW.nsId 6 = some 16 ∧
    (exW.dicts 16).WF ∧ ImportedAs exW "mine".toList 6 ∧ attr exW 6 "__setstate__".toList = none ∧
    saveModule exS (some 5) exW 6 = .ok (.state "mine".toList ((exDicts 16).del "__loader__".toList)) := by
  refine ⟨by decide, by decide +kernel, by decide, by decide +kernel, by decide +kernel, by decide +kernel, by decide +kernel⟩

example : BoundInPackage exW "mine".toList 6 := by
  intro pkg last h
  exfalso
  have : '.' ∈ "mine".toList := by rw [h]; simp
  revert this; decide

-- a dotted name that is bound in its package
example : BoundInPackage { exW with dicts := fun d => if d = 12 then [("sub".toList, .obj 4)] else exDicts d } "p.sub".toList 4 := by
  intro pkg last h hl
  have h1 : rsplitDot "p.sub".toList = some (pkg, last) := by rw [h]; exact rsplitDot_eq hl
  have h2 : rsplitDot "p.sub".toList = some ("p".toList, "sub".toList) := by decide +kernel
  rw [h2] at h1
  simp only [Option.some.injEq, Prod.mk.injEq] at h1
  obtain ⟨rfl, rfl⟩ := h1
  exact ⟨by decide, 2, by decide +kernel, Or.inl (by decide +kernel)⟩

-- a dotted name whose package attribute is a function (95) of the same name
example : BoundInPackage { exW with dicts := fun d => if d = 12 then [("sub".toList, .obj 95)] else exDicts d } "p.sub".toList 4 := by
  intro pkg last h hl
  have h1 : rsplitDot "p.sub".toList = some (pkg, last) := by rw [h]; exact rsplitDot_eq hl
  have h2 : rsplitDot "p.sub".toList = some ("p".toList, "sub".toList) := by decide +kernel
  rw [h2] at h1
  simp only [Option.some.injEq, Prod.mk.injEq] at h1
  obtain ⟨rfl, rfl⟩ := h1
  exact ⟨by decide, 2, by decide +kernel, Or.inr ⟨.obj 95, by decide +kernel, by intro x hx; cases hx; decide, by decide +kernel⟩⟩

/-- Loading a module that cannot be imported in the receiving interpreter raises; nothing else is returned in its place. -/
theorem C53_missing_module_raises (I : ImportSys) (tr : Val → Val) (w w' : World) (name : Str) (st : Dict Str Val) (hdot : '.' ∉ name)
    (hmiss : w.sysModules.get name = none) (hrun : I.run w name = (w', some .importError)) :
    ∀ s ∈ [Stored.byName name, Stored.state name st], ∃ w2 e, loadModule I tr w s = (w2, .error e) := by
  have hb : importBody I w name = importName I w name := by
    unfold importBody
    rw [if_neg]
    · cases hr : rsplitDot name with
      | none => rfl
      | some ab => exact absurd ((rsplitDot_some hr).1 ▸ (by simp : '.' ∈ ab.1 ++ '.' :: ab.2)) hdot
    · intro hp
      obtain ⟨r, hr⟩ := isPrefixOf_iff.1 hp
      apply hdot
      rw [hr]
      exact List.mem_append_left _ (by decide)
  have hi : ∃ w2 e, importModule I false w name = (w2, .error e) := by
    unfold importModule
    rw [hb]
    unfold importName
    rw [hmiss]
    by_cases hn : name = []
    · rw [if_pos hn]; exact ⟨_, _, rfl⟩
    · rw [if_neg hn]; simp only [hrun]; exact ⟨_, _, rfl⟩
  obtain ⟨w2, e, hi⟩ := hi
  intro s hs
  simp only [List.mem_cons, List.not_mem_nil, or_false] at hs
  rcases hs with rfl | rfl
  · exact ⟨w2, e, by simp only [loadModule, hi]⟩
  · exact ⟨w2, e, by simp only [loadModule, hi]⟩

/-- C53, the name a module with contents is recorded under: its own if it was imported (it has a loader, or is an
entry of sys.modules under whatever name), and otherwise its own name marked as that of a run-time module. -/
theorem C53_recorded_name (S : Sys) (main : Option Obj) (w : World) (o : Obj) (name sname : Str) (st : Dict Str Val)
    (hname : attr w o "__name__".toList = some (.str name)) (hs : saveModule S main w o = .ok (.state sname st)) :
    (((∃ v, attr w o "__loader__".toList = some v ∧ v ≠ .none) ∨ ∃ n, (n, some o) ∈ w.sysModules) → sname = name) ∧
    (((∀ v, attr w o "__loader__".toList = some v → v = .none) ∧ ∀ n, (n, some o) ∉ w.sysModules) →
      sname = "__runtime__.".toList ++ name) := by
  have hv : w.sysModules.values.contains (some o) = true ↔ ∃ n, (n, some o) ∈ w.sysModules := by
    simp [Dict.values]
  unfold saveModule at hs
  split at hs
  · cases hs
  · split at hs
    · rename_i nm d hn _
      rw [hname] at hn
      have hn := Val.str.inj (Option.some.inj hn)
      subst hn
      split at hs
      · split at hs
        · cases hs
        · have e1 := (Stored.state.inj (Except.ok.inj hs)).1
          clear hs
          subst e1
          constructor
          · rintro (⟨v, h1, h2⟩ | h)
            · have : isImported w o = true := by
                unfold isImported
                rw [h1]
                cases v <;> simp_all
              simp [this]
            · have : isImported w o = true := by
                unfold isImported
                rw [hv.2 h]; simp
              simp [this]
          · intro hh
            have h1 := hh.1
            have h2 := hh.2
            have : isImported w o = false := by
              unfold isImported
              have e : w.sysModules.values.contains (some o) = false := by
                cases hc : w.sysModules.values.contains (some o)
                · rfl
                · exact absurd (hv.1 hc) (by rintro ⟨n, hn⟩; exact h2 n hn)
              rw [e]
              cases hl : attr w o "__loader__".toList with
              | none => rfl
              | some v => rw [h1 v hl]; rfl
            rw [this]
            exact if_neg (by simp)
      · split at hs <;> cases hs
    · cases hs

/-- The main module of the pickler is saved with its contents wherever its file is. -/
theorem C53_main_saved_with_contents (S : Sys) (w : World) (o : Obj) (st : Stored) (hs : saveModule S (some o) w o = .ok st) :
    ∃ n e, st = .state n e := by
  unfold saveModule at hs
  split at hs
  · cases hs
  · split at hs
    · rw [if_pos (Or.inr rfl)] at hs
      split at hs
      · cases hs
      · simp only [Except.ok.injEq] at hs; exact ⟨_, _, hs.symm⟩
    · cases hs

example : saveModule exS (some 5) exW 5 = .ok (.state "__main__".toList [("__name__".toList, .str "__main__".toList), ("x".toList, .obj 98)]) := by
  decide +kernel

/-! ### C54: which modules are saved by name -/

/-- file `f` lies in directory `dir` -/
def Inside (dir f : Str) : Prop := ∃ rest, f = dir ++ '/' :: rest

/-- part of the Python installation: in one of its directories (directly or after resolving links), an extension module,
or in a directory called `site-packages` -/
def Installed (S : Sys) (f : Str) : Prop :=
  (∃ p ∈ S.prefixes, Inside p f ∨ Inside (S.realpath p) (S.realpath f)) ∨
  (∃ x ∈ S.extSuffixes, ∃ a, f = a ++ x) ∨
  (∃ a b, f = a ++ "/site-packages/".toList ++ b)

theorem contains_iff {n s : Str} : contains n s = true ↔ ∃ a b, s = a ++ n ++ b := by
  induction s with
  | nil =>
    simp only [contains, isPrefixOf_iff]
    constructor
    · rintro ⟨r, h⟩; exact ⟨[], r, by simpa using h⟩
    · rintro ⟨a, b, h⟩
      have h' := h.symm
      simp only [List.append_eq_nil_iff] at h'
      exact ⟨[], by simp [h'.1.2]⟩
  | cons c s ih =>
    simp only [contains, Bool.or_eq_true, isPrefixOf_iff, ih]
    constructor
    · rintro (⟨r, h⟩ | ⟨a, b, h⟩)
      · exact ⟨[], r, by simpa using h⟩
      · exact ⟨c :: a, b, by simp [h]⟩
    · rintro ⟨a, b, h⟩
      cases a with
      | nil => exact Or.inl ⟨b, by simpa using h⟩
      | cons x a =>
        simp only [List.cons_append, List.cons.injEq] at h
        exact Or.inr ⟨a, b, h.2⟩

theorem isBuiltinFile_iff {S : Sys} {f : Str} : isBuiltinFile S f = true ↔
    (∃ p ∈ S.prefixes, (∃ r, f = p ++ r) ∨ (∃ r, S.realpath f = S.realpath p ++ r)) ∨
    (∃ x ∈ S.extSuffixes, ∃ a, f = a ++ x) ∨ (∃ a b, f = a ++ "site-packages".toList ++ b) := by
  simp only [isBuiltinFile, Bool.or_eq_true, List.any_eq_true, isPrefixOf_iff, contains_iff, or_assoc]
  constructor
  · rintro (h | ⟨x, hx, hs⟩ | h)
    · exact Or.inl h
    · rw [List.isSuffixOf_iff_suffix] at hs
      obtain ⟨a, rfl⟩ := hs
      exact Or.inr (Or.inl ⟨x, hx, a, rfl⟩)
    · exact Or.inr (Or.inr h)
  · rintro (h | ⟨x, hx, a, rfl⟩ | h)
    · exact Or.inl h
    · exact Or.inr (Or.inl ⟨x, hx, by rw [List.isSuffixOf_iff_suffix]; exact ⟨a, rfl⟩⟩)
    · exact Or.inr (Or.inr h)

/-- what decides between contents and name, for a module with a file that is not the main module -/
theorem saveModule_file {S : Sys} {main : Option Obj} {w : World} {o : Obj} {name f : Str} {d : Obj} {st : Stored}
    (hname : attr w o "__name__".toList = some (.str name)) (hd : w.nsId o = some d)
    (hf : attr w o "__file__".toList = some (.str f)) (hm : main ≠ some o) (hs : saveModule S main w o = .ok st)
    (h1 : name ≠ "builtins".toList) (h2 : name ≠ "dill".toList) (h3 : name ≠ "dill._dill".toList) :
    (isBuiltinFile S f = true ∧ st = .byName name) ∨ (isBuiltinFile S f = false ∧ ∃ n e, st = .state n e) := by
  unfold saveModule at hs
  simp only [isBuiltin, hf, hname, hd] at hs
  cases hb : isBuiltinFile S f with
  | true =>
    left
    rw [hb] at hs
    have hno : ¬ ((name ≠ "builtins".toList ∧ name ≠ "dill".toList ∧ name ≠ "dill._dill".toList ∧ true = false) ∨
        main = some o) := by
      rintro (⟨_, _, _, h⟩ | h)
      · cases h
      · exact hm h
    rw [if_neg hno, if_neg h3] at hs
    simp only [Except.ok.injEq] at hs
    exact ⟨rfl, hs.symm⟩
  | false =>
    right
    rw [hb] at hs
    rw [if_pos (Or.inl ⟨h1, h2, h3, rfl⟩)] at hs
    split at hs
    · cases hs
    · simp only [Except.ok.injEq] at hs
      exact ⟨rfl, _, _, hs.symm⟩

/-- A module of the Python installation is saved by name only. -/
theorem C54_installed_by_name (S : Sys) (main : Option Obj) (w : World) (o : Obj) (name f : Str) (d : Obj) (st : Stored)
    (hname : attr w o "__name__".toList = some (.str name)) (hd : w.nsId o = some d)
    (hf : attr w o "__file__".toList = some (.str f)) (hm : main ≠ some o) (hs : saveModule S main w o = .ok st)
    (h1 : name ≠ "builtins".toList) (h2 : name ≠ "dill".toList) (h3 : name ≠ "dill._dill".toList)
    (hi : Installed S f) : st = .byName name := by
  rcases saveModule_file hname hd hf hm hs h1 h2 h3 with h | ⟨h, _⟩
  · exact h.2
  · exfalso
    have : isBuiltinFile S f = true := by
      rw [isBuiltinFile_iff]
      rcases hi with ⟨p, hp, ⟨r, h⟩ | ⟨r, h⟩⟩ | h | ⟨a, b, h⟩
      · exact Or.inl ⟨p, hp, Or.inl ⟨_, h⟩⟩
      · exact Or.inl ⟨p, hp, Or.inr ⟨_, h⟩⟩
      · exact Or.inr (Or.inl h)
      · refine Or.inr (Or.inr ⟨a ++ ['/'], '/' :: b, ?_⟩)
        rw [h]
        have : "/site-packages/".toList = '/' :: ("site-packages".toList ++ ['/']) := by decide
        rw [this]; simp
    rw [this] at h; cases h

/-- C54 for modules without a file: a `__file__` of None (a namespace package, or `__main__`-like modules) means the
contents are saved, no `__file__` at all that the name is. -/
theorem C54_no_file (S : Sys) (main : Option Obj) (w : World) (o : Obj) (name : Str) (d : Obj) (st : Stored)
    (hname : attr w o "__name__".toList = some (.str name)) (hd : w.nsId o = some d)
    (hm : main ≠ some o) (hs : saveModule S main w o = .ok st)
    (h1 : name ≠ "builtins".toList) (h2 : name ≠ "dill".toList) (h3 : name ≠ "dill._dill".toList) :
    (attr w o "__file__".toList = some .none → ∃ n e, st = .state n e) ∧
    (attr w o "__file__".toList = none → st = .byName name) := by
  constructor
  · intro hf
    unfold saveModule isBuiltin at hs
    rw [hf] at hs
    simp only [hname, hd] at hs
    rw [if_pos (Or.inl ⟨h1, h2, h3, trivial⟩)] at hs
    split at hs
    · cases hs
    · cases hs; exact ⟨_, _, rfl⟩
  · intro hf
    unfold saveModule isBuiltin at hs
    rw [hf] at hs
    simp only [hname, hd] at hs
    rw [if_neg (by rintro (⟨_, _, _, h⟩ | h); cases h; exact hm h), if_neg h3] at hs
    cases hs; rfl

/-- The converse fails: a module outside of every installation directory is saved by name, without its contents, because
the name of an installation directory is a prefix of the name of another directory. -/
theorem C54_outside_by_name : ∃ (S : Sys) (w : World) (o : Obj) (name f : Str) (d : Obj),
    attr w o "__name__".toList = some (.str name) ∧ w.nsId o = some d ∧ attr w o "__file__".toList = some (.str f) ∧
    ¬ Installed S f ∧ saveModule S none w o = .ok (.byName name) := by
  refine ⟨⟨["/opt/py".toList], id, [".so".toList], fun _ => none⟩,
    ⟨[], fun _ => .modl, fun _ => some 1, fun _ => [("__name__".toList, .str "m".toList), ("__file__".toList, .str "/opt/pyproj/m.py".toList)]⟩,
    0, "m".toList, "/opt/pyproj/m.py".toList, 1, by decide +kernel, rfl, by decide +kernel, ?_, by decide +kernel⟩
  rintro (⟨p, hp, h⟩ | ⟨x, hx, a, h⟩ | ⟨a, b, h⟩)
  · simp only [List.mem_singleton] at hp
    subst hp
    have : Inside "/opt/py".toList "/opt/pyproj/m.py".toList := by rcases h with h | h <;> exact h
    obtain ⟨r, hr⟩ := this
    have := congrArg (fun l => l[7]?) hr
    revert this
    simp only [show "/opt/py".toList = ['/', 'o', 'p', 't', '/', 'p', 'y'] by decide,
      show "/opt/pyproj/m.py".toList = ['/', 'o', 'p', 't', '/', 'p', 'y', 'p', 'r', 'o', 'j', '/', 'm', '.', 'p', 'y'] by decide]
    simp
  · simp only [List.mem_singleton] at hx
    subst hx
    have := congrArg List.reverse h
    have := congrArg List.head? this
    rw [List.reverse_append] at this
    revert this
    rw [show ".so".toList.reverse = ['o', 's', '.'] by decide]
    rw [show "/opt/pyproj/m.py".toList.reverse.head? = some 'y' by decide]
    simp
  · have : contains "site-packages".toList "/opt/pyproj/m.py".toList = true := by
      rw [contains_iff]
      refine ⟨a ++ ['/'], '/' :: b, ?_⟩
      rw [h]
      rw [show "/site-packages/".toList = '/' :: ("site-packages".toList ++ ['/']) by decide]; simp
    revert this; decide +kernel

/-- Where installation directories are only prefixes of paths inside them, and `site-packages` occurs only as a directory
name, a module's contents are saved exactly when it is not part of the installation. -/
theorem C54_contents_iff_outside_partial (S : Sys) (main : Option Obj) (w : World) (o : Obj) (name f : Str) (d : Obj) (st : Stored)
    (hname : attr w o "__name__".toList = some (.str name)) (hd : w.nsId o = some d)
    (hf : attr w o "__file__".toList = some (.str f)) (hm : main ≠ some o) (hs : saveModule S main w o = .ok st)
    (h1 : name ≠ "builtins".toList) (h2 : name ≠ "dill".toList) (h3 : name ≠ "dill._dill".toList)
    (hp : ∀ p ∈ S.prefixes, ∀ r, (f = p ++ r → ∃ r', r = '/' :: r') ∧ (S.realpath f = S.realpath p ++ r → ∃ r', r = '/' :: r'))
    (hsp : ∀ a b, f = a ++ "site-packages".toList ++ b → ∃ a' b', a = a' ++ ['/'] ∧ b = '/' :: b') :
    (∃ n e, st = .state n e) ↔ ¬ Installed S f := by
  constructor
  · rintro ⟨n, e, rfl⟩ hi
    have := C54_installed_by_name S main w o name f d _ hname hd hf hm hs h1 h2 h3 hi
    cases this
  · intro hi
    rcases saveModule_file hname hd hf hm hs h1 h2 h3 with ⟨h, _⟩ | ⟨_, h⟩
    · exfalso
      apply hi
      rw [isBuiltinFile_iff] at h
      rcases h with ⟨p, hpm, ⟨r, h⟩ | ⟨r, h⟩⟩ | h | ⟨a, b, h⟩
      · obtain ⟨r', rfl⟩ := (hp p hpm r).1 h
        exact Or.inl ⟨p, hpm, Or.inl ⟨r', h⟩⟩
      · obtain ⟨r', rfl⟩ := (hp p hpm r).2 h
        exact Or.inl ⟨p, hpm, Or.inr ⟨r', h⟩⟩
      · exact Or.inr (Or.inl h)
      · obtain ⟨a', b', rfl, rfl⟩ := hsp a b h
        refine Or.inr (Or.inr ⟨a', b', ?_⟩)
        rw [h, show "/site-packages/".toList = '/' :: ("site-packages".toList ++ ['/']) by decide]; simp
    · exact h

/-! ### C55: dicts saved by reference -/

theorem itemsEq_ok {eq : Val → Val → Except Exc Bool} {b a : Dict Str Val} (h : itemsEq eq b a = .ok true) :
    ∀ k v, a.get k = some v → ∃ v', b.get k = some v' ∧ (v = v' ∨ eq v v' = .ok true) := by
  induction a with
  | nil => intro k v h; cases h
  | cons p a ih =>
    obtain ⟨x, y⟩ := p
    simp only [itemsEq] at h
    cases hb : b.get x with
    | none => rw [hb] at h; cases h
    | some v' =>
      rw [hb] at h
      simp only at h
      have hrest : itemsEq eq b a = .ok true ∧ (y = v' ∨ eq y v' = .ok true) := by
        by_cases e : y = v'
        · rw [if_pos e] at h; exact ⟨h, Or.inl e⟩
        · rw [if_neg e] at h
          split at h
          · cases h
          · cases h
          · rename_i he; exact ⟨h, Or.inr he⟩
      intro k v hk
      simp only [Dict.get] at hk
      split at hk
      · rename_i e; subst e; cases hk; exact ⟨v', hb, hrest.2⟩
      · exact ih hrest.1 k v hk

/-- two dicts are equal: the same keys, with identical or equal values -/
def EqualDicts (eq : Val → Val → Except Exc Bool) (a b : Dict Str Val) : Prop :=
  (∀ k, (a.get k).isSome ↔ (b.get k).isSome) ∧
  ∀ k v v', a.get k = some v → b.get k = some v' → v = v' ∨ eq v v' = .ok true

theorem subset_of_length {a b : List Str} (ha : a.Nodup) (hab : ∀ x ∈ a, x ∈ b) (hlen : b.length ≤ a.length) : ∀ x ∈ b, x ∈ a := by
  induction a generalizing b with
  | nil => intro x hx; cases b with
    | nil => cases hx
    | cons _ _ => simp at hlen
  | cons c a ih =>
    intro x hx
    by_cases hxc : x = c
    · simp [hxc]
    · have hc : c ∈ b := hab c (by simp)
      rw [List.nodup_cons] at ha
      have := ih (b := b.erase c) ha.2 (by
        intro y hy
        have : y ≠ c := by rintro rfl; exact ha.1 hy
        exact (List.mem_erase_of_ne this).2 (hab y (by simp [hy])))
        (by rw [List.length_erase_of_mem hc]; simp only [List.length_cons] at hlen; omega) x ((List.mem_erase_of_ne hxc).2 hx)
      simp [this]

theorem equal_of_dictEq {eq : Val → Val → Except Exc Bool} {a b : Dict Str Val} (ha : a.WF) (_hb : b.WF) (h : dictEq eq a b = .ok true) :
    EqualDicts eq a b := by
  unfold dictEq at h
  split at h
  · cases h
  · rename_i hlen
    have hlen' : a.length = b.length := by simpa using hlen
    have key := itemsEq_ok h
    have hsub : ∀ k ∈ a.keys, k ∈ b.keys := by
      intro k hk
      obtain ⟨v, hv⟩ := Option.isSome_iff_exists.1 ((Dict.get_isSome_iff _ _).2 hk)
      obtain ⟨v', hv', _⟩ := key k v hv
      exact (Dict.get_isSome_iff _ _).1 (by rw [hv']; rfl)
    have hsup := subset_of_length ha hsub (by simp [Dict.keys, hlen'])
    refine ⟨fun k => ⟨fun hk => (Dict.get_isSome_iff _ _).2 (hsub k ((Dict.get_isSome_iff _ _).1 hk)),
      fun hk => (Dict.get_isSome_iff _ _).2 (hsup k ((Dict.get_isSome_iff _ _).1 hk))⟩, ?_⟩
    intro k v v' hv hv'
    obtain ⟨v2, h2, h3⟩ := key k v hv
    rw [hv'] at h2; cases h2; exact h3

theorem itemsEq_refl {eq : Val → Val → Except Exc Bool} {b : Dict Str Val} : ∀ {a : Dict Str Val},
    (∀ k v, (k, v) ∈ a → b.get k = some v) → itemsEq eq b a = .ok true := by
  intro a
  induction a with
  | nil => intro _; rfl
  | cons p a ih =>
    intro h
    obtain ⟨x, y⟩ := p
    simp only [itemsEq, h x y (by simp), if_true]
    exact ih fun k v hk => h k v (by simp [hk])

theorem dictEq_refl {eq : Val → Val → Except Exc Bool} {a : Dict Str Val} (h : a.WF) : dictEq eq a a = .ok true := by
  simp only [dictEq, ne_eq, not_true_eq_false, if_false]
  exact itemsEq_refl fun k v hk => Dict.get_of_mem h hk

/-- dill's pickler stores the namespace of the main module as a reference to it, and loading returns that namespace. -/
theorem C55_main_namespace (I : ImportSys) (eq : Val → Val → Except Exc Bool) (P : Pick) (w : World) (o fresh : Obj)
    (hdill : P.isDill = true) (hs : P.session = false) (ho : o = P.mainDict) (hwf : (w.dicts o).WF) :
    ∃ r, route I eq P w o = (w, .ok r) ∧ loadDict I P.mainDict fresh w r = (w, .ok o) := by
  refine ⟨.main, ?_, by simp only [loadDict, ho]⟩
  subst ho
  simp only [route, hdill, if_true, dictEq_refl hwf, hs, Bool.false_eq_true, false_and, not_false_eq_true, and_self]

theorem importName_ok {I : ImportSys} {w w' : World} {name : Str} {v : Val} (h : importName I w name = (w', .ok v)) :
    name ≠ [] ∧ ∃ o, v = .obj o ∧ ImportedAs w' name o := by
  unfold importName at h
  split at h
  · cases h
  · rename_i hn
    refine ⟨hn, ?_⟩
    split at h
    · rename_i o ho; cases h; exact ⟨o, rfl, ho⟩
    · cases h
    · split at h
      · cases h
      · split at h
        · rename_i o ho; cases h; exact ⟨o, rfl, ho⟩
        · cases h
        · cases h

theorem importFrom_ok {I : ImportSys} {w w' : World} {name item : Str} {v : Val} (h : importFrom I w name item = (w', .ok v)) :
    name ≠ [] := by
  unfold importFrom at h
  split at h
  · cases h
  · rename_i h'; exact (importName_ok h').1
  · rename_i h'; exact (importName_ok h').1

/-- a plain (undotted) name that `_import_module` resolved is the one in sys.modules -/
theorem importModule_plain {I : ImportSys} {w w' : World} {name : Str} {m : Obj} (hdot : '.' ∉ name)
    (h : importModule I true w name = (w', .ok (.obj m))) : name ≠ [] ∧ ImportedAs w' name m := by
  unfold importModule at h
  have hb : importBody I w name = importName I w name := by
    unfold importBody
    rw [if_neg]
    · cases hr : rsplitDot name with
      | none => rfl
      | some ab => exact absurd ((rsplitDot_some hr).1 ▸ (by simp : '.' ∈ ab.1 ++ '.' :: ab.2)) hdot
    · intro hp
      obtain ⟨r, hr⟩ := isPrefixOf_iff.1 hp
      apply hdot
      rw [hr]
      exact List.mem_append_left _ (by decide)
  rw [hb] at h
  split at h
  · rename_i h'
    cases h
    obtain ⟨h1, o, h2, h3⟩ := importName_ok h'
    cases h2
    exact ⟨h1, h3⟩
  · split at h <;> cases h

/-- the possible outcomes of `route` -/
theorem route_named {I : ImportSys} {eq : Val → Val → Except Exc Bool} {P : Pick} {w w' : World} {o : Obj} {r : Route}
    (h : route I eq P w o = (w', .ok r)) :
    (r = .main ∧ w' = w ∧ P.isDill = true ∧ dictEq eq (w.dicts o) (w.dicts P.mainDict) = .ok true) ∨
    (r = .top ∧ w' = w ∧ P.isDill = false ∧ dictEq eq (w.dicts o) (w.dicts P.topDict) = .ok true) ∨
    (∃ name m, r = .named name ∧ (w.dicts o).get "__name__".toList = some (.str name) ∧
      importModule I true w name = (w', .ok (.obj m)) ∧ w'.nsId m = some o) ∨ r = .value := by
  unfold route at h
  simp only at h
  generalize hfirst : (if P.isDill = true then _ else _ : Except Exc (Option Route)) = first at h
  cases first with
  | error e => cases h
  | ok fr =>
    cases fr with
    | some r' =>
      simp only [Prod.mk.injEq, Except.ok.injEq] at h
      obtain ⟨rfl, rfl⟩ := h
      split at hfirst
      · rename_i hd
        split at hfirst
        · cases hfirst
        · rename_i b he
          simp only [Except.ok.injEq] at hfirst
          split at hfirst
          · rename_i hb; cases hfirst; left; exact ⟨rfl, rfl, hd, by rw [he, hb.1]⟩
          · cases hfirst
      · rename_i hd
        split at hfirst
        · cases hfirst
        · rename_i b he
          simp only [Except.ok.injEq] at hfirst
          split at hfirst
          · rename_i hb; cases hfirst; right; left; exact ⟨rfl, rfl, by simpa using hd, by rw [he, hb]⟩
          · cases hfirst
    | none =>
      simp only at h
      split at h
      · cases h; right; right; right; rfl
      · rename_i nm hnm
        split at h
        · cases h
        · cases h; right; right; right; rfl
        · split at h
          · rename_i name
            split at h
            · cases h
            · rename_i w2 m hi
              split at h
              · rename_i hns; cases h; right; right; left; exact ⟨name, m, rfl, hnm, hi, hns⟩
              · cases h; right; right; right; rfl
            · cases h; right; right; right; rfl
          · cases h; right; right; right; rfl

/-- A dict is stored as a reference only if loading the reference in the same interpreter returns that very dict —
provided it is not merely a dict equal to the main namespace, and, for a submodule, sys.modules agrees with the package's
attribute. -/
theorem C55_reference_sound_partial (I : ImportSys) (eq : Val → Val → Except Exc Bool) (P : Pick) (w w' : World)
    (o fresh : Obj) (r : Route) (h : route I eq P w o = (w', .ok r)) (hr : r ≠ .value)
    (hwf : ∀ x, (w.dicts x).WF)
    (hmain : P.isDill = true → EqualDicts eq (w.dicts o) (w.dicts P.mainDict) → o = P.mainDict)
    (htop : P.isDill = false → EqualDicts eq (w.dicts o) (w.dicts P.topDict) →
      o = P.topDict ∧ ∃ m, ImportedAs w "__main__".toList m ∧ w.nsId m = some P.topDict)
    (hdot : ∀ name, (w.dicts o).get "__name__".toList = some (.str name) → '.' ∈ name →
      ∃ m, ImportedAs w' name m ∧ w'.nsId m = some o) :
    loadDict I P.mainDict fresh w' r = (w', .ok o) := by
  rcases route_named h with ⟨rfl, rfl, h1, h2⟩ | ⟨rfl, rfl, h1, h2⟩ | ⟨name, m, rfl, h1, h2, h3⟩ | rfl
  · rw [hmain h1 (equal_of_dictEq (hwf _) (hwf _) h2)]; rfl
  · obtain ⟨rfl, m, h3, h4⟩ := htop h1 (equal_of_dictEq (hwf _) (hwf _) h2)
    simp only [loadDict, importName_imported (by decide) h3, loadDict.namespaceOf, h4]
  · by_cases hd : '.' ∈ name
    · obtain ⟨m', h4, h5⟩ := hdot name h1 hd
      have hne : name ≠ [] := by rintro rfl; cases hd
      simp only [loadDict, importName_imported hne h4, loadDict.namespaceOf, h5]
    · obtain ⟨hne, h4⟩ := importModule_plain hd h2
      simp only [loadDict, importName_imported hne h4, loadDict.namespaceOf, h3]
  · exact absurd rfl hr

/-- A dict that is neither equal to the main namespace nor the namespace of any object is saved by value. -/
theorem C55_ordinary_dict_by_value (I : ImportSys) (eq : Val → Val → Except Exc Bool) (P : Pick) (w w' : World) (o : Obj)
    (r : Route) (h : route I eq P w o = (w', .ok r)) (hns : ∀ m, w'.nsId m ≠ some o)
    (hwf : ∀ x, (w.dicts x).WF) (hmain : ¬ EqualDicts eq (w.dicts o) (w.dicts P.mainDict))
    (htop : ¬ EqualDicts eq (w.dicts o) (w.dicts P.topDict)) : r = .value := by
  rcases route_named h with ⟨_, _, _, h2⟩ | ⟨_, _, _, h2⟩ | ⟨_, m, _, _, _, h3⟩ | rfl
  · exact absurd (equal_of_dictEq (hwf _) (hwf _) h2) hmain
  · exact absurd (equal_of_dictEq (hwf _) (hwf _) h2) htop
  · exact absurd h3 (hns m)
  · rfl

def exP : Pick := ⟨true, false, true, 15, 15⟩
/-- `==` on the values of the examples: identity -/
def exEq : Val → Val → Except Exc Bool := fun a b => .ok (a = b)

/-- A copy of the main namespace, an ordinary dict, is stored as a reference: loading it gives the live namespace itself,
so changing the loaded dict changes the variables of the program. -/
theorem C55_copy_becomes_namespace : ∃ (I : ImportSys) (eq : Val → Val → Except Exc Bool) (P : Pick) (w : World) (o : Obj) (r : Route),
    P.isDill = true ∧ (∀ m, w.nsId m ≠ some o) ∧ route I eq P w o = (w, .ok r) ∧
    ∀ fresh, ∃ d, loadDict I P.mainDict fresh w r = (w, .ok d) ∧ d ≠ o ∧ ∃ m, ImportedAs w "__main__".toList m ∧ w.nsId m = some d := by
  refine ⟨exI, exEq, exP, exW, 20, .main, rfl, ?_, ?_, ?_⟩
  · intro m h
    simp only [exW] at h
    split at h
    · cases h
    · split at h
      · rename_i h6
        simp only [Option.some.injEq] at h
        exact absurd h (Nat.ne_of_lt (Nat.lt_of_le_of_lt (Nat.add_le_add_left h6 10) (by decide)))
      · cases h
  · have h1 : dictEq exEq (exW.dicts 20) (exW.dicts 15) = .ok true := by decide +kernel
    simp only [route, exP, if_true, h1, Bool.false_eq_true, false_and, not_false_eq_true, and_self]
  · intro fresh
    exact ⟨15, rfl, by decide, 5, by decide +kernel, by decide +kernel⟩

-- non-vacuity: a module's own namespace, and an ordinary dict
example : (route exI exEq exP exW 16).2 = .ok (.named "mine".toList) := by decide +kernel
example : (route exI exEq exP exW 23).2 = .ok .value := by decide +kernel
example : ¬ EqualDicts exEq (exW.dicts 16) (exW.dicts 15) := by
  intro h
  have := (h.1 "f".toList).1 (by decide +kernel)
  revert this; decide +kernel

/-! ### C56: pickling a dict looks up its `__name__` -/

theorem itemsEq_total {eq : Val → Val → Except Exc Bool} (heq : ∀ a b, ∃ c, eq a b = .ok c) {b : Dict Str Val}
    (a : Dict Str Val) : ∃ c, itemsEq eq b a = .ok c := by
  induction a with
  | nil => exact ⟨_, rfl⟩
  | cons q a ih =>
    simp only [itemsEq]
    cases b.get q.1 with
    | none => exact ⟨_, rfl⟩
    | some v' =>
      obtain ⟨c, hc⟩ := heq q.2 v'
      simp only [hc]
      split
      · exact ih
      · cases c
        · exact ⟨_, rfl⟩
        · exact ih

theorem dictEq_total {eq : Val → Val → Except Exc Bool} (heq : ∀ a b, ∃ c, eq a b = .ok c) (a b : Dict Str Val) :
    ∃ c, dictEq eq a b = .ok c := by
  unfold dictEq
  split
  · exact ⟨_, rfl⟩
  · exact itemsEq_total heq a

theorem dictEq_false {eq : Val → Val → Except Exc Bool} (heq : ∀ a b, ∃ c, eq a b = .ok c) {a b : Dict Str Val} (ha : a.WF) (hb : b.WF)
    (h : ¬ EqualDicts eq a b) : dictEq eq a b = .ok false := by
  obtain ⟨c, hc⟩ := dictEq_total heq a b
  cases c with
  | false => exact hc
  | true => exact absurd (equal_of_dictEq ha hb hc) h

/-- Choosing how to save a dict without a `__name__` string changes nothing, and raises only if comparing values with
those of a main namespace raises. -/
theorem C56_no_name_no_effect_partial (I : ImportSys) (eq : Val → Val → Except Exc Bool) (P : Pick) (w : World) (o : Obj)
    (hname : ∀ s, (w.dicts o).get "__name__".toList ≠ some (.str s)) (heq : ∀ a b, ∃ c, eq a b = .ok c) :
    ∃ r, route I eq P w o = (w, .ok r) := by
  have hde := dictEq_total heq
  obtain ⟨c1, h1⟩ := hde (w.dicts o) (w.dicts P.mainDict)
  obtain ⟨c2, h2⟩ := hde (w.dicts o) (w.dicts P.topDict)
  unfold route
  simp only [h1, h2]
  generalize hf : (if P.isDill = true then _ else _ : Except Exc (Option Route)) = first
  have : ∃ x, first = .ok x := by
    subst hf; split <;> exact ⟨_, rfl⟩
  obtain ⟨x, rfl⟩ := this
  cases x with
  | some r => exact ⟨r, rfl⟩
  | none =>
    simp only
    cases hn : (w.dicts o).get "__name__".toList with
    | none => exact ⟨_, rfl⟩
    | some nm =>
      cases c2 with
      | true => exact ⟨_, rfl⟩
      | false =>
        cases nm with
        | none => exact ⟨_, rfl⟩
        | obj x => exact ⟨_, rfl⟩
        | str s => exact absurd hn (hname s)

/-- A dict whose `__name__` is not the name of any module is pickled by value: the failing import is ignored. -/
theorem C56_unimportable_name_by_value_partial (I : ImportSys) (eq : Val → Val → Except Exc Bool) (P : Pick) (w w' : World) (o : Obj)
    (name : Str) (e : Exc) (hn : (w.dicts o).get "__name__".toList = some (.str name)) (hne : name ≠ []) (hdot : '.' ∉ name)
    (hmiss : w.sysModules.get name = none) (hrun : I.run w name = (w', some e)) (he : e = .importError ∨ e = .attributeError ∨ e = .keyError)
    (heq : ∀ a b, ∃ c, eq a b = .ok c) (hwf : ∀ x, (w.dicts x).WF)
    (hmain : ¬ EqualDicts eq (w.dicts o) (w.dicts P.mainDict)) (htop : ¬ EqualDicts eq (w.dicts o) (w.dicts P.topDict)) :
    (route I eq P w o).2 = .ok .value := by
  replace hmain := dictEq_false heq (hwf _) (hwf _) hmain
  replace htop := dictEq_false heq (hwf _) (hwf _) htop
  have hb : importModule I true w name = (w', .ok .none) := by
    have : importBody I w name = importName I w name := by
      unfold importBody
      rw [if_neg]
      · cases hr : rsplitDot name with
        | none => rfl
        | some ab => exact absurd ((rsplitDot_some hr).1 ▸ (by simp : '.' ∈ ab.1 ++ '.' :: ab.2)) hdot
      · intro hp
        obtain ⟨r, hr⟩ := isPrefixOf_iff.1 hp
        apply hdot
        rw [hr]
        exact List.mem_append_left _ (by decide)
    unfold importModule
    rw [this]
    unfold importName
    rw [if_neg hne, hmiss]
    simp only [hrun]
    rw [if_pos ⟨he, trivial⟩]
  unfold route
  simp only [hmain, htop, hn, hb, Bool.false_eq_true, false_and, if_false, ite_self]

example : (route exI exEq exP { exW with dicts := fun d => if d = 30 then [("__name__".toList, .str "nosuch".toList)] else exDicts d } 30).2
    = .ok .value := by decide +kernel

/-- Pickling the dict `{'__name__': ''}` raises. -/
theorem C56_empty_name_raises : ∃ (I : ImportSys) (eq : Val → Val → Except Exc Bool) (P : Pick) (w : World) (o : Obj),
    w.dicts o = [("__name__".toList, .str [])] ∧ (∀ a b, ∃ c, eq a b = .ok c) ∧ ∃ e, (route I eq P w o).2 = .error e :=
  ⟨exI, exEq, exP, exW, 21, by decide +kernel, fun a b => ⟨_, rfl⟩, .other, by decide +kernel⟩

/-- Pickling a dict whose `__name__` is the name of a module that is not imported yet imports it, that is, runs its code. -/
theorem C56_dump_runs_import : ∃ (I : ImportSys) (eq : Val → Val → Except Exc Bool) (P : Pick) (w : World) (o : Obj),
    w.dicts o = [("__name__".toList, .str "lazy".toList)] ∧ (route I eq P w o).2 = .ok .value ∧
    w.sysModules.get "lazy".toList = none ∧ ((route I eq P w o).1.sysModules.get "lazy".toList).isSome :=
  ⟨exI, exEq, exP, exW, 22, by decide +kernel, by decide +kernel, by decide +kernel, by decide +kernel⟩

/-- A dict whose `__name__` names a module already imported (and bound in its package) is pickled without any effect. -/
theorem C56_imported_name_no_effect_partial (I : ImportSys) (eq : Val → Val → Except Exc Bool) (P : Pick) (w w' : World) (o : Obj)
    (res : Except Exc Route) (name : Str) (m : Obj) (_hn : (w.dicts o).get "__name__".toList = some (.str name))
    (hne : name ≠ []) (himp : ImportedAs w name m) (hk : w.kind m = .modl) (hb : BoundInPackage w name m)
    (h : route I eq P w o = (w', res)) : w' = w := by
  unfold route at h
  simp only [_hn] at h
  split at h
  · cases h; rfl
  · cases h; rfl
  · split at h
    · cases h; rfl
    · cases h; rfl
    · rw [importModule_imported hne himp hk hb] at h
      simp only at h
      split at h <;> (cases h; rfl)

end Verif.Modules
