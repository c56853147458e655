import Verif.Model.NamedTuple
/-! C40: namedtuple classes keep their fields and defaults. -/
set_option linter.unusedSimpArgs false
namespace Verif.NamedTuple
variable {V : Type}

/-! ### specification: the classes Python can make -/

/-- A class statement or factory call gives distinct fields and default values for the last `ds.length` of them. -/
structure Made (c : NT V) : Prop where
  nodup : c.fields.Nodup
  defaults : ∃ (pre : List String) (dfs : List (String × V)), c.fields = pre ++ dfs.map (·.1) ∧ c.defaults = dfs

theorem zip_reverse_map (pre : List String) (dfs : List (String × V)) :
    (((pre ++ dfs.map (·.1)).reverse.zip (dfs.map (·.2)).reverse).reverse : List (String × V)) = dfs := by
  have h : (pre ++ dfs.map (·.1)).reverse = (dfs.map (·.1)).reverse ++ pre.reverse := by simp
  rw [h]
  have hz : ∀ (l : List (String × V)) (p : List String),
      (l.map (·.1) ++ p).zip (l.map (·.2)) = l := by
    intro l p
    induction l with
    | nil => simp
    | cons e l ih => simp [ih]
  have := hz dfs.reverse pre.reverse
  rw [List.map_reverse, List.map_reverse] at this
  rw [this, List.reverse_reverse]

theorem filterMap_defaults (pre : List String) (dfs : List (String × V)) (h : (pre ++ dfs.map (·.1)).Nodup) :
    (pre ++ dfs.map (·.1)).filterMap (fun f => Dict.get dfs f) = dfs.map (·.2) := by
  rw [List.filterMap_append]
  rw [List.nodup_append] at h
  have h1 : pre.filterMap (fun f => Dict.get dfs f) = [] := by
    rw [List.filterMap_eq_nil_iff]
    intro a ha
    rw [Dict.get_eq_none_iff]
    intro hk
    exact h.2.2 a ha a hk rfl
  have h2 : ∀ (l : List (String × V)), (∀ e ∈ l, Dict.get dfs e.1 = some e.2) →
      (l.map (·.1)).filterMap (fun f => Dict.get dfs f) = l.map (·.2) := by
    intro l hl
    induction l with
    | nil => rfl
    | cons e l ih =>
      have he := hl e (by simp)
      simp only [List.map_cons, List.filterMap_cons, he]
      rw [ih fun e he => hl e (by simp [he])]
  rw [h1, h2 dfs ?_, List.nil_append]
  intro e he
  exact Dict.get_of_mem (d := dfs) h.2.1 he

theorem copy_eq (env : Env V) (c : NT V) (hc : Made c)
    (hi : ∀ o, env c.module c.name = some o → ∃ n, o = .value n) :
    copy env c = .ok (.cls ⟨c.name, c.module, c.fields, c.defaults, []⟩) := by
  obtain ⟨hn, pre, dfs, hf, hd⟩ := hc
  have him : importClass env c.module c.name = none := by
    unfold importClass
    cases e : env c.module c.name with
    | none => rfl
    | some o => obtain ⟨n, rfl⟩ := hi o e; rfl
  simp only [copy, saveNamedtuple, createNamedtuple, him, namedtuple, hn, not_true_eq_false, if_false]
  cases hde : c.defaults with
  | nil => rfl
  | cons e es =>
    have hl : ¬ (dfs.map (·.2)).length > c.fields.length := by rw [hf]; simp
    have hm : c.fields.filterMap (fun f => Dict.get (e :: es) f) = dfs.map (·.2) := by
      rw [← hde, hd, hf]
      exact filterMap_defaults pre dfs (hf ▸ hn)
    simp only [List.isEmpty_cons, Bool.false_eq_true, if_false, hm, hl]
    congr 3
    rw [hf, zip_reverse_map, ← hde, hd]

/-- C40: where the class's name does not lead to a class or module, the copy has the same name, module, fields in
order, and the same defaults for the same fields, and no other defaults. -/
theorem C40_fields_defaults_partial (env : Env V) (c : NT V) (hc : Made c)
    (hi : ∀ o, env c.module c.name = some o → ∃ n, o = .value n) :
    ∃ c', copy env c = .ok (.cls c') ∧ c'.name = c.name ∧ c'.module = c.module ∧ c'.fields = c.fields ∧
      c'.defaults = c.defaults := by
  exact ⟨_, copy_eq env c hc hi, rfl, rfl, rfl, rfl⟩

/-- C40, a class found under its own name: loading gives that class itself. -/
theorem C40_importable_same (env : Env V) (c : NT V) (h : env c.module c.name = some (.cls c)) :
    copy env c = .ok (.cls c) := by
  simp [copy, saveNamedtuple, createNamedtuple, importClass, h]

/-- C40 is false when another class or a submodule has that name: it is returned in place of the namedtuple, with
other fields. (`p = namedtuple('Point', 'x y')` while the module's own Point has fields x, y, z.) -/
theorem C40_full_false : ∃ (env : Env Nat) (c c' : NT Nat), Made c ∧ Made c' ∧
    copy env c = .ok (.cls c') ∧ c'.fields ≠ c.fields := by
  refine ⟨fun m n => if m = "m" ∧ n = "Point" then some (.cls ⟨"Point", "m", ["x", "y", "z"], [], []⟩) else none,
    ⟨"Point", "m", ["x", "y"], [("y", 0)], []⟩, ⟨"Point", "m", ["x", "y", "z"], [], []⟩, ?_, ?_, ?_, by decide⟩
  · exact ⟨by decide, ["x"], [("y", 0)], rfl, rfl⟩
  · exact ⟨by decide, ["x", "y", "z"], [], rfl, rfl⟩
  · rfl

/-- … and so is anything else that is a class or a module: nothing checks that it is a namedtuple at all. -/
theorem C40_anything_by_that_name (env : Env V) (c : NT V) (n : Nat) (h : env c.module c.name = some (.other n)) :
    copy env c = .ok (.other n) := by
  simp [copy, saveNamedtuple, createNamedtuple, importClass, h]

/-- C39 is false for namedtuple classes with methods (typing.NamedTuple) that cannot be imported: the copy is a
bare namedtuple. -/
theorem C39_namedtuple_methods_lost (env : Env V) (c : NT V) (hc : Made c)
    (hi : ∀ o, env c.module c.name = some o → ∃ n, o = .value n) (c' : NT V) (h : copy env c = .ok (.cls c')) :
    c'.extra = [] := by
  rw [copy_eq env c hc hi] at h
  cases h; rfl

/-! ### concrete cases -/

example : copy (fun _ _ => none) (⟨"P", "m", ["a", "b", "c"], [("b", 5), ("c", 6)], []⟩ : NT Nat) =
    .ok (.cls ⟨"P", "m", ["a", "b", "c"], [("b", 5), ("c", 6)], []⟩) := rfl
example : Made (⟨"P", "m", ["a", "b", "c"], [("b", 5), ("c", 6)], []⟩ : NT Nat) :=
  ⟨by decide, ["a"], [("b", 5), ("c", 6)], rfl, rfl⟩
example : Made (⟨"V", "m", ["x", "y"], [], [("norm", 1)]⟩ : NT Nat) := ⟨by decide, ["x", "y"], [], rfl, rfl⟩

end Verif.NamedTuple
