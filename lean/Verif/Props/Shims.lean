import Verif.Model.Shims
/-! C49: compatibility shims resolve to the module attribute when present, else to the default. -/
set_option linter.unusedSimpArgs false
namespace Verif.Shims

variable {V : Type}

/-! ### specification -/

/-- `Means env s v`: the shim stands for `v` in an interpreter whose modules are `env`: an ordinary value for
itself, a shim for the attribute if the module has it, otherwise for what its default stands for. -/
inductive Means (env : Env V) : Shim V → V → Prop where
  | value (v) : Means env (.value v) v
  | present (m n d v) : env m n = some v → Means env (.getattr m n d) v
  | absent (m n d v) : env m n = none → Means env d v → Means env (.getattr m n (some d)) v

/-- the default can be resolved wherever the shim is loaded -/
inductive DefaultsOk (env : Env V) : Shim V → Prop where
  | value (v) : DefaultsOk env (.value v)
  | noDefault (m n) : DefaultsOk env (.getattr m n none)
  | default (m n d v) : Means env d v → DefaultsOk env d → DefaultsOk env (.getattr m n (some d))

theorem Means.functional {env : Env V} {s : Shim V} {v w : V} (h : Means env s v) (h' : Means env s w) : v = w := by
  induction h with
  | value v => cases h'; rfl
  | present m n d v h =>
    cases h' with
    | present _ _ _ _ g => rw [h] at g; exact Option.some.inj g
    | absent _ _ _ _ g => rw [h] at g; cases g
  | absent m n d v h _ ih =>
    cases h' with
    | present _ _ _ _ g => rw [h] at g; cases g
    | absent _ _ _ _ _ g => exact ih g

/-- C49: what a shim loads to is what it stands for. -/
theorem C49_load_sound (env : Env V) (s : Shim V) (v : V) (h : load env s = .ok v) : Means env s v := by
  match s with
  | .value w => cases h; exact .value _
  | .getattr m n none =>
    simp only [load] at h
    cases e : env m n with
    | none => rw [e] at h; cases h
    | some w => rw [e] at h; cases h; exact .present _ _ _ _ e
  | .getattr m n (some d) =>
    simp only [load] at h
    cases hd : load env d with
    | error e => rw [hd] at h; cases h
    | ok dv =>
      rw [hd] at h
      have ih := C49_load_sound env d dv hd
      cases e : env m n with
      | none => rw [e] at h; cases h; exact .absent _ _ _ _ e ih
      | some w => rw [e] at h; cases h; exact .present _ _ _ _ e

/-- C49, existence: a shim whose defaults can be resolved loads to what it stands for, and otherwise raises
AttributeError. In particular one whose default is an ordinary value always loads. -/
theorem C49_load_complete_partial (env : Env V) (s : Shim V) (hd : DefaultsOk env s) :
    (∀ v, Means env s v → load env s = .ok v) ∧
    ((¬ ∃ v, Means env s v) → load env s = .error .attributeError) := by
  induction hd with
  | value v =>
    exact ⟨fun w h => by cases h; rfl, fun h => absurd ⟨v, .value v⟩ h⟩
  | noDefault m n =>
    constructor
    · intro v h
      cases h with
      | present _ _ _ _ g => simp [load, g]
    · intro h
      cases e : env m n with
      | none => simp [load, e]
      | some w => exact absurd ⟨w, .present _ _ _ _ e⟩ h
  | default m n d v hv _ ih =>
    have hl := ih.1 v hv
    constructor
    · intro w h
      cases h with
      | present _ _ _ _ g => simp [load, hl, g]
      | absent _ _ _ _ g g' => simp [load, hl, g]; exact hv.functional g'
    · intro h
      cases e : env m n with
      | none => exact absurd ⟨v, .absent _ _ _ _ e hv⟩ h
      | some w => exact absurd ⟨w, .present _ _ _ _ e⟩ h

/-- C49 fails for a shim whose default is a shim that cannot be resolved: the default is loaded first, so loading
fails although the named attribute exists. -/
theorem C49_eager_default_fails : ∃ (env : Env Nat) (s : Shim Nat) (v : Nat),
    Means env s v ∧ load env s = .error .attributeError := by
  refine ⟨fun m n => if m = "importlib" ∧ n = "import_module" then some 1 else none,
    .getattr "importlib" "import_module" (some (.getattr "dill._dill" "_import_module" none)), 1,
    .present _ _ _ _ (by decide), ?_⟩
  simp [load]

/-- C49, calling: a callable shim called before pickling does what calling the loaded object does. -/
theorem C49_call (py : Py V) (env : Env V) (s : Shim V) (v : V) (args : List V) (hc : callable py s = true)
    (h : load env s = .ok v) :
    callShim py env s args = if py.callable v then py.call v args else .error .typeError := by
  match s with
  | .value w => cases h; rfl
  | .getattr m n none => simp [callable] at hc
  | .getattr m n (some d) =>
    have hc' : callable py d = true := by simpa [callable] using hc
    simp only [load] at h
    cases hd : load env d with
    | error e => rw [hd] at h; cases h
    | ok dv =>
      rw [hd] at h
      simp only [callShim, hc', if_true]
      cases e : env m n with
      | some w => rw [e] at h; cases h; rfl
      | none => rw [e] at h; cases h; exact C49_call py env d _ args hc' hd

/-- C49, register_shim: afterwards the shim loads to the implementation in the shims module when there is one
there, otherwise to dill's own attribute, otherwise to the default; and no other attribute has changed. -/
theorem C49_register (isNone : V → Bool) (name : String) (dv : V) (env : Env V) :
    let r := registerShim isNone name (some (.value dv)) env
    load r.1 r.2 = .ok (match env "dill._shims" name with
      | some f => if isNone f then (env "dill._dill" name).getD dv else f
      | none => (env "dill._dill" name).getD dv) ∧
    (∀ m n, (m, n) ≠ ("dill._dill", name) → r.1 m n = env m n) ∧
    (∀ env', load env' r.2 = .ok ((env' "dill._dill" name).getD dv)) := by
  intro r
  have hl : ∀ env', load env' r.2 = .ok ((env' "dill._dill" name).getD dv) := by
    intro env'
    show load env' (.getattr "dill._dill" name (some (.value dv))) = _
    simp only [load]
    cases env' "dill._dill" name <;> rfl
  refine ⟨?_, ?_, hl⟩
  · rw [hl]
    simp only [r, registerShim]
    cases e : env "dill._shims" name with
    | none => rfl
    | some f =>
      simp only
      cases hn : isNone f with
      | true => rfl
      | false => simp [setAttr]
  · intro m n hmn
    simp only [r, registerShim]
    cases e : env "dill._shims" name with
    | none => rfl
    | some f =>
      simp only
      cases hn : isNone f with
      | true => rfl
      | false =>
        have : ¬ (m = "dill._dill" ∧ n = name) := by
          rintro ⟨rfl, rfl⟩; exact hmn rfl
        simp [setAttr, this]

/-- C49, move_to binds the function in the module under the given name, or its own, and nothing else. -/
theorem C49_move_to (m : String) (name : Option String) (own : String) (f : V) (env : Env V) :
    moveTo m name own f env m (name.getD own) = some f ∧
    ∀ m' n', (m', n') ≠ (m, name.getD own) → moveTo m name own f env m' n' = env m' n' := by
  have hs : ∀ n, setAttr m n f env m n = some f ∧
      ∀ m' n', (m', n') ≠ (m, n) → setAttr m n f env m' n' = env m' n' := by
    intro n
    refine ⟨by simp [setAttr], ?_⟩
    intro m' n' h
    have : ¬ (m' = m ∧ n' = n) := by rintro ⟨rfl, rfl⟩; exact h rfl
    simp [setAttr, this]
  cases name with
  | none => exact hs own
  | some n => exact hs n

/-! ### concrete cases: dill's `_setattr` shim, on a Python with and without `_dill._setattr` -/

example : load (fun _ _ => none) (.getattr "dill._dill" "_setattr" (some (.value "setattr"))) = .ok "setattr" := rfl
example : load (fun m n => if m = "dill._dill" ∧ n = "_setattr" then some "ctypes version" else none)
    (.getattr "dill._dill" "_setattr" (some (.value "setattr"))) = .ok "ctypes version" := by simp [load]
example : DefaultsOk (fun _ _ => none) (.getattr "collections" "spam" (some (.value 3))) :=
  .default _ _ _ 3 (.value 3) (.value 3)

end Verif.Shims
