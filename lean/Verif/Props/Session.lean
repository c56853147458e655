import Verif.Model.Session
/-! C15, C16, C17: load_module and load_module_asdict. -/
set_option linter.unusedSimpArgs false
namespace Verif.Session

/-! ### Auxiliary: what imports and unpickling may do to the interpreter -/

/-- sys.modules only grows, and only by modules found on disk. -/
def ModsGrow (disk : Disk) (s s' : St) : Prop :=
  (∀ k m, s.mods.get k = some m → s'.mods.get k = some m) ∧
  (∀ k, s.mods.get k = none → (s'.mods.get k).isSome → (disk k).isSome)

/-- Module objects that existed are unchanged. -/
def HeapKept (s s' : St) : Prop := ∀ (i : Nat) (md : Mod),
  s.heap[i]? = some md → s'.heap[i]? = some md

theorem ModsGrow.refl (disk : Disk) (s : St) : ModsGrow disk s s :=
  ⟨fun _ _ h => h, fun _ h h' => by simp [h] at h'⟩

theorem ModsGrow.trans {disk : Disk} {a b c : St} (h1 : ModsGrow disk a b)
    (h2 : ModsGrow disk b c) : ModsGrow disk a c := by
  refine ⟨fun k m h => h2.1 k m (h1.1 k m h), fun k h h' => ?_⟩
  cases hb : b.mods.get k with
  | none => exact h2.2 k hb h'
  | some m => exact h1.2 k h (by simp [hb])

theorem HeapKept.refl (s : St) : HeapKept s s := fun _ _ h => h
theorem HeapKept.trans {a b c : St} (h1 : HeapKept a b) (h2 : HeapKept b c) : HeapKept a c :=
  fun i md h => h2 i md (h1 i md h)

theorem heapKept_append (s : St) (l : List Mod) (mods) :
    HeapKept s { mods := mods, heap := s.heap ++ l } := by
  intro i md h
  have hi : i < s.heap.length := by
    rcases Nat.lt_or_ge i s.heap.length with h' | h'
    · exact h'
    · rw [List.getElem?_eq_none h'] at h; simp at h
  simpa [List.getElem?_append_left hi] using h

theorem importKey_grow (disk : Disk) (k : String) (s : St) :
    ModsGrow disk s (importKey disk k s).2 ∧ HeapKept s (importKey disk k s).2 ∧
    ∀ m, (importKey disk k s).1 = .ok m → (importKey disk k s).2.mods.get k = some m := by
  unfold importKey
  cases h : s.mods.get k with
  | some m => exact ⟨.refl _ _, .refl _, by simp [h]⟩
  | none =>
    cases hd : disk k with
    | none => exact ⟨.refl _ _, .refl _, by simp⟩
    | some d =>
      simp only [newModule, St.setMod]
      refine ⟨⟨?_, ?_⟩, heapKept_append _ _ _, by simp⟩
      · intro x m hx
        rw [Dict.get_set_ne _ _ (by rintro rfl; simp [h] at hx)]; exact hx
      · intro x hx hx'
        by_cases e : x = k
        · subst e; simp [hd]
        · rw [Dict.get_set_ne _ _ e] at hx'; simp [hx] at hx'

theorem runActs_grow (disk : Disk) (l : List Act) (s : St) :
    ModsGrow disk s (runActs disk l s).2 ∧ HeapKept s (runActs disk l s).2 := by
  induction l generalizing s with
  | nil => exact ⟨.refl _ _, .refl _⟩
  | cons a l ih =>
    cases a with
    | raise => exact ⟨.refl _ _, .refl _⟩
    | imp n =>
      obtain ⟨g1, g2, -⟩ := importKey_grow disk n s
      simp only [runActs]
      generalize importKey disk n s = r at *
      obtain ⟨r, s1⟩ := r
      cases r with
      | error e => exact ⟨g1, g2⟩
      | ok m => exact ⟨g1.trans (ih s1).1, g2.trans (ih s1).2⟩

theorem setAttrs_mods (s : St) (m : ModId) (e : Dict String Val) : (s.setAttrs m e).mods = s.mods := by
  unfold St.setAttrs; split <;> rfl

theorem importModule_grow (disk : Disk) (n : Name) (s : St) :
    ModsGrow disk s (importModule disk n s).2 := by
  cases n with
  | runtime x => simp only [importModule]; split <;> exact .refl _ _
  | top x => exact (importKey_grow disk x s).1
  | dotted p l =>
    simp only [importModule]
    have g := (importKey_grow disk p s).1
    generalize importKey disk p s = r at *
    obtain ⟨r, s1⟩ := r
    cases r with
    | error e => exact g
    | ok pm =>
      simp only
      split
      · exact g
      · split
        · exact g
        · split
          · exact g
          · have g2 := (importKey_grow disk (p ++ "." ++ l) s1).1
            generalize importKey disk (p ++ "." ++ l) s1 = r2 at *
            obtain ⟨r2, s2⟩ := r2
            cases r2 with
            | error e => exact g.trans g2
            | ok m =>
              refine g.trans (g2.trans ?_)
              refine ⟨?_, ?_⟩ <;> simp only [setAttrs_mods]
              · exact fun _ _ h => h
              · intro k h h'; simp [h] at h'
        · split
          · exact g
          · have g2 := (importKey_grow disk (p ++ "." ++ l) s1).1
            generalize importKey disk (p ++ "." ++ l) s1 = r2 at *
            obtain ⟨r2, s2⟩ := r2
            cases r2 with
            | error e => exact g.trans g2
            | ok m =>
              refine g.trans (g2.trans ?_)
              refine ⟨?_, ?_⟩ <;> simp only [setAttrs_mods]
              · exact fun _ _ h => h
              · intro k h h'; simp [h] at h'

theorem unpickle_grow (disk : Disk) (f : Stream) (s : St) :
    ModsGrow disk s (unpickle disk f s).2 := by
  unfold unpickle
  have g1 := (runActs_grow disk f.before s).1
  generalize runActs disk f.before s = r at *
  obtain ⟨r, s1⟩ := r
  cases r with
  | some e => exact g1
  | none =>
    have g2 := importModule_grow disk f.name s1
    simp only
    generalize importModule disk f.name s1 = r2 at *
    obtain ⟨r2, s2⟩ := r2
    cases r2 with
    | error e => exact g1.trans g2
    | ok m =>
      have g3 := (runActs_grow disk f.during s2).1
      simp only
      generalize runActs disk f.during s2 = r3 at *
      obtain ⟨r3, s3⟩ := r3
      cases r3 with
      | some e => exact g1.trans (g2.trans g3)
      | none =>
        refine g1.trans (g2.trans (g3.trans ?_))
        refine ⟨?_, ?_⟩ <;> simp only [setAttrs_mods]
        · exact fun _ _ h => h
        · intro k h h'; simp [h] at h'

theorem resolveMain_grow (disk : Disk) (md : ModId) (pk : Option Name) (a : Arg) (s : St) :
    ModsGrow disk s (resolveMain disk md pk a s).2 := by
  have N : ∀ n, ModsGrow disk s (resolveMain disk md pk (.name n) s).2 := by
    intro n
    cases n <;> simp only [resolveMain]
    · exact ⟨fun _ _ h => h, fun _ h h' => by simp [newModule] at h'; simp [h] at h'⟩
    · exact importModule_grow _ _ _
    · exact importModule_grow _ _ _
  cases a with
  | none =>
    cases pk with
    | none => exact .refl _ _
    | some n =>
      have : resolveMain disk md (some n) .none s = resolveMain disk md (some n) (.name n) s := by
        simp [resolveMain]
      rw [this]; exact N n
  | name n => exact N n
  | obj m => exact .refl _ _
  | notModule => exact .refl _ _

/-! ### C15 -/

/-- A module object counts as imported when it has a loader or is one of the values of sys.modules. -/
def Imported (s : St) (m : ModId) : Prop :=
  (∃ md, s.heap[m]? = some md ∧ md.loader = true) ∨ ∃ k, (k, m) ∈ s.mods

theorem isImported_iff (s : St) (m : ModId) : isImported s m = true ↔ Imported s m := by
  unfold isImported Imported
  rw [Bool.or_eq_true]
  refine or_congr ?_ ?_
  · cases s.heap[m]? <;> simp
  · simp [Dict.values]

/-- The saved module (its stored name) and a target module object are incompatible: they differ in
kind (runtime vs. imported) or in name. -/
def Mismatch (s : St) (saved : Name) (target : ModId) : Prop :=
  match saved with
  | .runtime n => Imported s target ∨ modName s target ≠ n
  | .top n => ¬ Imported s target ∨ modName s target ≠ n
  | .dotted p l => ¬ Imported s target ∨ modName s target ≠ p ++ "." ++ l

theorem refuses_iff (s : St) (n : Name) (m : ModId) : refuses s m (some n) = true ↔ Mismatch s n m := by
  unfold refuses Mismatch
  cases n <;> simp only [← isImported_iff] <;> cases h2 : isImported s m <;>
    simp [Name.isRuntime, Name.bare, Name.str]

/-- C15.  When the module passed to `load_module` differs in name or kind from the saved one, the call
raises ValueError and the interpreter state (all modules and sys.modules) is exactly as before. -/
theorem C15_refuses_mismatch (disk : Disk) (md : ModId) (f : Stream) (m : ModId) (s : St)
    (h : Mismatch s f.name m) :
    loadModule disk md true f (.obj m) s = (.error .valueError, s) := by
  simp [loadModule, loadResolved, resolveMain, (refuses_iff s f.name m).2 h]

/-- C15 for every way of designating the target (object, name, or the file's own name): once the
target is resolved, a mismatch raises ValueError and changes nothing further; resolving only
imports modules (existing sys.modules entries keep their values). -/
theorem C15_refuses_mismatch_any_arg (disk : Disk) (md : ModId) (f : Stream) (a : Arg) (s s1 : St)
    (m : ModId) (hr : resolveMain disk md (some f.name) a s = (.ok m, s1)) (h : Mismatch s1 f.name m) :
    loadModule disk md true f a s = (.error .valueError, s1) ∧ ModsGrow disk s s1 := by
  refine ⟨?_, ?_⟩
  · simp [loadModule, loadResolved, hr, (refuses_iff s1 f.name m).2 h]
  · have := resolveMain_grow disk md (some f.name) a s; rwa [hr] at this

theorem runActs_err (disk : Disk) (l : List Act) (s : St) (e : Err)
    (h : (runActs disk l s).1 = some e) : e = .importError ∨ e = .stream := by
  induction l generalizing s with
  | nil => simp [runActs] at h
  | cons a l ih =>
    cases a with
    | raise => simp [runActs] at h; exact Or.inr h.symm
    | imp n =>
      simp only [runActs] at h
      unfold importKey at h
      cases hm : s.mods.get n with
      | some m => simp [hm] at h; exact ih _ h
      | none =>
        cases hd : disk n with
        | none => simp [hm, hd] at h; exact Or.inl h.symm
        | some d => simp [hm, hd] at h; exact ih _ h

theorem importKey_err (disk : Disk) (k : String) (s : St) (e : Err)
    (h : (importKey disk k s).1 = .error e) : e = .importError := by
  unfold importKey at h
  split at h
  · simp at h
  · split at h
    · simp at h; exact h.symm
    · simp at h

theorem importModule_err (disk : Disk) (n : Name) (s : St) (e : Err)
    (h : (importModule disk n s).1 = .error e) : e ≠ .valueError := by
  have K := importKey_err disk
  cases n with
  | runtime x => simp only [importModule] at h; split at h <;> simp at h; subst h; simp
  | top x => rw [K _ _ _ h]; simp
  | dotted p l =>
    simp only [importModule] at h
    split at h
    · rename_i e' s' hk
      simp at h; subst h
      rw [K p s e' (by rw [hk])]; simp
    · split at h
      · simp at h; subst h; simp
      · split at h
        · simp at h
        · split at h
          · simp at h
          · split at h
            · rename_i e' s' hk2
              simp at h; subst h
              rw [K (p ++ "." ++ l) _ e' (by rw [hk2])]; simp
            · simp at h
        · split at h
          · simp at h; subst h; simp
          · split at h
            · simp at h; subst h; simp
            · simp at h

theorem unpickle_err (disk : Disk) (f : Stream) (s : St) (e : Err)
    (h : (unpickle disk f s).1 = .error e) : e ≠ .valueError := by
  unfold unpickle at h
  split at h
  · rename_i e' s' hk
    simp at h; subst h
    rcases runActs_err disk f.before s e' (by rw [hk]) with h | h <;> simp [h]
  · rename_i s1 hk
    split at h
    · rename_i e' s' hk2
      simp at h; subst h
      exact importModule_err disk f.name s1 e' (by rw [hk2])
    · rename_i m s2 hk2
      split at h
      · rename_i e' s' hk3
        simp at h; subst h
        rcases runActs_err disk f.during s2 e' (by rw [hk3]) with h | h <;> simp [h]
      · simp at h

/-- C15, converse: a matching target is never refused with ValueError. -/
theorem C15_accepts_match (disk : Disk) (md : ModId) (f : Stream) (m : ModId) (s : St)
    (h : ¬ Mismatch s f.name m) :
    (loadModule disk md true f (.obj m) s).1 ≠ .error .valueError := by
  have hr : refuses s m (some f.name) = false := by
    rw [← Bool.not_eq_true, refuses_iff]; exact h
  have e : loadModule disk md true f (.obj m) s = loadResolved disk (some f.name) f m s := by
    simp [loadModule, resolveMain]
  rw [e]
  unfold loadResolved
  rw [hr]
  simp only [Bool.false_eq_true, if_false]
  intro hc
  cases hi : isImported s m <;> simp only [hi, if_true, Bool.false_eq_true, if_false] at hc
  · have E := unpickle_err disk f (s.setMod (Name.runtime (modName s m)).str m)
    generalize unpickle disk f (s.setMod (Name.runtime (modName s m)).str m) = u at *
    obtain ⟨u1, u2⟩ := u
    cases u1 with
    | error e => simp at hc; subst hc; exact E _ rfl rfl
    | ok l => simp only at hc; split at hc <;> simp at hc
  · have E := unpickle_err disk f s
    generalize unpickle disk f s = u at *
    obtain ⟨u1, u2⟩ := u
    cases u1 with
    | error e => simp at hc; subst hc; exact E _ rfl rfl
    | ok l => simp only at hc; split at hc <;> simp at hc

/-! ### C16 -/

/-- C16.  Whatever the stream does and wherever it fails, after `load_module` sys.modules has no
`__runtime__.` entry it did not have before, every other entry it had is unchanged, and any new entry
is a module imported from disk. -/
theorem C16_no_trace (disk : Disk) (md : ModId) (pk : Bool) (f : Stream) (a : Arg) (s : St)
    (hdisk : ∀ n, disk ("__runtime__." ++ n) = none) :
    let s' := (loadModule disk md pk f a s).2
    (∀ n, s.mods.get ("__runtime__." ++ n) = none → s'.mods.get ("__runtime__." ++ n) = none) ∧
    (∀ k m, (∀ n, k ≠ "__runtime__." ++ n) → s.mods.get k = some m → s'.mods.get k = some m) ∧
    (∀ k, s.mods.get k = none → (s'.mods.get k).isSome → (disk k).isSome) := by
  have G : ∀ s', ModsGrow disk s s' →
      (∀ n, s.mods.get ("__runtime__." ++ n) = none → s'.mods.get ("__runtime__." ++ n) = none) ∧
      (∀ k m, (∀ n, k ≠ "__runtime__." ++ n) → s.mods.get k = some m → s'.mods.get k = some m) ∧
      (∀ k, s.mods.get k = none → (s'.mods.get k).isSome → (disk k).isSome) := by
    intro s' g
    refine ⟨fun n h => ?_, fun k m _ h => g.1 k m h, g.2⟩
    cases hx : s'.mods.get ("__runtime__." ++ n) with
    | none => rfl
    | some m => have := g.2 _ h (by simp [hx]); simp [hdisk] at this
  have D : ∀ (s1 s2 : St) (key : String) (m : ModId) (n : String), key = ("__runtime__." ++ n) →
      ModsGrow disk s s1 → ModsGrow disk (s1.setMod key m) s2 →
      (∀ n, s.mods.get ("__runtime__." ++ n) = none →
        (s2.delMod key).mods.get ("__runtime__." ++ n) = none) ∧
      (∀ k m, (∀ n, k ≠ "__runtime__." ++ n) → s.mods.get k = some m →
        (s2.delMod key).mods.get k = some m) ∧
      (∀ k, s.mods.get k = none → ((s2.delMod key).mods.get k).isSome → (disk k).isSome) := by
    intro s1 s2 key m n hkey g1 g2
    simp only [St.delMod, St.setMod] at *
    refine ⟨?_, ?_, ?_⟩
    · intro n' hn
      rw [Dict.get_del]
      by_cases e : ("__runtime__." ++ n') = key
      · simp [e]
      · simp only [e, if_false]
        cases hx : s2.mods.get ("__runtime__." ++ n') with
        | none => rfl
        | some x =>
          have hn1 : s1.mods.get ("__runtime__." ++ n') = none := by
            cases hy : s1.mods.get ("__runtime__." ++ n') with
            | none => rfl
            | some y => have := g1.2 _ hn (by simp [hy]); simp [hdisk] at this
          have := g2.2 ("__runtime__." ++ n') (by simp [Dict.get_set, e, hn1]) (by simp [hx])
          simp [hdisk] at this
    · intro k m' hk h
      have hne : k ≠ key := by rw [hkey]; exact hk n
      rw [Dict.get_del_ne _ hne]
      exact g2.1 k m' (by simp only [Dict.get_set, hne, if_false]; exact g1.1 k m' h)
    · intro k h h'
      rw [Dict.get_del] at h'
      by_cases e : k = key
      · simp [e] at h'
      · simp only [e, if_false] at h'
        cases hy : s1.mods.get k with
        | some y => exact g1.2 _ h (by simp [hy])
        | none => exact g2.2 k (by simp only [Dict.get_set, e, if_false]; exact hy) h'
  have R : ∀ (pk : Option Name) (m : ModId) (s1 : St), ModsGrow disk s s1 →
      let s' := (loadResolved disk pk f m s1).2
      (∀ n, s.mods.get ("__runtime__." ++ n) = none → s'.mods.get ("__runtime__." ++ n) = none) ∧
      (∀ k m, (∀ n, k ≠ "__runtime__." ++ n) → s.mods.get k = some m → s'.mods.get k = some m) ∧
      (∀ k, s.mods.get k = none → (s'.mods.get k).isSome → (disk k).isSome) := by
    intro pk m s1 g1
    unfold loadResolved
    cases refuses s1 m pk
    · simp only [Bool.false_eq_true, if_false]
      cases isImported s1 m
      · simp only [Bool.false_eq_true, if_false]
        have g2 := unpickle_grow disk f (s1.setMod (Name.runtime (modName s1 m)).str m)
        generalize unpickle disk f (s1.setMod (Name.runtime (modName s1 m)).str m) = u at *
        obtain ⟨u1, u2⟩ := u
        cases u1 with
        | error e => exact D s1 u2 _ m _ rfl g1 g2
        | ok l => simp only; split <;> exact D s1 u2 _ m _ rfl g1 g2
      · simp only [if_true]
        have g2 := unpickle_grow disk f s1
        generalize unpickle disk f s1 = u at *
        obtain ⟨u1, u2⟩ := u
        cases u1 with
        | error e => exact G _ (g1.trans g2)
        | ok l => simp only; split <;> exact G _ (g1.trans g2)
    · exact G _ g1
  simp only [loadModule]
  have g1 := resolveMain_grow disk md (if pk = true then some f.name else none) a s
  generalize resolveMain disk md (if pk = true then some f.name else none) a s = r at *
  obtain ⟨r1, r2⟩ := r
  by_cases hp : (!pk && decide (a = Arg.none)) = true
  · rw [if_pos hp]; exact G s (.refl _ _)
  · rw [if_neg hp]
    cases r1 with
    | error e => exact G _ g1
    | ok m => exact R _ m r2 g1

/-! ### C17 -/

/-- C17 at full strength, as a statement: on every path, entries of sys.modules and existing module
objects are as before (the only new entries come from imports), and on success the dictionary
returned (of module object `m`) holds the saved state. -/
def C17_full : Prop := ∀ (disk : Disk) (md : ModId) (f : Stream) (update : Bool) (s : St),
  f.state.WF →
  let r := loadModuleAsdict disk md true f update s
  (∀ k m, s.mods.get k = some m → r.2.mods.get k = some m) ∧
  HeapKept s r.2 ∧
  (∀ m, r.1 = .ok m → ∃ x, r.2.heap[m]? = some x ∧
    ∀ k v, f.state.get k = some v → x.dict.get k = some v) ∧
  ((runActs disk f.before s).1 = none → (runActs disk f.during s).1 = none →
    update = false → ∃ m, r.1 = .ok m)

theorem setAttrs_get (s : St) (m : ModId) (e : Dict String Val) (x : Mod) (h : s.heap[m]? = some x) :
    (s.setAttrs m e).heap[m]? = some { x with dict := x.dict.update e } := by
  have hlt : m < s.heap.length := by
    rcases Nat.lt_or_ge m s.heap.length with h' | h'
    · exact h'
    · rw [List.getElem?_eq_none h'] at h; simp at h
  simp only [St.setAttrs, h]
  rw [List.getElem?_set_self hlt]

theorem setAttrs_get_ne (s : St) (m i : ModId) (e : Dict String Val) (h : i ≠ m) :
    (s.setAttrs m e).heap[i]? = s.heap[i]? := by
  unfold St.setAttrs
  split
  · rfl
  · simp [List.getElem?_set, Ne.symm h]

/-- Loading a top-level module whose sys.modules entry is `m`: everything goes to `m`. -/
theorem load_top (disk : Disk) (md : ModId) (f : Stream) (n : String) (s : St) (m : ModId) (x : Mod)
    (hf : f.name = .top n) (hm : s.mods.get n = some m) (hx : s.heap[m]? = some x)
    (hn : x.name = n) :
    let r := loadModule disk md true f .none s
    ModsGrow disk s r.2 ∧
    (∀ i y, i ≠ m → s.heap[i]? = some y → r.2.heap[i]? = some y) ∧
    (∀ i, r.1 = .ok i → i = m ∧ r.2.heap[m]? = some { x with dict := x.dict.update f.state }) ∧
    (∀ e, r.1 = .error e → r.2.heap[m]? = some x) ∧
    ((runActs disk f.before s).1 = none →
      (runActs disk f.during (runActs disk f.before s).2).1 = none → r.1 = .ok m) := by
  have himp : isImported s m = true := by
    have : m ∈ s.mods.values := List.mem_map.mpr ⟨_, Dict.mem_of_get hm, rfl⟩
    simp [isImported, this]
  have hik : importKey disk n s = (.ok m, s) := by simp [importKey, hm]
  have href : refuses s m (some f.name) = false := by
    simp [refuses, hf, Name.isRuntime, himp, modName, hx, hn, Name.bare, Name.str]
  have e1 : loadModule disk md true f .none s =
      (match unpickle disk f s with
        | (.error e, s) => (.error e, s)
        | (.ok l, s) => if l = m then (.ok m, s) else (.error .assertionError, s)) := by
    simp [loadModule, resolveMain, hf, importModule, hik, loadResolved]
    rw [← hf, href, himp]
    generalize unpickle disk f s = u
    obtain ⟨u1, u2⟩ := u
    cases u1 <;> rfl
  obtain ⟨g1, k1⟩ := runActs_grow disk f.before s
  generalize hb : runActs disk f.before s = b at *
  obtain ⟨b1, b2⟩ := b
  cases b1 with
  | some e =>
    have e2 : unpickle disk f s = (.error e, b2) := by simp [unpickle, hb]
    simp only [e1, e2]
    refine ⟨g1, fun i y _ h => k1 i y h, by simp, fun _ _ => k1 m x hx, by simp⟩
  | none =>
    have hik2 : importModule disk f.name b2 = (.ok m, b2) := by
      simp [hf, importModule, importKey, g1.1 n m hm]
    obtain ⟨g2, k2⟩ := runActs_grow disk f.during b2
    generalize hd : runActs disk f.during b2 = d at *
    obtain ⟨d1, d2⟩ := d
    cases d1 with
    | some e =>
      have e2 : unpickle disk f s = (.error e, d2) := by simp [unpickle, hb, hik2, hd]
      simp only [e1, e2]
      refine ⟨g1.trans g2, fun i y _ h => k2 i y (k1 i y h), by simp,
        fun _ _ => k2 m x (k1 m x hx), by simp [hd]⟩
    | none =>
      have e2 : unpickle disk f s = (.ok m, d2.setAttrs m f.state) := by
        simp [unpickle, hb, hik2, hd]
      simp only [e1, e2, if_true]
      refine ⟨?_, ?_, ?_, by simp, by simp⟩
      · refine g1.trans (g2.trans ?_)
        refine ⟨?_, ?_⟩ <;> simp only [setAttrs_mods]
        · exact fun _ _ h => h
        · intro k h h'; simp [h] at h'
      · intro i y hi h
        rw [setAttrs_get_ne _ _ _ _ hi]; exact k2 i y (k1 i y h)
      · intro i hi
        refine ⟨by simpa using hi.symm, ?_⟩
        exact setAttrs_get _ _ _ _ (k2 m x (k1 m x hx))

theorem asdict_core (disk : Disk) (md : ModId) (f : Stream) (n : String) (s : St) (m : ModId)
    (x : Mod) (old : Option ModId) (hf : f.name = .top n) (hx : s.heap[m]? = some x)
    (hn : x.name = n) (hold : s.mods.get n = old) :
    let r := asdictLoad disk md f n m old s
    (∀ k m', s.mods.get k = some m' → r.2.mods.get k = some m') ∧
    r.2.mods.get n = old ∧
    (∀ k, s.mods.get k = none → (r.2.mods.get k).isSome → (disk k).isSome) ∧
    (∀ i y, i ≠ m → s.heap[i]? = some y → r.2.heap[i]? = some y) ∧
    (∀ i, r.1 = .ok i → i = m ∧ r.2.heap[m]? = some { x with dict := x.dict.update f.state }) ∧
    ((runActs disk f.before (s.setMod n m)).1 = none →
      (runActs disk f.during (runActs disk f.before (s.setMod n m)).2).1 = none → r.1 = .ok m) := by
  obtain ⟨h1, h2, h3, h4, h5⟩ := load_top disk md f n (s.setMod n m) m x hf (by simp [St.setMod])
    (by simpa [St.setMod] using hx) hn
  simp only [asdictLoad]
  generalize loadModule disk md true f .none (s.setMod n m) = r at *
  obtain ⟨r1, r2⟩ := r
  simp only at *
  have hn2 : r2.mods.get n = some m := h1.1 n m (by simp [St.setMod])
  have key : ∀ k m', k ≠ n → s.mods.get k = some m' → r2.mods.get k = some m' := by
    intro k m' hk h; exact h1.1 k m' (by simp [St.setMod, Dict.get_set, hk, h])
  have key2 : ∀ k, k ≠ n → s.mods.get k = none → (r2.mods.get k).isSome → (disk k).isSome := by
    intro k hk h h'; exact h1.2 k (by simp [St.setMod, Dict.get_set, hk, h]) h'
  cases old with
  | none =>
    have e : asdictFinally n m none r1 r2 =
        (r1.map (fun _ => m), r2.delMod n) := by
      simp only [asdictFinally, delStrict, hn2]; cases r1 <;> rfl
    rw [e]
    refine ⟨?_, by simp [St.delMod], ?_, ?_, ?_, ?_⟩
    · intro k m' h
      have hk : k ≠ n := by rintro rfl; simp [hold] at h
      simp only [St.delMod, Dict.get_del_ne _ hk]; exact key k m' hk h
    · intro k h h'
      by_cases hk : k = n
      · simp [St.delMod, hk] at h'
      · simp only [St.delMod, Dict.get_del_ne _ hk] at h'; exact key2 k hk h h'
    · intro i y hi h; exact h2 i y hi h
    · intro i hi
      cases r1 with
      | error e => simp [Except.map] at hi
      | ok l => simp [Except.map] at hi; exact ⟨hi.symm, (h3 l rfl).2⟩
    · intro a b; rw [h5 a b]; rfl
  | some o =>
    have e : asdictFinally n m (some o) r1 r2 =
        (r1.map (fun _ => m), r2.setMod n o) := by
      simp only [asdictFinally]; cases r1 <;> rfl
    rw [e]
    refine ⟨?_, by simp [St.setMod], ?_, ?_, ?_, ?_⟩
    · intro k m' h
      simp only [St.setMod, Dict.get_set]
      by_cases hk : k = n
      · subst hk; rw [hold] at h; simpa using h
      · simp only [hk, if_false]; exact key k m' hk h
    · intro k h h'
      by_cases hk : k = n
      · subst hk; simp [hold] at h
      · simp only [St.setMod, Dict.get_set, hk, if_false] at h'; exact key2 k hk h h'
    · intro i y hi h; exact h2 i y hi h
    · intro i hi
      cases r1 with
      | error e => simp [Except.map] at hi
      | ok l => simp [Except.map] at hi; exact ⟨hi.symm, (h3 l rfl).2⟩
    · intro a b; rw [h5 a b]; rfl

theorem getElem?_length_none (l : List Mod) (m : Nat) (y : Mod) (h : l[m]? = some y) :
    m < l.length := by
  rcases Nat.lt_or_ge m l.length with h' | h'
  · exact h'
  · rw [List.getElem?_eq_none h'] at h; simp at h

/-- C17 for top-level module names (including `__main__`), every update flag and failure point.
Missing from the full statement: dotted and runtime names, for which it is false (below). -/
theorem C17_asdict_partial (disk : Disk) (md : ModId) (f : Stream) (update : Bool) (s : St)
    (n : String) (hf : f.name = .top n) (hw : f.state.WF) :
    let r := loadModuleAsdict disk md true f update s
    -- every entry of sys.modules is as before; a module absent before is absent after
    -- (unless `update` had to import it), and any other new entry is an import
    (∀ k m, s.mods.get k = some m → r.2.mods.get k = some m) ∧
    (update = false → s.mods.get n = none → r.2.mods.get n = none) ∧
    (∀ k, s.mods.get k = none → (r.2.mods.get k).isSome → (disk k).isSome) ∧
    -- every module object that existed is unchanged
    HeapKept s r.2 ∧
    -- on success the result is a new module object's dictionary holding the saved state over the
    -- initial contents
    (∀ m, r.1 = .ok m → s.heap[m]? = none ∧ ∃ x, r.2.heap[m]? = some x ∧
      (∀ k v, f.state.get k = some v → x.dict.get k = some v) ∧
      (update = true → ∀ o y, s.mods.get n = some o → s.heap[o]? = some y → y.dict.WF →
        ∀ k v, f.state.get k = none → y.dict.get k = some v → x.dict.get k = some v)) ∧
    -- and it does succeed when unpickling the state raises nothing
    (update = false → (∀ s', (runActs disk f.before s').1 = none) →
      (∀ s', (runActs disk f.during s').1 = none) → ∃ m, r.1 = .ok m) := by
  have hkey : f.name.str = n := by rw [hf]; rfl
  simp only [loadModuleAsdict, hkey, Bool.not_true, Bool.false_eq_true, if_false]
  generalize hm : (newModule s n defaults false).1 = m
  have hm' : m = s.heap.length := hm.symm
  generalize hs1 : (newModule s n defaults false).2 = s1
  have hmods : s1.mods = s.mods := by rw [← hs1]; rfl
  have hkept : HeapKept s s1 := by rw [← hs1]; exact heapKept_append _ _ _
  have hfresh : s.heap[m]? = none := by rw [hm']; simp
  have hx : s1.heap[m]? = some ⟨n, false, defaults⟩ := by
    rw [← hs1, hm']; simp [newModule]
  have hne : ∀ i y, s.heap[i]? = some y → i ≠ m := by
    rintro i y h rfl; simp [hfresh] at h
  have hkept2 : ∀ (e : Dict String Val) (i : Nat) (y : Mod), s.heap[i]? = some y → (s1.setAttrs m e).heap[i]? = some y := by
    intro e i y h; rw [setAttrs_get_ne _ _ _ _ (hne i y h)]; exact hkept i y h
  cases update with
  | false =>
    simp only [Bool.false_eq_true, if_false]
    obtain ⟨c1, c2, c3, c4, c5, c6⟩ := asdict_core disk md f n
      (s1.setAttrs m [("__builtins__", .str "builtins")]) m _ (s.mods.get n) hf
      (setAttrs_get _ _ _ _ hx) rfl (by rw [setAttrs_mods, hmods])
    rw [setAttrs_mods, hmods] at c1 c3
    refine ⟨c1, fun _ h => by rw [c2, h], c3, fun i y h => c4 i y (hne i y h) (hkept2 _ i y h),
      ?_, fun _ a b => ⟨m, c6 (a _) (b _)⟩⟩
    intro i hi
    obtain ⟨rfl, h⟩ := c5 i hi
    refine ⟨hfresh, _, h, ?_, by simp⟩
    intro k v hk
    simp only [Dict.get_update _ _ hw, hk]
  | true =>
    simp only [if_true]
    cases ho : s.mods.get n with
    | some o =>
      simp only
      obtain ⟨c1, c2, c3, c4, c5, c6⟩ := asdict_core disk md f n
        (s1.setAttrs m (dictOf s1 o)) m _ (some o) hf
        (setAttrs_get _ _ _ _ hx) rfl (by rw [setAttrs_mods, hmods, ho])
      rw [setAttrs_mods, hmods] at c1 c3
      refine ⟨c1, by simp, c3, fun i y h => c4 i y (hne i y h) (hkept2 _ i y h), ?_, by simp⟩
      intro i hi
      obtain ⟨rfl, h⟩ := c5 i hi
      refine ⟨hfresh, _, h, ?_, ?_⟩
      · intro k v hk
        simp only [Dict.get_update _ _ hw, hk]
      · intro _ o' y e hy hyw k v hk hv
        simp at e; subst e
        have : dictOf s1 o = y.dict := by simp [dictOf, hkept o y hy]
        simp only [Dict.get_update _ _ hw, hk, this, Dict.get_update _ _ hyw, hv]
    | none =>
      simp only [hf, importModule]
      obtain ⟨g1, g2, g3⟩ := importKey_grow disk n s1
      generalize hik : importKey disk n s1 = r at *
      obtain ⟨r1, s2⟩ := r
      cases r1 with
      | error e =>
        have hs2 : s2.mods.get n = none := by
          unfold importKey at hik
          rw [hmods, ho] at hik
          cases hd : disk n with
          | none => simp [hd] at hik; rw [← hik.2, hmods, ho]
          | some d => simp [hd] at hik
        simp only [asdictFinally, delStrict, hs2]
        rw [← hmods]
        refine ⟨g1.1, by simp, g1.2, hkept.trans g2, by simp, by simp⟩
      | ok o =>
        simp only at *
        have hx2 := g2 m _ hx
        have ho2 := g3 o rfl
        obtain ⟨c1, c2, c3, c4, c5, c6⟩ := asdict_core disk md f n
          (s2.setAttrs m (dictOf s2 o)) m _ (some o) hf
          (setAttrs_get _ _ _ _ hx2) rfl (by rw [setAttrs_mods, ho2])
        rw [setAttrs_mods] at c1 c3
        rw [← hmods]
        refine ⟨fun k m' h => c1 k m' (g1.1 k m' h), by simp, ?_, ?_, ?_, by simp⟩
        · intro k h h'
          cases h2 : s2.mods.get k with
          | none => exact c3 k h2 h'
          | some z => exact g1.2 k h (by simp [h2])
        · intro i y h
          refine c4 i y (hne i y h) ?_
          rw [setAttrs_get_ne _ _ _ _ (hne i y h)]; exact g2 i y (hkept i y h)
        · intro i hi
          obtain ⟨rfl, h⟩ := c5 i hi
          refine ⟨hfresh, _, h, ?_, ?_⟩
          · intro k v hk
            simp only [Dict.get_update _ _ hw, hk]
          · intro _ o' y e hy
            simp at e

/-- C17 is false for runtime modules: `load_module_asdict` on a file of a module-type object that is
not registered in sys.modules never succeeds, it always ends in KeyError. -/
theorem C17_runtime_always_fails (disk : Disk) (md : ModId) (f : Stream) (s : St) (n : String)
    (hf : f.name = .runtime n) (hk : s.mods.get ("__runtime__." ++ n) = none)
    (hv : ∀ m ∈ s.mods.values, m < s.heap.length)
    (hb : f.before = []) (hd : f.during = []) :
    (loadModuleAsdict disk md true f false s).1 = .error .keyError := by
  have hk : s.mods.get (Name.runtime n).str = none := hk
  have hvs : ∀ (d : Dict String ModId) (k : String) (m x : ModId), x ∈ (d.set k m).values →
      x = m ∨ x ∈ d.values := by
    intro d k m x
    induction d with
    | nil => simp [Dict.set, Dict.values]
    | cons p d ih =>
      obtain ⟨a, b⟩ := p
      simp only [Dict.set]
      split
      · simp [Dict.values]; rintro (h | ⟨q, h⟩)
        · exact Or.inl h
        · exact Or.inr (Or.inr ⟨q, h⟩)
      · intro h
        simp only [Dict.values, List.map_cons, List.mem_cons] at h ih ⊢
        rcases h with h | h
        · exact Or.inr (Or.inl h)
        · rcases ih h with h | h
          · exact Or.inl h
          · exact Or.inr (Or.inr h)
  simp only [loadModuleAsdict, hf, hk, asdictLoad, loadModule]
  simp only [newModule, resolveMain, hf, Bool.not_true, Bool.false_and, Bool.false_eq_true, if_false,
    if_true]
  generalize hs1 : (St.setMod (St.setAttrs _ _ _) _ _) = s1
  have hl : s1.heap.length = s.heap.length + 1 := by
    rw [← hs1]; simp only [St.setMod, St.setAttrs]; split <;> simp
  have hm1 : s1.mods = s.mods.set (Name.runtime n).str s.heap.length := by
    rw [← hs1]; simp only [St.setMod, setAttrs_mods]
  have hni : s1.heap.length ∉ s1.mods.values := by
    rw [hm1, hl]
    intro h
    rcases hvs _ _ _ _ h with h | h
    · exact Nat.succ_ne_self _ h
    · exact Nat.lt_irrefl _ (Nat.lt_of_succ_lt (hv _ h))
  simp only [loadResolved]
  have himp : isImported { mods := s1.mods, heap := s1.heap ++ [⟨n, false, defaults⟩] } s1.heap.length
      = false := by
    simp [isImported, hni]
  have hname : modName { mods := s1.mods, heap := s1.heap ++ [⟨n, false, defaults⟩] } s1.heap.length
      = n := by
    simp [modName]
  have href : refuses { mods := s1.mods, heap := s1.heap ++ [⟨n, false, defaults⟩] } s1.heap.length
      (some (.runtime n)) = false := by
    simp [refuses, Name.isRuntime, himp, hname, Name.bare]
  simp [href, himp, hname, unpickle, hb, hd, runActs, hf, importModule, St.setMod, setAttrs_mods,
    asdictFinally, St.delMod, delStrict]

/-- The hypotheses are met, and C17 at full strength is therefore false. -/
def runtimeFile : Stream := ⟨.runtime "foo", [], [], [("x", .data 5)]⟩
def emptySt : St := ⟨[], []⟩
theorem C17_full_false : ¬ C17_full := by
  intro H
  obtain ⟨-, -, -, h⟩ := H (fun _ => none) 0 runtimeFile false emptySt (by decide)
  obtain ⟨m, hm⟩ := h rfl rfl rfl
  rw [C17_runtime_always_fails (fun _ => none) 0 runtimeFile emptySt "foo" rfl rfl
    (by intro m hm; simp [emptySt, Dict.values] at hm) rfl rfl] at hm
  simp at hm

/-- C17 is also false for a submodule `pkg.sub` that is already imported: the call succeeds, but the
saved state is written into the original module object and is missing from the result. -/
def pkgSt : St where
  mods := [("pkg", 0), ("pkg.sub", 1)]
  heap := [⟨"pkg", true, [("sub", .mod 1)]⟩, ⟨"pkg.sub", true, [("x", .data 1)]⟩]
def subFile : Stream := ⟨.dotted "pkg" "sub", [], [], [("x", .data 5)]⟩

theorem C17_dotted_alters_original :
    let r := loadModuleAsdict (fun _ => none) 0 true subFile false pkgSt
    r.1 = .ok 2 ∧
    (pkgSt.heap[1]?).map (fun m => m.dict.get "x") = some (some (.data 1)) ∧
    (r.2.heap[1]?).map (fun m => m.dict.get "x") = some (some (.data 5)) ∧
    (r.2.heap[2]?).map (fun m => m.dict.get "x") = some none := by
  exact ⟨rfl, rfl, rfl, rfl⟩

/-! Non-vacuity for C15, C16, C17. -/
section
def mainSt : St where
  mods := [("__main__", 0), ("foo", 1)]
  heap := [⟨"__main__", true, [("a", .data 0)]⟩, ⟨"foo", true, [("x", .data 1)]⟩,
           ⟨"foo", false, []⟩]
def fooFile : Stream := ⟨.top "foo", [], [.imp "foo"], [("x", .data 5), ("y", .data 6)]⟩
/-- target is a runtime module object named foo, the file holds the imported foo -/
example : Mismatch mainSt fooFile.name 2 := by
  left; rw [← isImported_iff]; decide
example : ¬ Mismatch mainSt fooFile.name 1 := by
  show ¬ (_ ∨ _)
  rw [← isImported_iff]
  rintro (h | h) <;> revert h <;> decide
example : ∀ n, (fun _ => none : Disk) ("__runtime__." ++ n) = none := fun _ => rfl
example : (loadModuleAsdict (fun _ => none) 0 true fooFile false mainSt).1 = .ok 3 := rfl
end

end Verif.Session
