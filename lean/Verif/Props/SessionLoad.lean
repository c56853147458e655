import Verif.Props.Session
set_option linter.unusedSimpArgs false
/-! C89: load_module restores the module. -/
namespace Verif.Session

/-! ### Specification -/

/-- all that unpickling the values does is import modules that are there -/
def Harmless (disk : Disk) (s : St) (f : Stream) : Prop :=
  ∀ a ∈ f.before ++ f.during, ∃ k, a = .imp k ∧ ((disk k).isSome ∨ (s.mods.get k).isSome)

/-- importing the name gives this module: a submodule is the attribute of its package or, when that is something else than a module,
the one of sys.modules -/
def AvailableAs (s : St) (m : ModId) : Name → Prop
  | .top n => s.mods.get n = some m
  | .dotted p l => ∃ pm pmd, s.mods.get p = some pm ∧ s.heap[pm]? = some pmd ∧ (pmd.dict.get l = some (.mod m) ∨
      (s.mods.get (p ++ "." ++ l) = some m ∧ ∃ v, pmd.dict.get l = some v ∧ ∀ x, v ≠ .mod x))
  | .runtime _ => False

/-- the name as a string -/
def Name.Reads : Name → String → Prop
  | .top n, x => x = n
  | .dotted p l, x => x = p ++ "." ++ l
  | .runtime n, x => x = "__runtime__." ++ n

/-- the module `m` was restored: the saved names have the saved values, its other names and attributes and all other modules
are as they were; sys.modules has only gained modules found on disk -/
structure Restored (disk : Disk) (s s' : St) (m : ModId) (old : Mod) (state : Dict String Val) : Prop where
  saved : ∃ new, s'.heap[m]? = some new ∧ new.name = old.name ∧ new.loader = old.loader ∧
    (∀ k v, state.get k = some v → new.dict.get k = some v) ∧
    (∀ k, state.get k = none → new.dict.get k = old.dict.get k)
  others : ∀ i x, i ≠ m → s.heap[i]? = some x → s'.heap[i]? = some x
  kept : ∀ k o, s.mods.get k = some o → s'.mods.get k = some o
  gained : ∀ k, s.mods.get k = none → (s'.mods.get k).isSome → (disk k).isSome

/-! ### Proofs -/

theorem runActs_harmless (disk : Disk) (l : List Act) (s : St)
    (h : ∀ a ∈ l, ∃ k, a = .imp k ∧ ((disk k).isSome ∨ (s.mods.get k).isSome)) :
    ∃ s', runActs disk l s = (none, s') ∧ ModsGrow disk s s' ∧ HeapKept s s' := by
  have g := runActs_grow disk l s
  have : (runActs disk l s).1 = none := by
    clear g
    induction l generalizing s with
    | nil => rfl
    | cons a l ih =>
      obtain ⟨k, rfl, hk⟩ := h a (by simp)
      have hg := importKey_grow disk k s
      have hok : ∃ m, (importKey disk k s).1 = .ok m := by
        unfold importKey
        cases hm : s.mods.get k with
        | some m => exact ⟨m, rfl⟩
        | none =>
          rw [hm] at hk
          simp only [Option.isSome_none, Bool.false_eq_true, or_false] at hk
          obtain ⟨d, hd⟩ := Option.isSome_iff_exists.1 hk
          rw [hd]
          exact ⟨_, rfl⟩
      obtain ⟨m, hok⟩ := hok
      simp only [runActs]
      generalize importKey disk k s = r at hok hg
      obtain ⟨r1, s1⟩ := r
      simp only at hok
      subst hok
      apply ih
      intro a ha
      obtain ⟨k', rfl, hk'⟩ := h a (by simp [ha])
      refine ⟨k', rfl, hk'.imp_right ?_⟩
      intro hs
      obtain ⟨o, ho⟩ := Option.isSome_iff_exists.1 hs
      rw [hg.1.1 k' o ho]; rfl
  refine ⟨_, ?_, g.1, g.2⟩
  rw [← this]

theorem unpickle_ok (disk : Disk) (f : Stream) (s : St) (m : ModId) (old : Mod) (hh : Harmless disk s f)
    (hm : s.heap[m]? = some old) (hw : f.state.WF)
    (hi : ∀ s1, ModsGrow disk s s1 → HeapKept s s1 → importModule disk f.name s1 = (.ok m, s1)) :
    ∃ s', unpickle disk f s = (.ok m, s') ∧ Restored disk s s' m old f.state := by
  obtain ⟨s1, h1, g1, k1⟩ := runActs_harmless disk f.before s (fun a ha => hh a (by simp [ha]))
  obtain ⟨s2, h2, g2, k2⟩ := runActs_harmless disk f.during s1 (by
    intro a ha
    obtain ⟨k, rfl, hk⟩ := hh a (by simp [ha])
    refine ⟨k, rfl, hk.imp_right ?_⟩
    intro hs
    obtain ⟨o, ho⟩ := Option.isSome_iff_exists.1 hs
    rw [g1.1 k o ho]; rfl)
  have g := g1.trans g2
  have kk := k1.trans k2
  refine ⟨s2.setAttrs m f.state, ?_, ?_⟩
  · unfold unpickle
    rw [h1]
    simp only
    rw [hi s1 g1 k1]
    simp only
    rw [h2]
  · have hm2 := kk m old hm
    have hl := setAttrs_get s2 m f.state old hm2
    refine ⟨⟨_, hl, rfl, rfl, ?_, ?_⟩, ?_, ?_, ?_⟩
    · intro k v hk
      simp only [Dict.get_update _ _ hw, hk]
    · intro k hk
      simp only [Dict.get_update _ _ hw, hk]
    · intro i x hne hx
      rw [setAttrs_get_ne s2 m i f.state hne]
      exact kk i x hx
    · intro k o hk; rw [setAttrs_mods]; exact g.1 k o hk
    · intro k hk hk'; rw [setAttrs_mods] at hk'; exact g.2 k hk hk'

theorem available_imports (disk : Disk) (s s1 : St) (m : ModId) (n : Name) (h : AvailableAs s m n)
    (hg : ModsGrow disk s s1) (hk : HeapKept s s1) : importModule disk n s1 = (.ok m, s1) := by
  cases n with
  | runtime n => exact absurd h id
  | top n =>
    have := hg.1 n m h
    simp only [importModule, importKey, this]
  | dotted p l =>
    obtain ⟨pm, pmd, h1, h2, h3⟩ := h
    have h1' := hg.1 p pm h1
    have h2' := hk pm pmd h2
    rcases h3 with h3 | ⟨h3, v, h4, h5⟩
    · simp only [importModule, importKey, h1', h2', h3]
    · have h3' := hg.1 _ m h3
      simp only [importModule, importKey, h1', h2', h4]
      cases v with
      | mod x => exact absurd rfl (h5 x)
      | _ => simp only [h3']

/-- C89 for a module that is imported: loading into it, given as an object, by name or not at all, returns it, restored. -/
theorem C89_imported (disk : Disk) (md : ModId) (pk : Bool) (f : Stream) (a : Arg) (s : St) (m : ModId) (old : Mod)
    (hm : s.heap[m]? = some old) (hav : AvailableAs s m f.name) (himp : Imported s m) (hname : f.name.Reads old.name)
    (ha : a = .obj m ∨ a = .name f.name ∨ (a = .none ∧ pk = true)) (hh : Harmless disk s f) (hw : f.state.WF) :
    ∃ s', loadModule disk md pk f a s = (.ok m, s') ∧ Restored disk s s' m old f.state := by
  have hnr : f.name.isRuntime = false := by
    cases hn : f.name with
    | runtime n => rw [hn] at hav; exact absurd hav id
    | top n => rfl
    | dotted p l => rfl
  have hI := (isImported_iff s m).2 himp
  have hbare : modName s m = f.name.bare := by
    simp only [modName, hm]
    cases hn : f.name with
    | runtime n => rw [hn] at hnr; cases hnr
    | top n => rw [hn] at hname; exact hname
    | dotted p l => rw [hn] at hname; exact hname
  have href : refuses s m (if pk = true then some f.name else none) = false := by
    cases pk
    · rfl
    · simp [refuses, hnr, hI, hbare]
  have hname' : resolveMain disk md (if pk = true then some f.name else none) (.name f.name) s = (.ok m, s) := by
    have := available_imports disk s s m f.name hav (.refl _ _) (.refl _)
    cases hn : f.name with
    | runtime n => rw [hn] at hnr; cases hnr
    | top n => rw [hn] at this; simpa [resolveMain] using this
    | dotted p l => rw [hn] at this; simpa [resolveMain] using this
  have hres : resolveMain disk md (if pk = true then some f.name else none) a s = (.ok m, s) := by
    rcases ha with rfl | rfl | ⟨rfl, rfl⟩
    · simp [resolveMain]
    · exact hname'
    · simp only [if_true] at hname' ⊢
      rw [← hname']; simp only [resolveMain]
  obtain ⟨s', hu, hr⟩ := unpickle_ok disk f s m old hh hm hw fun s1 g k => available_imports disk s s1 m f.name hav g k
  refine ⟨s', ?_, hr⟩
  unfold loadModule
  simp only
  rw [if_neg, hres]
  · simp only
    unfold loadResolved
    rw [href]
    simp only [Bool.false_eq_true, if_false, hI, if_true, hu]
  · rcases ha with rfl | rfl | ⟨rfl, rfl⟩ <;> simp

/-- loading into a module that is not imported -/
theorem load_runtime (disk : Disk) (pk : Option Name) (f : Stream) (s : St) (m : ModId) (n : String) (old : Mod)
    (hpk : pk = none ∨ pk = some f.name)
    (hf : f.name = .runtime n) (hm : s.heap[m]? = some old) (hn : old.name = n) (himp : ¬ Imported s m)
    (hk : s.mods.get ("__runtime__." ++ n) = none) (hdisk : disk ("__runtime__." ++ n) = none)
    (hh : Harmless disk s f) (hw : f.state.WF) :
    ∃ s', loadResolved disk pk f m s = (.ok m, s') ∧ Restored disk s s' m old f.state := by
  have hI : isImported s m = false := by
    cases h : isImported s m
    · rfl
    · exact absurd ((isImported_iff s m).1 h) himp
  have hmn : modName s m = n := by simp [modName, hm, hn]
  have href : refuses s m pk = false := by
    rcases hpk with rfl | rfl
    · rfl
    · simp [refuses, hf, Name.isRuntime, Name.bare, hI, hmn]
  have hs0 : ∀ k, (s.setMod ("__runtime__." ++ n) m).mods.get k =
      if k = "__runtime__." ++ n then some m else s.mods.get k := by
    intro k; simp only [St.setMod]; rw [Dict.get_set]
  obtain ⟨s1, hu, hr⟩ := unpickle_ok disk f (s.setMod ("__runtime__." ++ n) m) m old (by
      intro a ha
      obtain ⟨k, rfl, hk'⟩ := hh a ha
      refine ⟨k, rfl, hk'.imp_right ?_⟩
      intro h
      rw [hs0]
      split
      · rfl
      · exact h) hm hw (by
      intro s1 g _
      have := g.1 ("__runtime__." ++ n) m (by rw [hs0, if_pos rfl])
      rw [hf]
      simp only [importModule, Name.str, this])
  refine ⟨s1.delMod ("__runtime__." ++ n), ?_, ?_⟩
  · unfold loadResolved
    rw [href]
    simp only [Bool.false_eq_true, if_false, hI, hmn, Name.str]
    rw [hu]
    simp only [if_true]
  · obtain ⟨h1, h2, h3, h4⟩ := hr
    refine ⟨h1, h2, ?_, ?_⟩
    · intro k o ho
      simp only [St.delMod]
      rw [Dict.get_del]
      split
      · rename_i e; subst e; rw [hk] at ho; cases ho
      · rename_i e; exact h3 k o (by rw [hs0, if_neg e]; exact ho)
    · intro k ho hs
      simp only [St.delMod] at hs
      rw [Dict.get_del] at hs
      split at hs
      · cases hs
      · rename_i e; exact h4 k (by rw [hs0, if_neg e]; exact ho) hs

/-- C89 for a module object that was never imported, given to load_module. -/
theorem C89_runtime_object (disk : Disk) (md : ModId) (pk : Bool) (f : Stream) (s : St) (m : ModId) (n : String) (old : Mod)
    (hf : f.name = .runtime n) (hm : s.heap[m]? = some old) (hn : old.name = n) (himp : ¬ Imported s m)
    (hk : s.mods.get ("__runtime__." ++ n) = none) (hdisk : disk ("__runtime__." ++ n) = none)
    (hh : Harmless disk s f) (hw : f.state.WF) :
    ∃ s', loadModule disk md pk f (.obj m) s = (.ok m, s') ∧ Restored disk s s' m old f.state := by
  obtain ⟨s', h1, h2⟩ := load_runtime disk (if pk = true then some f.name else none) f s m n old
    (by cases pk <;> simp) hf hm hn himp hk hdisk hh hw
  refine ⟨s', ?_, h2⟩
  unfold loadModule
  simp only
  rw [if_neg (by simp)]
  simp only [resolveMain, h1]

/-- C89 for a module that was made at run time, loaded without a target: a new module object is returned, of that name, with no
loader, that has the saved names and, besides those, a new module's own (`__doc__`, `__package__`, `__spec__`, all None); no
module that existed has changed and sys.modules does not have the new one. -/
theorem C89_runtime_new (disk : Disk) (md : ModId) (pk : Bool) (f : Stream) (a : Arg) (s : St) (n : String)
    (hf : f.name = .runtime n) (ha : a = .name f.name ∨ (a = .none ∧ pk = true))
    (hv : ∀ k o, (k, o) ∈ s.mods → o < s.heap.length)
    (hk : s.mods.get ("__runtime__." ++ n) = none) (hdisk : disk ("__runtime__." ++ n) = none)
    (hh : Harmless disk s f) (hw : f.state.WF) :
    ∃ s' m new, loadModule disk md pk f a s = (.ok m, s') ∧ s.heap[m]? = none ∧ s'.heap[m]? = some new ∧
      new.name = n ∧ new.loader = false ∧
      (∀ k v, f.state.get k = some v → new.dict.get k = some v) ∧
      (∀ k, f.state.get k = none → new.dict.get k = if k ∈ ["__doc__", "__package__", "__spec__"] then some .none else none) ∧
      (∀ (i : Nat) (x : Mod), s.heap[i]? = some x → s'.heap[i]? = some x) ∧
      (∀ k o, s.mods.get k = some o → s'.mods.get k = some o) ∧
      (∀ k, s.mods.get k = none → (s'.mods.get k).isSome → (disk k).isSome) := by
  have hm : (newModule s n defaults false).2.heap[s.heap.length]? = some ⟨n, false, defaults⟩ := by
    simp [newModule]
  have hkeep : ∀ (i : Nat) (x : Mod), s.heap[i]? = some x → i ≠ s.heap.length ∧ (newModule s n defaults false).2.heap[i]? = some x := by
    intro i x hx
    have hi : i < s.heap.length := by
      rcases Nat.lt_or_ge i s.heap.length with h | h
      · exact h
      · rw [List.getElem?_eq_none h] at hx; cases hx
    exact ⟨Nat.ne_of_lt hi, by simp [newModule, List.getElem?_append_left hi, hx]⟩
  have himp : ¬ Imported (newModule s n defaults false).2 s.heap.length := by
    rintro (⟨x, h1, h2⟩ | ⟨k, h⟩)
    · rw [hm] at h1; cases h1; cases h2
    · exact absurd (hv k _ h) (Nat.lt_irrefl _)
  obtain ⟨s', h1, ⟨new, h2, h3, h4, h5, h6⟩, h7, h8, h9⟩ := load_runtime disk (if pk = true then some f.name else none) f
    (newModule s n defaults false).2 s.heap.length n _ (by cases pk <;> simp) hf hm rfl himp hk hdisk hh hw
  refine ⟨s', s.heap.length, new, ?_, List.getElem?_eq_none (Nat.le_refl _), h2, h3, h4, h5, ?_, ?_, h8, h9⟩
  · unfold loadModule
    simp only
    rw [if_neg]
    · have : resolveMain disk md (if pk = true then some f.name else none) a s =
          (.ok s.heap.length, (newModule s n defaults false).2) := by
        rcases ha with rfl | ⟨rfl, rfl⟩
        · rw [hf]; simp [resolveMain, newModule]
        · rw [hf]; simp [resolveMain, newModule]
      rw [this]
      exact h1
    · rcases ha with rfl | ⟨rfl, rfl⟩ <;> simp
  · intro k hk'
    rw [h6 k hk']
    simp only [defaults, Dict.get]
    by_cases e1 : k = "__doc__"
    · subst e1; rfl
    by_cases e2 : k = "__package__"
    · subst e2; rfl
    by_cases e3 : k = "__spec__"
    · subst e3; rfl
    rw [if_neg (Ne.symm e1), if_neg (Ne.symm e2), if_neg (Ne.symm e3), if_neg (by simp [e1, e2, e3])]
  · intro i x hx
    obtain ⟨hne, hx'⟩ := hkeep i x hx
    exact h7 i x hne hx'

theorem harmless_mono {disk : Disk} {s s1 : St} {f : Stream} (h : Harmless disk s f)
    (hg : ∀ k o, s.mods.get k = some o → s1.mods.get k = some o) : Harmless disk s1 f := by
  intro a ha
  obtain ⟨k, rfl, hk⟩ := h a ha
  refine ⟨k, rfl, hk.imp_right ?_⟩
  intro hs
  obtain ⟨o, ho⟩ := Option.isSome_iff_exists.1 hs
  rw [hg k o ho]; rfl

theorem load_of_resolved (disk : Disk) (md : ModId) (pk : Bool) (f : Stream) (a : Arg) (s s1 : St) (m : ModId)
    (ha : a = .name f.name ∨ (a = .none ∧ pk = true)) (hn : f.name.isRuntime = false)
    (hi : importModule disk f.name s = (.ok m, s1)) : loadModule disk md pk f a s = loadModule disk md pk f (.obj m) s1 := by
  have hres : resolveMain disk md (if pk = true then some f.name else none) a s = (.ok m, s1) := by
    have hname : ∀ pk', resolveMain disk md pk' (.name f.name) s = (.ok m, s1) := by
      intro pk'
      cases hf : f.name with
      | runtime n => rw [hf] at hn; cases hn
      | top n => rw [hf] at hi; simpa [resolveMain] using hi
      | dotted p l => rw [hf] at hi; simpa [resolveMain] using hi
    rcases ha with rfl | ⟨rfl, rfl⟩
    · exact hname _
    · rw [← hname (some f.name)]; simp only [if_true, resolveMain]
  unfold loadModule
  simp only
  have c1 : ¬ ((!pk && decide (a = Arg.none)) = true) := by rcases ha with rfl | ⟨rfl, rfl⟩ <;> simp
  have c2 : ¬ ((!pk && decide (Arg.obj m = Arg.none)) = true) := by simp
  rw [if_neg c1, if_neg c2, hres]
  simp only [resolveMain]

/-- C89 for a module that is not yet imported, given by name or left to the file: it is imported, then restored, and stays imported. -/
theorem C89_from_disk (disk : Disk) (md : ModId) (pk : Bool) (f : Stream) (a : Arg) (s : St) (n : String) (d : Dict String Val)
    (hf : f.name = .top n) (ha : a = .name f.name ∨ (a = .none ∧ pk = true)) (hk : s.mods.get n = none) (hdisk : disk n = some d)
    (hh : Harmless disk s f) (hw : f.state.WF) :
    ∃ s' m new, loadModule disk md pk f a s = (.ok m, s') ∧ s.heap[m]? = none ∧ s'.heap[m]? = some new ∧
      new.name = n ∧ new.loader = true ∧ s'.mods.get n = some m ∧
      (∀ k v, f.state.get k = some v → new.dict.get k = some v) ∧ (∀ k, f.state.get k = none → new.dict.get k = d.get k) ∧
      (∀ (i : Nat) (x : Mod), s.heap[i]? = some x → s'.heap[i]? = some x) ∧
      (∀ k o, s.mods.get k = some o → s'.mods.get k = some o) := by
  let s1 : St := ⟨s.mods.set n s.heap.length, s.heap ++ [⟨n, true, d⟩]⟩
  have hi : importModule disk f.name s = (.ok s.heap.length, s1) := by
    rw [hf]; simp only [importModule, importKey, hk, hdisk, newModule, St.setMod, s1]
  have hm1 : ∀ k, s1.mods.get k = if k = n then some s.heap.length else s.mods.get k := fun k => Dict.get_set _ _ _ _
  have hg1 : ∀ k o, s.mods.get k = some o → s1.mods.get k = some o := by
    intro k o ho
    rw [hm1]
    split
    · rename_i e; subst e; rw [hk] at ho; cases ho
    · exact ho
  have hmod : s1.heap[s.heap.length]? = some ⟨n, true, d⟩ := by simp [s1]
  obtain ⟨s', h1, ⟨new, r1, r2, r3, r4, r5⟩, r6, r7, _⟩ := C89_imported disk md pk f (.obj s.heap.length) s1 s.heap.length _ hmod
    (by rw [hf]; exact (hm1 n).trans (if_pos rfl)) (.inl ⟨_, hmod, rfl⟩) (by rw [hf]; rfl) (.inl rfl) (harmless_mono hh hg1) hw
  refine ⟨s', s.heap.length, new, ?_, List.getElem?_eq_none (Nat.le_refl _), r1, r2, r3,
    r7 n _ ((hm1 n).trans (if_pos rfl)), r4, r5, ?_, fun k o ho => r7 k o (hg1 k o ho)⟩
  · rw [load_of_resolved disk md pk f a s s1 _ ha (by rw [hf]; rfl) hi, h1]
  · intro i x hx
    have hlt : i < s.heap.length := by
      rcases Nat.lt_or_ge i s.heap.length with h | h
      · exact h
      · rw [List.getElem?_eq_none h] at hx; cases hx
    exact r6 i x (Nat.ne_of_lt hlt) (by simp [s1, List.getElem?_append_left hlt, hx])

/-- C89 for a submodule that is not yet imported, of a package that is: it is imported, becomes an attribute of the package, and is
restored; nothing else changes. -/
theorem C89_submodule_from_disk (disk : Disk) (md : ModId) (pk : Bool) (f : Stream) (a : Arg) (s : St) (p l : String) (d : Dict String Val)
    (pm : ModId) (pmd : Mod) (hf : f.name = .dotted p l) (ha : a = .name f.name ∨ (a = .none ∧ pk = true))
    (hp : s.mods.get p = some pm) (hpm : s.heap[pm]? = some pmd) (hl : ∀ x, pmd.dict.get l ≠ some (.mod x))
    (hk : s.mods.get (p ++ "." ++ l) = none) (hdisk : disk (p ++ "." ++ l) = some d)
    (hh : Harmless disk s f) (hw : f.state.WF) :
    ∃ s' m new pnew, loadModule disk md pk f a s = (.ok m, s') ∧ s.heap[m]? = none ∧ s'.heap[m]? = some new ∧
      new.name = p ++ "." ++ l ∧ new.loader = true ∧ s'.mods.get (p ++ "." ++ l) = some m ∧
      (∀ k v, f.state.get k = some v → new.dict.get k = some v) ∧ (∀ k, f.state.get k = none → new.dict.get k = d.get k) ∧
      s'.heap[pm]? = some pnew ∧ pnew.name = pmd.name ∧ pnew.loader = pmd.loader ∧ pnew.dict.get l = some (.mod m) ∧
      (∀ k, k ≠ l → pnew.dict.get k = pmd.dict.get k) ∧
      (∀ (i : Nat) (x : Mod), i ≠ pm → s.heap[i]? = some x → s'.heap[i]? = some x) ∧
      (∀ k o, s.mods.get k = some o → s'.mods.get k = some o) := by
  have hplt : pm < s.heap.length := by
    rcases Nat.lt_or_ge pm s.heap.length with h | h
    · exact h
    · rw [List.getElem?_eq_none h] at hpm; cases hpm
  let s0 : St := ⟨s.mods.set (p ++ "." ++ l) s.heap.length, s.heap ++ [⟨p ++ "." ++ l, true, d⟩]⟩
  have h0p : s0.heap[pm]? = some pmd := by simp [s0, List.getElem?_append_left hplt, hpm]
  let s1 : St := s0.setAttrs pm [(l, .mod s.heap.length)]
  have hi : importModule disk f.name s = (.ok s.heap.length, s1) := by
    rw [hf]
    simp only [importModule, importKey, hp, hpm]
    cases hv : pmd.dict.get l with
    | none => simp only [hk, hdisk, newModule, St.setMod, s1, s0]
    | some v =>
      cases v with
      | mod x => exact absurd hv (hl x)
      | _ => simp only [hk, hdisk, newModule, St.setMod, s1, s0]
  have hm1 : ∀ k, s1.mods.get k = if k = p ++ "." ++ l then some s.heap.length else s.mods.get k := by
    intro k
    rw [setAttrs_mods]
    exact Dict.get_set _ _ _ _
  have hg1 : ∀ k o, s.mods.get k = some o → s1.mods.get k = some o := by
    intro k o ho
    rw [hm1]
    split
    · rename_i e; subst e; rw [hk] at ho; cases ho
    · exact ho
  have hmod : s1.heap[s.heap.length]? = some ⟨p ++ "." ++ l, true, d⟩ := by
    rw [setAttrs_get_ne s0 pm s.heap.length _ (Nat.ne_of_gt hplt)]; simp [s0]
  have hpk1 : s1.heap[pm]? = some ⟨pmd.name, pmd.loader, pmd.dict.update [(l, .mod s.heap.length)]⟩ := setAttrs_get s0 pm _ pmd h0p
  have hup : ∀ k, (pmd.dict.update [(l, .mod s.heap.length)]).get k = if k = l then some (.mod s.heap.length) else pmd.dict.get k := by
    intro k
    simp only [Dict.update, List.foldl_cons, List.foldl_nil]
    exact Dict.get_set _ _ _ _
  obtain ⟨s', h1, ⟨new, r1, r2, r3, r4, r5⟩, r6, r7, _⟩ := C89_imported disk md pk f (.obj s.heap.length) s1 s.heap.length _ hmod
    (by rw [hf]; exact ⟨pm, _, hg1 p pm hp, hpk1, .inl ((hup l).trans (if_pos rfl))⟩) (.inl ⟨_, hmod, rfl⟩) (by rw [hf]; rfl) (.inl rfl)
    (harmless_mono hh hg1) hw
  refine ⟨s', s.heap.length, new, _, ?_, List.getElem?_eq_none (Nat.le_refl _), r1, r2, r3,
    r7 _ _ ((hm1 _).trans (if_pos rfl)), r4, r5, r6 pm _ (Nat.ne_of_lt hplt) hpk1, rfl, rfl, (hup l).trans (if_pos rfl),
    fun k hk => (hup k).trans (if_neg hk), ?_, fun k o ho => r7 k o (hg1 k o ho)⟩
  · rw [load_of_resolved disk md pk f a s s1 _ ha (by rw [hf]; rfl) hi, h1]
  · intro i x hne hx
    have hlt : i < s.heap.length := by
      rcases Nat.lt_or_ge i s.heap.length with h | h
      · exact h
      · rw [List.getElem?_eq_none h] at hx; cases hx
    refine r6 i x (Nat.ne_of_lt hlt) ?_
    rw [setAttrs_get_ne s0 pm i _ hne]
    simp [s0, List.getElem?_append_left hlt, hx]

/-! ### concrete cases -/

/-- the module `foo`, on disk with `x = 1` and `z = 3`, restored from a file with `x` and `y`, into an empty interpreter -/
example : loadModule (fun k => if k = "foo" then some [("x", .data 1), ("z", .data 3)] else none) 0 true fooFile .none emptySt =
    (.ok 0, ⟨[("foo", 0)], [⟨"foo", true, Dict.update ([("x", .data 1), ("z", .data 3)] : Dict String Val) fooFile.state⟩]⟩) := rfl


/-- module `foo` (1) is imported and its file restores `x` and `y` -/
example : mainSt.heap[1]? = some ⟨"foo", true, [("x", .data 1)]⟩ ∧ AvailableAs mainSt 1 fooFile.name ∧
    Imported mainSt 1 ∧ fooFile.name.Reads "foo" ∧ Harmless (fun _ => none) mainSt fooFile ∧ fooFile.state.WF := by
  refine ⟨rfl, rfl, .inl ⟨_, rfl, rfl⟩, rfl, ?_, by decide⟩
  intro a ha
  simp only [fooFile, List.nil_append, List.mem_singleton] at ha
  subst ha
  exact ⟨"foo", rfl, .inr rfl⟩

/-- the submodule `pkg.sub` is restored in place -/
example : AvailableAs pkgSt 1 subFile.name ∧ Imported pkgSt 1 ∧ subFile.name.Reads "pkg.sub" :=
  ⟨⟨0, _, rfl, rfl, .inl rfl⟩, .inl ⟨_, rfl, rfl⟩, rfl⟩

/-- a package with a function under the name of its submodule -/
example : AvailableAs ⟨[("p", 0), ("p.l", 1)], [⟨"p", true, [("l", .data 4)]⟩, ⟨"p.l", true, []⟩]⟩ 1 (.dotted "p" "l") :=
  ⟨0, _, rfl, rfl, .inr ⟨rfl, _, rfl, by simp⟩⟩

/-- the run-time module `foo` loaded into an empty interpreter -/
example : loadModule (fun _ => none) 0 true runtimeFile .none emptySt =
    (.ok 0, ⟨[], [⟨"foo", false, [("__doc__", .none), ("__package__", .none), ("__spec__", .none), ("x", .data 5)]⟩]⟩) := rfl

end Verif.Session
