import Verif.Model.Stash
/-! C14: refimported sessions restore every name. -/
set_option linter.unusedSimpArgs false
namespace Verif.Stash

/-- sys.modules and all module namespaces are dictionaries (each key once). -/
def World.WF (W : World) : Prop := W.sysmods.WF ∧ ∀ m, (W.ns m).WF

def bookkeeping : List String :=
  ["__dill_imported", "__dill_imported_as", "__dill_imported_top_level"]

/-- What a name bound to `o` in the saved module must be bound to after loading. -/
def Restored (W : World) (o : Obj) (v : Option LVal) : Prop :=
  if o = W.main then v = some .target
  else if o = W.mainDict then v = some .targetDict
  else v = some (.same o) ∨ v = some (.copyOf o)

/-! ### helper lemmas -/

inductive Cls where
  | orig (v : SVal)
  | imp (src : String)
  | impAs (src on : String)
  | top (m : String)

def cls (W : World) (name : String) (o : Obj) : Cls :=
  if o = W.main then .orig .newmod
  else if o = W.mainDict then .orig .newdict
  else if W.singleton o || (W.isModule o && W.builtinMod o) then .orig (.obj o)
  else match lookup W name o with
    | some (src, objname) => if objname = name then .imp src else .impAs src objname
    | none => match topLevel W o with
      | some m => .top m
      | none => .orig (.obj o)

def origOf (W : World) (p : String × Obj) : Option (String × SVal) :=
  match cls W p.1 p.2 with | .orig v => some (p.1, v) | _ => none
def impOf (W : World) (p : String × Obj) : Option (String × String) :=
  match cls W p.1 p.2 with | .imp s => some (s, p.1) | _ => none
def impAsOf (W : World) (p : String × Obj) : Option (String × String × String) :=
  match cls W p.1 p.2 with | .impAs s on => some (s, on, p.1) | _ => none
def topOf (W : World) (p : String × Obj) : Option (String × String) :=
  match cls W p.1 p.2 with | .top m => some (m, p.1) | _ => none

theorem foldl_stash (W : World) (D : List (String × Obj)) (a : Acc) :
    D.foldl (stashStep W) a =
      { original := Dict.update a.original (D.filterMap (origOf W))
        imported := a.imported ++ D.filterMap (impOf W)
        importedAs := a.importedAs ++ D.filterMap (impAsOf W)
        top := a.top ++ D.filterMap (topOf W) } := by
  induction D generalizing a with
  | nil => simp
  | cons p D ih =>
    rw [List.foldl_cons, ih]
    have : stashStep W a p = match cls W p.1 p.2 with
        | .orig v => { a with original := a.original.set p.1 v }
        | .imp s => { a with imported := a.imported ++ [(s, p.1)] }
        | .impAs s on => { a with importedAs := a.importedAs ++ [(s, on, p.1)] }
        | .top m => { a with top := a.top ++ [(m, p.1)] } := by
      unfold stashStep cls
      simp only
      split
      · rfl
      · split
        · rfl
        · split
          · rfl
          · cases lookup W p.1 p.2 with
            | none => cases topLevel W p.2 <;> rfl
            | some q => obtain ⟨x, y⟩ := q; simp only; split <;> rfl
    rw [this]
    cases hc : cls W p.1 p.2 <;>
      simp [List.filterMap_cons, origOf, impOf, impAsOf, topOf, hc, Dict.update_cons]

theorem mem_eligible {W : World} {p : String × Obj} (h : p ∈ eligible W) : p ∈ W.sysmods := by
  unfold eligible at h; exact (List.mem_filter.mp h).1

theorem lookup_correct (W : World) (hW : W.WF) (name : String) (o : Obj) (src on : String)
    (h : lookup W name o = some (src, on)) : findClass W src on = some o := by
  unfold lookup at h
  split at h
  · rename_i p hp
    have hmem := List.mem_of_find?_eq_some hp
    have hpr := List.find?_some hp
    simp at h
    obtain ⟨rfl, rfl⟩ := h
    simp only [byName, List.mem_flatMap, List.mem_map, List.mem_filter] at hmem
    obtain ⟨q, hq, r, ⟨hr1, hr2⟩, rfl⟩ := hmem
    simp at hr2 hpr
    unfold findClass
    simp only
    rw [Dict.get_of_mem hW.1 (show (q.1, q.2) ∈ W.sysmods from mem_eligible hq)]
    simp only
    rw [← hr2, ← hpr.1]
    exact Dict.get_of_mem (hW.2 _) hr1
  · split at h
    · split at h
      · rename_i p hp
        have hmem := List.mem_of_find?_eq_some hp
        simp at h
        obtain ⟨rfl, rfl⟩ := h
        simp only [byId, List.mem_flatMap, List.mem_map, List.mem_filter] at hmem
        obtain ⟨q, hq, r, ⟨hr1, hr2⟩, rfl⟩ := hmem
        simp at hr2
        unfold findClass
        simp only
        rw [Dict.get_of_mem hW.1 (show (q.1, q.2) ∈ W.sysmods from mem_eligible hq)]
        simp only
        rw [← hr2]
        exact Dict.get_of_mem (hW.2 _) hr1
      · simp at h
    · simp at h

theorem topLevel_correct (W : World) (hW : W.WF) (o : Obj) (m : String)
    (h : topLevel W o = some m) : W.sysmods.get m = some o := by
  unfold topLevel at h
  cases hl : ((eligible W).filter (fun p => !p.1.toList.contains '.' && p.2 = o)).getLast? with
  | none => rw [hl] at h; simp at h
  | some p =>
    rw [hl] at h
    simp at h; subst h
    have := List.mem_of_getLast? hl
    simp at this
    obtain ⟨h1, h2, h3⟩ := this
    rw [← h3]
    exact Dict.get_of_mem hW.1 (show (p.1, p.2) ∈ W.sysmods from mem_eligible h1)

theorem restoreImps_get (W : World) (f : String → Obj) (l : List (String × String))
    (hl : ∀ p ∈ l, findClass W p.1 p.2 = some (f p.2)) (T : Dict String LVal) :
    ∃ T', restoreImps W l T = some T' ∧
      ∀ x, T'.get x = if x ∈ l.map (·.2) then some (.same (f x)) else T.get x := by
  induction l generalizing T with
  | nil => exact ⟨T, rfl, by simp⟩
  | cons p l ih =>
    obtain ⟨m, n⟩ := p
    have h1 := hl (m, n) (by simp)
    simp only at h1
    obtain ⟨T', hT, hg⟩ := ih (fun p hp => hl p (by simp [hp])) (T.set n (.same (f n)))
    refine ⟨T', by simp [restoreImps, h1, hT], ?_⟩
    intro x
    rw [hg, Dict.get_set]
    by_cases hx : x ∈ l.map (·.2)
    · rw [if_pos hx, if_pos (by simp at hx ⊢; exact Or.inr hx)]
    · rw [if_neg hx]
      by_cases hn : x = n
      · subst hn; simp
      · rw [if_neg hn, if_neg]; simp at hx ⊢; exact ⟨hn, hx⟩

theorem restoreImpsAs_get (W : World) (f : String → Obj) (l : List (String × String × String))
    (hl : ∀ p ∈ l, findClass W p.1 p.2.1 = some (f p.2.2)) (T : Dict String LVal) :
    ∃ T', restoreImpsAs W l T = some T' ∧
      ∀ x, T'.get x = if x ∈ l.map (·.2.2) then some (.same (f x)) else T.get x := by
  induction l generalizing T with
  | nil => exact ⟨T, rfl, by simp⟩
  | cons p l ih =>
    obtain ⟨m, on, n⟩ := p
    have h1 := hl (m, on, n) (by simp)
    simp only at h1
    obtain ⟨T', hT, hg⟩ := ih (fun p hp => hl p (by simp [hp])) (T.set n (.same (f n)))
    refine ⟨T', by simp [restoreImpsAs, h1, hT], ?_⟩
    intro x
    rw [hg, Dict.get_set]
    by_cases hx : x ∈ l.map (·.2.2)
    · rw [if_pos hx, if_pos (by simp at hx ⊢; exact Or.inr hx)]
    · rw [if_neg hx]
      by_cases hn : x = n
      · subst hn; simp
      · rw [if_neg hn, if_neg]; simp at hx ⊢; exact ⟨hn, hx⟩

theorem restoreTop_get (W : World) (f : String → Obj) (l : List (String × String))
    (hl : ∀ p ∈ l, W.sysmods.get p.1 = some (f p.2)) (T : Dict String LVal) :
    ∃ T', restoreTop W l T = some T' ∧
      ∀ x, T'.get x = if x ∈ l.map (·.2) then some (.same (f x)) else T.get x := by
  induction l generalizing T with
  | nil => exact ⟨T, rfl, by simp⟩
  | cons p l ih =>
    obtain ⟨m, n⟩ := p
    have h1 := hl (m, n) (by simp)
    simp only at h1
    obtain ⟨T', hT, hg⟩ := ih (fun p hp => hl p (by simp [hp])) (T.set n (.same (f n)))
    refine ⟨T', by simp [restoreTop, h1, hT], ?_⟩
    intro x
    rw [hg, Dict.get_set]
    by_cases hx : x ∈ l.map (·.2)
    · rw [if_pos hx, if_pos (by simp at hx ⊢; exact Or.inr hx)]
    · rw [if_neg hx]
      by_cases hn : x = n
      · subst hn; simp
      · rw [if_neg hn, if_neg]; simp at hx ⊢; exact ⟨hn, hx⟩

theorem keys_filterMap_sublist {β : Type} (g : String × Obj → Option (String × β))
    (hg : ∀ p q, g p = some q → q.1 = p.1) (D : List (String × Obj)) :
    (Dict.keys (D.filterMap g)).Sublist (Dict.keys D) := by
  induction D with
  | nil => simp
  | cons p D ih =>
    rw [List.filterMap_cons]
    cases h : g p with
    | none => simp; exact ih.cons _
    | some q => simp [hg p q h]; exact ih

theorem origOf_fst (W : World) (p q) (h : origOf W p = some q) : q.1 = p.1 := by
  unfold origOf at h; split at h <;> simp at h; rw [← h]

theorem get_filterMap (W : World) (D : Dict String Obj) (hD : D.WF) (x : String) (v : SVal) :
    Dict.get (D.filterMap (origOf W)) x = some v ↔
      ∃ o, D.get x = some o ∧ cls W x o = .orig v := by
  have hw : Dict.WF (D.filterMap (origOf W)) :=
    (keys_filterMap_sublist _ (origOf_fst W) D).nodup hD
  constructor
  · intro h
    have hm := Dict.mem_of_get h
    simp only [List.mem_filterMap] at hm
    obtain ⟨p, hp, hp2⟩ := hm
    have := origOf_fst W p _ hp2
    simp at this
    refine ⟨p.2, Dict.get_of_mem hD (by rw [this]; exact hp), ?_⟩
    unfold origOf at hp2
    rw [this]
    split at hp2
    · rename_i v' hc; rw [hc]; simp at hp2; rw [hp2.2]
    · simp at hp2
  · rintro ⟨o, ho, hc⟩
    refine Dict.get_of_mem hw ?_
    simp only [List.mem_filterMap]
    exact ⟨(x, o), Dict.mem_of_get ho, by simp [origOf, hc]⟩

theorem get_map_loadVal (d : Dict String SVal) (x : String) :
    Dict.get (d.map (fun p => (p.1, loadVal p.2))) x = (d.get x).map loadVal := by
  induction d with
  | nil => rfl
  | cons p d ih =>
    simp only [List.map_cons, Dict.get, ih]
    split <;> rfl

theorem get_build (T : Dict String LVal) (d : Dict String SVal) (hd : d.WF) (x : String) :
    (build T d).get x = match d.get x with | some v => some (loadVal v) | none => T.get x := by
  unfold build
  rw [Dict.get_update, get_map_loadVal]
  · cases d.get x <;> rfl
  · unfold Dict.WF Dict.keys at *; rw [List.map_map]; exact hd

theorem length_set_le {α β : Type} [DecidableEq α] (d : Dict α β) (a : α) (b : β) :
    (Dict.set d a b).length ≤ d.length + 1 := by
  induction d with
  | nil => simp [Dict.set]
  | cons p d ih =>
    unfold Dict.set
    split
    · simp
    · simp only [List.length_cons]; omega

theorem length_update_le {α β : Type} [DecidableEq α] (e d : Dict α β) :
    (Dict.update d e).length ≤ d.length + e.length := by
  induction e generalizing d with
  | nil => simp
  | cons p e ih =>
    rw [Dict.update_cons]
    have h1 := ih (d.set p.1 p.2)
    have h2 := length_set_le d p.1 p.2
    simp only [List.length_cons]
    omega

theorem filterMap_length_lt {α β : Type} (g : α → Option β) (l : List α) (x : α) (hx : x ∈ l)
    (h : g x = none) : (l.filterMap g).length < l.length := by
  induction l with
  | nil => simp at hx
  | cons y l ih =>
    rw [List.filterMap_cons]
    simp only [List.mem_cons] at hx
    rcases hx with rfl | hx
    · rw [h]
      have := List.length_filterMap_le g l
      simp only [List.length_cons]; omega
    · have := ih hx
      cases g y <;> simp only [List.length_cons] <;> omega

theorem roundtrip_aux (W : World) (hW : W.WF) (D : Dict String Obj) (hD : D.WF)
    (hb : ∀ n ∈ bookkeeping, n ∉ D.keys) (T : Dict String LVal)
    (hT : ∀ n ∈ bookkeeping, T.get n = none) :
    ∃ T', roundtrip W D T = some T' ∧
      (∀ name o, D.get name = some o → name ≠ "__builtins__" → name ≠ "__loader__" →
        Restored W o (T'.get name)) ∧
      (∀ n ∈ bookkeeping, T'.get n = none) ∧
      (∀ name, D.get name = none →
        name ∉ ["__name__", "__doc__", "__package__", "__loader__", "__spec__"] →
        T'.get name = T.get name) ∧
      (∀ name o, D.get name = some o → (∀ v, cls W name o ≠ .orig v) →
        T'.get name = some (.same o)) ∧
      (∀ name o, D.get name = some o → name ≠ "__builtins__" → name ≠ "__loader__" →
        o ≠ W.main → o ≠ W.mainDict → cls W name o = .orig (.obj o) →
        T'.get name = some (.copyOf o)) := by
  simp only [bookkeeping, List.mem_cons, List.not_mem_nil, or_false, forall_eq_or_imp, forall_eq]
    at hb hT ⊢
  obtain ⟨hb1, hb2, hb3⟩ := hb
  obtain ⟨hT1, hT2, hT3⟩ := hT
  have hgD1 : D.get "__dill_imported" = none := (Dict.get_eq_none_iff _ _).2 hb1
  have hgD2 : D.get "__dill_imported_as" = none := (Dict.get_eq_none_iff _ _).2 hb2
  have hgD3 : D.get "__dill_imported_top_level" = none := (Dict.get_eq_none_iff _ _).2 hb3
  unfold roundtrip stash
  simp only [foldl_stash, List.nil_append]
  have hwo : Dict.WF (D.filterMap (origOf W)) :=
    (keys_filterMap_sublist _ (origOf_fst W) D).nodup hD
  split
  · -- names were stashed
    generalize hO : D.filterMap (origOf W) = O at *
    have hw0 : (Dict.update ([] : Dict String SVal) O).WF := Dict.wf_update (by decide) _
    have hwm : (moduleDefaults.update (Dict.update [] O)).WF := Dict.wf_update (by decide) _
    have hOg : ∀ x, (Dict.update ([] : Dict String SVal) O).get x = Dict.get O x := by
      intro x; rw [Dict.get_update _ _ hwo]; cases Dict.get O x <;> rfl
    generalize hS : (((moduleDefaults.update (Dict.update [] O)).set "__dill_imported"
      (.imps (D.filterMap (impOf W)))).set "__dill_imported_as"
      (.impsAs (D.filterMap (impAsOf W)))).set "__dill_imported_top_level"
      (.imps (D.filterMap (topOf W))) = S
    have hwS : S.WF := by
      rw [← hS]; exact Dict.wf_set (Dict.wf_set (Dict.wf_set hwm _ _) _ _) _ _
    have hwS' : (saveState S).WF := Dict.wf_del (Dict.wf_del hwS _) _
    have hSg : ∀ x, (saveState S).get x =
        if x = "__loader__" then none else if x = "__builtins__" then none
        else if x = "__dill_imported_top_level" then some (.imps (D.filterMap (topOf W)))
        else if x = "__dill_imported_as" then some (.impsAs (D.filterMap (impAsOf W)))
        else if x = "__dill_imported" then some (.imps (D.filterMap (impOf W)))
        else match Dict.get O x with | some v => some v | none => moduleDefaults.get x := by
      intro x
      rw [← hS]
      simp only [saveState, Dict.get_del, Dict.get_set, Dict.get_update _ _ hw0, hOg]
      cases Dict.get O x <;> rfl
    -- the three import lists name the objects of D
    let f : String → Obj := fun x => (D.get x).getD 0
    have hf : ∀ p ∈ D, f p.1 = p.2 := by
      intro p hp; simp [f, Dict.get_of_mem hD (show (p.1, p.2) ∈ D from hp)]
    have hcls : ∀ n o src, cls W n o = .imp src → findClass W src n = some o := by
      intro n o src h
      unfold cls at h
      split at h; · simp at h
      split at h; · simp at h
      split at h; · simp at h
      split at h
      · rename_i s on hl
        split at h
        · rename_i e; subst e
          simp at h; subst h
          exact lookup_correct W hW _ _ _ _ hl
        · simp at h
      · split at h <;> simp at h
    have hclsAs : ∀ n o src on, cls W n o = .impAs src on → findClass W src on = some o := by
      intro n o src on h
      unfold cls at h
      split at h; · simp at h
      split at h; · simp at h
      split at h; · simp at h
      split at h
      · rename_i s on' hl
        split at h
        · simp at h
        · simp at h; obtain ⟨rfl, rfl⟩ := h
          exact lookup_correct W hW _ _ _ _ hl
      · split at h <;> simp at h
    have hclsTop : ∀ n o m, cls W n o = .top m → W.sysmods.get m = some o := by
      intro n o m h
      unfold cls at h
      split at h; · simp at h
      split at h; · simp at h
      split at h; · simp at h
      split at h
      · split at h <;> simp at h
      · split at h
        · rename_i ht; simp at h; subst h; exact topLevel_correct W hW _ _ ht
        · simp at h
    have hl1 : ∀ p ∈ D.filterMap (impOf W), findClass W p.1 p.2 = some (f p.2) := by
      intro p hp
      simp only [List.mem_filterMap] at hp
      obtain ⟨q, hq, hq2⟩ := hp
      unfold impOf at hq2
      split at hq2
      · rename_i s hc; simp at hq2; subst hq2
        simp only [hf q hq]; exact hcls _ _ _ hc
      · simp at hq2
    have hl2 : ∀ p ∈ D.filterMap (impAsOf W), findClass W p.1 p.2.1 = some (f p.2.2) := by
      intro p hp
      simp only [List.mem_filterMap] at hp
      obtain ⟨q, hq, hq2⟩ := hp
      unfold impAsOf at hq2
      split at hq2
      · rename_i s on hc; simp at hq2; subst hq2
        simp only [hf q hq]; exact hclsAs _ _ _ _ hc
      · simp at hq2
    have hl3 : ∀ p ∈ D.filterMap (topOf W), W.sysmods.get p.1 = some (f p.2) := by
      intro p hp
      simp only [List.mem_filterMap] at hp
      obtain ⟨q, hq, hq2⟩ := hp
      unfold topOf at hq2
      split at hq2
      · rename_i s hc; simp at hq2; subst hq2
        simp only [hf q hq]; exact hclsTop _ _ _ hc
      · simp at hq2
    -- membership in the lists
    have mem1 : ∀ x, x ∈ (D.filterMap (impOf W)).map (·.2) ↔
        ∃ o src, D.get x = some o ∧ cls W x o = .imp src := by
      intro x
      simp only [List.mem_map, List.mem_filterMap]
      constructor
      · rintro ⟨p, ⟨q, hq, hq2⟩, rfl⟩
        unfold impOf at hq2
        split at hq2
        · rename_i s hc; simp at hq2; subst hq2
          exact ⟨q.2, s, Dict.get_of_mem hD hq, hc⟩
        · simp at hq2
      · rintro ⟨o, src, ho, hc⟩
        exact ⟨(src, x), ⟨(x, o), Dict.mem_of_get ho, by simp [impOf, hc]⟩, rfl⟩
    have mem2 : ∀ x, x ∈ (D.filterMap (impAsOf W)).map (·.2.2) ↔
        ∃ o src on, D.get x = some o ∧ cls W x o = .impAs src on := by
      intro x
      simp only [List.mem_map, List.mem_filterMap]
      constructor
      · rintro ⟨p, ⟨q, hq, hq2⟩, rfl⟩
        unfold impAsOf at hq2
        split at hq2
        · rename_i s on hc; simp at hq2; subst hq2
          exact ⟨q.2, s, on, Dict.get_of_mem hD hq, hc⟩
        · simp at hq2
      · rintro ⟨o, src, on, ho, hc⟩
        exact ⟨(src, on, x), ⟨(x, o), Dict.mem_of_get ho, by simp [impAsOf, hc]⟩, rfl⟩
    have mem3 : ∀ x, x ∈ (D.filterMap (topOf W)).map (·.2) ↔
        ∃ o m, D.get x = some o ∧ cls W x o = .top m := by
      intro x
      simp only [List.mem_map, List.mem_filterMap]
      constructor
      · rintro ⟨p, ⟨q, hq, hq2⟩, rfl⟩
        unfold topOf at hq2
        split at hq2
        · rename_i s hc; simp at hq2; subst hq2
          exact ⟨q.2, s, Dict.get_of_mem hD hq, hc⟩
        · simp at hq2
      · rintro ⟨o, m, ho, hc⟩
        exact ⟨(m, x), ⟨(x, o), Dict.mem_of_get ho, by simp [topOf, hc]⟩, rfl⟩
    -- run the restore
    generalize hB : build T (saveState S) = B
    have hBg : ∀ x, B.get x = match (saveState S).get x with
        | some v => some (loadVal v) | none => T.get x := by
      intro x; rw [← hB]; exact get_build T _ hwS' x
    obtain ⟨T1, hr1, hg1⟩ := restoreImps_get W f _ hl1 (B.del "__dill_imported")
    have nb1 : "__dill_imported_as" ∉ (D.filterMap (impOf W)).map (·.2) := by
      rw [mem1]; rintro ⟨o, _, h, _⟩; simp [hgD2] at h
    have nb2 : "__dill_imported_top_level" ∉ (D.filterMap (impOf W)).map (·.2) := by
      rw [mem1]; rintro ⟨o, _, h, _⟩; simp [hgD3] at h
    have nb3 : "__dill_imported_top_level" ∉ (D.filterMap (impAsOf W)).map (·.2.2) := by
      rw [mem2]; rintro ⟨o, _, _, h, _⟩; simp [hgD3] at h
    have b1 : B.get "__dill_imported" = some (.imps (D.filterMap (impOf W))) := by
      rw [hBg, hSg]; simp [loadVal]
    have b2 : T1.get "__dill_imported_as" = some (.impsAs (D.filterMap (impAsOf W))) := by
      rw [hg1, if_neg nb1, Dict.get_del_ne _ (by decide), hBg, hSg]; simp [loadVal]
    obtain ⟨T2, hr2, hg2⟩ := restoreImpsAs_get W f _ hl2 (T1.del "__dill_imported_as")
    have b3 : T2.get "__dill_imported_top_level" = some (.imps (D.filterMap (topOf W))) := by
      rw [hg2, if_neg nb3, Dict.get_del_ne _ (by decide), hg1, if_neg nb2,
        Dict.get_del_ne _ (by decide), hBg, hSg]; simp [loadVal]
    obtain ⟨T3, hr3, hg3⟩ := restoreTop_get W f _ hl3 (T2.del "__dill_imported_top_level")
    have hfin : ∀ x, T3.get x =
        if x ∈ (D.filterMap (topOf W)).map (·.2) then some (.same (f x))
        else if x = "__dill_imported_top_level" then none
        else if x ∈ (D.filterMap (impAsOf W)).map (·.2.2) then some (.same (f x))
        else if x = "__dill_imported_as" then none
        else if x ∈ (D.filterMap (impOf W)).map (·.2) then some (.same (f x))
        else if x = "__dill_imported" then none
        else B.get x := by
      intro x
      rw [hg3, Dict.get_del, hg2, Dict.get_del, hg1, Dict.get_del]
    refine ⟨T3, by simp only [restore, b1, hr1, b2, hr2, b3, hr3], ?_, ?_, ?_, ?_, ?_⟩
    · intro name o ho hnb hnl
      have hfo : f name = o := by simp [f, ho]
      have nn1 : name ≠ "__dill_imported" := by rintro rfl; simp [hgD1] at ho
      have nn2 : name ≠ "__dill_imported_as" := by rintro rfl; simp [hgD2] at ho
      have nn3 : name ≠ "__dill_imported_top_level" := by rintro rfl; simp [hgD3] at ho
      rw [hfin]
      simp only [nn1, nn2, nn3, if_false, hfo]
      by_cases m3 : name ∈ (D.filterMap (topOf W)).map (·.2)
      · rw [if_pos m3]
        obtain ⟨o', m, h1, h2⟩ := (mem3 name).1 m3
        rw [ho] at h1; simp at h1; subst h1
        unfold Restored
        unfold cls at h2
        split at h2; · simp at h2
        split at h2; · simp at h2
        rename_i e1 e2
        simp [e1, e2]
      · rw [if_neg m3]
        by_cases m2 : name ∈ (D.filterMap (impAsOf W)).map (·.2.2)
        · rw [if_pos m2]
          obtain ⟨o', m, _, h1, h2⟩ := (mem2 name).1 m2
          rw [ho] at h1; simp at h1; subst h1
          unfold Restored
          unfold cls at h2
          split at h2; · simp at h2
          split at h2; · simp at h2
          rename_i e1 e2
          simp [e1, e2]
        · rw [if_neg m2]
          by_cases m1 : name ∈ (D.filterMap (impOf W)).map (·.2)
          · rw [if_pos m1]
            obtain ⟨o', m, h1, h2⟩ := (mem1 name).1 m1
            rw [ho] at h1; simp at h1; subst h1
            unfold Restored
            unfold cls at h2
            split at h2; · simp at h2
            split at h2; · simp at h2
            rename_i e1 e2
            simp [e1, e2]
          · rw [if_neg m1, hBg, hSg]
            simp only [nn1, nn2, nn3, hnb, hnl, if_false]
            cases hc : cls W name o with
            | imp s => exact absurd ((mem1 name).2 ⟨o, s, ho, hc⟩) m1
            | impAs s on => exact absurd ((mem2 name).2 ⟨o, s, on, ho, hc⟩) m2
            | top m => exact absurd ((mem3 name).2 ⟨o, m, ho, hc⟩) m3
            | orig v =>
              have : Dict.get O name = some v := by
                rw [← hO]; exact (get_filterMap W D hD name v).2 ⟨o, ho, hc⟩
              simp only [this]
              unfold cls at hc
              unfold Restored
              split at hc
              · rename_i e; simp at hc; simp [e, ← hc, loadVal]
              · rename_i e1
                split at hc
                · rename_i e; simp at hc; rw [if_neg e1, if_pos e, ← hc]; rfl
                · rename_i e2
                  simp only [e1, e2, if_false]
                  split at hc
                  · simp at hc; simp [← hc, loadVal]
                  · split at hc
                    · split at hc <;> simp at hc
                    · split at hc
                      · simp at hc
                      · simp at hc; simp [← hc, loadVal]
    · have k1 : ∀ x, D.get x = none → x ∉ (D.filterMap (impOf W)).map (·.2) := by
        intro x hx; rw [mem1]; rintro ⟨o, _, h, _⟩; simp [hx] at h
      have k2 : ∀ x, D.get x = none → x ∉ (D.filterMap (impAsOf W)).map (·.2.2) := by
        intro x hx; rw [mem2]; rintro ⟨o, _, _, h, _⟩; simp [hx] at h
      have k3 : ∀ x, D.get x = none → x ∉ (D.filterMap (topOf W)).map (·.2) := by
        intro x hx; rw [mem3]; rintro ⟨o, _, h, _⟩; simp [hx] at h
      refine ⟨?_, ?_, ?_⟩
      · rw [hfin, if_neg (k3 _ hgD1), if_neg (by decide), if_neg (k2 _ hgD1), if_neg (by decide),
          if_neg (k1 _ hgD1), if_pos rfl]
      · rw [hfin, if_neg (k3 _ hgD2), if_neg (by decide), if_neg (k2 _ hgD2), if_pos rfl]
      · rw [hfin, if_neg (k3 _ hgD3), if_pos rfl]
    · intro name hn hnd
      simp only [List.mem_cons, List.not_mem_nil, or_false, not_or] at hnd
      obtain ⟨d1, d2, d3, d4, d5⟩ := hnd
      have k1 : name ∉ (D.filterMap (impOf W)).map (·.2) := by
        rw [mem1]; rintro ⟨o, _, h, _⟩; simp [hn] at h
      have k2 : name ∉ (D.filterMap (impAsOf W)).map (·.2.2) := by
        rw [mem2]; rintro ⟨o, _, _, h, _⟩; simp [hn] at h
      have k3 : name ∉ (D.filterMap (topOf W)).map (·.2) := by
        rw [mem3]; rintro ⟨o, _, h, _⟩; simp [hn] at h
      rw [hfin, if_neg k3, if_neg k2, if_neg k1]
      by_cases e3 : name = "__dill_imported_top_level"
      · simp [e3, hT3]
      · by_cases e2 : name = "__dill_imported_as"
        · simp [e2, hT2]
        · by_cases e1 : name = "__dill_imported"
          · simp [e1, hT1]
          · simp only [e1, e2, e3, if_false]
            rw [hBg, hSg]
            have : Dict.get O name = none := by
              cases h : Dict.get O name with
              | none => rfl
              | some v =>
                rw [← hO] at h
                obtain ⟨o, ho, _⟩ := (get_filterMap W D hD name v).1 h
                simp [hn] at ho
            simp only [e1, e2, e3, if_false, d4, this]
            by_cases e4 : name = "__builtins__"
            · simp [e4]
            · simp [e4, moduleDefaults, Dict.get, Ne.symm d1, Ne.symm d2, Ne.symm d3, Ne.symm d4,
                Ne.symm d5]
    · intro name o ho hne
      have hfo : f name = o := by simp [f, ho]
      have nn1 : name ≠ "__dill_imported" := by rintro rfl; simp [hgD1] at ho
      have nn2 : name ≠ "__dill_imported_as" := by rintro rfl; simp [hgD2] at ho
      have nn3 : name ≠ "__dill_imported_top_level" := by rintro rfl; simp [hgD3] at ho
      rw [hfin]
      simp only [nn1, nn2, nn3, if_false, hfo]
      cases hc : cls W name o with
      | orig v => exact absurd hc (hne v)
      | imp s => rw [if_pos ((mem1 name).2 ⟨o, s, ho, hc⟩)]; simp
      | impAs s on => rw [if_pos ((mem2 name).2 ⟨o, s, on, ho, hc⟩)]; simp
      | top m => rw [if_pos ((mem3 name).2 ⟨o, m, ho, hc⟩)]
    · intro name o ho hnb hnl _ _ hc
      have nn1 : name ≠ "__dill_imported" := by rintro rfl; simp [hgD1] at ho
      have nn2 : name ≠ "__dill_imported_as" := by rintro rfl; simp [hgD2] at ho
      have nn3 : name ≠ "__dill_imported_top_level" := by rintro rfl; simp [hgD3] at ho
      have k1 : name ∉ (D.filterMap (impOf W)).map (·.2) := by
        rw [mem1]; rintro ⟨o', _, h, hc'⟩; rw [ho] at h; simp at h; subst h; simp [hc] at hc'
      have k2 : name ∉ (D.filterMap (impAsOf W)).map (·.2.2) := by
        rw [mem2]; rintro ⟨o', _, _, h, hc'⟩; rw [ho] at h; simp at h; subst h; simp [hc] at hc'
      have k3 : name ∉ (D.filterMap (topOf W)).map (·.2) := by
        rw [mem3]; rintro ⟨o', _, h, hc'⟩; rw [ho] at h; simp at h; subst h; simp [hc] at hc'
      have hOg : Dict.get O name = some (.obj o) := by
        rw [← hO]; exact (get_filterMap W D hD name _).2 ⟨o, ho, hc⟩
      rw [hfin, if_neg k3, if_neg nn3, if_neg k2, if_neg nn2, if_neg k1, if_neg nn1, hBg, hSg]
      simp only [nn1, nn2, nn3, hnb, hnl, if_false, hOg, loadVal]
  · -- nothing imported: the module itself was dumped
    generalize hS : D.map (fun p => (p.1, selfVal W p.2)) = S
    have hSk : Dict.keys S = D.keys := by rw [← hS]; simp [Dict.keys]
    have hwS : Dict.WF S := by unfold Dict.WF at *; rw [hSk]; exact hD
    have hSget : ∀ x, Dict.get S x = (D.get x).map (selfVal W) := by
      intro x; rw [← hS]
      clear hwS hSk hS hwo hgD1 hgD2 hgD3 hb1 hb2 hb3 hD
      rename_i hx; clear hx
      induction D with
      | nil => rfl
      | cons p D ih => simp only [List.map_cons, Dict.get, ih]; split <;> rfl
    have hwS' : (saveState S).WF := Dict.wf_del (Dict.wf_del hwS _) _
    have hSg : ∀ x, (saveState S).get x =
        if x = "__loader__" then none else if x = "__builtins__" then none
        else (D.get x).map (selfVal W) := by
      intro x; simp only [saveState, Dict.get_del, hSget]
    have hBg : ∀ x, (build T (saveState S)).get x = match (saveState S).get x with
        | some v => some (loadVal v) | none => T.get x := fun x => get_build T _ hwS' x
    have b1 : (build T (saveState S)).get "__dill_imported" = none := by
      rw [hBg, hSg, hgD1]; simp [hT1]
    refine ⟨build T (saveState S), by simp only [restore, b1], ?_, ?_, ?_, ?_, ?_⟩
    · intro name o ho hnb hnl
      rw [hBg, hSg]
      simp only [hnb, hnl, if_false, ho, Option.map_some]
      unfold Restored selfVal
      split
      · rfl
      · split
        · rfl
        · right; rfl
    · refine ⟨b1, ?_, ?_⟩
      · rw [hBg, hSg, hgD2]; simp [hT2]
      · rw [hBg, hSg, hgD3]; simp [hT3]
    · intro name hn hnd
      rw [hBg, hSg, hn]; simp
    · intro name o ho hne
      exfalso
      rename_i hlt
      apply hlt
      refine Nat.lt_of_le_of_lt (length_update_le _ _) ?_
      simp only [List.length_nil, Nat.zero_add]
      refine filterMap_length_lt _ _ _ (Dict.mem_of_get ho) ?_
      unfold origOf
      split
      · rename_i v hc; exact absurd hc (hne v)
      · rfl
    · intro name o ho hnb hnl n1 n2 _
      rw [hBg, hSg]
      simp only [hnb, hnl, if_false, ho, Option.map_some, selfVal, n1, n2, loadVal]

/-- C14.  For every interpreter and every module namespace `D` without dill's own bookkeeping names,
dumping with refimported=True and loading in the same interpreter into a module with any prior
contents `T` succeeds; every name of `D` is bound to the identical imported object, or to a copy of the
object it was bound to (references to the module itself or to its dictionary become references to the
loaded ones); no bookkeeping name remains; every other name of the target is left as it was. Only
`__builtins__` and `__loader__`, which dill deliberately does not save, and the attributes every module
object is created with are exempt. -/
theorem C14_refimported_roundtrip (W : World) (hW : W.WF) (D : Dict String Obj) (hD : D.WF)
    (hb : ∀ n ∈ bookkeeping, n ∉ D.keys) (T : Dict String LVal)
    (hT : ∀ n ∈ bookkeeping, T.get n = none) :
    ∃ T', roundtrip W D T = some T' ∧
      (∀ name o, D.get name = some o → name ≠ "__builtins__" → name ≠ "__loader__" →
        Restored W o (T'.get name)) ∧
      (∀ n ∈ bookkeeping, T'.get n = none) ∧
      (∀ name, D.get name = none →
        name ∉ ["__name__", "__doc__", "__package__", "__loader__", "__spec__"] →
        T'.get name = T.get name) := by
  obtain ⟨T', h1, h2, h3, h4, _, _⟩ := roundtrip_aux W hW D hD hb T hT
  exact ⟨T', h1, h2, h3, h4⟩

/-- C14, the by-reference half: an object that some other imported module binds under the same name (and
that is not a singleton, a builtin module or the module itself) comes back as the identical object. -/
theorem C14_imported_comes_back_identical (W : World) (hW : W.WF) (D : Dict String Obj) (hD : D.WF)
    (hb : ∀ n ∈ bookkeeping, n ∉ D.keys) (T : Dict String LVal)
    (hT : ∀ n ∈ bookkeeping, T.get n = none)
    (name : String) (o : Obj) (modname : String) (m : Obj)
    (ho : D.get name = some o) (hmod : W.sysmods.get modname = some m) (hism : W.isModule m = true)
    (hnm : m ≠ W.main) (hn1 : modname ≠ "__main__") (hn2 : modname ≠ "__mp_main__")
    (hattr : (W.ns m).get name = some o)
    (h1 : o ≠ W.main) (h2 : o ≠ W.mainDict) (h3 : W.singleton o = false)
    (h4 : (W.isModule o && W.builtinMod o) = false) :
    ∃ T', roundtrip W D T = some T' ∧ T'.get name = some (.same o) := by
  have hl : lookup W name o ≠ none := by
    unfold lookup
    have : (byName W name).find? (fun p => p.1 = o && notMain W p.2) ≠ none := by
      rw [Ne, List.find?_eq_none]
      intro hall
      have hmem : (o, modname) ∈ byName W name := by
        simp only [byName, List.mem_flatMap, List.mem_map, List.mem_filter]
        refine ⟨(modname, m), ?_, (name, o), ⟨Dict.mem_of_get hattr, by simp⟩, rfl⟩
        simp only [eligible, List.mem_filter]
        exact ⟨Dict.mem_of_get hmod, by simp [hn1, hn2, hism]⟩
      have := hall _ hmem
      simp [notMain, hmod, hnm] at this
    split
    · simp
    · rename_i h; exact absurd h this
  have hcls : ∀ v, cls W name o ≠ .orig v := by
    intro v hc
    unfold cls at hc
    simp only [h1, h2, if_false, h3, h4, Bool.or_self, Bool.false_eq_true] at hc
    cases hlk : lookup W name o with
    | none => exact hl hlk
    | some q => obtain ⟨a, b⟩ := q; rw [hlk] at hc; simp only at hc; split at hc <;> simp at hc
  obtain ⟨T', h1, _, _, _, h5, _⟩ := roundtrip_aux W hW D hD hb T hT
  exact ⟨T', h1, h5 name o ho hcls⟩

/-- C14, the other half: an object that no other loaded module has under this name, that is not of an imported kind
(a class, function, module, ... found under another name) and is not a top-level module is saved by value, never
taken by reference. -/
theorem C14_own_objects_saved_by_value (W : World) (hW : W.WF) (D : Dict String Obj) (hD : D.WF)
    (hb : ∀ n ∈ bookkeeping, n ∉ D.keys) (T : Dict String LVal)
    (hT : ∀ n ∈ bookkeeping, T.get n = none)
    (name : String) (o : Obj) (ho : D.get name = some o) (hnb : name ≠ "__builtins__") (hnl : name ≠ "__loader__")
    (h1 : o ≠ W.main) (h2 : o ≠ W.mainDict)
    (hno : ∀ modname m, W.sysmods.get modname = some m → W.isModule m = true → m ≠ W.main →
      modname ≠ "__main__" → modname ≠ "__mp_main__" → (W.ns m).get name ≠ some o)
    (hnk : W.importedAs o = false) (hnm : W.isModule o = false) :
    ∃ T', roundtrip W D T = some T' ∧ T'.get name = some (.copyOf o) := by
  have hl : lookup W name o = none := by
    unfold lookup
    have : (byName W name).find? (fun p => p.1 = o && notMain W p.2) = none := by
      rw [List.find?_eq_none]
      intro p hp
      simp only [byName, List.mem_flatMap, List.mem_map, List.mem_filter] at hp
      obtain ⟨q, hq, r, ⟨hr, hr1⟩, rfl⟩ := hp
      simp only [eligible, List.mem_filter] at hq
      obtain ⟨hq1, hq2⟩ := hq
      simp only [Bool.and_eq_true, Bool.not_eq_true', Bool.or_eq_false_iff, beq_eq_false_iff_ne] at hq2
      simp only [decide_eq_true_eq] at hr1
      have hg := Dict.get_of_mem hW.1 hq1
      intro hc
      simp only [Bool.and_eq_true, decide_eq_true_eq, notMain, hg, bne_iff_ne, ne_eq] at hc
      refine hno q.1 q.2 hg hq2.2 (fun e => hc.2 (by rw [e])) hq2.1.1 hq2.1.2 ?_
      rw [← hc.1, ← hr1]
      exact Dict.get_of_mem (hW.2 _) hr
    rw [this]; simp [hnk]
  have ht : topLevel W o = none := by
    unfold topLevel
    rw [Option.map_eq_none_iff, List.getLast?_eq_none_iff, List.filter_eq_nil_iff]
    intro p hp
    simp only [eligible, List.mem_filter] at hp
    intro hc
    simp only [Bool.and_eq_true, decide_eq_true_eq] at hc hp
    rw [hc.2, hnm] at hp
    simp at hp
  obtain ⟨T', e1, _, _, _, _, h6⟩ := roundtrip_aux W hW D hD hb T hT
  refine ⟨T', e1, h6 name o ho hnb hnl h1 h2 ?_⟩
  unfold cls
  rw [if_neg h1, if_neg h2]
  split
  · rfl
  · simp only [hl, ht]

/-! ### a concrete session meeting the hypotheses

Modules: object 1 is the module `os` whose `path` is object 3 and `sep` object 4; `__main__` is object 0.
`__main__` binds `path` (same name), `p` (object 3 under another name), `os` (top-level module), `x` (its
own value 7) and `me` (itself). -/

def exW : World where
  sysmods := [("os", 1), ("__main__", 0)]
  isModule := fun o => o == 0 || o == 1 || o == 3
  ns := fun o => if o = 1 then [("path", 3), ("sep", 4)] else []
  importedAs := fun o => o == 3
  singleton := fun _ => false
  builtinMod := fun _ => false
  main := 0
  mainDict := 100

def exD : Dict String Obj := [("path", 3), ("p", 3), ("os", 1), ("x", 7), ("me", 0)]

example : exW.WF := by
  refine ⟨by decide, fun m => ?_⟩
  simp only [exW]; split <;> decide

example : exD.WF ∧ (∀ n ∈ bookkeeping, n ∉ exD.keys) := by decide

example : (roundtrip exW exD [("old", .prior 5)]).map (fun T =>
    ["path", "p", "os", "x", "me", "old", "__dill_imported"].map T.get) =
    some [some (.same 3), some (.same 3), some (.same 1), some (.copyOf 7), some .target,
      some (.prior 5), none] := by decide +kernel

end Verif.Stash
