import Verif.Model.TypeNames
/-! C79: a built-in type is loaded as the same type. -/
set_option linter.unusedSimpArgs false
namespace Verif.TypeNames

/-! ### lemmas -/

theorem get_update_some {α β : Type} [DecidableEq α] (d e : Dict α β) (k : α) (v : β) (h : (d.update e).get k = some v) :
    (k, v) ∈ e ∨ d.get k = some v := by
  induction e generalizing d with
  | nil => exact .inr h
  | cons p e ih =>
    rw [Dict.update_cons] at h
    rcases ih _ h with g | g
    · exact .inl (List.mem_cons_of_mem _ g)
    · rw [Dict.get_set] at g
      split at g
      · rename_i hk; cases g; subst hk; exact .inl (by simp)
      · exact .inr g

theorem get_update_isSome {α β : Type} [DecidableEq α] (d e : Dict α β) (k : α) (h : k ∈ e.map (·.1) ∨ (d.get k).isSome) :
    ((d.update e).get k).isSome := by
  induction e generalizing d with
  | nil => rcases h with h | h; cases h; exact h
  | cons p e ih =>
    rw [Dict.update_cons]
    apply ih
    rw [Dict.get_set]
    by_cases hk : k = p.1
    · right; simp [hk]
    · rcases h with h | h
      · left
        simp only [List.map_cons, List.mem_cons] at h
        exact h.resolve_left hk
      · right; simp [hk, h]

theorem wf_filter {α β : Type} {d : Dict α β} (h : d.WF) (f : α × β → Bool) : Dict.WF (d.filter f) := by
  unfold Dict.WF Dict.keys at *
  exact h.sublist (List.Sublist.map _ (List.filter_sublist))

theorem wf_create (lk : Look) (b t : Dict String Obj) : (createTypemap lk b t).WF :=
  wf_filter (Dict.wf_update (d := []) List.nodup_nil _) _

theorem wf_reverse (lk : Look) (b t hb inc : Dict String Obj) : (reverseTypemap lk b t hb inc).WF :=
  Dict.wf_update (Dict.wf_update (wf_create lk b t) _) _

theorem typemap_mem {r : Dict String Obj} {t : Obj} {n : String} (h : (typemap r).get t = some n) : (n, t) ∈ r := by
  rcases get_update_some _ _ _ _ h with g | g
  · obtain ⟨p, hp, he⟩ := List.mem_map.1 g
    cases he; exact hp
  · simp at g

theorem typemap_isSome {r : Dict String Obj} {t : Obj} {n : String} (h : (n, t) ∈ r) : ((typemap r).get t).isSome := by
  apply get_update_isSome
  left
  exact List.mem_map.2 ⟨(t, n), List.mem_map.2 ⟨(n, t), h, rfl⟩, rfl⟩

/-! ### theorems -/

/-- A class pickled by name in a process is loaded as that class: for all namespaces `builtins` and `types`, also with several
names for one class and one name in both; `late` is the capsule type added to the table of names at the end. -/
theorem C79_same_type (lk : Look) (builtins types handBuilt incidental : Dict String Obj) (late : Option Obj) (t : Obj) (n : String)
    (hlate : "PyCapsuleType" ∉ (reverseTypemap lk builtins types handBuilt incidental).keys)
    (h : saveName (typemap (reverseTypemap lk builtins types handBuilt incidental)) t = some n) :
    loadType (addLate (reverseTypemap lk builtins types handBuilt incidental) late) n = some t := by
  have hm := typemap_mem h
  have hg := Dict.get_of_mem (wf_reverse lk builtins types handBuilt incidental) hm
  cases late with
  | none => exact hg
  | some c =>
    simp only [loadType, addLate]
    rw [Dict.get_set_ne, hg]
    rintro rfl
    exact hlate (Dict.mem_keys_of_mem hm)

/-- Without the hypothesis on the name: a class of another name. -/
theorem C79_same_type_names (lk : Look) (builtins types handBuilt incidental : Dict String Obj) (late : Option Obj) (t : Obj) (n : String)
    (hn : n ≠ "PyCapsuleType")
    (h : saveName (typemap (reverseTypemap lk builtins types handBuilt incidental)) t = some n) :
    loadType (addLate (reverseTypemap lk builtins types handBuilt incidental) late) n = some t := by
  have hg := Dict.get_of_mem (wf_reverse lk builtins types handBuilt incidental) (typemap_mem h)
  cases late with
  | none => exact hg
  | some c => simp only [loadType, addLate]; rw [Dict.get_set_ne _ _ hn, hg]

/-- Every public built-in class is pickled by name: what a name of the module `types`, or a name of `builtins` that `types` does
not have, stands for, if it is a plain class of `builtins`; unless a hand-built or incidental type took the name. -/
theorem C79_builtins_by_name (lk : Look) (builtins types handBuilt incidental : Dict String Obj) (hb : builtins.WF) (ht : types.WF)
    (n : String) (t : Obj) (h : types.get n = some t ∨ (types.get n = none ∧ builtins.get n = some t))
    (h1 : lk.moduleIsBuiltins t = true) (h2 : lk.typeIsType t = true) (h3 : n ∉ handBuilt.keys) (h4 : n ∉ incidental.keys) :
    (saveName (typemap (reverseTypemap lk builtins types handBuilt incidental)) t).isSome := by
  have hu : Dict.update ([] : Dict String Obj) (builtins ++ types) = Dict.update (Dict.update [] builtins) types := by
    simp only [Dict.update, List.foldl_append]
  have hc : (n, t) ∈ createTypemap lk builtins types := by
    simp only [createTypemap, List.mem_filter, h1, h2, Bool.and_self, and_true]
    apply Dict.mem_of_get
    rw [hu, Dict.get_update _ _ ht, Dict.get_update _ _ hb]
    rcases h with h | ⟨h, g⟩
    · simp [h]
    · simp [h, g]
  have keep : ∀ (d e : Dict String Obj), (n, t) ∈ d → n ∉ e.keys → (n, t) ∈ d.update e := by
    intro d e
    induction e generalizing d with
    | nil => intro h _; exact h
    | cons p e ih =>
      intro hd hn
      simp only [Dict.keys_cons, List.mem_cons, not_or] at hn
      rw [Dict.update_cons]
      refine ih _ ?_ hn.2
      have hne := hn.1
      clear ih hn
      induction d with
      | nil => cases hd
      | cons q d ihd =>
        obtain ⟨k, v⟩ := q
        simp only [Dict.set]
        rcases List.mem_cons.1 hd with g | g
        · cases g
          rw [if_neg hne]; simp
        · split
          · exact List.mem_cons_of_mem _ g
          · exact List.mem_cons_of_mem _ (ihd g)
  exact typemap_isSome (keep _ _ (keep _ _ hc h3) h4)

/-- The hand-built types (partial, super, itemgetter, attrgetter) and the incidental ones are pickled by name. -/
theorem C79_hand_built_by_name (lk : Look) (builtins types handBuilt incidental : Dict String Obj) (hh : handBuilt.WF)
    (hi : incidental.WF) (n : String) (t : Obj)
    (h : incidental.get n = some t ∨ (incidental.get n = none ∧ handBuilt.get n = some t)) :
    (saveName (typemap (reverseTypemap lk builtins types handBuilt incidental)) t).isSome := by
  apply typemap_isSome (n := n)
  apply Dict.mem_of_get
  unfold reverseTypemap
  rw [Dict.get_update _ _ hi, Dict.get_update _ _ hh]
  rcases h with h | ⟨h, g⟩
  · simp [h]
  · simp [h, g]

/-- A class that is a plain user class (not a plain class of `builtins`, and in neither extra table) is not pickled by name, whatever
it is called. -/
theorem C79_user_class_not_by_name (lk : Look) (builtins types handBuilt incidental : Dict String Obj) (t : Obj)
    (h1 : lk.moduleIsBuiltins t = false ∨ lk.typeIsType t = false) (h2 : t ∉ handBuilt.values) (h3 : t ∉ incidental.values) :
    saveName (typemap (reverseTypemap lk builtins types handBuilt incidental)) t = none := by
  cases hs : saveName (typemap (reverseTypemap lk builtins types handBuilt incidental)) t with
  | none => rfl
  | some n =>
    exfalso
    have hg := Dict.get_of_mem (wf_reverse lk builtins types handBuilt incidental) (typemap_mem hs)
    unfold reverseTypemap at hg
    rcases get_update_some _ _ _ _ hg with g | g
    · exact h3 (List.mem_map.2 ⟨_, g, rfl⟩)
    · rcases get_update_some _ _ _ _ g with g | g
      · exact h2 (List.mem_map.2 ⟨_, g, rfl⟩)
      · have := Dict.mem_of_get g
        simp only [createTypemap, List.mem_filter, Bool.and_eq_true] at this
        rcases h1 with h1 | h1
        · rw [h1] at this; simp at this
        · rw [h1] at this; simp at this

/-! ### examples -/

/-- dict: 1, function: 2, builtin function: 3 (two names), a user class put into builtins: 4 -/
def exLk : Look := ⟨fun t => t ≠ 4, fun _ => true⟩
def exB : Dict String Obj := [("dict", 1), ("Mine", 4)]
def exT : Dict String Obj := [("FunctionType", 2), ("LambdaType", 2), ("BuiltinFunctionType", 3), ("BuiltinMethodType", 3)]

example : saveName (typemap (reverseTypemap exLk exB exT [("PartialType", 5)] [])) 2 = some "LambdaType" ∧
    loadType (addLate (reverseTypemap exLk exB exT [("PartialType", 5)] []) (some 9)) "LambdaType" = some 2 :=
  ⟨by decide, C79_same_type exLk exB exT _ _ _ 2 _ (by decide) (by decide)⟩
example : saveName (typemap (reverseTypemap exLk exB exT [("PartialType", 5)] [])) 4 = none :=
  C79_user_class_not_by_name _ _ _ _ _ _ (.inl (by decide)) (by decide) (by decide)
example : (saveName (typemap (reverseTypemap exLk exB exT [("PartialType", 5)] [])) 1).isSome :=
  C79_builtins_by_name _ _ _ _ _ (by decide) (by decide) "dict" 1 (.inr ⟨by decide, by decide⟩) (by decide) (by decide) (by decide) (by decide)

end Verif.TypeNames
