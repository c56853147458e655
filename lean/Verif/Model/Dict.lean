/-
Python's insertion-ordered `dict` as an association list, with the operations the models use.
(CPython language semantics; no dill code.)  `set` on an existing key keeps its position,
`del` removes the key, `update` sets the pairs one after another.
-/
namespace Verif

abbrev Dict (α β : Type) := List (α × β)

namespace Dict
variable {α β : Type} [DecidableEq α]

def get : Dict α β → α → Option β
  | [], _ => none
  | (k, v) :: d, a => if k = a then some v else get d a

def set : Dict α β → α → β → Dict α β
  | [], a, b => [(a, b)]
  | (k, v) :: d, a, b => if k = a then (k, b) :: d else (k, v) :: set d a b

def del : Dict α β → α → Dict α β
  | [], _ => []
  | (k, v) :: d, a => if k = a then del d a else (k, v) :: del d a

def update (d : Dict α β) (e : Dict α β) : Dict α β := e.foldl (fun d p => d.set p.1 p.2) d

def keys (d : Dict α β) : List α := d.map (·.1)
def values (d : Dict α β) : List β := d.map (·.2)

/-- A well-formed dictionary has each key once. -/
def WF (d : Dict α β) : Prop := d.keys.Nodup

instance (d : Dict α β) : Decidable d.WF := by unfold WF; infer_instance

@[simp] theorem get_nil (a : α) : get ([] : Dict α β) a = none := rfl
@[simp] theorem keys_nil : keys ([] : Dict α β) = [] := rfl
@[simp] theorem keys_cons (p : α × β) (d : Dict α β) : keys (p :: d) = p.1 :: keys d := rfl

theorem get_set (d : Dict α β) (a : α) (b : β) (x : α) :
    (d.set a b).get x = if x = a then some b else d.get x := by
  induction d with
  | nil => simp [set, get, eq_comm]
  | cons p d ih =>
    obtain ⟨k, v⟩ := p
    simp only [set]
    by_cases h : k = a
    · subst h; simp only [if_true, get]; by_cases hx : k = x
      · simp [hx]
      · simp [hx, Ne.symm hx]
    · simp only [h, if_false, get, ih]
      by_cases hx : k = x
      · subst hx; simp [h]
      · simp [hx]

theorem get_del (d : Dict α β) (a x : α) :
    (d.del a).get x = if x = a then none else d.get x := by
  induction d with
  | nil => simp [del]
  | cons p d ih =>
    obtain ⟨k, v⟩ := p
    simp only [del]
    by_cases h : k = a
    · subst h; simp only [if_true, ih, get]; by_cases hx : k = x
      · simp [hx]
      · simp [hx, Ne.symm hx]
    · simp only [h, if_false, get, ih]
      by_cases hx : k = x
      · subst hx; simp [h]
      · simp [hx]

@[simp] theorem get_set_self (d : Dict α β) (a : α) (b : β) : (d.set a b).get a = some b := by
  simp [get_set]
theorem get_set_ne (d : Dict α β) {a x : α} (b : β) (h : x ≠ a) : (d.set a b).get x = d.get x := by
  simp [get_set, h]
@[simp] theorem get_del_self (d : Dict α β) (a : α) : (d.del a).get a = none := by simp [get_del]
theorem get_del_ne (d : Dict α β) {a x : α} (h : x ≠ a) : (d.del a).get x = d.get x := by
  simp [get_del, h]

theorem get_eq_none_iff (d : Dict α β) (a : α) : d.get a = none ↔ a ∉ d.keys := by
  induction d with
  | nil => simp
  | cons p d ih =>
    obtain ⟨k, v⟩ := p
    simp only [get, keys_cons, List.mem_cons]
    by_cases h : k = a
    · simp [h]
    · simp [h, ih, Ne.symm h]

theorem mem_of_get {d : Dict α β} {a : α} {b : β} (h : d.get a = some b) : (a, b) ∈ d := by
  induction d with
  | nil => simp at h
  | cons p d ih =>
    obtain ⟨k, v⟩ := p
    simp only [get] at h
    by_cases hk : k = a
    · simp [hk] at h; simp [hk, h]
    · simp [hk] at h; exact List.mem_cons_of_mem _ (ih h)

theorem get_of_mem {d : Dict α β} (hw : d.WF) {a : α} {b : β} (h : (a, b) ∈ d) :
    d.get a = some b := by
  induction d with
  | nil => simp at h
  | cons p d ih =>
    obtain ⟨k, v⟩ := p
    simp only [WF, keys_cons, List.nodup_cons] at hw
    simp only [List.mem_cons, Prod.mk.injEq] at h
    rcases h with ⟨rfl, rfl⟩ | h
    · simp [get]
    · have : k ≠ a := by
        rintro rfl; exact hw.1 (List.mem_map.mpr ⟨_, h, rfl⟩)
      simp [get, this, ih hw.2 h]

theorem mem_keys_of_mem {d : Dict α β} {a : α} {b : β} (h : (a, b) ∈ d) : a ∈ d.keys :=
  List.mem_map.mpr ⟨_, h, rfl⟩

theorem get_isSome_iff (d : Dict α β) (a : α) : (d.get a).isSome ↔ a ∈ d.keys := by
  rw [← Decidable.not_iff_not, ← get_eq_none_iff]
  cases d.get a <;> simp

theorem keys_set (d : Dict α β) (a : α) (b : β) :
    (d.set a b).keys = if a ∈ d.keys then d.keys else d.keys ++ [a] := by
  induction d with
  | nil => simp [set, keys]
  | cons p d ih =>
    obtain ⟨k, v⟩ := p
    simp only [set]
    by_cases h : k = a
    · simp [h, keys]
    · simp only [h, if_false, keys_cons, ih, List.mem_cons]
      by_cases h2 : a ∈ Dict.keys d
      · simp [h2]
      · simp [h2, Ne.symm h]

theorem wf_set {d : Dict α β} (h : d.WF) (a : α) (b : β) : (d.set a b).WF := by
  unfold WF at *
  rw [keys_set]
  split
  · exact h
  · rename_i hn
    rw [List.nodup_append]
    refine ⟨h, by simp, ?_⟩
    intro x hx y hy
    simp at hy; subst hy; rintro rfl; exact hn hx

theorem keys_del (d : Dict α β) (a : α) : (d.del a).keys = d.keys.filter (· ≠ a) := by
  induction d with
  | nil => rfl
  | cons p d ih =>
    obtain ⟨k, v⟩ := p
    simp only [del]
    by_cases h : k = a
    · simp [h, ih]
    · simp [h, ih]

theorem wf_del {d : Dict α β} (h : d.WF) (a : α) : (d.del a).WF := by
  unfold WF at *
  rw [keys_del]; exact h.filter _

@[simp] theorem update_nil (d : Dict α β) : d.update [] = d := rfl
theorem update_cons (d : Dict α β) (p : α × β) (e : Dict α β) :
    d.update (p :: e) = (d.set p.1 p.2).update e := rfl

/-- Later entries win; for a well-formed `e` this is "e first, then d". -/
theorem get_update (d e : Dict α β) (hw : e.WF) (x : α) :
    (d.update e).get x = match e.get x with | some v => some v | none => d.get x := by
  induction e generalizing d with
  | nil => simp
  | cons p e ih =>
    obtain ⟨k, v⟩ := p
    simp only [WF, keys_cons, List.nodup_cons] at hw
    rw [update_cons, ih _ hw.2]
    simp only [get]
    by_cases hk : k = x
    · subst hk
      have : Dict.get e k = none := (get_eq_none_iff _ _).2 hw.1
      simp [this]
    · simp only [hk, if_false]
      cases Dict.get e x with
      | none => simp [get_set, Ne.symm hk]
      | some w => rfl

theorem wf_update {d : Dict α β} (h : d.WF) (e : Dict α β) : (d.update e).WF := by
  induction e generalizing d with
  | nil => exact h
  | cons p e ih => exact ih (wf_set h _ _)

end Dict
end Verif
