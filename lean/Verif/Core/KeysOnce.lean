import Verif.Model.Core
/-! No loaded dict has a key twice, whatever the pickle. -/
namespace Verif.Core

/-- no dict entry of a loaded object is there twice -/
def KeysOnce (heap : List TObj) : Prop :=
  ∀ (t : Nat) c l d a st, heap[t]? = some (.node c l d a st) → (d.map (·.1)).Nodup

theorem keys_upsert (d : List (TVal × TVal)) (k v : TVal) : ∀ x, x ∈ (upsert d k v).map (·.1) ↔ x = k ∨ x ∈ d.map (·.1) := by
  induction d with
  | nil => intro x; simp [upsert]
  | cons e d ih =>
    obtain ⟨k', v'⟩ := e
    intro x
    simp only [upsert]
    split
    · rename_i h; subst h; simp
    · simp only [List.map_cons, List.mem_cons, ih, or_left_comm]

theorem nodup_upsert {d : List (TVal × TVal)} (h : (d.map (·.1)).Nodup) (k v : TVal) : ((upsert d k v).map (·.1)).Nodup := by
  induction d with
  | nil => simp [upsert]
  | cons e d ih =>
    obtain ⟨k', v'⟩ := e
    simp only [List.map_cons, List.nodup_cons] at h
    simp only [upsert]
    split
    · rename_i he
      subst he
      simpa using h
    · rename_i hne
      simp only [List.map_cons, List.nodup_cons]
      refine ⟨fun hm => ?_, ih h.2⟩
      rcases (keys_upsert d k v k').1 hm with e | hm
      · exact hne e
      · exact h.1 hm

theorem nodup_upserts {d : List (TVal × TVal)} (h : (d.map (·.1)).Nodup) (kvs : List (TVal × TVal)) :
    ((upserts d kvs).map (·.1)).Nodup := by
  induction kvs generalizing d with
  | nil => exact h
  | cons e kvs ih => exact ih (nodup_upsert h _ _)

theorem lookupD_none {d : List (TVal × TVal)} {k : TVal} (h : lookupD d k = none) : k ∉ d.map (·.1) := by
  induction d with
  | nil => simp
  | cons e d ih =>
    obtain ⟨k', v'⟩ := e
    simp only [lookupD] at h
    split at h
    · cases h
    · rename_i hne
      simp only [List.map_cons, List.mem_cons, not_or]
      exact ⟨fun e => hne e.symm, ih h⟩

/-- the dict entries of an object are distinct -/
def ObjOnce : TObj → Prop
  | .node _ _ d _ _ => (d.map (·.1)).Nodup
  | _ => True

theorem KeysOnce.iff {heap : List TObj} : KeysOnce heap ↔ ∀ o ∈ heap, ObjOnce o := by
  constructor
  · intro h o ho
    obtain ⟨t, ht⟩ := List.mem_iff_getElem?.1 ho
    cases o <;> first | trivial | exact h t _ _ _ _ _ ht
  · intro h t c l d a st ht
    exact h _ (List.mem_of_getElem? ht)

theorem KeysOnce.app {heap : List TObj} (h : KeysOnce heap) {o : TObj} (ho : ObjOnce o) : KeysOnce (heap ++ [o]) := by
  rw [KeysOnce.iff] at *
  intro x hx
  rcases List.mem_append.1 hx with hx | hx
  · exact h x hx
  · simp at hx; subst hx; exact ho

theorem KeysOnce.setObj {heap : List TObj} (h : KeysOnce heap) {o : TObj} (ho : ObjOnce o) (t : Nat) : KeysOnce (heap.set t o) := by
  rw [KeysOnce.iff] at *
  intro x hx
  rcases List.mem_or_eq_of_mem_set hx with hx | hx
  · exact h x hx
  · subst hx; exact ho

theorem keysOnce_mkFunction {m m' : M} {code g name df cl : TVal} {s} (h : KeysOnce m.heap)
    (hs : mkFunction m code g name df cl s = some m') : KeysOnce m'.heap := by
  cases g with
  | atom a => simp only [mkFunction, Option.some.injEq] at hs; subst hs; exact h.app trivial
  | ref t =>
    simp only [mkFunction] at hs
    cases ht : m.heap[t]? with
    | none => rw [ht] at hs; cases hs
    | some o =>
      rw [ht] at hs
      cases o with
      | node c l d a st =>
        have hd := h t _ _ _ _ _ ht
        cases c <;> simp only at hs <;> try (cases hs; done)
        split at hs
        · cases hs
          exact KeysOnce.app (h.app (by simp [ObjOnce])) trivial
        · cases hs
          refine KeysOnce.app (h.setObj ?_ t) trivial
          show (List.map _ (if _ then _ else _)).Nodup
          split
          · exact hd
          · rename_i hn
            simp only [Option.not_isSome_iff_eq_none] at hn
            simp only [List.map_append, List.map_cons, List.map_nil]
            exact List.nodup_append.2 ⟨hd, by simp, by
              intro x hx y hy; simp at hy; subst hy; rintro rfl; exact lookupD_none hn hx⟩
      | _ => cases hs

theorem keysOnce_call {m m' : M} {f : TVal} {args : List TVal} {s} (h : KeysOnce m.heap) (hs : call m f args s = some m') :
    KeysOnce m'.heap := by
  unfold call at hs
  split at hs
  · split at hs
    · exact keysOnce_mkFunction h hs
    · cases hs
  split at hs
  · split at hs
    · cases hs; exact h.app trivial
    · cases hs
  split at hs
  · split at hs
    · obtain ⟨es, _, rfl⟩ := Option.map_eq_some_iff.1 hs
      exact h.app trivial
    · cases hs
  split at hs
  · repeat' split at hs
    all_goals first
      | (cases hs; done)
      | (cases hs; first | exact h | (refine KeysOnce.setObj h ?_ _; trivial))
  split at hs
  · repeat' split at hs
    all_goals first
      | (cases hs; done)
      | (cases hs; refine KeysOnce.setObj h ?_ _; trivial)
  · cases hs; exact h.app (by simp [ObjOnce])

theorem keysOnce_step {op : Op} {m m' : M} (h : KeysOnce m.heap) (hs : step op m = some m') : KeysOnce m'.heap := by
  cases op <;> simp only [step] at hs
  case reduce =>
    repeat' split at hs
    all_goals first | (cases hs; done) | exact keysOnce_call h hs
  all_goals
    repeat' split at hs
    all_goals try (cases hs; done)
    all_goals try (cases hs; first | exact h | exact h.app trivial | exact h.app (by simp [ObjOnce]))
    all_goals try (obtain ⟨_, _, rfl⟩ := Option.map_eq_some_iff.1 hs; exact h)
    all_goals
      cases hs
      refine KeysOnce.setObj h ?_ _
      first
        | trivial
        | exact h _ _ _ _ _ _ (by assumption)
        | exact nodup_upsert (h _ _ _ _ _ _ (by assumption)) _ _
        | exact nodup_upserts (h _ _ _ _ _ _ (by assumption)) _

theorem keysOnce_exec {ops : List Op} {m m' : M} (h : KeysOnce m.heap) (hs : exec ops m = some m') : KeysOnce m'.heap := by
  induction ops generalizing m with
  | nil => cases hs; exact h
  | cons op ops ih =>
    simp only [exec] at hs
    obtain ⟨m1, h1, h2⟩ := Option.bind_eq_some_iff.1 hs
    exact ih (keysOnce_step h h1) h2

theorem load_keysOnce {ops : List Op} {tv : TVal} {heap : List TObj} (h : load ops = some (tv, heap)) : KeysOnce heap := by
  unfold load at h
  cases he : exec ops ⟨[], [], [], []⟩ with
  | none => rw [he] at h; cases h
  | some m =>
    have := keysOnce_exec (m := ⟨[], [], [], []⟩) (by intro t _ _ _ _ _ h; simp at h) he
    rw [he] at h
    simp only at h
    split at h <;> cases h <;> simp_all

end Verif.Core
