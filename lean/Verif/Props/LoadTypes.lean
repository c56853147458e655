import Verif.Model.LoadTypes
/-! C78: what `dill.types` and `dill.objects` hold is decided by the last call of load_types. -/
set_option linter.unusedSimpArgs false
namespace Verif.LoadTypes

/-! ### specification -/

/-- any number of calls, one after the other -/
def calls (r : Registry) (typeOf : Obj → Ty) (h : List (Bool × Bool)) (s : St) : St :=
  h.foldl (fun s c => loadTypes r typeOf c.1 c.2 s) s

/-- the object that load_types(pickleable, unpickleable) is documented to offer under a name -/
def documented (r : Registry) (pickleable unpickleable : Bool) (n : String) : Option Obj :=
  if pickleable = true ∧ n ∈ r.registered.keys then r.registered.get n
  else if pickleable = true ∧ n ∈ r.others.keys then r.others.get n
  else if unpickleable = true ∧ n ∈ r.failures.keys then r.failures.get n
  else none

/-- dicts, and no name stands both for an object that can be pickled and for one that cannot -/
structure Good (r : Registry) : Prop where
  reg : r.registered.WF
  fail : r.failures.WF
  oth : r.others.WF
  disj : ∀ n, n ∈ r.failures.keys → n ∉ r.others.keys ∧ n ∉ r.registered.keys

/-- "Type" occurs in the name -/
def HasType (n : String) : Prop := ∃ a b : List Char, n.toList = a ++ "Type".toList ++ b

/-! ### lemmas -/

theorem findType_iff (l : List Char) : findType l = true ↔ ∃ a b : List Char, l = a ++ "Type".toList ++ b := by
  have hT : "Type".toList = ['T', 'y', 'p', 'e'] := by decide
  rw [hT]
  induction l with
  | nil => simp [findType]
  | cons c l ih =>
    simp only [findType, Bool.or_eq_true, ih, List.isPrefixOf_iff_prefix]
    constructor
    · rintro (⟨b, hb⟩ | ⟨a, b, rfl⟩)
      · exact ⟨[], b, by simpa using hb.symm⟩
      · exact ⟨c :: a, b, by simp⟩
    · rintro ⟨a, b, h⟩
      cases a with
      | nil => exact .inl ⟨b, by simpa using h.symm⟩
      | cons x a =>
        simp only [List.cons_append, List.cons.injEq] at h
        exact .inr ⟨a, b, by simpa using h.2⟩

theorem hasType_iff (n : String) : HasType n ↔ findType n.toList = true := (findType_iff _).symm

instance (n : String) : Decidable (HasType n) := decidable_of_iff _ (hasType_iff n).symm

theorem get_popAll {β : Type} (d : Dict String β) (ks : List String) (n : String) :
    (popAll d ks).get n = if n ∈ ks then none else d.get n := by
  induction ks generalizing d with
  | nil => simp [popAll]
  | cons k ks ih =>
    have : popAll d (k :: ks) = popAll (d.del k) ks := rfl
    rw [this, ih, Dict.get_del]
    by_cases h1 : n ∈ ks <;> by_cases h2 : n = k <;> simp [h1, h2]

theorem wf_popAll {β : Type} {d : Dict String β} (h : d.WF) (ks : List String) : (popAll d ks).WF := by
  induction ks generalizing d with
  | nil => exact h
  | cons k ks ih => exact ih (Dict.wf_del h k)

theorem get_loop (typeOf : Obj → Ty) (ns : Dict String Val) (objs : Dict String Obj) (hw : objs.WF) (n : String) (hn : n ≠ "_type") :
    (loop typeOf ns objs).get n = match objs.get n with | some o => some (.ty (typeOf o)) | none => ns.get n := by
  induction objs generalizing ns with
  | nil => simp [loop]
  | cons p objs ih =>
    obtain ⟨k, o⟩ := p
    simp only [Dict.WF, Dict.keys_cons, List.nodup_cons] at hw
    have : loop typeOf ns ((k, o) :: objs) = loop typeOf ((ns.set "_type" .other).set k (.ty (typeOf o))) objs := rfl
    rw [this, ih _ hw.2]
    simp only [Dict.get]
    by_cases hk : k = n
    · subst hk
      have h0 : Dict.get objs k = none := (Dict.get_eq_none_iff _ _).2 hw.1
      simp [h0]
    · simp only [hk, if_false]
      cases Dict.get objs n with
      | some w => rfl
      | none =>
        dsimp only
        rw [Dict.get_set_ne _ _ (Ne.symm hk), Dict.get_set_ne _ _ hn]

theorem get_reload (typeOf : Obj → Ty) (ns : Dict String Val) (objs : Dict String Obj) (hw : objs.WF) (n : String)
    (h1 : n ≠ "_type") (h2 : n ≠ "objects") :
    (reload typeOf ns objs).get n = match objs.get n with | some o => some (.ty (typeOf o)) | none => ns.get n := by
  unfold reload
  rw [Dict.get_del_ne _ h1, Dict.get_del_ne _ h2, get_loop _ _ _ hw _ h1]
  cases Dict.get objs n with
  | some w => rfl
  | none => exact Dict.get_set_ne _ _ h2

theorem wf_loop (typeOf : Obj → Ty) {ns : Dict String Val} (h : ns.WF) (objs : Dict String Obj) : (loop typeOf ns objs).WF := by
  induction objs generalizing ns with
  | nil => exact h
  | cons p objs ih => exact ih (Dict.wf_set (Dict.wf_set h _ _) _ _)

theorem type_name {n : String} (h : findType n.toList = true) : n ≠ "_type" ∧ n ≠ "objects" := by
  constructor <;> rintro rfl <;> revert h <;> decide

theorem get_succeeds {r : Registry} (hr : Good r) (n : String) :
    r.succeeds.get n = match r.registered.get n with | some v => some v | none => r.others.get n := by
  unfold Registry.succeeds
  rw [Dict.get_update _ _ hr.reg n]
  cases r.registered.get n <;> rfl

theorem wf_succeeds {r : Registry} (hr : Good r) : r.succeeds.WF := Dict.wf_update hr.oth _

theorem mem_keys {β : Type} (d : Dict String β) (n : String) : n ∈ d.keys ↔ d.get n ≠ none := by
  rw [Ne, Dict.get_eq_none_iff]; simp

theorem get_popKeys {β γ : Type} (d : Dict String β) (e : Dict String γ) (n : String) :
    (popAll d e.keys).get n = match e.get n with | some _ => none | none => d.get n := by
  rw [get_popAll]
  cases h : e.get n with
  | none => rw [if_neg]; rw [mem_keys, h]; simp
  | some v => rw [if_pos]; rw [mem_keys, h]; simp

/-- one call -/
theorem get_objects {r : Registry} (hr : Good r) (typeOf : Obj → Ty) (p u : Bool) (s : St) (n : String) :
    (loadTypes r typeOf p u s).objects.get n =
      match r.registered.get n with
      | some v => some v
      | none =>
        match r.failures.get n with
        | some v => if u then some v else none
        | none =>
          match r.others.get n with
          | some v => if p then some v else none
          | none => s.objects.get n := by
  have hs := wf_succeeds hr
  simp only [loadTypes]
  rw [Dict.get_update _ _ hr.reg]
  cases hg : r.registered.get n with
  | some v => rfl
  | none =>
    dsimp only
    have hsn : r.succeeds.get n = r.others.get n := by rw [get_succeeds hr, hg]
    have hd := hr.disj n
    rw [mem_keys, mem_keys, mem_keys] at hd
    cases hf : r.failures.get n with
    | some v =>
      cases u with
      | true => simp only [if_true]; rw [Dict.get_update _ _ hr.fail, hf]
      | false =>
        simp only [Bool.false_eq_true, if_false]
        rw [get_popKeys, hf]
    | none =>
      have hstep : ∀ o : Dict String Obj, Dict.get (if u = true then o.update r.failures else popAll o r.failures.keys) n = Dict.get o n := by
        intro o
        cases u with
        | true => simp only [if_true]; rw [Dict.get_update _ _ hr.fail, hf]
        | false =>
          simp only [Bool.false_eq_true, if_false]
          rw [get_popKeys, hf]
      rw [hstep]
      cases p with
      | true => simp only [if_true]; rw [Dict.get_update _ _ hs, hsn]; cases r.others.get n <;> rfl
      | false =>
        simp only [Bool.false_eq_true, if_false]
        rw [get_popKeys, hsn]
        cases r.others.get n <;> rfl

theorem wf_objects {r : Registry} (hr : Good r) (typeOf : Obj → Ty) (p u : Bool) {s : St} (hs : s.objects.WF) :
    (loadTypes r typeOf p u s).objects.WF := by
  simp only [loadTypes]
  refine Dict.wf_update ?_ _
  have h1 : Dict.WF (if p = true then s.objects.update r.succeeds else popAll s.objects r.succeeds.keys) := by
    split
    · exact Dict.wf_update hs _
    · exact wf_popAll hs _
  split
  · exact Dict.wf_update h1 _
  · exact wf_popAll h1 _

theorem get_types {r : Registry} (hr : Good r) (typeOf : Obj → Ty) (p u : Bool) {s : St} (hs : s.objects.WF) (n : String)
    (h1 : n ≠ "_type") (h2 : n ≠ "objects") :
    (loadTypes r typeOf p u s).types.get n =
      match (loadTypes r typeOf p u s).objects.get n with
      | some o => some (.ty (typeOf o))
      | none => if findType n.toList = true then none else s.types.get n := by
  have hw := wf_objects hr typeOf p u hs
  have : (loadTypes r typeOf p u s).types =
      reload typeOf (popAll s.types (s.types.keys.filter fun n => findType n.toList)) (loadTypes r typeOf p u s).objects := rfl
  rw [this, get_reload _ _ _ hw _ h1 h2]
  cases (loadTypes r typeOf p u s).objects.get n with
  | some o => rfl
  | none =>
    dsimp only
    rw [get_popAll]
    simp only [List.mem_filter, mem_keys]
    by_cases hf : findType n.toList = true <;> cases hx : s.types.get n <;> simp [hf, hx]

theorem calls_append (r : Registry) (typeOf : Obj → Ty) (h : List (Bool × Bool)) (c : Bool × Bool) (s : St) :
    calls r typeOf (h ++ [c]) s = loadTypes r typeOf c.1 c.2 (calls r typeOf h s) := by
  simp [calls]

/-- names outside the registry never get into `dill.objects` -/
theorem calls_inv {r : Registry} (hr : Good r) (typeOf : Obj → Ty) (h : List (Bool × Bool)) (s : St) (hs : s.objects.WF) :
    (calls r typeOf h s).objects.WF ∧
    (∀ n, n ∉ r.succeeds.keys → n ∉ r.failures.keys → (calls r typeOf h s).objects.get n = s.objects.get n) := by
  induction h generalizing s with
  | nil => exact ⟨hs, fun _ _ _ => rfl⟩
  | cons c h ih =>
    have hc : calls r typeOf (c :: h) s = calls r typeOf h (loadTypes r typeOf c.1 c.2 s) := rfl
    obtain ⟨g1, g2⟩ := ih (loadTypes r typeOf c.1 c.2 s) (wf_objects hr _ _ _ hs)
    rw [hc]
    refine ⟨g1, fun n k1 k2 => ?_⟩
    rw [g2 n k1 k2, get_objects hr]
    rw [mem_keys, get_succeeds hr] at k1
    rw [mem_keys] at k2
    simp only [ne_eq, Decidable.not_not] at k1 k2
    cases hg : r.registered.get n with
    | some v => rw [hg] at k1; cases k1
    | none => rw [hg] at k1; simp only at k1; simp [k2, k1]

/-! ### theorems -/

/-- After any history that starts with `dill.objects` empty (as after `import dill`), `dill.objects` has under a name what the last call is documented to give -- except that registered objects
are there also when pickleable=False. -/
theorem C78_objects (r : Registry) (hr : Good r) (typeOf : Obj → Ty) (s : St) (hs : s.objects = []) (h : List (Bool × Bool)) (p u : Bool)
    (n : String) (hreg : n ∈ r.registered.keys → p = true) :
    (calls r typeOf (h ++ [(p, u)]) s).objects.get n = documented r p u n := by
  have hw : s.objects.WF := by rw [hs]; exact List.nodup_nil
  obtain ⟨_, g2⟩ := calls_inv hr typeOf h s hw
  have g3 := g2 n
  rw [calls_append, get_objects hr]
  simp only [documented]
  rw [mem_keys] at hreg
  rw [mem_keys, mem_keys] at g3
  have hd := hr.disj n
  rw [mem_keys, mem_keys, mem_keys] at hd
  simp only [mem_keys]
  rw [get_succeeds hr] at g3
  cases hg : r.registered.get n with
  | some v => rw [hg] at hreg; simp [hreg (by simp)]
  | none =>
    rw [hg] at g3
    cases hf : r.failures.get n with
    | some v =>
      rw [hf] at hd
      have := (hd (by simp)).1
      simp only [ne_eq, Decidable.not_not] at this
      cases u <;> simp [this, hf]
    | none =>
      cases ho : r.others.get n with
      | some v => cases p <;> simp [hf]
      | none =>
        rw [hf, ho] at g3
        have := g3 (by simp) (by simp)
        rw [hs] at this
        simp [this]

/-- ... and `dill.types` has the type of that object, for names with "Type" in them, whatever was loaded before. -/
theorem C78_last_call_decides_partial (r : Registry) (hr : Good r) (typeOf : Obj → Ty) (s : St) (hs : s.objects = [])
    (h : List (Bool × Bool)) (p u : Bool) (n : String) (hty : HasType n) (hreg : n ∈ r.registered.keys → p = true) :
    (calls r typeOf (h ++ [(p, u)]) s).types.get n = (documented r p u n).map fun o => .ty (typeOf o) := by
  have hw : s.objects.WF := by rw [hs]; exact List.nodup_nil
  obtain ⟨g1, _⟩ := calls_inv hr typeOf h s hw
  rw [hasType_iff] at hty
  have hob := C78_objects r hr typeOf s hs h p u n hreg
  rw [calls_append] at hob ⊢
  rw [get_types hr _ _ _ g1 _ (type_name hty).1 (type_name hty).2, hob]
  cases documented r p u n <;> simp [hty]

/-- what is not registered and not a type name stays in `dill.types` -/
theorem C78_other_names_stay (r : Registry) (hr : Good r) (typeOf : Obj → Ty) (s : St) (hs : s.objects = [])
    (h : List (Bool × Bool)) (n : String) (hty : ¬ HasType n) (h0 : n ∉ r.registered.keys) (h1 : n ∉ r.others.keys) (h2 : n ∉ r.failures.keys)
    (h3 : n ≠ "_type") (h4 : n ≠ "objects") :
    (calls r typeOf h s).types.get n = s.types.get n := by
  rw [hasType_iff] at hty
  have h1 : n ∉ r.succeeds.keys := by
    rw [mem_keys] at h0 h1 ⊢
    simp only [ne_eq, Decidable.not_not] at h0 h1 ⊢
    rw [get_succeeds hr, h0]; exact h1
  have hw : s.objects.WF := by rw [hs]; exact List.nodup_nil
  have key : ∀ (h : List (Bool × Bool)) (s : St), s.objects.WF → s.objects.get n = none →
      (calls r typeOf h s).types.get n = s.types.get n := by
    intro h
    induction h with
    | nil => intro s _ _; rfl
    | cons c h ih =>
      intro s hw hn
      have hc : calls r typeOf (c :: h) s = calls r typeOf h (loadTypes r typeOf c.1 c.2 s) := rfl
      have ho : (loadTypes r typeOf c.1 c.2 s).objects.get n = none := by
        have := (calls_inv hr typeOf [c] s hw).2 n h1 h2
        rw [hn] at this; exact this
      rw [hc, ih _ (wf_objects hr _ _ _ hw) ho, get_types hr _ _ _ hw _ h3 h4, ho]
      simp [hty]
  exact key h s hw (by rw [hs]; rfl)

/-! ### examples and counterexamples -/

/-- a few entries of _objects.py: lines 128, 449 and 303 -/
def exR : Registry := ⟨[("ItemGetterType", 1)], [("StreamReader", 2), ("MemoryType", 4)], [("BooleanType", 3)]⟩
def exS : St := ⟨[], [("__doc__", .other)]⟩

theorem exR_good : Good exR := by
  refine ⟨by decide, by decide, by decide, ?_⟩
  intro n h
  simp only [exR, Dict.keys, List.map_cons, List.map_nil, List.mem_cons, List.not_mem_nil, or_false] at h ⊢
  rcases h with rfl | rfl <;> decide

example : (calls exR (fun o => o) ([(true, true)] ++ [(false, true)]) exS).types.get "BooleanType" = none ∧
    (calls exR (fun o => o) ([(false, false)] ++ [(false, true)]) exS).types.get "MemoryType" = some (.ty 4) := by
  have h := C78_last_call_decides_partial exR exR_good (fun o => o) exS rfl
  exact ⟨(h [(true, true)] false true "BooleanType" (by decide) (by decide)).trans (by decide),
    (h [(false, false)] false true "MemoryType" (by decide) (by decide)).trans (by decide)⟩

/-- `StreamReader` (_objects.py:449) has no "Type" in its name: once loaded it stays in `dill.types`, though
load_types(unpickleable=False) is to leave it out -/
theorem C78_streamreader_stays :
    ∃ r s, Good r ∧ s.objects = [] ∧ documented r true false "StreamReader" = none ∧
      (calls r (fun o => o) [(true, false)] s).types.get "StreamReader" = none ∧
      (calls r (fun o => o) ([(true, true)] ++ [(true, false)]) s).types.get "StreamReader" = some (.ty 2) :=
  ⟨exR, exS, exR_good, rfl, by decide, by decide, by decide⟩

/-- With pickleable=False the registered types, all of which can be pickled, are loaded nevertheless. -/
theorem C78_registered_loaded :
    ∃ r s, Good r ∧ s.objects = [] ∧ documented r false true "ItemGetterType" = none ∧
      (calls r (fun o => o) [(false, true)] s).types.get "ItemGetterType" = some (.ty 1) :=
  ⟨exR, exS, exR_good, rfl, by decide, by decide⟩

end Verif.LoadTypes
