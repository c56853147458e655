import Verif.Model.Super
/-! C99: a pickled `super` object finds the same attributes. -/
set_option linter.unusedSimpArgs false
set_option linter.unusedVariables false
namespace Verif.Super

/-! ### Specification -/

/-- The objects in the process that loads: `f` says which object stands for which (copies, or the same ones); classes have the same bases and
attributes, objects the same classes. -/
structure Copy (f : Obj → Obj) (W W' : World) : Prop where
  inj : ∀ a b, f a = f b → a = b
  mro : ∀ a, W'.mro (f a) = (W.mro a).map (List.map f)
  dict : ∀ a n, W'.dict (f a) n = (W.dict a n).map f
  typeOf : ∀ a, W'.typeOf (f a) = f (W.typeOf a)
  clsAttr : ∀ a, W'.clsAttr (f a) = (W.clsAttr a).map f
  get : ∀ a o c, W'.get (f a) (o.map f) (f c) = (W.get a o c).map f
  rest : ∀ n, W'.rest n = (W.rest n).map f

def mapValue (f : Obj → Obj) : Except Exc Value → Except Exc Value
  | .ok v => .ok (v.map f)
  | .error x => .error x

/-- a `super` object in the loading process that gives, for every name, what the original gives (the copy of it) -/
def SameLookups (f : Obj → Obj) (W W' : World) (s s' : Sup) : Prop := ∀ name, read W' s' name = mapValue f (read W s name)

/-- the classes that the proxy searches do not define the name -/
def NotShadowed (W : World) (s : Sup) (name : String) : Prop :=
  ∀ o start l, s.bound = some (o, start) → W.mro start = some l → ∀ c ∈ after s.thisclass l, W.dict c name = none

/-! ### Lemmas -/

theorem firstWith_none (W : World) (name : String) : ∀ l : List Obj, (∀ c ∈ l, W.dict c name = none) → firstWith W name l = none := by
  intro l
  induction l with
  | nil => intro _; rfl
  | cons c cs ih =>
    intro h
    rw [firstWith, h c (by simp)]
    exact ih (fun d hd => h d (List.mem_cons_of_mem _ hd))

theorem found_none {W : World} {s : Sup} {name : String} (h : NotShadowed W s name) : found W s name = none := by
  unfold found
  cases hb : s.bound with
  | none => rfl
  | some p =>
    obtain ⟨o, start⟩ := p
    simp only
    cases hm : W.mro start with
    | none => rfl
    | some l => exact firstWith_none W name _ (h o start l hb hm)

theorem read_own {W : World} {s : Sup} {name : String} (h : NotShadowed W s name) : read W s name = own W s name := by
  unfold read
  rw [found_none h]
  split
  · rfl
  · rfl

theorem save_eq {W : World} {s : Sup} (h1 : NotShadowed W s "__thisclass__") (h2 : NotShadowed W s "__self__") :
    saveSuper W s = .ok (some s.thisclass, s.bound.map (·.1)) := by
  unfold saveSuper
  rw [read_own h1, read_own h2]
  rfl

theorem after_map {f : Obj → Obj} (inj : ∀ a b, f a = f b → a = b) (c : Obj) : ∀ l : List Obj, after (f c) (l.map f) = (after c l).map f := by
  intro l
  induction l with
  | nil => rfl
  | cons d ds ih =>
    simp only [List.map_cons, after]
    by_cases e : d = c
    · rw [if_pos e, if_pos (by rw [e])]
    · rw [if_neg e, if_neg (fun h => e (inj _ _ h)), ih]

theorem firstWith_map {f : Obj → Obj} {W W' : World} (hc : Copy f W W') (name : String) :
    ∀ l : List Obj, firstWith W' name (l.map f) = (firstWith W name l).map f := by
  intro l
  induction l with
  | nil => rfl
  | cons c cs ih =>
    simp only [List.map_cons, firstWith, hc.dict]
    cases W.dict c name with
    | none => exact ih
    | some a => rfl

/-- the copy of a `super` object -/
def Sup.map (f : Obj → Obj) (s : Sup) : Sup := ⟨f s.thisclass, s.bound.map fun p => (f p.1, f p.2)⟩

theorem found_map {f : Obj → Obj} {W W' : World} (hc : Copy f W W') (s : Sup) (name : String) :
    found W' (s.map f) name = (found W s name).map f := by
  unfold found
  cases hb : s.bound with
  | none => simp [Sup.map, hb]
  | some p =>
    obtain ⟨o, start⟩ := p
    simp only [Sup.map, hb, Option.map_some, hc.mro]
    cases W.mro start with
    | none => rfl
    | some l =>
      simp only [Option.map_some]
      rw [after_map hc.inj, firstWith_map hc]

theorem own_map {f : Obj → Obj} {W W' : World} (hc : Copy f W W') (s : Sup) (name : String) :
    own W' (s.map f) name = mapValue f (own W s name) := by
  unfold own
  by_cases h1 : name = "__thisclass__"
  · simp only [if_pos h1]; rfl
  · simp only [if_neg h1]
    by_cases h2 : name = "__self__"
    · simp only [if_pos h2]; cases hb : s.bound <;> simp [Sup.map, hb, mapValue]
    · simp only [if_neg h2]
      by_cases h3 : name = "__self_class__"
      · simp only [if_pos h3]; cases hb : s.bound <;> simp [Sup.map, hb, mapValue]
      · simp only [if_neg h3, hc.rest]
        cases W.rest name <;> rfl

theorem read_map {f : Obj → Obj} {W W' : World} (hc : Copy f W W') (s : Sup) : SameLookups f W W' s (s.map f) := by
  intro name
  unfold read
  by_cases h : name = "__class__"
  · simp only [if_pos h]; exact own_map hc s name
  · simp only [if_neg h]
    rw [found_map hc]
    cases hf : found W s name with
    | none => exact own_map hc s name
    | some a =>
      cases hb : s.bound with
      | none => simp only [Sup.map, hb, Option.map_some, Option.map_none]; simpa [Sup.map, hb] using own_map hc s name
      | some p =>
        obtain ⟨o, start⟩ := p
        simp only [Sup.map, hb, Option.map_some]
        by_cases e : o = start
        · subst e
          simp only [if_true]
          have := hc.get a none o
          simp only [Option.map_none] at this
          rw [this]
          cases W.get a none o <;> rfl
        · rw [if_neg e, if_neg (fun h => e (hc.inj _ _ h))]
          have := hc.get a (some o) start
          simp only [Option.map_some] at this
          rw [this]
          cases W.get a (some o) start <;> rfl

theorem subtype_map {f : Obj → Obj} {W W' : World} (hc : Copy f W W') (a b : Obj) : subtype W' (f a) (f b) = subtype W a b := by
  unfold subtype
  rw [hc.mro]
  cases W.mro a with
  | none => rfl
  | some l =>
    simp only [Option.map_some]
    rw [Bool.eq_iff_iff]
    simp only [List.contains_iff_mem, List.mem_map]
    constructor
    · rintro ⟨x, hx, e⟩; rw [← hc.inj _ _ e]; exact hx
    · intro h; exact ⟨b, h, rfl⟩

def mapObj (f : Obj → Obj) : Except Exc Obj → Except Exc Obj
  | .ok v => .ok (f v)
  | .error x => .error x

theorem superCheck_map {f : Obj → Obj} {W W' : World} (hc : Copy f W W') (c o : Obj) :
    superCheck W' (f c) (f o) = mapObj f (superCheck W c o) := by
  unfold superCheck
  rw [hc.typeOf, subtype_map hc, subtype_map hc, hc.clsAttr]
  by_cases h1 : subtype W o c = true
  · simp only [if_pos h1]; rfl
  · simp only [if_neg h1]
    by_cases h2 : subtype W (W.typeOf o) c = true
    · simp only [if_pos h2]; rfl
    · simp only [if_neg h2]
      cases W.clsAttr o with
      | none => rfl
      | some d =>
        simp only [Option.map_some, subtype_map hc]
        by_cases h3 : d ≠ W.typeOf o ∧ subtype W d c = true
        · rw [if_pos h3, if_pos ⟨fun e => h3.1 (hc.inj _ _ e), h3.2⟩]; rfl
        · rw [if_neg h3, if_neg (fun h => h3 ⟨fun e => h.1 (by rw [e]), h.2⟩)]; rfl

/-! ### C99 -/

/-- C99 for bound proxies: if no class that the proxy searches defines `__self__` or `__thisclass__`, and the object's class still is the one
it was when the proxy was made, then the loaded proxy gives the same attribute for every name (and is a proxy for the copies of the object and
the class). -/
theorem C99_super_partial (f : Obj → Obj) (W W' : World) (hc : Copy f W W') (s : Sup)
    (h1 : NotShadowed W s "__thisclass__") (h2 : NotShadowed W s "__self__") (o start : Obj) (hb : s.bound = some (o, start))
    (hm : (W.mro s.thisclass).isSome) (hcls : superCheck W s.thisclass o = .ok start) :
    ∃ args s', saveSuper W s = .ok args ∧ loadSuper W' (args.1.map f, args.2.map f) = .ok s' ∧ SameLookups f W W' s s' ∧
      s'.thisclass = f s.thisclass ∧ s'.bound = some (f o, f start) := by
  refine ⟨_, s.map f, save_eq h1 h2, ?_, read_map hc s, rfl, by simp [Sup.map, hb]⟩
  obtain ⟨l, hl⟩ := Option.isSome_iff_exists.1 hm
  simp only [loadSuper, newSuper, hb, Option.map_some, hc.mro, hl, superCheck_map hc, hcls, mapObj, Sup.map]

/-- C99 for unbound proxies: always. -/
theorem C99_unbound (f : Obj → Obj) (W W' : World) (hc : Copy f W W') (s : Sup) (hb : s.bound = none) (hm : (W.mro s.thisclass).isSome) :
    ∃ args s', saveSuper W s = .ok args ∧ loadSuper W' (args.1.map f, args.2.map f) = .ok s' ∧ SameLookups f W W' s s' ∧ s'.bound = none := by
  have hn : ∀ name, NotShadowed W s name := fun name o start l h => by rw [hb] at h; cases h
  refine ⟨_, s.map f, save_eq (hn _) (hn _), ?_, read_map hc s, by simp [Sup.map, hb]⟩
  obtain ⟨l, hl⟩ := Option.isSome_iff_exists.1 hm
  simp only [loadSuper, newSuper, hb, Option.map_some, Option.map_none, hc.mro, hl, Sup.map]

/-- Every proxy that `super(cls, obj)` has just made meets the conditions on classes. -/
theorem C99_just_made_partial (f : Obj → Obj) (W W' : World) (hc : Copy f W W') (c o : Obj) (s : Sup) (hs : newSuper W (some c) (some o) = .ok s)
    (h1 : NotShadowed W s "__thisclass__") (h2 : NotShadowed W s "__self__") :
    ∃ args s', saveSuper W s = .ok args ∧ loadSuper W' (args.1.map f, args.2.map f) = .ok s' ∧ SameLookups f W W' s s' := by
  simp only [newSuper] at hs
  cases hm : W.mro c with
  | none => rw [hm] at hs; cases hs
  | some l =>
    rw [hm] at hs
    simp only at hs
    cases hk : superCheck W c o with
    | error x => rw [hk] at hs; cases hs
    | ok start =>
      rw [hk] at hs
      cases hs
      obtain ⟨args, s', e1, e2, e3, -⟩ := C99_super_partial f W W' hc _ h1 h2 o start rfl (by simp [hm]) hk
      exact ⟨args, s', e1, e2, e3⟩

/-- Which class the loaded proxy starts from: that which the object's class gives now, not the one the proxy was made with. -/
theorem C99_start_recomputed (f : Obj → Obj) (W W' : World) (hc : Copy f W W') (s : Sup)
    (h1 : NotShadowed W s "__thisclass__") (h2 : NotShadowed W s "__self__") (o start : Obj) (hb : s.bound = some (o, start))
    (hm : (W.mro s.thisclass).isSome) :
    ∃ args, saveSuper W s = .ok args ∧
      (∀ now, superCheck W s.thisclass o = .ok now → loadSuper W' (args.1.map f, args.2.map f) = .ok ⟨f s.thisclass, some (f o, f now)⟩) ∧
      (∀ x, superCheck W s.thisclass o = .error x → loadSuper W' (args.1.map f, args.2.map f) = .error x) := by
  refine ⟨_, save_eq h1 h2, ?_, ?_⟩ <;> obtain ⟨l, hl⟩ := Option.isSome_iff_exists.1 hm <;> intro x hx <;>
    simp only [loadSuper, newSuper, hb, Option.map_some, hc.mro, hl, superCheck_map hc, hx, mapObj]

/-! ### C99 is false otherwise -/

/-- `class B: x = 90`, `class C(B): pass`, `class D(C): pass` (0, 1, 2; `object` is 3), `o` (10) an instance of `cls`; in `B` also `extra` -/
def world (cls : Obj) (extra : String → Option Obj) : World where
  mro := fun c => if c = 0 then some [0, 3] else if c = 1 then some [1, 0, 3] else if c = 2 then some [2, 1, 4, 0, 3] else
    if c = 3 then some [3] else if c = 4 then some [4, 0, 3] else none
  dict := fun c n => if c = 0 then (if n = "x" then some 90 else extra n) else if c = 4 ∧ n = "x" then some 91 else none
  typeOf := fun o => if o = 10 then cls else 99
  clsAttr := fun o => if o = 10 then some cls else none
  get := fun a _ _ => some a
  rest := fun _ => none

theorem copy_id (W : World) : Copy id W W :=
  ⟨fun _ _ h => h, fun a => by simp, fun a n => by simp, fun a => rfl, fun a => by simp, fun a o c => by simp, fun n => by simp⟩

local instance {α : Type} [DecidableEq α] : DecidableEq (Except Exc α) := fun a b =>
  match a, b with
  | .ok x, .ok y => if h : x = y then isTrue (by rw [h]) else isFalse (by intro e; cases e; exact h rfl)
  | .error x, .error y => if h : x = y then isTrue (by rw [h]) else isFalse (by intro e; cases e; exact h rfl)
  | .ok _, .error _ => isFalse (by intro e; cases e)
  | .error _, .ok _ => isFalse (by intro e; cases e)

/-- a base class defines `__self__`: what is written is `super(C, 42)`, which cannot be loaded. -/
theorem C99_shadowed_self : ∃ s, newSuper (world 1 fun n => if n = "__self__" then some 42 else none) (some 1) (some 10) = .ok s ∧
    saveSuper (world 1 fun n => if n = "__self__" then some 42 else none) s = .ok (some 1, some 42) ∧
    loadSuper (world 1 fun n => if n = "__self__" then some 42 else none) (some 1, some 42) = .error .typeError :=
  ⟨⟨1, some (10, 1)⟩, by decide +kernel⟩

/-- a base class defines `__self__` as another instance: the proxy silently is one for that. -/
theorem C99_shadowed_self_other : ∃ W s s', newSuper W (some 1) (some 10) = .ok s ∧
    (∃ args, saveSuper W s = .ok args ∧ loadSuper W args = .ok s') ∧ s'.bound ≠ s.bound :=
  ⟨{ world 1 (fun n => if n = "__self__" then some 11 else none) with typeOf := fun o => if o = 10 ∨ o = 11 then 1 else 99 },
    ⟨1, some (10, 1)⟩, ⟨1, some (11, 1)⟩, by decide +kernel, ⟨(some 1, some 11), by decide +kernel, by decide +kernel⟩, by decide⟩

/-- `o.__class__` was `C` when the proxy was made and is `D` now, whose order has a class between `C` and `B`: `x` is another one. -/
theorem C99_class_changed : ∃ s s', newSuper (world 1 fun _ => none) (some 1) (some 10) = .ok s ∧
    (∃ args, saveSuper (world 2 fun _ => none) s = .ok args ∧ loadSuper (world 2 fun _ => none) args = .ok s') ∧
    read (world 2 fun _ => none) s "x" = .ok (some 90) ∧ read (world 2 fun _ => none) s' "x" = .ok (some 91) :=
  ⟨⟨1, some (10, 1)⟩, ⟨1, some (10, 2)⟩, by decide +kernel, ⟨(some 1, some 10), by decide +kernel, by decide +kernel⟩, by decide +kernel, by decide +kernel⟩

/-- the class now is `B`: the proxy still works, but its pickle cannot be loaded. -/
theorem C99_class_changed_fails : ∃ s args, newSuper (world 1 fun _ => none) (some 1) (some 10) = .ok s ∧
    saveSuper (world 0 fun _ => none) s = .ok args ∧ loadSuper (world 0 fun _ => none) args = .error .typeError ∧
    read (world 0 fun _ => none) s "x" = .ok (some 90) :=
  ⟨⟨1, some (10, 1)⟩, (some 1, some 10), by decide +kernel⟩

/-! ### concrete cases -/

example : newSuper (world 2 fun _ => none) (some 1) (some 10) = .ok ⟨1, some (10, 2)⟩ ∧
    read (world 2 fun _ => none) ⟨1, some (10, 2)⟩ "x" = .ok (some 91) := by decide +kernel
/-- a class as the second argument -/
example : newSuper (world 2 fun _ => none) (some 1) (some 2) = .ok ⟨1, some (2, 2)⟩ := by decide +kernel
/-- a proxy object whose `__class__` says something else than its type -/
example : superCheck { world 2 (fun _ => none) with typeOf := fun _ => 3 } 1 10 = .ok 2 := by decide +kernel
example : NotShadowed (world 2 fun _ => none) ⟨1, some (10, 2)⟩ "__self__" ∧ NotShadowed (world 2 fun _ => none) ⟨1, some (10, 2)⟩ "__thisclass__" := by
  constructor <;> (intro o start l hb hm; cases hb; cases hm; decide +kernel)
/-- copies: every object has the number + 100 -/
example : ∃ (f : Obj → Obj) (W W' : World), Copy f W W' ∧ f 10 ≠ 10 :=
  ⟨(· + 100), ⟨fun c => if c = 3 then some [3] else none, fun _ _ => none, fun _ => 3, fun _ => some 3, fun a _ _ => some a, fun _ => none⟩,
    ⟨fun c => if c = 103 then some [103] else none, fun _ _ => none, fun _ => 103, fun _ => some 103, fun a _ _ => some a, fun _ => none⟩,
    ⟨fun a b h => Nat.add_right_cancel h, fun a => by
      by_cases h : a = 3
      · subst h; rfl
      · have : ¬ a + 100 = 103 := fun e => h (Nat.add_right_cancel (m := 100) e)
        simp only [if_neg h, if_neg this]; rfl, fun _ _ => rfl, fun _ => rfl, fun _ => rfl, fun _ _ _ => rfl, fun _ => rfl⟩, by decide⟩

end Verif.Super
