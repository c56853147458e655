import Verif.Model.Reducers
import Verif.Props.PyStr
import Verif.Props.Modules
/-! C57-C62: ranges and singletons, lru_cache, capsules, descriptors, property/staticmethod/classmethod, typing.Tuple. -/
set_option linter.unusedSimpArgs false
namespace Verif.Reducers
open Verif.Modules (Str Obj rsplitDot)
open PyStr

deriving instance DecidableEq for Except

/-! ### C57: ranges, Ellipsis, NotImplemented -/

/-- the decimal text of `n` has at most `lim` digits -/
def Fits (lim : Option Nat) (n : Int) : Prop :=
  match lim with
  | none => True
  | some l => n.natAbs < 10 ^ l

/-- the text of an int -/
def intText (n : Int) : Str := if n < 0 then '-' :: str10 n.natAbs else str10 n.natAbs

theorem fits_len {l : Nat} (hl : 0 < l) (n : Int) : (str10 n.natAbs).length ≤ l ↔ n.natAbs < 10 ^ l :=
  Nat.length_toDigits_le_iff (by decide) hl

theorem reprInt_fits {lim : Option Nat} (hl : ∀ l, lim = some l → 0 < l) {n : Int} (h : Fits lim n) :
    reprInt lim n = .ok (intText n) := by
  cases lim with
  | none => rfl
  | some l =>
    have := (fits_len (hl l rfl) n).2 h
    simp only [reprInt, if_neg (Nat.not_lt.2 this), intText]

theorem reprInt_big {l : Nat} (hl : 0 < l) {n : Int} (h : ¬ n.natAbs < 10 ^ l) : reprInt (some l) n = .error .valueError := by
  have : ¬ (str10 n.natAbs).length ≤ l := fun h' => h ((fits_len hl n).1 h')
  simp only [reprInt, if_pos (Nat.lt_of_not_le this)]

theorem str10_head (n : Nat) : ∀ t, str10 n ≠ '-' :: t := by
  intro t h
  have := str10_digit n '-' (by rw [h]; simp)
  revert this; decide

theorem evalNat_text {lim : Option Nat} (hl : ∀ l, lim = some l → 0 < l) {n : Int} (h : Fits lim n) :
    evalNat lim (str10 n.natAbs) = .ok n.natAbs := by
  unfold evalNat
  rw [int10_str10]
  cases lim with
  | none => rfl
  | some l =>
    have := (fits_len (hl l rfl) n).2 h
    simp only [if_neg (Nat.not_lt.2 this)]

theorem evalInt_text {lim : Option Nat} (hl : ∀ l, lim = some l → 0 < l) {n : Int} (h : Fits lim n) :
    evalInt lim (intText n) = .ok n := by
  unfold intText
  split
  · simp only [evalInt, evalNat_text hl h, Except.ok.injEq]
    omega
  · unfold evalInt
    split
    · rename_i t e; exact absurd e (str10_head _ _)
    · simp only [evalNat_text hl h, Except.ok.injEq]
      omega

theorem intText_nocomma (n : Int) : ∀ c ∈ intText n, c ≠ ',' := by
  intro c hc
  unfold intText at hc
  split at hc
  · rcases List.mem_cons.1 hc with rfl | hc
    · decide
    · exact digit_ne (str10_digit _ c hc) (by decide)
  · exact digit_ne (str10_digit _ c hc) (by decide)

theorem split_one (t : Str) (h : ∀ c ∈ t, c ≠ ',') : split ", ".toList t = [t] := by
  have e : ", ".toList = [',', ' '] := by decide
  rw [e]
  have := splitGo_skips (sep := [',', ' ']) (by simp) t (by intro c hc; simp; exact fun e => h c hc e.symm) [] []
  simp only [List.append_nil] at this
  simp only [split, this, splitGo, List.reverse_reverse]

theorem split_cons (t s : Str) (h : ∀ c ∈ t, c ≠ ',') : split ", ".toList (t ++ ", ".toList ++ s) = t :: split ", ".toList s := by
  have e : ", ".toList = [',', ' '] := by decide
  rw [e]
  have := splitGo_skips (sep := [',', ' ']) (by simp) t (by intro c hc; simp; exact fun e => h c hc e.symm) [] ([',', ' '] ++ s)
  rw [List.append_assoc]
  simp only [split, this, List.append_nil]
  simp [splitGo, List.isPrefixOf]

def SFits (lim : Option Nat) : Single → Prop
  | .range r => Fits lim r.start ∧ Fits lim r.stop ∧ Fits lim r.step
  | _ => True

/-- ranges as Python makes them: the step is not 0 -/
def Legal : Single → Prop
  | .range r => r.step ≠ 0
  | _ => True

/-- Every range, Ellipsis and NotImplemented loads as an equal object, as long as the interpreter's limit on converting
integers to text allows the range's bounds on both sides. -/
theorem C57_singleton_roundtrip_partial (lim lim' : Option Nat) (hl : ∀ l, lim = some l → 0 < l) (hl' : ∀ l, lim' = some l → 0 < l)
    (x : Single) (hx : Legal x) (hf : SFits lim x) (hf' : SFits lim' x) :
    ∃ s, reprSingle lim x = .ok s ∧ evalRepr lim' s = .ok x := by
  cases x with
  | ellipsis => exact ⟨_, rfl, by unfold evalRepr; rw [if_pos rfl]⟩
  | notImplemented => exact ⟨_, rfl, by unfold evalRepr; rw [if_neg (by decide), if_pos rfl]⟩
  | range r =>
    obtain ⟨a, b, c⟩ := r
    obtain ⟨h1, h2, h3⟩ := hf
    obtain ⟨h1', h2', h3'⟩ := hf'
    simp only at h1 h2 h3 h1' h2' h3'
    simp only [Legal] at hx
    refine ⟨_, by simp only [reprSingle, reprRange, reprInt_fits hl h1, reprInt_fits hl h2, reprInt_fits hl h3]; rfl, ?_⟩
    generalize hbody : (intText a ++ ", ".toList ++ intText b ++ (if c = 1 then [] else ", ".toList ++ intText c)) = body
    have hs : "range(".toList ++ intText a ++ ", ".toList ++ intText b ++ (if c = 1 then [] else ", ".toList ++ intText c) ++ [')']
        = "range(".toList ++ body ++ [')'] := by rw [← hbody]; simp only [List.append_assoc]
    rw [hs]
    have e : "range(".toList = ['r', 'a', 'n', 'g', 'e', '('] := by decide
    have n1 : "range(".toList ++ body ++ [')'] ≠ "Ellipsis".toList := by
      rw [e, show "Ellipsis".toList = ['E', 'l', 'l', 'i', 'p', 's', 'i', 's'] by decide]; simp
    have n2 : "range(".toList ++ body ++ [')'] ≠ "NotImplemented".toList := by
      rw [e, show "NotImplemented".toList = 'N' :: "otImplemented".toList by decide]; simp
    have p1 : "range(".toList.isPrefixOf ("range(".toList ++ body ++ [')']) = true := by
      rw [List.isPrefixOf_iff_prefix, List.append_assoc]; exact List.prefix_append _ _
    have p2 : List.isSuffixOf [')'] ("range(".toList ++ body ++ [')']) = true := by
      rw [List.isSuffixOf_iff_suffix]; exact List.suffix_append _ _
    have d : (("range(".toList ++ body ++ [')']).drop 6).dropLast = body := by
      rw [e]; simp
    unfold evalRepr
    rw [if_neg n1, if_neg n2, if_pos ⟨p1, p2⟩, d, ← hbody]
    by_cases hc : c = 1
    · rw [if_pos hc, List.append_nil, split_cons _ _ (intText_nocomma a), split_one _ (intText_nocomma b)]
      simp only [evalArgs, evalInt_text hl' h1', evalInt_text hl' h2', mkRange, hc]
    · rw [if_neg hc]
      have : intText a ++ ", ".toList ++ intText b ++ (", ".toList ++ intText c) =
          intText a ++ ", ".toList ++ (intText b ++ ", ".toList ++ intText c) := by simp only [List.append_assoc]
      rw [this, split_cons _ _ (intText_nocomma a), split_cons _ _ (intText_nocomma b), split_one _ (intText_nocomma c)]
      simp only [evalArgs, evalInt_text hl' h1', evalInt_text hl' h2', evalInt_text hl' h3', mkRange, if_neg hx]

/-- A range with a bound of more digits than the limit cannot be pickled at all. -/
theorem C57_big_range_raises (l : Nat) (hl : 0 < l) (r : Rng) (h : ¬ SFits (some l) (.range r)) :
    reprSingle (some l) (.range r) = .error .valueError := by
  simp only [reprSingle, reprRange]
  by_cases h1 : r.start.natAbs < 10 ^ l
  · by_cases h2 : r.stop.natAbs < 10 ^ l
    · by_cases h3 : r.step.natAbs < 10 ^ l
      · exact absurd ⟨h1, h2, h3⟩ h
      · rw [reprInt_big hl h3]; split <;> simp_all
    · rw [reprInt_big hl h2]; split <;> simp_all
  · rw [reprInt_big hl h1]

-- the two together, for a limit of five digits
example : ¬ SFits (some 5) (.range ⟨0, 100000, 1⟩) := by
  rintro ⟨_, h, _⟩
  simp only [Fits] at h
  revert h; decide
example : Legal (.range ⟨-7, 100, -3⟩) ∧ SFits (some 5) (.range ⟨-7, 100, -3⟩) := by
  refine ⟨?_, ?_, ?_, ?_⟩
  · simp [Legal]
  all_goals (simp only [Fits]; decide)
example : reprSingle none (.range ⟨-7, 100, -3⟩) = .ok "range(-7, 100, -3)".toList := by decide +kernel
example : evalRepr none "range(0, 5)".toList = .ok (.range ⟨0, 5, 1⟩) := by decide +kernel

/-! ### C58: lru_cache -/

/-- From Python 3.9 on the copy of an lru_cache wrapper caches the same function with the same maxsize and typed flag,
starting empty. -/
theorem C58_lru_parameters (x : Lru) : loadLru (saveLru false x) = { x with cached := 0 } := by
  obtain ⟨f, m, t, n⟩ := x
  simp only [saveLru]
  split
  · rfl
  · rename_i h
    simp only [ne_eq, Decidable.not_not, lruDefaults, Prod.mk.injEq] at h
    obtain ⟨rfl, rfl⟩ := h
    rfl

/-- Before Python 3.9 the typed flag is lost, and only that. -/
theorem C58_lru_old_partial (x : Lru) : loadLru (saveLru true x) = { x with typed := false, cached := 0 } := rfl

/-- C58, exactly: the parameters are kept if and only if Python is at least 3.9 or the cache does not tell types apart. -/
theorem C58_same_iff (old39 : Bool) (x : Lru) :
    loadLru (saveLru old39 x) = { x with cached := 0 } ↔ (old39 = false ∨ x.typed = false) := by
  cases old39 with
  | false => simp [C58_lru_parameters]
  | true =>
    rw [C58_lru_old_partial]
    obtain ⟨f, m, t, n⟩ := x
    cases t <;> simp

theorem C58_typed_lost_before_39 : ∃ x : Lru, (loadLru (saveLru true x)).typed ≠ x.typed :=
  ⟨⟨0, some 128, true, 0⟩, by decide⟩

example : saveLru false ⟨3, none, true, 5⟩ = .params none (some true) 3 := by decide
example : saveLru false ⟨3, some 128, false, 5⟩ = .plain 3 := by decide

/-! ### C59: capsules -/

/-- what a dotted name denotes (`PyCapsule_Import`): the first part is imported, the others are attributes -/
inductive Denotes (E : CapEnv) : Str → Obj → Prop where
  | mod (a : Str) (o : Obj) : '.' ∉ a → E.mods a = some o → Denotes E a o
  | attr (n a : Str) (p o : Obj) : Denotes E n p → '.' ∉ a → E.attr p a = some o → Denotes E (n ++ '.' :: a) o

/-- An existing object is returned only if it is a capsule of that name. -/
theorem C59_existing_is_valid (E : CapEnv) (c : Capsule) (o : Obj) (h : createCapsule E c = .ok (.existing o)) :
    E.valid o c.name = true := by
  unfold createCapsule at h
  split at h
  · split at h
    · rename_i hv; cases h; exact hv
    · cases h
  · cases h

/-- A new capsule has the pointer, name, context and destructor of the one that was pickled. -/
theorem C59_new_has_fields (E : CapEnv) (c c' : Capsule) (h : createCapsule E c = .ok (.new c')) : c' = c := by
  unfold createCapsule at h
  split at h
  · split at h <;> cases h
  · cases h; rfl

theorem takeWhile_all {l : Str} (h : '.' ∉ l) : l.takeWhile (· != '.') = l := by
  have := Modules.takeWhile_no (p := (· != '.')) l [] (by intro c hc; simp; rintro rfl; exact h hc)
  simpa using this

/-- A capsule whose name is `module.attribute` with a top-level module loads as the capsule found there. -/
theorem C59_existing_found_partial (E : CapEnv) (c : Capsule) (a b : Str) (o : Obj) (hn : c.name = a ++ '.' :: b)
    (ha : '.' ∉ a) (hb : '.' ∉ b) (hd : Denotes E c.name o) (hv : E.valid o c.name = true) :
    createCapsule E c = .ok (.existing o) := by
  have hp : ∃ p, E.mods a = some p ∧ E.attr p b = some o := by
    rw [hn] at hd
    generalize hN : a ++ '.' :: b = N at hd
    cases hd with
    | mod _ _ h1 h2 => exact absurd (by rw [← hN]; simp) h1
    | attr n x p o h1 h2 h3 =>
      have e1 := Modules.rsplitDot_eq (a := a) hb
      have e2 := Modules.rsplitDot_eq (a := n) h2
      rw [hN] at e1
      rw [e1] at e2
      simp only [Option.some.injEq, Prod.mk.injEq] at e2
      obtain ⟨rfl, rfl⟩ := e2
      cases h1 with
      | mod _ _ _ h5 => exact ⟨p, h5, h3⟩
      | attr n' x' p' _ _ _ _ => exact absurd (by simp) ha
  obtain ⟨p, hp1, hp2⟩ := hp
  have hcount : c.name.count '.' = 1 := by
    rw [hn, List.count_append, List.count_cons_self, List.count_eq_zero.2 ha, List.count_eq_zero.2 hb]
  have hr : rsplit 1 c.name = [a, b] := by
    rw [hn]; simp only [rsplit, Modules.rsplitDot_eq hb]; rfl
  have hi : importTop E a = some p := by simp only [importTop, hp1, takeWhile_all ha]
  unfold createCapsule
  rw [hcount]
  simp only [List.range, List.range.loop, List.map, Nat.zero_add, search, hr, List.headD_cons, hi, List.tail_cons, walk, hp2, hv,
    if_true]

/-- two packages for the examples: `a` (1), `a.b` (2), with the capsule 3 at `a.b.c`; in the second, `a.c` exists too -/
def exE (shadow : Bool) : CapEnv where
  mods := fun n => if n = "a".toList then some 1 else if n = "a.b".toList then some 2 else none
  attr := fun o x => if o = 1 ∧ x = "b".toList then some 2 else if o = 2 ∧ x = "c".toList then some 3
    else if shadow = true ∧ o = 1 ∧ x = "c".toList then some 4 else none
  valid := fun o n => o = 3 ∧ n = "a.b.c".toList

theorem exE_denotes (s : Bool) : Denotes (exE s) "a.b.c".toList 3 :=
  .attr "a.b".toList "c".toList 2 3
    (.attr "a".toList "b".toList 1 2 (.mod _ 1 (by decide) (by revert s; decide +kernel)) (by decide) (by revert s; decide +kernel))
    (by decide) (by revert s; decide +kernel)

/-- A capsule in a submodule is not found, although the name denotes it: a second capsule is made … -/
theorem C59_submodule_capsule_duplicated : ∃ (E : CapEnv) (c : Capsule) (o : Obj),
    Denotes E c.name o ∧ E.valid o c.name = true ∧ createCapsule E c = .ok (.new c) :=
  ⟨exE false, ⟨0, "a.b.c".toList, 0, 0⟩, 3, exE_denotes _, by decide +kernel, by decide +kernel⟩

/-- … or loading fails, if the top-level package has something else of that name. -/
theorem C59_submodule_capsule_fails : ∃ (E : CapEnv) (c : Capsule) (o : Obj),
    Denotes E c.name o ∧ E.valid o c.name = true ∧ createCapsule E c = .error .unpickling :=
  ⟨exE true, ⟨0, "a.b.c".toList, 0, 0⟩, 3, exE_denotes _, by decide +kernel, by decide +kernel⟩

/-! ### C60: descriptors -/

theorem split_q_one (t : Str) (h : '\'' ∉ t) : split ['\''] t = [t] := by
  have := splitGo_skips (sep := ['\'']) (by simp) t (by intro c hc; simp; rintro rfl; exact h hc) [] []
  simp only [List.append_nil] at this
  simp only [split, this, splitGo, List.reverse_reverse]

theorem split_q_cons (t s : Str) (h : '\'' ∉ t) : split ['\''] (t ++ '\'' :: s) = t :: split ['\''] s := by
  have := splitGo_skips (sep := ['\'']) (by simp) t (by intro c hc; simp; rintro rfl; exact h hc) [] ('\'' :: s)
  simp only [split, this, List.append_nil]
  simp [splitGo, List.isPrefixOf]

/-- the text between the third and fourth quote is the type's name -/
theorem repr_third (word name tp : Str) (hw : '\'' ∉ word) (hn : '\'' ∉ name) (ht : '\'' ∉ tp) :
    (split ['\''] (descRepr word name tp))[3]? = some tp := by
  have e : descRepr word name tp = ('<' :: word ++ [' ']) ++ '\'' :: (name ++ '\'' :: (" of ".toList ++ '\'' :: (tp ++ '\'' :: " objects>".toList))) := by
    unfold descRepr
    rw [show "<".toList = ['<'] by decide, show " '".toList = [' ', '\''] by decide,
      show "' of '".toList = '\'' :: (" of ".toList ++ ['\'']) by decide, show "' objects>".toList = '\'' :: " objects>".toList by decide]
    simp
  rw [e, split_q_cons _ _ (by
    simp only [List.mem_append, List.mem_cons, List.not_mem_nil, or_false]
    rintro ((h | h) | h)
    · revert h; decide
    · exact hw h
    · revert h; decide),
    split_q_cons _ _ hn, split_q_cons _ _ (by decide), split_q_cons _ _ ht]
  rfl

/-- A method, member, attribute or slot descriptor loads as itself when the type's name, looked up in dill's own
namespace, is not some other class that also has such a name. -/
theorem C60_descriptor_partial (E : DescEnv) (word name tp : Str) (cls d : Obj) (hw : '\'' ∉ word) (hn : '\'' ∉ name) (ht : '\'' ∉ tp)
    (hown : E.dict cls name = some d)
    (hlook : ∀ c x, E.evalName tp = some c → E.dict c name = some x → x = d)
    (h315 : E.v315 = true → name ≠ "__weakref__".toList ∧ name ≠ "__dict__".toList) :
    getattr_ E cls name (descRepr word name tp) = some d := by
  unfold getattr_
  simp only [repr_third word name tp hw hn ht]
  have hfall : (match (if E.v315 = true ∧ (name = "__weakref__".toList ∨ name = "__dict__".toList) then E.dict E.helper name
      else E.dict cls name) with
      | some d => some d
      | none => E.getattr cls name) = some d := by
    rw [if_neg]
    · rw [hown]
    · rintro ⟨h, h' | h'⟩
      · exact (h315 h).1 h'
      · exact (h315 h).2 h'
  cases he : E.evalName tp with
  | none => exact hfall
  | some c =>
    simp only
    cases hd : E.dict c name with
    | none => exact hfall
    | some x => rw [hlook c x he hd]

/-- The name of a user's class is looked up in dill's namespace first: the class `Pickler` of the user (1), with a slot
`memo`, is confused with dill's (2), and the other class's descriptor is returned. -/
theorem C60_descriptor_of_namesake : ∃ (E : DescEnv) (word name tp : Str) (cls d d' : Obj),
    '\'' ∉ word ∧ '\'' ∉ name ∧ '\'' ∉ tp ∧ E.dict cls name = some d ∧
    getattr_ E cls name (descRepr word name tp) = some d' ∧ d' ≠ d :=
  ⟨⟨fun c n => if n = "memo".toList then some (10 + c) else none, fun _ _ => none,
    fun t => if t = "Pickler".toList then some 2 else none, 99, false⟩,
    "member".toList, "memo".toList, "Pickler".toList, 1, 11, 12, by decide, by decide, by decide, by decide +kernel,
    by decide +kernel, by decide⟩

-- `<method 'append' of 'list' objects>`
example : descRepr "method".toList "append".toList "list".toList = "<method 'append' of 'list' objects>".toList := by decide +kernel

/-! ### C61: property, staticmethod, classmethod -/

/-- The copy of a property has the same getter, setter and deleter, and the same doc string unless the doc string had been
removed from a property whose getter has one. -/
theorem C61_property_partial (docOf : Obj → Option Str) (p : Prop_) :
    (loadProperty docOf p).fget = p.fget ∧ (loadProperty docOf p).fset = p.fset ∧ (loadProperty docOf p).fdel = p.fdel ∧
    ((p.doc ≠ none ∨ ∀ g, p.fget = some g → docOf g = none) → (loadProperty docOf p).doc = p.doc) := by
  obtain ⟨g, s, d, doc, gd⟩ := p
  cases doc with
  | some x => exact ⟨rfl, rfl, rfl, fun _ => rfl⟩
  | none =>
    cases g with
    | none => exact ⟨rfl, rfl, rfl, fun _ => rfl⟩
    | some g =>
      cases hg : docOf g with
      | none => simp [loadProperty, mkProperty, hg]
      | some x =>
        simp only [loadProperty, mkProperty, hg]
        refine ⟨trivial, trivial, trivial, ?_⟩
        rintro (h | h)
        · exact absurd rfl h
        · have := h g rfl; rw [hg] at this; cases this

/-- A removed doc string reappears. -/
theorem C61_removed_doc_returns : ∃ (docOf : Obj → Option Str) (p : Prop_), p.doc = none ∧ (loadProperty docOf p).doc ≠ none :=
  ⟨fun _ => some "d".toList, ⟨some 0, none, none, none, false⟩, rfl, by decide⟩

/-- The copy of `property(g)` keeps the first getter's doc string when it is given another getter, the original does not. -/
theorem C61_getter_doc_frozen : ∃ (docOf : Obj → Option Str) (p : Prop_) (g' : Obj), p = mkProperty docOf (some 0) none none none ∧
    (propGetter docOf p g').doc = docOf g' ∧ (propGetter docOf (loadProperty docOf p) g').doc ≠ docOf g' :=
  ⟨fun o => some (if o = 0 then "old".toList else "new".toList), _, 1, rfl, by decide +kernel, by decide +kernel⟩

/-- For a property with a doc string of its own, every further `.getter(…)` on the copy gives what it gives on the original. -/
theorem C61_own_doc_same_partial (docOf : Obj → Option Str) (p : Prop_) (hd : p.doc ≠ none) (hg : p.getterDoc = false) :
    loadProperty docOf p = p ∧ ∀ g, propGetter docOf (loadProperty docOf p) g = propGetter docOf p g := by
  have : loadProperty docOf p = p := by
    obtain ⟨g, s, d, doc, gd⟩ := p
    cases doc with
    | none => exact absurd rfl hd
    | some x => simp only at hg; subst hg; rfl
  exact ⟨this, fun g => by rw [this]⟩

/-- The copy of a staticmethod or classmethod wraps the same function with the same type; it has the same attributes if
none was set after it was made. -/
theorem C61_wrapper_partial (initial : Obj → Dict Str Obj) (x : Wrap) :
    (loadWrap initial x).kind = x.kind ∧ (loadWrap initial x).func = x.func ∧
    (x.attrs = initial x.func → loadWrap initial x = x) := by
  obtain ⟨k, f, a⟩ := x
  refine ⟨rfl, rfl, ?_⟩
  intro h
  simp only at h
  subst h; rfl

/-- An attribute set on a staticmethod object is lost. -/
theorem C61_wrapper_attribute_lost : ∃ (initial : Obj → Dict Str Obj) (x : Wrap) (k : Str) (v : Obj),
    x.attrs.get k = some v ∧ (loadWrap initial x).attrs.get k = none :=
  ⟨fun _ => [], ⟨.static, 0, [("tag".toList, 7)]⟩, "tag".toList, 7, by decide +kernel, by decide +kernel⟩

/-! ### C62: typing.Tuple[()] and friends -/

/-- the arguments a Tuple alias can have on a given Python version: those of `Tuple[()]`, or of `Tuple[t1, …]` with at
least one type -/
def TupleArgs (new : Bool) (args : List TArg) : Prop :=
  args = tupleEmpty new ∨ (args ≠ [] ∧ ∀ a ∈ args, ∃ o, a = .type o)

/-- Pickled and loaded under the same version, or pickled before 3.11 and loaded after, a Tuple alias means the same. -/
theorem C62_tuple_alias_partial (newS newL : Bool) (args : List TArg) (h : TupleArgs newS args) (hv : newS = true → newL = true) :
    (args = tupleEmpty newS → loadTuple newL (saveTuple args) = tupleEmpty newL) ∧
    (args ≠ tupleEmpty newS → loadTuple newL (saveTuple args) = args) := by
  constructor
  · rintro rfl
    cases newS <;> cases newL <;> first | rfl | (exact absurd (hv rfl) (by decide))
  · intro hne
    rcases h with h | ⟨h1, h2⟩
    · exact absurd h hne
    · have : args ≠ [.emptyTuple] := by
        rintro rfl
        obtain ⟨o, ho⟩ := h2 .emptyTuple (by simp)
        cases ho
      simp only [saveTuple, h1, this, or_self, if_false, loadTuple]

/-- `Tuple[()]` pickled under 3.11 or later and loaded before is not `Tuple[()]`. -/
theorem C62_empty_tuple_downgrade : loadTuple false (saveTuple (tupleEmpty true)) ≠ tupleEmpty false := by decide

example : TupleArgs true [.type 4, .type 5] := Or.inr ⟨by decide, by intro a ha; simp at ha; rcases ha with rfl | rfl <;> exact ⟨_, rfl⟩⟩

end Verif.Reducers
