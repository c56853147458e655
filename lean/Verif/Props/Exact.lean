import Verif.Props.Reducers
import Verif.Props.FuncAttrs
import Verif.Props.NamedTuple

/-!
# Exactly when the small savers keep what they save: C40, C41, C57, C59, C60, C61, C62

Each theorem here is an equivalence: the copy is right if and only if the condition on the right holds.
-/

set_option linter.unusedSimpArgs false

namespace Verif.NamedTuple
variable {V : Type}

/-- C40, exactly: the copy is a namedtuple class with the name, module, fields and defaults of the original if and only if
the name leads to nothing, to something that is neither a class nor a module, or to just such a class. -/
theorem C40_same_iff (env : Env V) (c : NT V) (hc : Made c) :
    (∃ c', copy env c = .ok (.cls c') ∧ c'.name = c.name ∧ c'.module = c.module ∧ c'.fields = c.fields ∧
      c'.defaults = c.defaults) ↔
    (env c.module c.name = none ∨ (∃ n, env c.module c.name = some (.value n)) ∨
      ∃ c', env c.module c.name = some (.cls c') ∧ c'.name = c.name ∧ c'.module = c.module ∧
        c'.fields = c.fields ∧ c'.defaults = c.defaults) := by
  rcases h : env c.module c.name with _ | o
  · simp only [true_or, iff_true]
    exact C40_fields_defaults_partial env c hc (by rw [h]; simp)
  · cases o with
    | value n =>
      simp only [Option.some.injEq, Obj.value.injEq, exists_eq', true_or, or_true, iff_true]
      exact C40_fields_defaults_partial env c hc (by rw [h]; intro o ho; cases ho; exact ⟨n, rfl⟩)
    | other n =>
      rw [C40_anything_by_that_name env c n h]
      constructor
      · rintro ⟨c', h1, _⟩; cases h1
      · rintro (h1 | ⟨n', h1⟩ | ⟨c', h1, _⟩) <;> cases h1
    | cls c2 =>
      have hcopy : copy env c = .ok (.cls c2) := by
        simp [copy, saveNamedtuple, createNamedtuple, importClass, h]
      rw [hcopy]
      constructor
      · rintro ⟨c', h1, h2⟩
        cases h1
        exact Or.inr (Or.inr ⟨c2, rfl, h2⟩)
      · rintro (h1 | ⟨n', h1⟩ | ⟨c', h1, h2⟩)
        · cases h1
        · cases h1
        · cases h1
          exact ⟨c2, rfl, h2⟩

end Verif.NamedTuple

namespace Verif.FuncAttrs
variable {V : Type}

/-- C41, exactly: the qualified name is kept if and only if it differs from the name or the code has it too; the docstring if and
only if the function has one or its code has none. -/
theorem C41_same_iff (noAnn : V) (globName : Option (Option String)) (f : Func V) :
    ((copyFunc noAnn globName f).qualname = f.qualname ↔ (f.qualname ≠ f.name ∨ f.code.qualname = f.name)) ∧
    ((copyFunc noAnn globName f).doc = f.doc ↔ (f.doc ≠ none ∨ f.code.doc = none)) := by
  have h := C41_qualname_doc_partial noAnn globName f
  refine ⟨⟨?_, h.1⟩, ⟨?_, h.2⟩⟩
  · intro he
    by_cases h1 : f.qualname = f.name
    · by_cases h2 : f.code.qualname = f.name
      · exact Or.inr h2
      · exact absurd he (C41_qualname_lost noAnn globName f h1 h2).2
    · exact Or.inl h1
  · intro he
    rcases hd : f.doc with _ | d
    · rcases hc : f.code.doc with _ | d
      · exact Or.inr rfl
      · have := C41_doc_reappears noAnn globName f d hd hc
        rw [he, hd] at this
        cases this
    · exact Or.inl (by simp)

end Verif.FuncAttrs

namespace Verif.Reducers
open Verif.Modules (Str Obj rsplitDot)
open PyStr

theorem evalInt_big {l : Nat} (hl : 0 < l) {n : Int} (h : ¬ Fits (some l) n) :
    evalInt (some l) (intText n) = .error .syntaxError := by
  have hlen : l < (str10 n.natAbs).length := by
    refine Nat.lt_of_not_le fun h' => h ?_
    exact (fits_len hl n).1 h'
  have hnat : evalNat (some l) (str10 n.natAbs) = .error .syntaxError := by
    unfold evalNat
    rw [int10_str10]
    simp only [if_pos hlen]
  unfold intText
  split
  · simp only [evalInt, hnat]
  · unfold evalInt
    split
    · rename_i t e; exact absurd e (str10_head _ _)
    · simp only [hnat]

theorem evalInt_ok {lim : Option Nat} (hl : ∀ l, lim = some l → 0 < l) {n m : Int}
    (h : evalInt lim (intText n) = .ok m) : Fits lim n := by
  cases lim with
  | none => trivial
  | some l =>
    by_cases hf : Fits (some l) n
    · exact hf
    · rw [evalInt_big (hl l rfl) hf] at h; cases h

/-- the text of a range within the brackets -/
theorem evalRepr_range (lim : Option Nat) (t : Str) :
    evalRepr lim ("range(".toList ++ t ++ [')']) =
      match evalArgs lim (split ", ".toList t) with
      | .ok ns => mkRange ns
      | .error e => .error e := by
  have e6 : "range(".toList = ['r', 'a', 'n', 'g', 'e', '('] := by decide
  have h1 : "range(".toList ++ t ++ [')'] ≠ "Ellipsis".toList := by
    rw [e6, show "Ellipsis".toList = ['E','l','l','i','p','s','i','s'] by decide]
    intro h
    simp at h
  have h2 : "range(".toList ++ t ++ [')'] ≠ "NotImplemented".toList := by
    rw [e6, show "NotImplemented".toList = 'N' :: "otImplemented".toList by decide]
    intro h
    simp at h
  have h3 : "range(".toList.isPrefixOf ("range(".toList ++ t ++ [')']) = true ∧
      [')'].isSuffixOf ("range(".toList ++ t ++ [')']) = true := by
    constructor
    · rw [List.isPrefixOf_iff_prefix]
      exact ⟨t ++ [')'], by simp⟩
    · rw [List.isSuffixOf_iff_suffix]
      exact ⟨"range(".toList ++ t, rfl⟩
  have h4 : (("range(".toList ++ t ++ [')']).drop 6).dropLast = t := by
    rw [e6]; simp
  unfold evalRepr
  rw [if_neg h1, if_neg h2, if_pos h3, h4]
  cases evalArgs lim (split ", ".toList t) <;> rfl

/-- C57, exactly: a range, Ellipsis or NotImplemented comes back equal if and only if its bounds are within the limit on
converting integers to text, in both interpreters. -/
theorem C57_roundtrip_iff (lim lim' : Option Nat) (hl : ∀ l, lim = some l → 0 < l) (hl' : ∀ l, lim' = some l → 0 < l)
    (x : Single) (hx : Legal x) :
    (∃ s, reprSingle lim x = .ok s ∧ evalRepr lim' s = .ok x) ↔ SFits lim x ∧ SFits lim' x := by
  constructor
  · rintro ⟨s, h1, h2⟩
    cases x with
    | ellipsis => exact ⟨trivial, trivial⟩
    | notImplemented => exact ⟨trivial, trivial⟩
    | range r =>
      have hfit : SFits lim (.range r) := by
        cases lim with
        | none => exact ⟨trivial, trivial, trivial⟩
        | some l =>
          by_cases hf : SFits (some l) (.range r)
          · exact hf
          · rw [C57_big_range_raises l (hl l rfl) r hf] at h1; cases h1
      refine ⟨hfit, ?_⟩
      obtain ⟨f1, f2, f3⟩ := hfit
      simp only [reprSingle, reprRange, reprInt_fits hl f1, reprInt_fits hl f2, reprInt_fits hl f3,
        Except.ok.injEq] at h1
      obtain ⟨a, b, c⟩ := r
      simp only at h1
      have hstep1 : Fits lim' 1 := by
        cases lim' with
        | none => trivial
        | some l =>
          show (1 : Int).natAbs < 10 ^ l
          have := hl' l rfl
          exact Nat.one_lt_pow (by omega) (by omega)
      by_cases hc : c = 1
      · subst hc
        rw [if_pos rfl, List.append_nil] at h1
        have h1 : s = "range(".toList ++ (intText a ++ ", ".toList ++ intText b) ++ [')'] := by
          rw [← h1]; simp only [List.append_assoc]
        rw [h1, evalRepr_range, split_cons _ _ (intText_nocomma a), split_one _ (intText_nocomma b)] at h2
        simp only [evalArgs] at h2
        rcases ha : evalInt lim' (intText a) with e | na
        · rw [ha] at h2
          rcases hb : evalInt lim' (intText b) with e' | nb <;> rw [hb] at h2 <;> cases h2
        · rcases hb : evalInt lim' (intText b) with e' | nb
          · rw [ha, hb] at h2; cases h2
          · exact ⟨evalInt_ok hl' ha, evalInt_ok hl' hb, hstep1⟩
      · rw [if_neg hc] at h1
        have h1 : s = "range(".toList ++ (intText a ++ ", ".toList ++ (intText b ++ ", ".toList ++ intText c)) ++ [')'] := by
          rw [← h1]; simp only [List.append_assoc]
        rw [h1, evalRepr_range, split_cons _ _ (intText_nocomma a), split_cons _ _ (intText_nocomma b),
          split_one _ (intText_nocomma c)] at h2
        simp only [evalArgs] at h2
        rcases ha : evalInt lim' (intText a) with e | na <;>
          rcases hb : evalInt lim' (intText b) with e' | nb <;>
          rcases hc : evalInt lim' (intText c) with e'' | nc <;> rw [ha, hb, hc] at h2
        all_goals first
          | (cases h2; done)
          | exact ⟨evalInt_ok hl' ha, evalInt_ok hl' hb, evalInt_ok hl' hc⟩
  · rintro ⟨h1, h2⟩
    exact C57_singleton_roundtrip_partial lim lim' hl hl' x hx h1 h2

/-- C59, exactly, for every dotted name `m.b`: an existing object is returned if and only if the module `m` can be imported, the
top-level package of `m` (not `m`) has an attribute `b`, and that is a capsule of the whole name. -/
theorem C59_existing_iff (E : CapEnv) (c : Capsule) (m b : Str) (o : Obj) (hn : c.name = m ++ '.' :: b) (hb : '.' ∉ b) :
    createCapsule E c = .ok (.existing o) ↔
      ((∃ x, E.mods m = some x) ∧ ∃ top, E.mods (m.takeWhile (· != '.')) = some top ∧ E.attr top b = some o ∧
        E.valid o c.name = true) := by
  have hcount : ∃ k, c.name.count '.' = k + 1 := by
    refine ⟨m.count '.', ?_⟩
    rw [hn, List.count_append, List.count_cons_self, List.count_eq_zero.2 hb]
  obtain ⟨k, hk⟩ := hcount
  have hlist : (List.range (k + 1)).map (· + 1) = 1 :: ((List.range k).map (· + 1)).map (· + 1) := by
    rw [List.range_succ_eq_map]
    simp
  have hr : rsplit 1 c.name = [m, b] := by
    rw [hn]; simp only [rsplit, Modules.rsplitDot_eq hb]; rfl
  have hs : search E c.name ((List.range (c.name.count '.')).map (· + 1)) none =
      match importTop E m with
      | none => none
      | some x => walk E x [b] := by
    rw [hk, hlist]
    simp only [search, hr, List.headD_cons, List.tail_cons]
    cases importTop E m <;> rfl
  unfold createCapsule
  rw [hs]
  unfold importTop
  rcases h1 : E.mods m with _ | x
  · simp
  · rcases h2 : E.mods (m.takeWhile (· != '.')) with _ | top
    · simp
    · rcases h3 : E.attr top b with _ | o'
      · simp [walk, h3]
      · by_cases h4 : E.valid o' c.name = true
        · simp only [walk, h3, h4, if_true, Except.ok.injEq, CapResult.existing.injEq, Option.some.injEq, exists_eq', true_and]
          constructor
          · rintro rfl; exact ⟨top, rfl, h3, h4⟩
          · rintro ⟨top', rfl, h5, _⟩; rw [h3] at h5; cases h5; rfl
        · simp only [walk, h3, h4, if_false, reduceCtorEq, false_iff, Option.some.injEq, exists_eq', true_and]
          rintro ⟨top', rfl, h5, h6⟩
          rw [h3] at h5; cases h5; exact h4 h6

/-- C60, exactly: the descriptor of the class is returned if and only if dill's namespace has no class of the type's name with an entry
of that name, or that entry is the descriptor itself (for `__weakref__` and `__dict__` from 3.15 on: a helper class's). -/
theorem C60_same_iff (E : DescEnv) (word name tp : Str) (cls d : Obj) (hw : '\'' ∉ word) (hn : '\'' ∉ name) (ht : '\'' ∉ tp)
    (hown : E.dict cls name = some d) (h315 : E.v315 = true → name ≠ "__weakref__".toList ∧ name ≠ "__dict__".toList) :
    getattr_ E cls name (descRepr word name tp) = some d ↔
      ∀ c x, E.evalName tp = some c → E.dict c name = some x → x = d := by
  constructor
  · intro h c x hc hx
    simp only [getattr_, repr_third word name tp hw hn ht, hc, hx, Option.some.injEq] at h
    exact h
  · intro h
    exact C60_descriptor_partial E word name tp cls d hw hn ht hown h h315

/-- C61, exactly, for properties: the doc string is kept if and only if there is one or the getter has none; and the copy is
indistinguishable from the original if and only if moreover the doc string was not taken from the getter. -/
theorem C61_property_iff (docOf : Obj → Option Str) (p : Prop_) :
    ((loadProperty docOf p).doc = p.doc ↔ (p.doc ≠ none ∨ ∀ g, p.fget = some g → docOf g = none)) ∧
    (loadProperty docOf p = p ↔
      (p.getterDoc = false ∧ (p.doc ≠ none ∨ ∀ g, p.fget = some g → docOf g = none))) := by
  obtain ⟨g, s, d, doc, gd⟩ := p
  cases doc with
  | some x => cases gd <;> simp [loadProperty, mkProperty]
  | none =>
    cases g with
    | none => cases gd <;> simp [loadProperty, mkProperty]
    | some g =>
      cases hg : docOf g with
      | none => cases gd <;> simp [loadProperty, mkProperty, hg]
      | some x => cases gd <;> simp [loadProperty, mkProperty, hg]

/-- C61, exactly, for staticmethods and classmethods: the copy has the attributes of the original if and only if they are those the
constructor gives. -/
theorem C61_wrapper_iff (initial : Obj → Dict Str Obj) (x : Wrap) :
    loadWrap initial x = x ↔ x.attrs = initial x.func := by
  obtain ⟨k, f, a⟩ := x
  simp [loadWrap, mkWrap, eq_comm]

/-- C62, exactly: an alias keeps its meaning for all versions, except `Tuple[()]` going from 3.11 or later to an older version. -/
theorem C62_meaning_iff (newS newL : Bool) (args : List TArg) (h : TupleArgs newS args) :
    ((args = tupleEmpty newS → loadTuple newL (saveTuple args) = tupleEmpty newL) ∧
      (args ≠ tupleEmpty newS → loadTuple newL (saveTuple args) = args)) ↔
    ¬ (args = tupleEmpty newS ∧ newS = true ∧ newL = false) := by
  constructor
  · rintro ⟨h1, _⟩ ⟨rfl, rfl, rfl⟩
    exact C62_empty_tuple_downgrade (h1 rfl)
  · intro hn
    by_cases he : args = tupleEmpty newS
    · refine ⟨fun _ => ?_, fun h' => absurd he h'⟩
      refine (C62_tuple_alias_partial newS newL args h ?_).1 he
      intro hs
      cases newL
      · exact absurd ⟨he, hs, rfl⟩ hn
      · rfl
    · refine ⟨fun h' => absurd h' he, fun _ => ?_⟩
      rcases h with h | ⟨h1, h2⟩
      · exact absurd h he
      · have : args ≠ [.emptyTuple] := by
          rintro rfl
          obtain ⟨o, ho⟩ := h2 .emptyTuple (by simp)
          cases ho
        simp only [saveTuple, h1, this, or_self, if_false, loadTuple]

-- hypotheses and both sides of the equivalences
example : Legal (.range ⟨0, 100000, 2⟩) ∧ ¬ SFits (some 5) (.range ⟨0, 100000, 2⟩) := by
  refine ⟨by simp [Legal], ?_⟩
  rintro ⟨_, h, _⟩
  simp only [Fits] at h
  revert h; decide
example : createCapsule (exE false) ⟨0, "a.b".toList, 0, 0⟩ = .error .unpickling := by decide +kernel
example : createCapsule { exE false with valid := fun o n => o = 2 ∧ n = "a.b".toList } ⟨0, "a.b".toList, 0, 0⟩ =
    .ok (.existing 2) := by decide +kernel

end Verif.Reducers
