import Verif.Model.Closured
import Verif.Props.Indent
import Verif.Props.Source
set_option linter.unusedSimpArgs false
/-! C82: the source text `importable` builds for a function: the sources of the global variables, of the variables of the
enclosing scope, and of the function itself, line by line. -/
namespace Verif.Closured
open Source Indent

/-! ### Specification -/

/-- the lines of a text that are not empty -/
def codeLines (s : Str) : List Str := (splitNL s).filter (· ≠ [])

/-- `ts` are the sources, each under its own name, of the global variables of `o` that are not builtins -/
def GlobalTexts (W : World) (o : Obj) (ts : List Str) : Prop :=
  ∃ l : List (Str × Obj), W.globalvars o = some l ∧
    ts.map some = (l.filter fun p => W.isBuiltin p.2 = false).map fun p => W.getsource p.2 p.1 { force := true }

/-- `ts` are the sources, each under its own name, of the variables of the enclosing scope that are not functions -/
def ValueTexts (W : World) (o : Obj) (ts : List Str) : Prop :=
  ts.map some = ((W.free o).filter fun p => W.isFunction p.2 = false).map fun p => W.getsource p.2 p.1 { force := true }

/-- for one function `f` the closure `o` knows as `name`: if it has no decorators, the text of `f` under that name and then
the text of `o`; if it has, the text of what encloses `o`, and then the text of `f` under the alias wanted for `o` -/
def FuncText (W : World) (n : Nat) (o : Obj) (alias name : Str) (f : Obj) (a b : Str) : Prop :=
  ∃ src : Str, W.getsource f alias {} = some src ∧
    ((decorated src = false ∧ importable W n f name none true = some a ∧ W.getsource o alias { lstrip := true } = some b) ∨
     (decorated src = true ∧ W.getsource o [] { enclosing := true } = some a ∧
       importable W n f alias (some true) true = some b))

/-- the same for all of them, in order -/
inductive FuncTexts (W : World) (n : Nat) (o : Obj) (alias : Str) : List (Str × Obj) → List (Str × Str) → Prop
  | nil : FuncTexts W n o alias [] []
  | cons {name f a b l ps} : FuncText W n o alias name f a b → FuncTexts W n o alias l ps →
      FuncTexts W n o alias ((name, f) :: l) ((a, b) :: ps)

def NoFuncs (W : World) (o : Obj) : Prop := ∀ p ∈ W.free o, W.isFunction p.2 = false

/-- the text is, line by line: the globals, the values of the enclosing scope, and then the function itself, or the functions
of the enclosing scope each with it -/
def Layout (W : World) (n : Nat) (o : Obj) (alias s : Str) : Prop :=
  ∃ (gs vs : List Str) (fs : List (Str × Str)), GlobalTexts W o gs ∧ ValueTexts W o vs ∧
    FuncTexts W n o alias ((W.free o).filter fun p => W.isFunction p.2) fs ∧
    ((∃ org : Str, NoFuncs W o ∧ W.getsource o alias { force := true, lstrip := true } = some org ∧
        codeLines s = gs.flatMap codeLines ++ vs.flatMap codeLines ++ codeLines org) ∨
     (¬ NoFuncs W o ∧ codeLines s = gs.flatMap codeLines ++ vs.flatMap codeLines ++
        fs.flatMap fun p => codeLines p.1 ++ codeLines p.2))

/-- the text ends at the end of a line -/
def EndsLine (s : Str) : Prop := s = [] ∨ ∃ t : Str, s = t ++ ['\n']

/-! ### Lines -/

theorem splitNL_append_nl (a b : Str) : splitNL (a ++ '\n' :: b) = splitNL a ++ splitNL b := by
  induction a with
  | nil => simp [splitNL]
  | cons c a ih =>
    by_cases hc : c = '\n'
    · simp [splitNL, hc, ih]
    · simp only [List.cons_append, splitNL, hc, if_false, ih]
      cases h : splitNL a with
      | nil => exact absurd h (splitNL_ne a)
      | cons l ls => simp

theorem codeLines_nl (a b : Str) : codeLines (a ++ '\n' :: b) = codeLines a ++ codeLines b := by
  simp [codeLines, splitNL_append_nl]

theorem codeLines_nil : codeLines [] = [] := by simp [codeLines, splitNL]

theorem codeLines_append (a b : Str) (h : EndsLine a) : codeLines (a ++ b) = codeLines a ++ codeLines b := by
  rcases h with rfl | ⟨t, rfl⟩
  · simp [codeLines_nil]
  · have h1 : codeLines (t ++ ['\n']) = codeLines t := by
      rw [codeLines_nl, codeLines_nil, List.append_nil]
    rw [h1, List.append_assoc]
    simpa using codeLines_nl t b

theorem codeLines_joinNL (ls : List Str) : codeLines (joinNL ls) = ls.flatMap codeLines := by
  induction ls with
  | nil => simp [joinNL, codeLines_nil]
  | cons l ls ih =>
    cases ls with
    | nil => simp [joinNL]
    | cons m ms => rw [joinNL_cons _ _ (by simp), codeLines_nl, ih]; simp

theorem codeLines_flatten (ls : List Str) (h : ∀ l ∈ ls, EndsLine l) : codeLines ls.flatten = ls.flatMap codeLines := by
  induction ls with
  | nil => simp [codeLines_nil]
  | cons l ls ih =>
    rw [List.flatten_cons, codeLines_append _ _ (h l (by simp)), ih fun x hx => h x (by simp [hx])]
    simp

theorem endsLine_joinNL (ls : List Str) (h : ∀ l ∈ ls, EndsLine l) : EndsLine (joinNL ls) := by
  induction ls with
  | nil => exact .inl rfl
  | cons l ls ih =>
    cases ls with
    | nil => exact h l (by simp)
    | cons m ms =>
      rw [joinNL_cons _ _ (by simp)]
      rcases ih fun x hx => h x (by simp [hx]) with h1 | ⟨t, h1⟩
      · rw [h1]; exact .inr ⟨l, rfl⟩
      · rw [h1]; exact .inr ⟨l ++ '\n' :: t, by simp⟩

theorem codeLines_stitcher (a : Str) (b : Option Str) :
    codeLines (stitcher a b) = codeLines a ++ codeLines (b.getD []) := by
  unfold stitcher
  by_cases ha : a = [] <;> by_cases hb : b.getD [] = [] <;> simp [ha, hb, codeLines_nil, codeLines_joinNL]

theorem flatMap_filter_ne (ls : List Str) : (ls.filter (· ≠ [])).flatMap codeLines = ls.flatMap codeLines := by
  induction ls with
  | nil => rfl
  | cons l ls ih =>
    by_cases h : l = []
    · subst h; simpa [codeLines_nil] using ih
    · simpa [List.filter_cons, h] using ih

/-! ### The pieces -/

theorem funcPair_spec (W : World) (n : Nat) (o : Obj) (alias name : Str) (f : Obj) (p : Str × Str)
    (h : funcPair W (fun x a s => importable W n x a s true) o alias name f = some p) :
    FuncText W n o alias name f p.1 p.2 := by
  unfold funcPair at h
  cases hsrc : W.getsource f alias {} with
  | none => simp [hsrc] at h
  | some src =>
    refine ⟨src, hsrc, ?_⟩
    simp only [hsrc, Option.bind_eq_bind, Option.bind_some] at h
    cases hd : decorated src with
    | false =>
      left
      simp only [hd, if_true] at h
      cases ha : importable W n f name none true with
      | none => simp [ha] at h
      | some a =>
        cases hb : W.getsource o alias { lstrip := true } with
        | none => simp [ha, hb] at h
        | some b => simp [ha, hb] at h; subst h; exact ⟨rfl, rfl, rfl⟩
    | true =>
      right
      simp only [hd, Bool.true_eq_false, if_false] at h
      cases ha : W.getsource o [] { enclosing := true } with
      | none => simp [ha] at h
      | some a =>
        cases hb : importable W n f alias (some true) true with
        | none => simp [ha, hb] at h
        | some b => simp [ha, hb] at h; subst h; exact ⟨rfl, rfl, rfl⟩

theorem splitVars_spec (W : World) (n : Nat) (o : Obj) (alias : Str) (l : List (Str × Obj)) (vs : List Str)
    (fs : List (Str × Str))
    (h : splitVars W (fun x a s => importable W n x a s true) o alias l = some (vs, fs)) :
    (vs.map some = (l.filter fun p => W.isFunction p.2 = false).map fun p => W.getsource p.2 p.1 { force := true }) ∧
    FuncTexts W n o alias (l.filter fun p => W.isFunction p.2) fs := by
  induction l generalizing vs fs with
  | nil => simp [splitVars] at h; obtain ⟨rfl, rfl⟩ := h; exact ⟨rfl, .nil⟩
  | cons p l ih =>
    obtain ⟨name, x⟩ := p
    unfold splitVars at h
    cases hf : W.isFunction x with
    | false =>
      simp only [hf, if_true] at h
      cases ht : W.getsource x name { force := true } with
      | none => simp [ht] at h
      | some t =>
        cases hr : splitVars W (fun x a s => importable W n x a s true) o alias l with
        | none => simp [ht, hr] at h
        | some r =>
          obtain ⟨vs', fs'⟩ := r
          simp [ht, hr] at h
          obtain ⟨rfl, rfl⟩ := h
          obtain ⟨h1, h2⟩ := ih vs' fs' hr
          refine ⟨?_, ?_⟩
          · simp [hf, ht, h1]
          · simpa [hf] using h2
    | true =>
      simp only [hf, Bool.true_eq_false, if_false] at h
      cases ht : funcPair W (fun x a s => importable W n x a s true) o alias name x with
      | none => simp [ht] at h
      | some t =>
        cases hr : splitVars W (fun x a s => importable W n x a s true) o alias l with
        | none => simp [ht, hr] at h
        | some r =>
          obtain ⟨vs', fs'⟩ := r
          simp [ht, hr] at h
          obtain ⟨rfl, rfl⟩ := h
          obtain ⟨h1, h2⟩ := ih vs' fs' hr
          refine ⟨?_, ?_⟩
          · simp [hf, h1]
          · simp only [hf, List.filter_cons, if_true]
            exact .cons (funcPair_spec W n o alias name x t ht) h2

theorem globalSources_spec (W : World) (l : List (Str × Obj)) (ts : List Str) (h : globalSources W l = some ts) :
    ts.map some = (l.filter fun p => W.isBuiltin p.2 = false).map fun p => W.getsource p.2 p.1 { force := true } := by
  induction l generalizing ts with
  | nil => simp [globalSources] at h; subst h; rfl
  | cons p l ih =>
    obtain ⟨name, x⟩ := p
    unfold globalSources at h
    cases hb : W.isBuiltin x with
    | true => simp only [hb, if_true] at h; simpa [hb] using ih ts h
    | false =>
      simp only [hb, Bool.false_eq_true, if_false] at h
      cases ht : W.getsource x name { force := true } with
      | none => simp [ht] at h
      | some t =>
        cases hr : globalSources W l with
        | none => simp [ht, hr] at h
        | some r => simp [ht, hr] at h; subst h; simp [hb, ht, ih r hr]

theorem globalSources_ne (W : World) (l : List (Str × Obj))
    (h : ∀ p ∈ l, W.isBuiltin p.2 = false → W.getsource p.2 p.1 { force := true } ≠ none) : globalSources W l ≠ none := by
  induction l with
  | nil => simp [globalSources]
  | cons p l ih =>
    obtain ⟨name, x⟩ := p
    have ih := ih fun q hq => h q (by simp [hq])
    unfold globalSources
    cases hb : W.isBuiltin x with
    | true => simpa using ih
    | false =>
      have h1 := h (name, x) (by simp) hb
      cases ht : W.getsource x name { force := true } with
      | none => exact absurd ht h1
      | some t =>
        cases hr : globalSources W l with
        | none => exact absurd hr ih
        | some r => simp

theorem mem_of_map_some {ts : List Str} {l : List (Option Str)} (h : ts.map some = l) {t : Str} (ht : t ∈ ts) : some t ∈ l := by
  rw [← h]; simpa using ht

theorem funcTexts_nil {W : World} {n : Nat} {o : Obj} {alias : Str} {l : List (Str × Obj)} {fs : List (Str × Str)}
    (h : FuncTexts W n o alias l fs) : fs = [] ↔ l = [] := by
  cases h <;> simp

theorem noFuncs_iff (W : World) (o : Obj) : NoFuncs W o ↔ ((W.free o).filter fun p => W.isFunction p.2) = [] := by
  simp [NoFuncs, List.filter_eq_nil_iff]

theorem layout_of_source (W : World) (n : Nat) (o : Obj) (alias a : Str) (l : List (Str × Obj)) (gs : List Str)
    (hnl : ∀ (x : Obj) (a t : Str), W.getsource x a { force := true } = some t → EndsLine t)
    (hgv : W.globalvars o = some l) (hgs : globalSources W l = some gs)
    (h1 : stitched W (fun x a s => importable W n x a s true) o alias = some a) :
    Layout W n o alias (joinNL gs ++ a) := by
  have hgsp := globalSources_spec W l gs hgs
  have hgend : EndsLine (joinNL gs) := by
    refine endsLine_joinNL gs fun t ht => ?_
    have := mem_of_map_some hgsp ht
    simp only [List.mem_map] at this
    obtain ⟨p, _, hp⟩ := this
    exact hnl _ _ _ hp
  have hgl : codeLines (joinNL gs) = gs.flatMap codeLines := codeLines_joinNL gs
  unfold stitched closuredsource at h1
  cases hsv : splitVars W (fun x a s => importable W n x a s true) o alias (W.free o) with
  | none => simp [hsv] at h1
  | some r =>
    obtain ⟨vs, fs⟩ := r
    obtain ⟨hv1, hv2⟩ := splitVars_spec W n o alias _ vs fs hsv
    have hvl : codeLines vs.flatten = vs.flatMap codeLines := by
      refine codeLines_flatten vs fun t ht => ?_
      have := mem_of_map_some hv1 ht
      simp only [List.mem_map] at this
      obtain ⟨p, _, hp⟩ := this
      exact hnl _ _ _ hp
    have hnil := funcTexts_nil hv2
    refine ⟨gs, vs, fs, ⟨l, hgv, hgsp⟩, hv1, hv2, ?_⟩
    rw [codeLines_append _ _ hgend, hgl]
    by_cases hfs : fs = []
    · left
      subst hfs
      cases horg : W.getsource o alias { force := true, lstrip := true } with
      | none => simp [hsv, horg] at h1
      | some org =>
        refine ⟨org, (noFuncs_iff W o).mpr (hnil.mp rfl), rfl, ?_⟩
        simp [hsv, horg] at h1
        rw [← h1, codeLines_joinNL]
        generalize hst : stitcher vs.flatten (some org) = st
        have hst2 : codeLines st = vs.flatMap codeLines ++ codeLines org := by
          rw [← hst, codeLines_stitcher, hvl]; simp
        rw [List.append_assoc, ← hst2]
        by_cases hz : st = []
        · simp [hz, codeLines_nil]
        · simp [hz]
    · right
      refine ⟨fun hno => hfs (hnil.mpr ((noFuncs_iff W o).mp hno)), ?_⟩
      simp [hsv, hfs] at h1
      rw [← h1, codeLines_joinNL]
      generalize hst : stitcher vs.flatten none = st
      have hst2 : codeLines st = vs.flatMap codeLines := by
        rw [← hst, codeLines_stitcher, hvl]; simp [codeLines_nil]
      have hfl : (List.filter (fun x => !decide (x = [])) (List.map (fun p => stitcher p.1 (some p.2)) fs)).flatMap codeLines
          = fs.flatMap fun p => codeLines p.1 ++ codeLines p.2 := by
        have := flatMap_filter_ne (List.map (fun p : Str × Str => stitcher p.1 (some p.2)) fs)
        simp only [ne_eq, decide_not] at this
        rw [this, List.flatMap_map]
        congr 1
        funext p
        rw [codeLines_stitcher]; rfl
      rw [List.flatMap_append, hfl, List.append_assoc, ← hst2]
      by_cases hz : st = []
      · simp [hz, codeLines_nil]
      · simp [hz]

/-- C82.  What `importable` returns is the import text of the object, or its source text laid out as `Layout` says: every global
variable, every variable of the enclosing scope and the function itself are there, each in lines of its own and before what
uses it.  `hg` excludes the defect of C65 (the source of a global variable cannot be had). -/
theorem C82_layout_partial (W : World) (n : Nat) (o : Obj) (alias : Str) (source : Option Bool) (builtin : Bool) (s : Str)
    (hnl : ∀ (x : Obj) (a t : Str), W.getsource x a { force := true } = some t → EndsLine t)
    (hg : ∀ l : List (Str × Obj), W.globalvars o = some l → ∀ p ∈ l, W.isBuiltin p.2 = false →
      W.getsource p.2 p.1 { force := true } ≠ none)
    (h : importable W (n + 1) o alias source builtin = some s) :
    W.imp o alias builtin = some s ∨ Layout W n o alias s := by
  unfold importable at h
  have hgood := C65_same_object_partial _ source builtin s (fun hv => by
    dsimp only at hv ⊢
    cases hgv : W.globalvars o with
    | none => simp [hgv] at hv
    | some l =>
      have := globalSources_ne W l (hg l hgv)
      cases hs : globalSources W l with
      | none => exact absurd hs this
      | some r => simp [hs]) h
  rcases hgood with h1 | ⟨a, g, h1, _, h3, rfl⟩
  · exact .inl h1
  · right
    dsimp only at h1 h3
    cases hgv : W.globalvars o with
    | none => simp [hgv] at h3
    | some l =>
      cases hgs : globalSources W l with
      | none => simp [hgv, hgs] at h3
      | some gs =>
        simp [hgv, hgs] at h3
        rw [← h3]
        exact layout_of_source W n o alias a l gs hnl hgv hgs h1

theorem splitVars_ne (W : World) (n : Nat) (o : Obj) (alias : Str) (l : List (Str × Obj))
    (hv : ∀ p ∈ l, W.isFunction p.2 = false → W.getsource p.2 p.1 { force := true } ≠ none)
    (hf : ∀ p ∈ l, W.isFunction p.2 = true → W.getsource p.2 alias {} ≠ none ∧
      importable W n p.2 p.1 none true ≠ none ∧ importable W n p.2 alias (some true) true ≠ none)
    (ho : ∀ (a : Str) (opts : Opts), W.getsource o a opts ≠ none) :
    splitVars W (fun x a s => importable W n x a s true) o alias l ≠ none := by
  induction l with
  | nil => simp [splitVars]
  | cons p l ih =>
    obtain ⟨name, x⟩ := p
    have ih := ih (fun q hq => hv q (by simp [hq])) (fun q hq => hf q (by simp [hq]))
    obtain ⟨r, hr⟩ := Option.ne_none_iff_exists'.mp ih
    unfold splitVars
    cases hx : W.isFunction x with
    | false =>
      obtain ⟨t, ht⟩ := Option.ne_none_iff_exists'.mp (hv (name, x) (by simp) hx)
      simp only [] at ht
      simp [ht, hr]
    | true =>
      obtain ⟨h1, h2, h3⟩ := hf (name, x) (by simp) hx
      obtain ⟨t, ht⟩ := Option.ne_none_iff_exists'.mp h1
      obtain ⟨a, ha⟩ := Option.ne_none_iff_exists'.mp h2
      obtain ⟨b, hb⟩ := Option.ne_none_iff_exists'.mp h3
      obtain ⟨c, hc⟩ := Option.ne_none_iff_exists'.mp (ho alias { lstrip := true })
      obtain ⟨d, hd⟩ := Option.ne_none_iff_exists'.mp (ho [] { enclosing := true })
      simp only [] at ht ha hb
      have hp : ∃ q, funcPair W (fun x a s => importable W n x a s true) o alias name x = some q := by
        unfold funcPair
        cases hdec : decorated t <;> simp [ht, ha, hb, hc, hd, hdec]
      obtain ⟨q, hq⟩ := hp
      simp [hq, hr]

/-- C82, an answer exists: if the source is asked for and every source that is needed can be had, `importable` returns the
text laid out as `Layout` says (and not an import). -/
theorem C82_answers (W : World) (n : Nat) (o : Obj) (alias : Str) (builtin : Bool) (l : List (Str × Obj))
    (hnl : ∀ (x : Obj) (a t : Str), W.getsource x a { force := true } = some t → EndsLine t)
    (hb : ¬ (builtin = true ∧ W.isBuiltin o = true)) (hgv : W.globalvars o = some l)
    (hg : ∀ p ∈ l, W.isBuiltin p.2 = false → W.getsource p.2 p.1 { force := true } ≠ none)
    (hv : ∀ p ∈ W.free o, W.isFunction p.2 = false → W.getsource p.2 p.1 { force := true } ≠ none)
    (hf : ∀ p ∈ W.free o, W.isFunction p.2 = true → W.getsource p.2 alias {} ≠ none ∧
      importable W n p.2 p.1 none true ≠ none ∧ importable W n p.2 alias (some true) true ≠ none)
    (ho : ∀ (a : Str) (opts : Opts), W.getsource o a opts ≠ none) :
    ∃ s : Str, importable W (n + 1) o alias (some true) builtin = some s ∧ Layout W n o alias s := by
  obtain ⟨gs, hgs⟩ := Option.ne_none_iff_exists'.mp (globalSources_ne W l hg)
  obtain ⟨⟨vs, fs⟩, hr⟩ := Option.ne_none_iff_exists'.mp (splitVars_ne W n o alias (W.free o) hv hf ho)
  obtain ⟨c, hc⟩ := Option.ne_none_iff_exists'.mp (ho alias { force := true, lstrip := true })
  have hst : ∃ a : Str, stitched W (fun x a s => importable W n x a s true) o alias = some a := by
    unfold stitched closuredsource
    by_cases h0 : fs = [] <;> simp [hr, hc, h0]
  obtain ⟨a, ha⟩ := hst
  let W' : Helpers :=
    { fromMain := W.fromMain o
      isBuiltin := W.isBuiltin o
      imp := fun t => match t with
        | .obj => W.imp o alias builtin
        | .globals => W.impGlobals o alias builtin
      src := fun t => match t with
        | .obj => stitched W (fun x a s => importable W n x a s true) o alias
        | .globals => none
      gvars := (W.globalvars o).isSome
      gsrc := (W.globalvars o).bind fun l => (globalSources W l).map joinNL }
  have h1 : importable W (n + 1) o alias (some true) builtin = some (joinNL gs ++ a) := by
    show Source.importable W' (some true) builtin = _
    exact C65_source_first W' (some true) builtin a (joinNL gs) ha (by simp [W', hgv]) (by simp [W', hgv, hgs])
      (.inr ⟨rfl, hb⟩)
  refine ⟨_, h1, layout_of_source W n o alias a l gs hnl hgv hgs ha⟩

/-- the functions of the enclosing scope have no decorators of their own -/
def Undecorated (W : World) (o : Obj) (alias : Str) : Prop :=
  ∀ p ∈ W.free o, W.isFunction p.2 = true → ∀ src : Str, W.getsource p.2 alias {} = some src → decorated src = false

theorem funcTexts_last {W : World} {n : Nat} {o : Obj} {alias : Str} {l : List (Str × Obj)} {fs : List (Str × Str)}
    (h : FuncTexts W n o alias l fs) (hne : l ≠ [])
    (hu : ∀ p ∈ l, ∀ src : Str, W.getsource p.2 alias {} = some src → decorated src = false) :
    ∃ (pre : List Str) (org : Str), W.getsource o alias { lstrip := true } = some org ∧
      (fs.flatMap fun p => codeLines p.1 ++ codeLines p.2) = pre ++ codeLines org := by
  induction h with
  | nil => exact absurd rfl hne
  | @cons name f a b l ps hp hps ih =>
    cases l with
    | nil =>
      cases hps
      obtain ⟨src, hs, h1 | h1⟩ := hp
      · exact ⟨codeLines a, b, h1.2.2, by simp⟩
      · have := hu (name, f) (by simp) src hs
        simp [h1.1] at this
    | cons q l =>
      obtain ⟨pre, org, h1, h2⟩ := ih (by simp) fun p hp => hu p (by simp [hp])
      exact ⟨codeLines a ++ codeLines b ++ pre, org, h1, by simp [h2]⟩

/-- C82, the last word: with no decorated functions in the enclosing scope, the text ends with the source of the function itself
under the alias asked for. -/
theorem C82_target_last_partial (W : World) (n : Nat) (o : Obj) (alias : Str) (source : Option Bool) (builtin : Bool) (s : Str)
    (hnl : ∀ (x : Obj) (a t : Str), W.getsource x a { force := true } = some t → EndsLine t)
    (hg : ∀ l : List (Str × Obj), W.globalvars o = some l → ∀ p ∈ l, W.isBuiltin p.2 = false →
      W.getsource p.2 p.1 { force := true } ≠ none)
    (hu : Undecorated W o alias) (h : importable W (n + 1) o alias source builtin = some s) :
    W.imp o alias builtin = some s ∨ ∃ (pre : List Str) (org : Str) (opts : Opts),
      W.getsource o alias opts = some org ∧ opts.lstrip = true ∧ opts.enclosing = false ∧
      codeLines s = pre ++ codeLines org := by
  rcases C82_layout_partial W n o alias source builtin s hnl hg h with h | ⟨gs, vs, fs, _, _, hfs, h⟩
  · exact .inl h
  · right
    rcases h with ⟨org, _, h1, h2⟩ | ⟨hno, h2⟩
    · exact ⟨_, org, _, h1, rfl, rfl, h2⟩
    · rw [noFuncs_iff] at hno
      obtain ⟨pre, org, h3, h4⟩ := funcTexts_last hfs hno fun p hp => by
        simp only [List.mem_filter] at hp
        exact hu p hp.1 hp.2
      exact ⟨gs.flatMap codeLines ++ vs.flatMap codeLines ++ pre, org, _, h3, rfl, rfl, by rw [h2, h4]; simp⟩

/-! ### Which assignment holds -/

/-- the last line that assigns to `name` -/
def lastAssign (name : Str) (ls : List Str) : Option Str := (ls.filter ((name ++ " = ".toList).isPrefixOf ·)).getLast?

theorem lastAssign_append (name : Str) (a b : List Str) :
    lastAssign name (a ++ b) = (lastAssign name b).or (lastAssign name a) := by
  simp [lastAssign, List.filter_append, List.getLast?_append]

/-- C82, values: when no later part of the text assigns to the name of a variable of the enclosing scope, the assignment that
holds for this name in the end is the one in the text of that variable. -/
theorem C82_value_partial (W : World) (n : Nat) (o : Obj) (alias name s l : Str) (x : Obj)
    (source : Option Bool) (builtin : Bool)
    (hnl : ∀ (x : Obj) (a t : Str), W.getsource x a { force := true } = some t → EndsLine t)
    (hg : ∀ l : List (Str × Obj), W.globalvars o = some l → ∀ p ∈ l, W.isBuiltin p.2 = false →
      W.getsource p.2 p.1 { force := true } ≠ none)
    (h : importable W (n + 1) o alias source builtin = some s) (himp : W.imp o alias builtin ≠ some s)
    (hx : (name, x) ∈ W.free o) (hv : W.isFunction x = false)
    (ht : ∀ t : Str, W.getsource x name { force := true } = some t → lastAssign name (codeLines t) = some l)
    (hother : ∀ (p : Str × Obj) (t : Str), p ∈ W.free o → p ≠ (name, x) → W.getsource p.2 p.1 { force := true } = some t →
      lastAssign name (codeLines t) = none)
    (horg : ∀ (opts : Opts) (t : Str), W.getsource o alias opts = some t → lastAssign name (codeLines t) = none)
    (hencl : ∀ (opts : Opts) (t : Str), W.getsource o [] opts = some t → lastAssign name (codeLines t) = none)
    (hfunc : ∀ (p : Str × Obj) (a t : Str) (src : Option Bool), p ∈ W.free o → W.isFunction p.2 = true → importable W n p.2 a src true = some t →
      lastAssign name (codeLines t) = none) :
    lastAssign name (codeLines s) = some l := by
  obtain ⟨gs, vs, fs, _, hvs, hfs, h⟩ := (C82_layout_partial W n o alias source builtin s hnl hg h).resolve_left himp
  -- the values
  have hvals : ∀ (L : List (Str × Obj)) (vs : List Str), (∀ p ∈ L, p ∈ W.free o) →
      vs.map some = L.map (fun p => W.getsource p.2 p.1 { force := true }) →
      (((name, x) ∈ L → lastAssign name (vs.flatMap codeLines) = some l) ∧
       ((name, x) ∉ L → lastAssign name (vs.flatMap codeLines) = none)) := by
    intro L
    induction L with
    | nil => intro vs _ hm; cases vs with
      | nil => simp [lastAssign]
      | cons v vs => simp at hm
    | cons p L ih =>
      intro vs hL hm
      cases vs with
      | nil => simp at hm
      | cons v vs =>
        simp only [List.map_cons, List.cons.injEq] at hm
        obtain ⟨ih1, ih2⟩ := ih vs (fun q hq => hL q (by simp [hq])) hm.2
        simp only [List.flatMap_cons, lastAssign_append]
        by_cases hin : (name, x) ∈ L
        · simp [ih1 hin, hin]
        · rw [ih2 hin]
          by_cases hp : p = (name, x)
          · subst hp; simp [ht v hm.1.symm]
          · have := hother p v (hL p (by simp)) hp hm.1.symm
            simp [this, hin, Ne.symm hp]
  have hv1 : lastAssign name (vs.flatMap codeLines) = some l :=
    (hvals _ vs (fun p hp => (List.mem_filter.mp hp).1) hvs).1 (by simp [hx, hv])
  have hf1 : ∀ (L : List (Str × Obj)) (fs : List (Str × Str)), FuncTexts W n o alias L fs →
      (∀ p ∈ L, p ∈ W.free o ∧ W.isFunction p.2 = true) →
      lastAssign name (fs.flatMap fun p => codeLines p.1 ++ codeLines p.2) = none := by
    intro L fs hf
    induction hf with
    | nil => intro _; rfl
    | @cons nm f a b L ps hp _ ih =>
      intro hL
      simp only [List.flatMap_cons, lastAssign_append, ih fun q hq => hL q (by simp [hq])]
      obtain ⟨src, _, ⟨_, h2, h3⟩ | ⟨_, h2, h3⟩⟩ := hp
      · rw [horg _ _ h3, hfunc (nm, f) _ _ _ (hL _ (by simp)).1 (hL _ (by simp)).2 h2]; rfl
      · rw [hencl _ _ h2, hfunc (nm, f) _ _ _ (hL _ (by simp)).1 (hL _ (by simp)).2 h3]; rfl
  rcases h with ⟨org, _, h1, h2⟩ | ⟨_, h2⟩
  · rw [h2, lastAssign_append, lastAssign_append, horg _ _ h1, hv1]; rfl
  · rw [h2, lastAssign_append, lastAssign_append, hf1 _ _ hfs (fun p hp => List.mem_filter.mp hp), hv1]; rfl

/-! ### A closure that refers to itself -/

/-- C82, recursion: `o` is an inner function that calls itself, known to its closure as `name`.  The text does not exist in
general: with the recursion limit `n + 1` it is the import text for the object followed by `n` copies of the function; and if
there is no import text there is no answer, whatever the limit. -/
theorem C82_recursive_inner (W : World) (o : Obj) (name org : Str) (hfree : W.free o = [(name, o)])
    (hf : W.isFunction o = true) (hm : W.fromMain o = true) (hgv : W.globalvars o = some [])
    (hsrc : ∀ (a : Str) (opts : Opts), W.getsource o a opts = some org) (hne : org ≠ []) (hd : decorated org = false) :
    (∀ i : Str, W.imp o name true = some i → i ≠ [] → ∀ n : Nat,
      importable W (n + 1) o name none true = some (i ++ (List.replicate n ('\n' :: org)).flatten)) ∧
    (W.imp o name true = none → ∀ n : Nat, importable W n o name none true = none) := by
  have hst : ∀ n : Nat, stitched W (fun x a s => importable W n x a s true) o name =
      (importable W n o name none true).map fun t => if t = [] then org else t ++ '\n' :: org := by
    intro n
    simp only [stitched, closuredsource, splitVars, funcPair, hfree, hf, hsrc, hd]
    cases ht : importable W n o name none true with
    | none => simp [ht, hd]
    | some t =>
      by_cases h0 : t = []
      · simp [ht, hd, h0, stitcher, joinNL, hne]
      · have hst : stitcher t (some org) = t ++ '\n' :: org := by simp [stitcher, h0, hne, joinNL]
        simp [ht, hd, h0, hst, joinNL]
        simp [stitcher, joinNL]
  have hstep : ∀ n : Nat, importable W (n + 1) o name none true =
      match importable W n o name none true with
      | some t => some (if t = [] then org else t ++ '\n' :: org)
      | none => W.imp o name true := by
    intro n
    rw [importable]
    simp only [Source.importable, startSource, Source.loop, trySource, hst, hm, hgv, globalSources]
    cases ht : importable W n o name none true with
    | none => cases hi : W.imp o name true <;> simp [hi]
    | some t =>
      have hg0 : Option.map joinNL (globalSources W []) = some [] := rfl
      by_cases h0 : t = [] <;> simp [h0, hg0]
  constructor
  · intro i hi h0 n
    induction n with
    | zero => rw [hstep]; simp [importable, hi]
    | succ n ih =>
      rw [hstep, ih]
      have : i ++ (List.replicate n ('\n' :: org)).flatten ≠ [] := by simp [h0]
      simp only [this, if_false, List.replicate_succ', List.flatten_append]
      simp
  · intro hi n
    induction n with
    | zero => simp [importable]
    | succ n ih => rw [hstep, ih]; exact hi

/-! ### Cases -/

/-- `getsource` from a table: the alias gives a last line, as for a function (C63) -/
def table (t : Obj → Str) (own : Obj → Str) (o : Obj) (alias : Str) : Str :=
  if alias = [] ∨ alias = own o then t o else t o ++ ('\n' :: alias ++ " = ".toList ++ own o ++ ['\n'])

/-- `def f(): return g() + x`, whose `g` and `x` are of the enclosing scope; `def g(): return x`, whose `x` is another one,
and a global `k`.  Objects: 0 is f, 1 is g, 2 is f's x, 3 is g's x, 4 is k. -/
def nested : World where
  free := fun o => if o = 0 then [("x".toList, 2), ("g".toList, 1)] else if o = 1 then [("x".toList, 3)] else []
  isFunction := fun o => o ≤ 1
  fromMain := fun _ => true
  isBuiltin := fun _ => false
  getsource := fun o a _ =>
    if o = 2 then some (a ++ " = 2\n".toList) else if o = 3 then some (a ++ " = 3\n".toList)
    else if o = 4 then some (a ++ " = 4\n".toList)
    else some (table (fun o => if o = 0 then "def f(): return g() + x + k\n".toList else "def g(): return x\n".toList)
      (fun o => if o = 0 then ['f'] else ['g']) o a)
  imp := fun _ _ _ => none
  impGlobals := fun _ _ _ => none
  globalvars := fun o => some (if o = 0 then [("k".toList, 4)] else [])

theorem nested_text : importable nested 5 0 [] none true =
    some "k = 4\nx = 2\n\nx = 3\n\ndef g(): return x\n\ndef f(): return g() + x + k\n".toList := by decide +kernel

theorem endsLine_nl (t : Str) : EndsLine (t ++ ['\n']) := .inr ⟨t, rfl⟩

theorem endsLine_table (t own : Obj → Str) (o : Obj) (a : Str) (h : EndsLine (t o)) : EndsLine (table t own o a) := by
  unfold table
  by_cases hc : a = [] ∨ a = own o
  · rw [if_pos hc]; exact h
  · rw [if_neg hc]; exact .inr ⟨t o ++ ('\n' :: a ++ " = ".toList ++ own o), by simp⟩

theorem nested_nl (x : Obj) (a t : Str) (h : nested.getsource x a { force := true } = some t) : EndsLine t := by
  unfold nested at h
  dsimp only at h
  by_cases h2 : x = 2
  · rw [if_pos h2] at h; rw [← Option.some.inj h]; exact .inr ⟨a ++ " = 2".toList, by simp⟩
  · rw [if_neg h2] at h
    by_cases h3 : x = 3
    · rw [if_pos h3] at h; rw [← Option.some.inj h]; exact .inr ⟨a ++ " = 3".toList, by simp⟩
    · rw [if_neg h3] at h
      by_cases h4 : x = 4
      · rw [if_pos h4] at h; rw [← Option.some.inj h]; exact .inr ⟨a ++ " = 4".toList, by simp⟩
      · rw [if_neg h4] at h
        rw [← Option.some.inj h]
        apply endsLine_table
        by_cases h0 : x = 0
        · rw [if_pos h0]; exact .inr ⟨"def f(): return g() + x + k".toList, by decide⟩
        · rw [if_neg h0]; exact .inr ⟨"def g(): return x".toList, by decide⟩

/-- the hypotheses of C82 hold for it -/
example : Layout nested 4 0 [] "k = 4\nx = 2\n\nx = 3\n\ndef g(): return x\n\ndef f(): return g() + x + k\n".toList := by
  have hg : ∀ l : List (Str × Obj), nested.globalvars 0 = some l → ∀ p ∈ l, nested.isBuiltin p.2 = false →
      nested.getsource p.2 p.1 { force := true } ≠ none := by
    intro l hl p hp _
    have hl : l = [("k".toList, 4)] := (Option.some.inj hl).symm
    subst hl
    rw [List.mem_singleton] at hp
    subst hp
    decide
  have := C82_layout_partial nested 4 0 [] none true _ nested_nl hg nested_text
  rcases this with h | h
  · cases (show (none : Option Str) = some _ from h)
  · exact h

example : Undecorated nested 0 [] := by
  intro p hp hf src hs
  have hp : p ∈ [("x".toList, 2), ("g".toList, 1)] := hp
  rcases List.mem_cons.mp hp with rfl | hp
  · cases (show false = true from hf)
  · rw [List.mem_singleton] at hp
    subst hp
    have : some src = some "def g(): return x\n".toList := hs.symm.trans (by decide +kernel)
    rw [Option.some.inj this]; decide +kernel

/-- C82 is false when two functions of the closure have variables of the same name: the `x` that holds in the end is `g`'s, and
`f` finds 3 where it had 2. -/
theorem C82_name_reused : ∃ s : Str, importable nested 5 0 [] none true = some s ∧
    nested.getsource 2 "x".toList { force := true } = some "x = 2\n".toList ∧
    lastAssign "x".toList (codeLines s) = some "x = 3".toList :=
  ⟨_, nested_text, by decide +kernel, by decide +kernel⟩

/-- `def outer():` / `    @reg` / `    def helper(): return 1` / `    def target(): return helper()` / `    return target`.
Objects: 0 is target, 1 is helper. -/
def registered : World where
  free := fun o => if o = 0 then [("helper".toList, 1)] else []
  isFunction := fun o => o ≤ 1
  fromMain := fun _ => true
  isBuiltin := fun _ => false
  getsource := fun o a opts =>
    if o = 0 then
      if opts.enclosing then
        some ("def outer():\n    @reg\n    def helper(): return 1\n    def target(): return helper()\n    return target\n".toList)
      else some (table (fun _ => "def target(): return helper()\n".toList) (fun _ => "target".toList) o a)
    else some (table (fun _ => "@reg\ndef helper(): return 1\n".toList) (fun _ => "helper".toList) o a)
  imp := fun _ _ _ => none
  impGlobals := fun _ _ _ => none
  globalvars := fun _ => some []

/-- C82 is false when a function of the enclosing scope has a decorator of its own: under the alias asked for the function one
finds that other function; and the function itself is not defined by any line at the left margin. -/
theorem C82_wrong_function : ∃ s : Str, importable registered 5 0 "h".toList none true = some s ∧
    lastAssign "h".toList (codeLines s) = some "h = helper".toList ∧
    ∀ l ∈ codeLines s, ¬ "def target".toList <+: l := by
  refine ⟨"def outer():\n    @reg\n    def helper(): return 1\n    def target(): return helper()\n    return target\n\n@reg\ndef helper(): return 1\n\nh = helper\n".toList, by decide +kernel, by decide +kernel, ?_⟩
  decide +kernel

/-- a value alone: the hypotheses of `C82_value_partial` are met by `def f(): return x` with `x = 2` in the enclosing scope -/
def alone : World where
  free := fun o => if o = 0 then [("x".toList, 2)] else []
  isFunction := fun o => o = 0
  fromMain := fun _ => true
  isBuiltin := fun _ => false
  getsource := fun o a _ => if o = 2 then some (a ++ " = 2\n".toList) else some "def f(): return x\n".toList
  imp := fun _ _ _ => none
  impGlobals := fun _ _ _ => none
  globalvars := fun _ => some []

theorem alone_text : importable alone 2 0 [] none true = some "x = 2\n\ndef f(): return x\n".toList := by decide +kernel

theorem alone_src (x : Obj) (a : Str) (o : Opts) (t : Str) (h : alone.getsource x a o = some t) :
    (x = 2 ∧ t = a ++ " = 2\n".toList) ∨ (x ≠ 2 ∧ t = "def f(): return x\n".toList) := by
  unfold alone at h
  dsimp only at h
  by_cases h2 : x = 2
  · rw [if_pos h2] at h; exact .inl ⟨h2, (Option.some.inj h).symm⟩
  · rw [if_neg h2] at h; exact .inr ⟨h2, (Option.some.inj h).symm⟩

example : lastAssign "x".toList (codeLines "x = 2\n\ndef f(): return x\n".toList) = some "x = 2".toList := by
  refine C82_value_partial alone 1 0 [] "x".toList _ _ 2 none true (fun x a t h => ?_) (fun l hl p hp => ?_) alone_text
    (fun h => ?_) (by decide) (by decide) ?_ ?_ ?_ ?_ ?_
  · rcases alone_src x a _ t h with ⟨_, rfl⟩ | ⟨_, rfl⟩
    · exact .inr ⟨a ++ " = 2".toList, by simp⟩
    · exact .inr ⟨"def f(): return x".toList, by decide⟩
  · have hl : l = [] := (Option.some.inj hl).symm
    subst hl; cases hp
  · cases (show (none : Option Str) = some _ from h)
  · intro t h
    rcases alone_src 2 _ _ t h with ⟨_, rfl⟩ | ⟨h, _⟩
    · decide +kernel
    · exact absurd rfl h
  · intro p t h1 h2
    exact absurd (List.mem_singleton.mp h1) h2
  · intro opts t h
    rcases alone_src 0 _ _ t h with ⟨h, _⟩ | ⟨_, rfl⟩
    · cases h
    · decide +kernel
  · intro opts t h
    rcases alone_src 0 _ _ t h with ⟨h, _⟩ | ⟨_, rfl⟩
    · cases h
    · decide +kernel
  · intro p a t src h1 hf
    rw [List.mem_singleton.mp h1] at hf
    cases (show false = true from hf)

/-- and those of `C82_answers` -/
example : ∃ s : Str, importable alone 2 0 [] (some true) true = some s ∧ Layout alone 1 0 [] s := by
  refine C82_answers alone 1 0 [] true [] (fun x a t h => ?_) (by decide) rfl (fun p hp => by cases hp) ?_ ?_ ?_
  · rcases alone_src x a _ t h with ⟨_, rfl⟩ | ⟨_, rfl⟩
    · exact .inr ⟨a ++ " = 2".toList, by simp⟩
    · exact .inr ⟨"def f(): return x".toList, by decide⟩
  · intro p hp _
    rw [List.mem_singleton.mp hp]; decide
  · intro p hp hf
    rw [List.mem_singleton.mp hp] at hf
    cases (show false = true from hf)
  · intro a opts h
    cases (show some "def f(): return x\n".toList = none from h)

/-- a recursive inner function meets the hypotheses of `C82_recursive_inner` -/
def fact : World where
  free := fun _ => [("fact".toList, 0)]
  isFunction := fun _ => true
  fromMain := fun _ => true
  isBuiltin := fun _ => false
  getsource := fun _ _ _ => some "def fact(n): return n and fact(n-1)\n".toList
  imp := fun _ _ _ => none
  impGlobals := fun _ _ _ => none
  globalvars := fun _ => some []

example : ∀ n : Nat, importable fact n 0 "fact".toList none true = none :=
  (C82_recursive_inner fact 0 "fact".toList _ rfl rfl rfl rfl (fun _ _ => rfl) (by decide) (by decide +kernel)).2 rfl

end Verif.Closured
