import Verif.Model.Code
/-! C07, C08: code objects across Python versions. -/
set_option linter.unusedSimpArgs false
namespace Verif.Code
open Attr Ver

/-- A genuine code object: every attribute has the type CPython gives it. -/
def Typed (o : CodeObj) : Prop := ∀ a, hasKind (kind a) (o a) = true

theorem codeVersion_eq (v : Ver) : codeVersion v = some v := by cases v <;> decide

theorem Typed.int {o : CodeObj} (h : Typed o) (a) (ha : kind a = .kInt) : ∃ n, o a = .int n := by
  have := h a; rw [ha] at this; revert this; cases o a <;> simp [hasKind]
theorem Typed.bytes {o : CodeObj} (h : Typed o) (a) (ha : kind a = .kBytes) :
    ∃ n, o a = .bytes n := by
  have := h a; rw [ha] at this; revert this; cases o a <;> simp [hasKind]

theorem Typed.enc {o : CodeObj} (h : Typed o) (a) (ha : kind a ≠ .kStr) : enc (o a) = o a := by
  have := h a; revert this ha; cases kind a <;> cases o a <;> simp [hasKind, Code.enc]

theorem zipLookup_map (l : List Attr) (f : Attr → PyVal) (a : Attr) :
    zipLookup l (l.map f) a = if a ∈ l then some (f a) else none := by
  induction l with
  | nil => simp [zipLookup]
  | cons k ks ih =>
    simp only [List.map_cons, zipLookup, ih, List.mem_cons]
    by_cases h : k = a
    · subst h; simp
    · simp [h, Ne.symm h, eq_comm]

theorem codeType_map (v : Ver) (f : Attr → PyVal) (h : Typed f) :
    codeType v ((sig v).map f) = some (fun a => if a ∈ sig v then some (f a) else none) := by
  unfold codeType
  rw [if_pos]
  · congr 1; funext a; exact zipLookup_map _ _ _
  · refine ⟨by simp, ?_⟩
    rw [List.all_eq_true]
    intro p hp
    have key : ∀ (l : List Attr) (p), p ∈ l.zip (l.map f) → p.2 = f p.1 := by
      intro l
      induction l with
      | nil => simp
      | cons a l ih => simp only [List.map_cons, List.zip_cons_cons, List.mem_cons]; grind
    rw [key _ _ hp]
    exact h _

/-- What a reader on `w` puts in field `a` for a code object written on `v`
(the line-table columns are the code's actual behaviour, see the theorems below). -/
def transported (v w : Ver) (o : CodeObj) : CodeObj := fun a =>
  match a with
  | posonlyargcount => if v = v37 then .int 0 else o posonlyargcount
  | qualname => if qualname ∈ sig v then o qualname else o name
  | exceptiontable => if exceptiontable ∈ sig v then o exceptiontable else .bytes []
  | endlinetable => if v = v311a then o endlinetable else .none
  | columntable => if v = v311a then o columntable else .none
  | linetable =>
      if linetable ∈ sig v then o linetable
      else if v = v38 then o lnotab        -- 3.8/3.9 lnotab bytes land in the linetable slot
      else .bytes []
  | lnotab =>
      if v = v310 then
        (if w = v37 then (if truthy (o lnotab) then o lnotab else o linetable) else o linetable)
      else o lnotab
  | a => o a

theorem transported_typed (v w : Ver) (o : CodeObj) (h : Typed o) : Typed (transported v w o) := by
  intro a
  have h1 := h a
  have h2 := h lnotab
  have h3 := h linetable
  have h4 := h name
  simp only [kind] at h2 h3 h4
  cases a <;> simp only [kind, transported] at * <;> (repeat' split) <;> first | assumption | rfl

theorem createCode_saveCode_aux (v w : Ver) (o : CodeObj) (h : Typed o) :
    createCode w (saveCode v o) = codeType w ((sig w).map (transported v w o)) := by
  obtain ⟨n, hn⟩ := h.int argcount rfl
  obtain ⟨ln, hln⟩ := h.bytes lnotab rfl
  have e1 := h.enc code (by simp [kind])
  have e2 := h.enc linetable (by simp [kind])
  have e3 := h.enc exceptiontable (by simp [kind])
  have e4 := h.enc endlinetable (by simp [kind])
  have e5 := h.enc columntable (by simp [kind])
  have e6 : ∀ b, Code.enc (.bytes b) = .bytes b := fun _ => rfl
  have e7 : Code.enc .none = .none := rfl
  cases v <;> cases w <;>
    simp [createCode, codeVersion_eq, saveCode, hasattr, sig, params, hn, hln, createCode', pat311,
      pat311p, pat310, pat37, pat311a, encAt, List.zipIdx, e1, e2, e3, e4, e5, e6, e7, transported, zipLookup,
      finish, setdefault, setField, geq310, encodeParams] <;>
    (split <;> simp_all [truthy])

theorem createCode_saveCode (v w : Ver) (o : CodeObj) (h : Typed o) :
    createCode w (saveCode v o) =
      some (fun a => if a ∈ sig w then some (transported v w o a) else none) := by
  rw [createCode_saveCode_aux v w o h, codeType_map _ _ (transported_typed v w o h)]

/-- The documented default of a field the writer's version lacked (_dill.py:776-782). -/
def docDefault (o : CodeObj) : Attr → PyVal
  | posonlyargcount => .int 0
  | qualname => o name
  | linetable => .bytes []
  | exceptiontable => .bytes []
  | lnotab => o lnotab        -- carried separately by writers >= 3.10
  | _ => .none

theorem transported_common (v w : Ver) (o : CodeObj) (a : Attr) (hb : a ∈ sig v) :
    transported v w o a = o a := by
  cases a <;> first | rfl | (cases v <;> first | rfl | (simp [sig] at hb))

theorem transported_default (v w : Ver) (o : CodeObj) (a : Attr) (hb : a ∉ sig v)
    (ha : a ∈ sig w) (h1 : a = linetable → v ≠ v38) (h2 : a = lnotab → v ≠ v310) :
    transported v w o a = docDefault o a := by
  cases a <;> first
    | (cases v <;> first
        | (exfalso; revert hb; decide)
        | (exfalso; exact absurd rfl (h1 rfl))
        | (exfalso; exact absurd rfl (h2 rfl))
        | rfl)
    | (cases w <;> (exfalso; revert ha; decide))

/-- C07.  On every layout, unpickling a pickled code object succeeds and gives back every
constructor field unchanged (and no other field). -/
theorem C07_code_roundtrip_same_version (v : Ver) (o : CodeObj) (h : Typed o) :
    ∃ r, createCode v (saveCode v o) = some r ∧
      (∀ a ∈ sig v, r a = some (o a)) ∧ (∀ a, a ∉ sig v → r a = none) := by
  refine ⟨_, createCode_saveCode v v o h, ?_, ?_⟩
  · intro a ha
    simp only [ha, if_true, transported_common v v o a ha]
  · intro a ha; simp [ha]

/-- C08 at full strength, as a statement. -/
def C08_full : Prop := ∀ (v w : Ver) (o : CodeObj), Typed o →
  ∃ r, createCode w (saveCode v o) = some r ∧
    (∀ a ∈ sig w, a ∈ sig v → r a = some (o a)) ∧
    (∀ a ∈ sig w, a ∉ sig v → r a = some (docDefault o a))

/-- C08 (all fields but the line-number table): for every pair of versions loading succeeds, every
common field is preserved and every missing field gets its documented default. The missing part
is the line table when exactly one side is the 16-field layout; its actual content is pinned by
`C08_linetable_actual`. -/
theorem C08_code_cross_version_partial (v w : Ver) (o : CodeObj) (h : Typed o) :
    ∃ r, createCode w (saveCode v o) = some r ∧
      (∀ a ∈ sig w, a ∈ sig v → r a = some (o a)) ∧
      (∀ a ∈ sig w, a ∉ sig v → (a = linetable → v ≠ v38) → (a = lnotab → v ≠ v310) →
        r a = some (docDefault o a)) := by
  refine ⟨_, createCode_saveCode v w o h, ?_, ?_⟩
  · intro a ha hb
    simp only [ha, if_true, transported_common v w o a hb]
  · intro a ha hb h1 h2
    simp only [ha, if_true, transported_default v w o a hb ha h1 h2]

/-- What the code does with the line table in the excluded cases. -/
theorem C08_linetable_actual (v w : Ver) (o : CodeObj) (h : Typed o) :
    ∃ r, createCode w (saveCode v o) = some r ∧
      (v = v38 → linetable ∈ sig w → r linetable = some (o lnotab)) ∧
      (v = v310 → w = v38 → r lnotab = some (o linetable)) ∧
      (v = v310 → w = v37 → r lnotab = some (if o lnotab matches .bytes [] then o linetable
        else o lnotab)) := by
  refine ⟨_, createCode_saveCode v w o h, ?_, ?_, ?_⟩
  · rintro rfl hw; simp only [hw, if_true]; rfl
  · rintro rfl rfl; simp [transported, sig]
  · rintro rfl rfl
    obtain ⟨ln, hln⟩ := h.bytes lnotab rfl
    cases ln <;> simp [transported, sig, hln, truthy]

/-- A concrete code object, used for non-vacuity and for the refutation below. -/
def sample : CodeObj
  | argcount => .int 2 | posonlyargcount => .int 1 | kwonlyargcount => .int 0 | nlocals => .int 3
  | stacksize => .int 4 | flags => .int 67 | firstlineno => .int 10
  | code => .bytes [151, 0] | consts => .tup [.none, .int 1] | names => .tup [.str "g"]
  | varnames => .tup [.str "x", .str "y", .str "z"] | filename => .str "f.py" | name => .str "f"
  | qualname => .str "A.f" | linetable => .bytes [1, 2] | lnotab => .bytes [3]
  | endlinetable => .bytes [4] | columntable => .bytes [5] | exceptiontable => .bytes [6]
  | freevars => .tup [] | cellvars => .tup [.str "z"] | LNOTAB_OR_LINETABLE => .bytes []

example : Typed sample := by intro a; cases a <;> rfl

/-- C08 at full strength is false of the code: 3.8 -> 3.10 stores the `co_lnotab` bytes as
`co_linetable`. -/
theorem C08_full_false : ¬ C08_full := by
  intro H
  obtain ⟨r, hr, -, h2⟩ := H v38 v310 sample (by intro a; cases a <;> rfl)
  rw [createCode_saveCode _ _ _ (by intro a; cases a <;> rfl)] at hr
  have := h2 linetable (by decide) (by decide)
  rw [← Option.some.inj hr] at this
  simp [transported, sig, docDefault, sample] at this

/-- the attributes `CodeType` wants as bytes -/
def bytesAttr (a : Attr) : Prop := a ∈ [code, lnotab, linetable, endlinetable, columntable, exceptiontable]

/-- `o'` is `o` with some of its bytes attributes given as text (as in pickles read as ASCII text): each attribute is unchanged,
or is a bytes attribute that is the text of those bytes. -/
def TextOf (o o' : CodeObj) : Prop :=
  ∀ a, o' a = o a ∨ (bytesAttr a ∧ ∃ s : String, o' a = .str s ∧ o a = .bytes (s.toUTF8.data.toList.map (·.toNat)))

theorem TextOf.enc {o o' : CodeObj} (h : Typed o) (ht : TextOf o o') (a : Attr) (ha : kind a ≠ .kStr) :
    Code.enc (o' a) = o a := by
  rcases ht a with e | ⟨_, s, e1, e2⟩
  · rw [e]; exact h.enc a ha
  · rw [e1, e2]; rfl

theorem TextOf.same {o o' : CodeObj} (ht : TextOf o o') (a : Attr) (ha : ¬ bytesAttr a) : o' a = o a := by
  rcases ht a with e | ⟨hb, _⟩
  · exact e
  · exact absurd hb ha

theorem truthy_enc (x : PyVal) : truthy (Code.enc x) = truthy x := by
  cases x with
  | str s =>
    simp only [Code.enc, truthy]
    congr 1
    rw [Bool.eq_iff_iff, List.isEmpty_iff, List.map_eq_nil_iff, String.isEmpty_iff, ← String.toByteArray_eq_empty_iff,
      ← ByteArray.size_eq_zero_iff]
    show s.toByteArray.data.toList = [] ↔ s.toByteArray.data.size = 0
    rw [← Array.length_toList, List.length_eq_zero_iff]
  | _ => rfl

/-- C08: the bytes attributes may arrive as text: every reader restores the same code object as from the bytes. -/
theorem C08_text_attributes (v w : Ver) (o o' : CodeObj) (h : Typed o) (ht : TextOf o o') :
    createCode w (saveCode v o') = createCode w (saveCode v o) := by
  obtain ⟨n, hn⟩ := h.int argcount rfl
  have hn' : o' argcount = .int n := (ht.same argcount (by simp [bytesAttr])).trans hn
  have s1 := ht.same posonlyargcount (by simp [bytesAttr])
  have s2 := ht.same kwonlyargcount (by simp [bytesAttr])
  have s3 := ht.same nlocals (by simp [bytesAttr])
  have s4 := ht.same stacksize (by simp [bytesAttr])
  have s5 := ht.same flags (by simp [bytesAttr])
  have s6 := ht.same consts (by simp [bytesAttr])
  have s7 := ht.same names (by simp [bytesAttr])
  have s8 := ht.same varnames (by simp [bytesAttr])
  have s9 := ht.same filename (by simp [bytesAttr])
  have s10 := ht.same name (by simp [bytesAttr])
  have s11 := ht.same qualname (by simp [bytesAttr])
  have s12 := ht.same firstlineno (by simp [bytesAttr])
  have s13 := ht.same freevars (by simp [bytesAttr])
  have s14 := ht.same cellvars (by simp [bytesAttr])
  have f1 := ht.enc h code (by simp [kind])
  have f2 := ht.enc h linetable (by simp [kind])
  have f3 := ht.enc h exceptiontable (by simp [kind])
  have f4 := ht.enc h endlinetable (by simp [kind])
  have f5 := ht.enc h columntable (by simp [kind])
  have f6 := ht.enc h lnotab (by simp [kind])
  have t6 : truthy (o' lnotab) = truthy (o lnotab) := by rw [← f6, truthy_enc]
  have e6 : ∀ b, Code.enc (.bytes b) = .bytes b := fun _ => rfl
  have e7 : Code.enc .none = .none := rfl
  rw [createCode_saveCode_aux v w o h]
  have hl : ∀ n, o' lnotab ≠ .int n := by
    intro n e; rw [e] at f6
    obtain ⟨b, hb⟩ := h.bytes lnotab rfl
    rw [hb] at f6; cases f6
  have hc : ∀ rest, createCode w (o' lnotab :: rest) = createCode' w (o' lnotab) rest := by
    intro rest
    unfold createCode
    rw [codeVersion_eq]
    cases hx : o' lnotab with
    | int n => exact absurd hx (hl n)
    | _ => rfl
  have hc' : ∀ n rest, createCode w (.int n :: rest) = createCode' w (.bytes []) (.int n :: rest) := by
    intro n rest
    unfold createCode
    rw [codeVersion_eq]
  cases v <;> cases w <;>
    simp [saveCode, hasattr, hc, hc', hn, hn', sig, params, createCode', pat311, transported,
      pat311p, pat310, pat37, pat311a, encAt, List.zipIdx, e6, e7, zipLookup, s1, s2, s3, s4, s5, s6, s7, s8, s9, s10, s11, s12, s13, s14,
      finish, setdefault, setField, geq310, encodeParams, f1, f2, f3, f4, f5, f6, t6]
  all_goals (split <;> simp_all [truthy])

/-- a code object whose bytecode and line table came as text -/
example : TextOf (fun a => match a with | code => .bytes [100, 0, 83, 0] | lnotab => .bytes [] | _ => .int 3)
    (fun a => match a with | code => .str "d\x00S\x00" | lnotab => .str "" | _ => .int 3) := by
  intro a
  cases a
  case code => exact .inr ⟨by simp [bytesAttr], _, rfl, congrArg PyVal.bytes (by decide +kernel : ([100,0,83,0] : List Nat) = _)⟩
  case lnotab => exact .inr ⟨by simp [bytesAttr], _, rfl, congrArg PyVal.bytes (by decide +kernel : ([] : List Nat) = _)⟩
  all_goals exact .inl rfl

/-- The version chosen at import time is the interpreter's own layout. -/
theorem C07_codeVersion_detects (v : Ver) : codeVersion v = some v := codeVersion_eq v

/-- A tuple of a length no version writes is refused, never misread (e.g. a truncated one). -/
theorem C08_rejects_other_lengths (w : Ver) (lnot : PyVal) (args : List PyVal)
    (h : args.length ∉ [15, 16, 17, 18, 20]) : createCode' w lnot args = none := by
  simp at h
  simp [createCode', pat311, pat311p, pat310, pat37, pat311a, h]

end Verif.Code
