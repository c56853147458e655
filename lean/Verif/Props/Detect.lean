import Verif.Model.Detect
/-! C23, C24, C27: what dill.detect reports about code and closures. -/
set_option linter.unusedSimpArgs false
namespace Verif.Detect

/-! ### specification -/

/-- `c` is one of the constants. -/
inductive Consts.Has (c : Code) : Consts → Prop
  | here (rest) : Consts.Has c (.code c rest)
  | skip (n rest) : Consts.Has c rest → Consts.Has c (.other n rest)
  | next (d rest) : Consts.Has c rest → Consts.Has c (.code d rest)

/-- `c` is nested in `d`, at any depth. -/
inductive NestedIn (c : Code) : Code → Prop
  | direct (d : Code) : d.consts.Has c → NestedIn c d
  | deep (d e : Code) : e.consts.Has d → NestedIn c d → NestedIn c e

/-- A Python identifier, as far as the displayed text is concerned. -/
def Ident (n : Str) : Prop := ∀ ch ∈ n, ch ≠ '(' ∧ ch ≠ ')' ∧ ch ≠ ' '

/-- The ways `dis` displays the argument of a global-variable instruction, before and from 3.11. -/
def Shown (canNull : Bool) (n r : Str) : Prop :=
  r = n ∨ (canNull = true ∧ (r = "NULL + ".toList ++ n ∨ r = n ++ " + NULL".toList))

def globalOps : List Str := ["LOAD_GLOBAL".toList, "STORE_GLOBAL".toList, "DELETE_GLOBAL".toList]

/-- Instruction `i` accesses the global variable `n`. -/
def GlobalInstr (canNull : Bool) (i : Instr) (n : Str) : Prop :=
  i.opname ∈ globalOps ∧ Ident n ∧ ∃ r, i.arg = some r ∧ Shown canNull n r

/-- Code `c` itself (not code nested in it) uses the global variable `n`. -/
def UsesGlobal (canNull : Bool) (c : Code) (n : Str) : Prop :=
  ∃ i ∈ c.instrs, GlobalInstr canNull i n

/-- Nothing but the global-variable instructions displays the text "_GLOBAL". -/
def Clean (canNull : Bool) (hdr : Code → Str) (c : Code) : Prop :=
  (∀ i ∈ c.instrs, (∃ n, GlobalInstr canNull i n) ∨ ¬ ("_GLOBAL".toList <:+: i.line)) ∧
  ¬ ("_GLOBAL".toList <:+: hdr c)

/-! ### sets -/

section sets
variable {α : Type} [DecidableEq α]

@[simp] theorem mem_setAdd (s : List α) (a x : α) : x ∈ setAdd s a ↔ x ∈ s ∨ x = a := by
  unfold setAdd; split
  · constructor
    · exact Or.inl
    · rintro (h | rfl) <;> assumption
  · simp

theorem nodup_setAdd {s : List α} (h : s.Nodup) (a : α) : (setAdd s a).Nodup := by
  unfold setAdd; split
  · exact h
  · rename_i hn
    rw [List.nodup_append]
    refine ⟨h, by simp, ?_⟩
    intro x hx y hy
    simp at hy; subst hy
    rintro rfl; exact hn hx

@[simp] theorem mem_setUnion (s t : List α) (x : α) : x ∈ setUnion s t ↔ x ∈ s ∨ x ∈ t := by
  unfold setUnion
  induction t generalizing s with
  | nil => simp
  | cons a t ih => simp [ih, or_assoc]

theorem nodup_setUnion {s : List α} (h : s.Nodup) (t : List α) : (setUnion s t).Nodup := by
  unfold setUnion
  induction t generalizing s with
  | nil => exact h
  | cons a t ih => exact ih (nodup_setAdd h a)
end sets

/-! ### C23 -/

theorem has_other (c : Code) (n rest) : Consts.Has c (.other n rest) ↔ Consts.Has c rest :=
  ⟨fun h => by cases h; assumption, fun h => .skip _ _ h⟩
theorem has_code (c d : Code) (rest) :
    Consts.Has c (.code d rest) ↔ c = d ∨ Consts.Has c rest :=
  ⟨fun h => by cases h; exact .inl rfl; right; assumption,
   fun h => by rcases h with rfl | h; exact .here _; exact .next _ _ h⟩
theorem has_nil (c : Code) : ¬ Consts.Has c .nil := fun h => by cases h

mutual
theorem nestedcode_spec (recurse : Bool) (c : Code) :
    (nestedcode recurse c).Nodup ∧
    (∀ d, d ∈ nestedcode recurse c ↔ if recurse then NestedIn d c else c.consts.Has d) := by
  match c with
  | .mk n i cs =>
    have := nestedConsts_spec recurse cs [] (by simp)
    refine ⟨by simpa [nestedcode] using this.1, fun d => ?_⟩
    simp only [nestedcode, this.2]
    cases recurse with
    | false => simp [Code.consts]
    | true =>
      simp only [List.not_mem_nil, false_or, if_true]
      constructor
      · rintro (h | ⟨e, he, hd⟩)
        · exact .direct _ h
        · exact .deep _ _ he hd
      · intro h
        cases h with
        | direct _ h => exact .inl h
        | deep e _ he hd => exact .inr ⟨e, he, hd⟩
theorem nestedConsts_spec (recurse : Bool) (cs : Consts) (s : List Code) (hs : s.Nodup) :
    (nestedConsts recurse cs s).Nodup ∧
    (∀ d, d ∈ nestedConsts recurse cs s ↔
      d ∈ s ∨ if recurse then cs.Has d ∨ ∃ e, cs.Has e ∧ NestedIn d e else cs.Has d) := by
  match cs with
  | .nil => refine ⟨by simpa [nestedConsts], fun d => ?_⟩; cases recurse <;> simp [nestedConsts, has_nil]
  | .other n rest =>
    simpa [nestedConsts, has_other] using nestedConsts_spec recurse rest s hs
  | .code c rest =>
    have hc := nestedcode_spec recurse c
    cases recurse with
    | false =>
      have hr := nestedConsts_spec false rest (setAdd s c) (nodup_setAdd hs c)
      simp only [nestedConsts, Bool.false_eq_true, if_false] at hr hc ⊢
      refine ⟨hr.1, fun d => ?_⟩
      rw [hr.2, mem_setAdd, has_code, or_assoc]
    | true =>
      have hr := nestedConsts_spec true rest (setUnion (setAdd s c) (nestedcode true c))
        (nodup_setUnion (nodup_setAdd hs c) _)
      simp only [nestedConsts, if_true] at hr hc ⊢
      refine ⟨hr.1, fun d => ?_⟩
      rw [hr.2, mem_setUnion, mem_setAdd, hc.2]
      simp only [has_code]
      constructor
      · rintro (((h | h) | h) | h | ⟨e, he, hd⟩)
        · exact .inl h
        · exact .inr (.inl (.inl h))
        · exact .inr (.inr ⟨c, .inl rfl, h⟩)
        · exact .inr (.inl (.inr h))
        · exact .inr (.inr ⟨e, .inr he, hd⟩)
      · rintro (h | (h | h) | ⟨e, he | he, hd⟩)
        · exact .inl (.inl (.inl h))
        · exact .inl (.inl (.inr h))
        · exact .inr (.inl h)
        · subst he; exact .inl (.inr hd)
        · exact .inr (.inr ⟨e, he, hd⟩)
end

/-- C23: nestedcode returns exactly the code objects nested at any depth, each once; with recurse=False
exactly the directly nested ones, each once. -/
theorem C23_nestedcode (c : Code) :
    (nestedcode true c).Nodup ∧ (∀ d, d ∈ nestedcode true c ↔ NestedIn d c) ∧
    (nestedcode false c).Nodup ∧ (∀ d, d ∈ nestedcode false c ↔ c.consts.Has d) := by
  have h1 := nestedcode_spec true c
  have h2 := nestedcode_spec false c
  simp only [if_true, Bool.false_eq_true, if_false] at h1 h2
  exact ⟨h1.1, h1.2, h2.1, h2.2⟩

/-- a function with two nested functions, one of them nested twice deep -/
def exInner : Code := .mk "inner".toList [⟨"  1 ".toList, "LOAD_GLOBAL".toList, " 0 ".toList,
  some "NULL + g".toList⟩] .nil
def exMid : Code := .mk "mid".toList [] (.other 3 (.code exInner .nil))
def exOuter : Code := .mk "outer".toList [⟨"  1 ".toList, "STORE_GLOBAL".toList, " 0 ".toList,
  some "h".toList⟩] (.code exMid (.other 0 (.code exInner .nil)))

example : nestedcode true exOuter = [exMid, exInner] ∧ nestedcode true exMid = [exInner] := by
  decide +kernel
example : NestedIn exInner exMid := .direct _ (.skip _ _ (.here _))

/-! ### C24 -/

theorem hasSub_iff (sub s : Str) : hasSub sub s = true ↔ sub <:+: s := by
  induction s with
  | nil =>
    simp only [hasSub, List.isEmpty_iff]
    exact (List.infix_nil).symm
  | cons c s ih =>
    rw [hasSub, Bool.or_eq_true, ih, List.isPrefixOf_iff_prefix, List.infix_cons_iff]

theorem takeWhile_ne_append (ch : Char) (r t : Str) (h : ∀ x ∈ r, x ≠ ch) :
    (r ++ ch :: t).takeWhile (· != ch) = r := by
  induction r with
  | nil => simp
  | cons a r ih =>
    simp only [List.cons_append, List.takeWhile_cons]
    have ha := h a (by simp)
    simp [ha]
    simpa using ih (fun x hx => h x (by simp [hx]))

theorem afterLast_append (ch : Char) (p r : Str) (h : ∀ x ∈ r, x ≠ ch) :
    afterLast ch (p ++ ch :: r) = r := by
  unfold afterLast
  have : (p ++ ch :: r).reverse = r.reverse ++ ch :: p.reverse := by simp
  rw [this, takeWhile_ne_append _ _ _ (by simpa using h)]
  simp

theorem removeAllAux_nospace (pat s : Str) (hp : ' ' ∈ pat) (hs : ' ' ∉ s) (n : Nat) :
    removeAllAux pat n s = s := by
  induction n generalizing s with
  | zero => rfl
  | succ n ih =>
    cases s with
    | nil => rfl
    | cons c s =>
      unfold removeAllAux
      rw [if_neg]
      · rw [ih s (fun h => hs (by simp [h]))]
      · rw [List.isPrefixOf_iff_prefix]
        intro h
        exact hs (h.subset hp)

theorem removeAll_nospace (pat s : Str) (hp : ' ' ∈ pat) (hs : ' ' ∉ s) : removeAll pat s = s :=
  removeAllAux_nospace pat s hp hs _

theorem removeAll_prefix (n : Str) (hn : ' ' ∉ n) : removeAll sNULLp (sNULLp ++ n) = n := by
  unfold removeAll
  have : (sNULLp ++ n).length = (n.length + 6) + 1 := by simp [sNULLp]
  rw [this]
  have h2 : sNULLp ++ n = 'N' :: ("ULL + ".toList ++ n) := rfl
  rw [h2]
  unfold removeAllAux
  rw [if_pos]
  · have : ('N' :: ("ULL + ".toList ++ n)).drop sNULLp.length = n := by simp [sNULLp]
    rw [this, removeAllAux_nospace _ _ (by decide) hn]
  · rw [List.isPrefixOf_iff_prefix]; exact ⟨n, rfl⟩

theorem removeAllAux_suffix1 (n : Str) (hn : ' ' ∉ n) (k : Nat) (hk : (n ++ spNULL).length ≤ k) :
    removeAllAux sNULLp k (n ++ spNULL) = n ++ spNULL ∨
    removeAllAux sNULLp k (n ++ spNULL) = n := by
  induction n generalizing k with
  | nil =>
    left
    simp only [List.nil_append]
    simp [spNULL] at hk
    obtain ⟨m, rfl⟩ : ∃ m, k = m + 7 := ⟨k - 7, by omega⟩
    simp [spNULL, removeAllAux, sNULLp]
    cases m <;> rfl
  | cons c n ih =>
    obtain ⟨m, rfl⟩ : ∃ m, k = m + 1 := ⟨k - 1, by simp at hk; omega⟩
    simp only [List.cons_append]
    unfold removeAllAux
    split
    · rename_i hp
      rw [List.isPrefixOf_iff_prefix] at hp
      -- the fifth character is the first space, so the name is exactly "NULL"
      right
      have hlen : c :: n = "NULL".toList := by
        obtain ⟨t, ht⟩ := hp
        match n, hn, ht with
        | [], _, ht => simp [sNULLp, spNULL] at ht
        | [b], _, ht => simp [sNULLp, spNULL] at ht
        | [b, d], _, ht => simp [sNULLp, spNULL] at ht
        | [b, d, e], _, ht =>
          simp [sNULLp, spNULL] at ht
          obtain ⟨rfl, rfl, rfl, rfl, _⟩ := ht; rfl
        | b :: d :: e :: f :: n, hn, ht =>
          simp [sNULLp, spNULL] at ht
          exfalso; apply hn
          obtain ⟨_, _, _, _, rfl, _⟩ := ht
          simp
      have : (c :: (n ++ spNULL)) = (c :: n) ++ spNULL := rfl
      rw [this, hlen]
      have : ("NULL".toList ++ spNULL).drop sNULLp.length = "NULL".toList := rfl
      rw [this, removeAllAux_nospace _ _ (by decide) (by decide)]
    · rcases ih (fun h => hn (by simp [h])) m (by simp at hk ⊢; omega) with h | h
      · left; rw [h]
      · right; rw [h]

theorem removeAllAux_suffix2 (n : Str) (hn : ' ' ∉ n) (k : Nat) (hk : (n ++ spNULL).length ≤ k) :
    removeAllAux spNULL k (n ++ spNULL) = n := by
  induction n generalizing k with
  | nil =>
    simp [spNULL] at hk
    obtain ⟨m, rfl⟩ : ∃ m, k = m + 7 := ⟨k - 7, by omega⟩
    simp [spNULL, removeAllAux]
  | cons c n ih =>
    obtain ⟨m, rfl⟩ : ∃ m, k = m + 1 := ⟨k - 1, by simp at hk; omega⟩
    simp only [List.cons_append]
    unfold removeAllAux
    rw [if_neg, ih (fun h => hn (by simp [h])) m (by simp at hk ⊢; omega)]
    rw [List.isPrefixOf_iff_prefix]
    rintro ⟨t, ht⟩
    simp [spNULL] at ht
    apply hn; simp [← ht.1]

theorem removeAll_suffix (n : Str) (hn : ' ' ∉ n) :
    removeAll spNULL (removeAll sNULLp (n ++ spNULL)) = n := by
  rcases removeAllAux_suffix1 n hn _ (Nat.le_refl _) with h | h
  · unfold removeAll; rw [h]; exact removeAllAux_suffix2 n hn _ (Nat.le_refl _)
  · have : removeAll sNULLp (n ++ spNULL) = n := h
    rw [this]; exact removeAll_nospace _ _ (by decide) hn

theorem nameOf_global (canNull : Bool) (i : Instr) (n : Str) (h : GlobalInstr canNull i n) :
    hasSub sGLOBAL i.line = true ∧ nameOf canNull i.line = n := by
  obtain ⟨hop, hid, r, harg, hsh⟩ := h
  have hsp : ' ' ∉ n := fun h => (hid _ h).2.2 rfl
  constructor
  · rw [hasSub_iff]
    have hin : sGLOBAL <:+: i.opname := by
      simp only [globalOps, List.mem_cons, List.not_mem_nil, or_false] at hop
      rcases hop with h | h | h <;> rw [h]
      · exact ⟨"LOAD".toList, [], rfl⟩
      · exact ⟨"STORE".toList, [], rfl⟩
      · exact ⟨"DELETE".toList, [], rfl⟩
    obtain ⟨a, b, hab⟩ := hin
    refine ⟨i.pre ++ a, b ++ i.mid ++ '(' :: r ++ [')'], ?_⟩
    simp only [Instr.line, harg, ← hab, List.append_assoc, List.cons_append]
  · have hr : (∀ x ∈ r, x ≠ '(') ∧ (∀ x ∈ r, x ≠ ')') := by
      rcases hsh with rfl | ⟨_, rfl | rfl⟩
      · exact ⟨fun x hx => (hid x hx).1, fun x hx => (hid x hx).2.1⟩
      · constructor <;> intro x hx <;> rw [List.mem_append] at hx <;> rcases hx with hx | hx
        · revert x; decide
        · exact (hid x hx).1
        · revert x; decide
        · exact (hid x hx).2.1
      · constructor <;> intro x hx <;> rw [List.mem_append] at hx <;> rcases hx with hx | hx
        · exact (hid x hx).1
        · revert x; decide
        · exact (hid x hx).2.1
        · revert x; decide
    have h1 : afterLast '(' i.line = r ++ [')'] := by
      have : i.line = (i.pre ++ i.opname ++ i.mid) ++ '(' :: (r ++ [')']) := by
        simp [Instr.line, harg]
      rw [this]
      apply afterLast_append
      intro x hx
      rw [List.mem_append] at hx
      rcases hx with hx | hx
      · exact hr.1 x hx
      · simp at hx; subst hx; decide
    unfold nameOf
    rw [h1]
    have h2 : beforeFirst ')' (r ++ [')']) = r := takeWhile_ne_append ')' r [] hr.2
    rw [h2]
    rcases hsh with rfl | ⟨hc, rfl | rfl⟩
    · split
      · simp only
        rw [removeAll_nospace sNULLp _ (by decide) hsp, removeAll_nospace spNULL _ (by decide) hsp]
      · rfl
    · simp only [hc, if_true]
      have := removeAll_prefix n hsp
      unfold sNULLp at this ⊢
      rw [this, removeAll_nospace spNULL _ (by decide) hsp]
    · simp only [hc, if_true]
      exact removeAll_suffix n hsp

theorem mem_scanLines (cn : Bool) (lines : List Str) (s : List Str) (x : Str) :
    x ∈ scanLines cn lines s ↔
      x ∈ s ∨ ∃ l ∈ lines, hasSub sGLOBAL l = true ∧ x = nameOf cn l := by
  unfold scanLines
  induction lines generalizing s with
  | nil => simp
  | cons l ls ih =>
    rw [List.foldl_cons, ih]
    by_cases h : hasSub sGLOBAL l = true
    · simp only [h, if_true, mem_setAdd, List.mem_cons, exists_eq_or_imp, true_and, or_assoc]
    · simp [h]

theorem nodup_scanLines (cn : Bool) (lines : List Str) (s : List Str) (hs : s.Nodup) :
    (scanLines cn lines s).Nodup := by
  unfold scanLines
  induction lines generalizing s with
  | nil => exact hs
  | cons l ls ih =>
    rw [List.foldl_cons]
    apply ih
    split
    · exact nodup_setAdd hs _
    · exact hs

mutual
theorem mem_disLines (hdr : Code → Str) (c : Code) (l : Str) :
    l ∈ disLines hdr c ↔ (∃ i ∈ c.instrs, l = i.line) ∨
      (∃ d, NestedIn d c ∧ ((∃ i ∈ d.instrs, l = i.line) ∨ l = hdr d ∨ l = [])) := by
  match c with
  | .mk n is cs =>
    simp only [disLines, List.mem_append, List.mem_map, mem_disConsts hdr cs l, Code.instrs]
    constructor
    · rintro (⟨i, hi, rfl⟩ | ⟨d, hd | ⟨e, he, hd⟩, h⟩)
      · exact .inl ⟨i, hi, rfl⟩
      · exact .inr ⟨d, .direct _ hd, h⟩
      · exact .inr ⟨d, .deep _ _ he hd, h⟩
    · rintro (⟨i, hi, rfl⟩ | ⟨d, hd, h⟩)
      · exact .inl ⟨i, hi, rfl⟩
      · cases hd with
        | direct _ hd => exact .inr ⟨d, .inl hd, h⟩
        | deep e _ he hd => exact .inr ⟨d, .inr ⟨e, he, hd⟩, h⟩
theorem mem_disConsts (hdr : Code → Str) (cs : Consts) (l : Str) :
    l ∈ disConsts hdr cs ↔
      (∃ d, (cs.Has d ∨ ∃ e, cs.Has e ∧ NestedIn d e) ∧
        ((∃ i ∈ d.instrs, l = i.line) ∨ l = hdr d ∨ l = [])) := by
  match cs with
  | .nil => simp [disConsts, has_nil]
  | .other n rest => simp only [disConsts, mem_disConsts hdr rest l, has_other]
  | .code c rest =>
    simp only [disConsts, List.mem_append, mem_disLines hdr c l, mem_disConsts hdr rest l, has_code,
      List.mem_cons, List.not_mem_nil, or_false]
    constructor
    · rintro (((h | h) | ⟨i, hi, rfl⟩ | ⟨d, hd, h⟩) | ⟨d, hd | ⟨e, he, hd⟩, h⟩)
      · exact ⟨c, .inl (.inl rfl), .inr (.inr h)⟩
      · exact ⟨c, .inl (.inl rfl), .inr (.inl h)⟩
      · exact ⟨c, .inl (.inl rfl), .inl ⟨i, hi, rfl⟩⟩
      · exact ⟨d, .inr ⟨c, .inl rfl, hd⟩, h⟩
      · exact ⟨d, .inl (.inr hd), h⟩
      · exact ⟨d, .inr ⟨e, .inr he, hd⟩, h⟩
    · rintro ⟨d, (rfl | hd) | ⟨e, rfl | he, hd⟩, h⟩
      · rcases h with ⟨i, hi, rfl⟩ | h | h
        · exact .inl (.inr (.inl ⟨i, hi, rfl⟩))
        · exact .inl (.inl (.inr h))
        · exact .inl (.inl (.inl h))
      · exact .inr ⟨d, .inl hd, h⟩
      · exact .inl (.inr (.inr ⟨d, hd, h⟩))
      · exact .inr ⟨d, .inr ⟨e, he, hd⟩, h⟩
end

/-- the names found by scanning one code object's disassembly -/
theorem mem_scan (cn : Bool) (hdr : Code → Str) (c : Code)
    (hc : ∀ d, d = c ∨ NestedIn d c → Clean cn hdr d) (x : Str) :
    x ∈ scanLines cn (disLines hdr c) [] ↔
      ∃ d, (d = c ∨ NestedIn d c) ∧ UsesGlobal cn d x := by
  rw [mem_scanLines]
  simp only [List.not_mem_nil, false_or, mem_disLines]
  have instr : ∀ d, (d = c ∨ NestedIn d c) → ∀ i ∈ d.instrs, hasSub sGLOBAL i.line = true →
      x = nameOf cn i.line → UsesGlobal cn d x := by
    intro d hd i hi hs hx
    rcases (hc d hd).1 i hi with ⟨n, hn⟩ | hn
    · rw [(nameOf_global cn i n hn).2] at hx
      subst hx; exact ⟨i, hi, hn⟩
    · rw [hasSub_iff] at hs; exact absurd hs hn
  constructor
  · rintro ⟨l, ⟨i, hi, rfl⟩ | ⟨d, hd, ⟨i, hi, rfl⟩ | rfl | rfl⟩, hs, hx⟩
    · exact ⟨c, .inl rfl, instr c (.inl rfl) i hi hs hx⟩
    · exact ⟨d, .inr hd, instr d (.inr hd) i hi hs hx⟩
    · rw [hasSub_iff] at hs; exact absurd hs (hc d (.inr hd)).2
    · exact absurd hs (by decide)
  · rintro ⟨d, hd, i, hi, hg⟩
    have := nameOf_global cn i x hg
    refine ⟨i.line, ?_, this.1, this.2.symm⟩
    rcases hd with rfl | hd
    · exact .inl ⟨i, hi, rfl⟩
    · exact .inr ⟨d, hd, .inl ⟨i, hi, rfl⟩⟩

theorem nested_trans {a b c : Code} (h1 : NestedIn a b) (h2 : NestedIn b c) : NestedIn a c := by
  induction h2 with
  | direct d h => exact .deep _ _ h h1
  | deep d e h _ ih => exact .deep _ _ h ih

mutual
theorem nestedglobals_spec (cn : Bool) (hdr : Code → Str) (recurse : Bool) (c : Code)
    (hc : ∀ d, d = c ∨ NestedIn d c → Clean cn hdr d) :
    (nestedglobals cn hdr recurse c).Nodup ∧
    ∀ x, x ∈ nestedglobals cn hdr recurse c ↔ ∃ d, (d = c ∨ NestedIn d c) ∧ UsesGlobal cn d x := by
  match c with
  | .mk n is cs =>
    have hsc := mem_scan cn hdr (.mk n is cs) hc
    have hnd := nodup_scanLines cn (disLines hdr (.mk n is cs)) [] (by simp)
    cases recurse with
    | false =>
      simp only [nestedglobals, Bool.false_eq_true, if_false]
      exact ⟨hnd, hsc⟩
    | true =>
      simp only [nestedglobals, if_true]
      have := nestedglobalsConsts_spec cn hdr cs
        (scanLines cn (disLines hdr (.mk n is cs)) []) hnd
        (fun d hd => hc d (.inr (by
          rcases hd with hd | ⟨e, he, hd⟩
          · exact .direct _ hd
          · exact .deep _ _ he hd)))
      refine ⟨this.1, fun x => ?_⟩
      rw [this.2, hsc]
      constructor
      · rintro (h | ⟨d, hd | ⟨e, he, hd⟩, hu⟩)
        · exact h
        · exact ⟨d, .inr (.direct _ hd), hu⟩
        · exact ⟨d, .inr (.deep _ _ he hd), hu⟩
      · exact .inl
theorem nestedglobalsConsts_spec (cn : Bool) (hdr : Code → Str) (cs : Consts) (s : List Str)
    (hs : s.Nodup)
    (hc : ∀ d, (cs.Has d ∨ ∃ e, cs.Has e ∧ NestedIn d e) → Clean cn hdr d) :
    (nestedglobalsConsts cn hdr cs s).Nodup ∧
    ∀ x, x ∈ nestedglobalsConsts cn hdr cs s ↔ x ∈ s ∨
      ∃ d, (cs.Has d ∨ ∃ e, cs.Has e ∧ NestedIn d e) ∧ UsesGlobal cn d x := by
  match cs with
  | .nil => simp [nestedglobalsConsts, has_nil, hs]
  | .other n rest =>
    simp only [nestedglobalsConsts, has_other] at hc ⊢
    exact nestedglobalsConsts_spec cn hdr rest s hs hc
  | .code c rest =>
    simp only [nestedglobalsConsts, has_code] at hc ⊢
    have h1 := nestedglobals_spec cn hdr true c (fun d hd => hc d (by
      rcases hd with rfl | hd
      · exact .inl (.inl rfl)
      · exact .inr ⟨c, .inl rfl, hd⟩))
    have h2 := nestedglobalsConsts_spec cn hdr rest (setUnion s (nestedglobals cn hdr true c))
      (nodup_setUnion hs _) (fun d hd => hc d (by
        rcases hd with hd | ⟨e, he, hd⟩
        · exact .inl (.inr hd)
        · exact .inr ⟨e, .inr he, hd⟩))
    refine ⟨h2.1, fun x => ?_⟩
    rw [h2.2, mem_setUnion, h1.2]
    constructor
    · rintro ((h | ⟨d, rfl | hd, hu⟩) | ⟨d, hd | ⟨e, he, hd⟩, hu⟩)
      · exact .inl h
      · exact .inr ⟨d, .inl (.inl rfl), hu⟩
      · exact .inr ⟨d, .inr ⟨c, .inl rfl, hd⟩, hu⟩
      · exact .inr ⟨d, .inl (.inr hd), hu⟩
      · exact .inr ⟨d, .inr ⟨e, .inr he, hd⟩, hu⟩
    · rintro (h | ⟨d, (rfl | hd) | ⟨e, rfl | he, hd⟩, hu⟩)
      · exact .inl (.inl h)
      · exact .inl (.inr ⟨d, .inl rfl, hu⟩)
      · exact .inr ⟨d, .inl hd, hu⟩
      · exact .inl (.inr ⟨d, .inr hd, hu⟩)
      · exact .inr ⟨d, .inr ⟨e, he, hd⟩, hu⟩
end

/-- C24 (recurse=True), for code whose displayed lines contain the text "_GLOBAL" only in the
global-variable instructions: nestedglobals returns, each once, exactly the names that the code or any
code nested in it uses as globals.  What is missing is that hypothesis (see `C24_spurious_name`) and
recurse=False (see `C24_recurse_false_wrong`). -/
theorem C24_nestedglobals_partial (canNull : Bool) (hdr : Code → Str) (c : Code)
    (hc : ∀ d, d = c ∨ NestedIn d c → Clean canNull hdr d) :
    (nestedglobals canNull hdr true c).Nodup ∧
    ∀ n, n ∈ nestedglobals canNull hdr true c ↔
      ∃ d, (d = c ∨ NestedIn d c) ∧ UsesGlobal canNull d n :=
  nestedglobals_spec canNull hdr true c hc

/-- Whatever the code, no used global is missed. -/
theorem C24_no_name_missed (canNull : Bool) (hdr : Code → Str) (c d : Code) (n : Str)
    (hd : d = c ∨ NestedIn d c) (hu : UsesGlobal canNull d n) :
    n ∈ nestedglobals canNull hdr true c := by
  have key : n ∈ scanLines canNull (disLines hdr c) [] := by
    rw [mem_scanLines]
    obtain ⟨i, hi, hg⟩ := hu
    have := nameOf_global canNull i n hg
    refine .inr ⟨i.line, ?_, this.1, this.2.symm⟩
    rw [mem_disLines]
    rcases hd with rfl | hd
    · exact .inl ⟨i, hi, rfl⟩
    · exact .inr ⟨d, hd, .inl ⟨i, hi, rfl⟩⟩
  have mono : ∀ (cs : Consts) (s : List Str), n ∈ s → n ∈ nestedglobalsConsts canNull hdr cs s := by
    intro cs
    apply Consts.rec (motive_1 := fun _ => True)
      (motive_2 := fun cs => ∀ s, n ∈ s → n ∈ nestedglobalsConsts canNull hdr cs s)
    · intros; trivial
    · intro s h; exact h
    · intro _ rest ih s h; exact ih s h
    · intro c rest _ ih s h
      exact ih _ ((mem_setUnion _ _ _).2 (.inl h))
  match c, key with
  | .mk a is cs, key => exact mono cs _ key

def C24_full : Prop := ∀ (canNull : Bool) (hdr : Code → Str) (c : Code) (recurse : Bool),
  ∀ n, n ∈ nestedglobals canNull hdr recurse c ↔
    ∃ d, (d = c ∨ (recurse = true ∧ NestedIn d c)) ∧ UsesGlobal canNull d n

/-- A function with a local variable called `MY_GLOBAL` and no global at all: the local is reported. -/
theorem C24_spurious_name : ∃ (c : Code), (∀ d, ¬ NestedIn d c) ∧ (∀ n, ¬ UsesGlobal true c n) ∧
    nestedglobals true (fun _ => []) true c = ["MY_GLOBAL".toList] := by
  refine ⟨.mk "f".toList [⟨"  2 ".toList, "LOAD_FAST".toList, " 0 ".toList,
    some "MY_GLOBAL".toList⟩] .nil, ?_, ?_, by decide +kernel⟩
  · intro d hd
    cases hd with
    | direct _ h => cases h
    | deep _ _ h _ => cases h
  · rintro n ⟨i, hi, hg⟩
    simp only [Code.instrs, List.mem_singleton] at hi
    subst hi
    exact absurd hg.1 (by decide)

/-- With recurse=False the names used only by nested code are still reported, because `dis.dis` itself
disassembles the nested code. -/
theorem C24_recurse_false_wrong :
    (∀ n, ¬ UsesGlobal true exMid n) ∧
    nestedglobals true (fun _ => "Disassembly".toList) false exMid = ["g".toList] := by
  refine ⟨?_, by decide +kernel⟩
  rintro n ⟨i, hi, _⟩
  simp [exMid, Code.instrs] at hi

theorem C24_full_false : ¬ C24_full := by
  intro h
  have h2 := h true (fun _ => "Disassembly".toList) exMid false "g".toList
  rw [C24_recurse_false_wrong.2] at h2
  obtain ⟨d, rfl | ⟨h, _⟩, hu⟩ := h2.1 (by simp)
  · exact C24_recurse_false_wrong.1 _ hu
  · simp at h

example : ∀ d, d = exOuter ∨ NestedIn d exOuter → Clean true (fun _ => "Disassembly".toList) d := by
  have hin : Clean true (fun _ => "Disassembly".toList) exInner := by
    refine ⟨?_, by rw [← hasSub_iff]; decide⟩
    intro i hi
    simp only [exInner, Code.instrs, List.mem_singleton] at hi
    subst hi
    exact .inl ⟨"g".toList, by decide, by unfold Ident; decide, _, rfl, .inr ⟨rfl, .inl rfl⟩⟩
  have hmid : Clean true (fun _ => "Disassembly".toList) exMid :=
    ⟨by simp [exMid, Code.instrs], by rw [← hasSub_iff]; decide⟩
  have nin : ∀ d, ¬ NestedIn d exInner := by
    intro d h; cases h with
    | direct _ h => cases h
    | deep _ _ h _ => cases h
  have nmid : ∀ d, NestedIn d exMid → d = exInner := by
    intro d h; cases h with
    | direct _ h => cases h with | skip _ _ h => cases h with
      | here => rfl
      | next _ _ h => cases h
    | deep e _ h h2 => cases h with | skip _ _ h => cases h with
      | here => exact absurd h2 (nin _)
      | next _ _ h => cases h
  rintro d (rfl | h)
  · refine ⟨?_, by rw [← hasSub_iff]; decide⟩
    intro i hi
    simp only [exOuter, Code.instrs, List.mem_singleton] at hi
    subst hi
    exact .inl ⟨"h".toList, by decide, by unfold Ident; decide, _, rfl, .inl rfl⟩
  · have : d = exMid ∨ d = exInner := by
      cases h with
      | direct _ h => cases h with
        | here => exact .inl rfl
        | next _ _ h => cases h with | skip _ _ h => cases h with
          | here => exact .inr rfl
          | next _ _ h => cases h
      | deep e _ h h2 => cases h with
        | here => exact .inr (nmid _ h2)
        | next _ _ h => cases h with | skip _ _ h => cases h with
          | here => exact absurd h2 (nin _)
          | next _ _ h => cases h
    rcases this with rfl | rfl
    · exact hmid
    · exact hin

/-! ### C27 -/

/-- C27: for every function (or method) whose code has distinct free-variable names, one cell each,
freevars binds exactly the names whose cells are filled, to the cell contents; it is empty for
anything that is not a function. -/
theorem C27_freevars (f : Func) (hn : f.freevarNames.Nodup)
    (hl : f.freevarNames.length = f.closure.length) (name : Str) (v : Obj) :
    ((freevars (.func f)).get name = some v ↔
      ∃ i : Nat, f.freevarNames[i]? = some name ∧ f.closure[i]? = some (some v)) ∧
    freevars (.method f) = freevars (.func f) ∧ freevars .other = [] := by
  refine ⟨?_, rfl, rfl⟩
  unfold freevars
  have gen : ∀ (ns : List Str) (cs : List (Option Obj)) (d : Dict Str Obj), ns.Nodup →
      ns.length = cs.length →
      (Dict.get ((ns.zip cs).foldl (fun d p => match p.2 with
        | some v => Dict.set d p.1 v
        | none => d) d) name = some v ↔
        (∃ i : Nat, ns[i]? = some name ∧ cs[i]? = some (some v)) ∨
        ((∀ (i : Nat) w, ns[i]? = some name → cs[i]? ≠ some (some w)) ∧ Dict.get d name = some v)) := by
    intro ns
    induction ns with
    | nil => intro cs d _ _; simp
    | cons n ns ih =>
      intro cs d hnd hlen
      cases cs with
      | nil => simp at hlen
      | cons c cs =>
        simp only [List.zip_cons_cons, List.foldl_cons]
        rw [ih cs _ (List.nodup_cons.1 hnd).2 (by simpa using hlen)]
        have hnot : ∀ i : Nat, ns[i]? = some n → False := by
          intro i hi
          exact (List.nodup_cons.1 hnd).1 (List.mem_of_getElem? hi)
        constructor
        · rintro (⟨i, h1, h2⟩ | ⟨h1, h2⟩)
          · exact .inl ⟨i + 1, by simpa using h1, by simpa using h2⟩
          · cases c with
            | none =>
              simp only at h2
              refine .inr ⟨?_, h2⟩
              intro i w hi
              cases i with
              | zero => simp
              | succ i => simpa using h1 i w (by simpa using hi)
            | some u =>
              simp only [Dict.get_set] at h2
              by_cases e : name = n
              · subst e
                simp at h2; subst h2
                exact .inl ⟨0, by simp, by simp⟩
              · rw [if_neg e] at h2
                refine .inr ⟨?_, h2⟩
                intro i w hi
                cases i with
                | zero => simp at hi; exact absurd hi.symm e
                | succ i => simpa using h1 i w (by simpa using hi)
        · rintro (⟨i, h1, h2⟩ | ⟨h1, h2⟩)
          · cases i with
            | zero =>
              simp at h1 h2; subst h1; subst h2
              right
              refine ⟨fun i w hi => (hnot i hi).elim, by simp⟩
            | succ i => exact .inl ⟨i, by simpa using h1, by simpa using h2⟩
          · right
            refine ⟨fun i w hi => by simpa using h1 (i + 1) w (by simpa using hi), ?_⟩
            cases c with
            | none => exact h2
            | some u =>
              simp only
              rw [Dict.get_set, if_neg]
              · exact h2
              · rintro rfl
                exact h1 0 u (by simp) (by simp)
  refine (gen f.freevarNames f.closure [] hn hl).trans ?_
  simp

example : (freevars (.func ⟨exInner, [], ["a".toList, "b".toList], [some 3, none], []⟩)) =
    [("a".toList, 3)] := by decide

end Verif.Detect
