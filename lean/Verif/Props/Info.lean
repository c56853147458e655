import Verif.Model.Info
/-!
C115: `dill.license()` prints, and `dill.__doc__` is, the same text in an installed dill and in one that is used from its sources.  The installed one
has the text as a Python literal that is written without any escaping: false for texts with backslashes, with three quotes in a row, or with a quote at the end;
true, and proved, for all others.
-/
set_option linter.unusedSimpArgs false
namespace Verif.Info

/-! ### specification -/

/-- C115 in full: for every license and every description. -/
def C115_full : Prop := (∀ license, installedLicense license = some (sourceLicense license)) ∧ ∀ readme, installedDoc readme = some (sourceDoc readme)

/-- nowhere in the text are there three single quotes in a row -/
def NoTriple (t : Text) : Prop := ∀ a b, t ≠ a ++ "'''".toList ++ b

/-- every backslash of the text is followed by a character that has no meaning after a backslash -/
def HarmlessBackslashes (t : Text) : Prop :=
  ∀ a b, t = a ++ '\\' :: b → ∃ d r, b = d :: r ∧ d ∉ "\n\\'\"ntrabvfxuUN0123456789".toList

/-! ### proofs -/

theorem literal_cons (c : Char) (cs : Text) : literal (c :: cs) =
    if c = '\'' ∧ cs.take 2 = ['\'', '\''] then some ([], cs.drop 2)
    else if c = '\\' then
      match cs with
      | [] => none
      | d :: ds => match escape d, literal ds with
        | some e, some (v, r) => some (e ++ v, r)
        | _, _ => none
    else match literal cs with
      | some (v, r) => some (c :: v, r)
      | none => none := by
  conv => lhs; rw [literal.eq_def]
  dsimp only
  rfl

theorem noTriple_iff (t : Text) : NoTriple t ↔ ¬ quotes <:+: t := by
  constructor
  · rintro h ⟨a, b, rfl⟩; exact h a b rfl
  · rintro h a b rfl; exact h ⟨a, b, rfl⟩

theorem infix_quotes (t : Text) : ¬ quotes <:+: t ++ ['\'', '\''] ↔ ¬ quotes <:+: t ∧ t.getLast? ≠ some '\'' := by
  constructor
  · intro h
    refine ⟨fun h1 => h (h1.trans (List.prefix_append _ _).isInfix), fun h1 => h ?_⟩
    obtain ⟨s, rfl⟩ := List.getLast?_eq_some_iff.1 h1
    exact ⟨s, [], by simp [quotes]⟩
  · rintro ⟨h1, h2⟩ h
    induction t with
    | nil =>
      have := h.length_le
      simp [quotes] at this
    | cons c t ih =>
      rw [List.cons_append, List.infix_cons_iff] at h
      rcases h with h | h
      · match t, h with
        | [], h => obtain ⟨r, h⟩ := h; simp [quotes] at h; rw [← h.1] at h2; exact h2 rfl
        | [x], h => obtain ⟨r, h⟩ := h; simp [quotes] at h; rw [← h.2.1] at h2; exact h2 rfl
        | x :: y :: t, h =>
          obtain ⟨r, h⟩ := h
          simp [quotes] at h
          apply h1
          rw [← h.1, ← h.2.1, ← h.2.2.1]
          exact ⟨[], t, rfl⟩
      · refine ih (fun h3 => h1 (List.infix_cons_iff.2 (.inr h3))) ?_ h
        cases t with
        | nil => simp
        | cons x t => rwa [List.getLast?_cons_cons] at h2

theorem literal_complete (rest : Text) : ∀ t : Text, '\\' ∉ t → ¬ quotes <:+: t ++ ['\'', '\''] → literal (t ++ quotes ++ rest) = some (t, rest) := by
  intro t
  induction t with
  | nil => intro _ _; rw [show [] ++ quotes ++ rest = '\'' :: '\'' :: '\'' :: rest from rfl, literal_cons, if_pos ⟨rfl, rfl⟩]; rfl
  | cons c t ih =>
    intro hb hq
    have hc : c ≠ '\\' := fun e => hb (by rw [e]; exact List.mem_cons_self)
    rw [show (c :: t) ++ quotes ++ rest = c :: (t ++ quotes ++ rest) from rfl, literal_cons, if_neg, if_neg hc,
      ih (fun h => hb (List.mem_cons_of_mem _ h)) (fun h => hq (List.infix_cons_iff.2 (.inr h)))]
    rintro ⟨rfl, h⟩
    apply hq
    rw [List.cons_append, List.infix_cons_iff]
    left
    match t, h with
    | [], _ => exact ⟨[], rfl⟩
    | [x], h => simp [quotes] at h; rw [h]; exact ⟨['\''], rfl⟩
    | x :: y :: t, h => simp [quotes] at h; rw [h.1, h.2]; exact ⟨t ++ ['\'', '\''], rfl⟩

/-- without backslashes, what is read is what is there up to the first three quotes -/
theorem literal_sound : ∀ src v r : Text, literal src = some (v, r) → '\\' ∉ src → src = v ++ quotes ++ r ∧ ¬ quotes <:+: v ++ ['\'', '\''] := by
  intro src
  induction src with
  | nil => intro v r h; rw [literal] at h; cases h
  | cons c cs ih =>
    intro v r h hb
    have hc : c ≠ '\\' := fun e => hb (by rw [e]; exact List.mem_cons_self)
    rw [literal_cons] at h
    split at h
    · next hq =>
      cases h
      obtain ⟨rfl, hq⟩ := hq
      refine ⟨?_, fun h => by have := h.length_le; simp [quotes] at this⟩
      show '\'' :: cs = '\'' :: '\'' :: '\'' :: cs.drop 2
      conv => lhs; rw [← List.take_append_drop 2 cs, hq]
      rfl
    · next hq =>
      cases hl : literal cs with
      | none => rw [hl] at h; cases h
      | some p =>
        obtain ⟨v', r'⟩ := p
        rw [hl] at h; cases h
        obtain ⟨e, hn⟩ := ih v' _ hl (fun h => hb (List.mem_cons_of_mem _ h))
        refine ⟨by rw [e]; rfl, ?_⟩
        rw [List.cons_append, List.infix_cons_iff]
        rintro (⟨w, hw⟩ | h)
        · apply hq
          have hcw : c = '\'' ∧ v' ++ ['\'', '\''] = '\'' :: '\'' :: w := by
            simp only [quotes, List.cons_append, List.nil_append, List.cons.injEq] at hw
            exact ⟨hw.1.symm, hw.2.symm⟩
          refine ⟨hcw.1, ?_⟩
          rw [e]
          match v', hcw.2 with
          | [], _ => rfl
          | [x], h => simp at h; rw [h.1]; rfl
          | x :: y :: v'', h => simp at h; rw [h.1, h.2.1]; rfl
        · exact hn h

theorem getLast_newline (t : Text) : (('\n' :: t).getLast? ≠ some '\'') ↔ t.getLast? ≠ some '\'' := by
  cases t with
  | nil => simp
  | cons x t => rw [List.getLast?_cons_cons]

theorem triple_newline (t : Text) : (quotes <:+: '\n' :: t) ↔ quotes <:+: t := by
  rw [List.infix_cons_iff]
  constructor
  · rintro (⟨r, h⟩ | h)
    · simp [quotes] at h
    · exact h
  · exact .inr

theorem escape_harmless (d : Char) (h : d ∉ "\n\\'\"ntrabvfxuUN0123456789".toList) : escape d = some ['\\', d] := by
  have hs : "\n\\'\"ntrabvfxuUN0123456789".toList = ['\n', '\\', '\'', '"', 'n', 't', 'r', 'a', 'b', 'v', 'f', 'x', 'u', 'U', 'N',
      '0', '1', '2', '3', '4', '5', '6', '7', '8', '9'] := rfl
  rw [hs] at h
  simp only [List.mem_cons, List.not_mem_nil, or_false, not_or] at h
  obtain ⟨h1, h2, h3, h4, h5, h6, h7, h8, h9, h10, h11, h12, h13, h14, h15, d0, d1, d2, d3, d4, d5, d6, d7, d8, d9⟩ := h
  have hd : d.isDigit = false := by
    apply Bool.eq_false_iff.2
    intro hd
    have hv : 48 ≤ d.val.toNat ∧ d.val.toNat ≤ 57 := by
      simp only [Char.isDigit, ge_iff_le, Bool.and_eq_true, decide_eq_true_eq] at hd
      exact ⟨hd.1, hd.2⟩
    have key : ∀ (c : Char), d.val.toNat = c.val.toNat → d = c := fun c e => Char.ext (UInt32.toNat_inj.1 e)
    have : d.val.toNat = 48 ∨ d.val.toNat = 49 ∨ d.val.toNat = 50 ∨ d.val.toNat = 51 ∨ d.val.toNat = 52 ∨ d.val.toNat = 53 ∨ d.val.toNat = 54 ∨
        d.val.toNat = 55 ∨ d.val.toNat = 56 ∨ d.val.toNat = 57 := by omega
    rcases this with e | e | e | e | e | e | e | e | e | e
    · exact d0 (key '0' e)
    · exact d1 (key '1' e)
    · exact d2 (key '2' e)
    · exact d3 (key '3' e)
    · exact d4 (key '4' e)
    · exact d5 (key '5' e)
    · exact d6 (key '6' e)
    · exact d7 (key '7' e)
    · exact d8 (key '8' e)
    · exact d9 (key '9' e)
  unfold escape
  simp only [h1, h2, h3, h4, h5, h6, h7, h8, h9, h10, h11, h12, h13, h14, h15, hd, if_false, or_self, Bool.false_eq_true]

theorem HarmlessBackslashes.tail {c t} (h : HarmlessBackslashes (c :: t)) : HarmlessBackslashes t := by
  rintro a b rfl; exact h (c :: a) b rfl

theorem literal_harmless (rest : Text) : ∀ (n : Nat) (t : Text), t.length ≤ n → HarmlessBackslashes t → ¬ quotes <:+: t ++ ['\'', '\''] →
    literal (t ++ quotes ++ rest) = some (t, rest) := by
  intro n
  induction n with
  | zero =>
    intro t hn _ hq
    have : t = [] := List.length_eq_zero_iff.1 (Nat.le_zero.1 hn)
    subst this
    exact literal_complete rest [] (by simp) hq
  | succ n ih =>
    intro t hn hh hq
    cases t with
    | nil => exact literal_complete rest [] (by simp) hq
    | cons c t =>
      by_cases hc : c = '\\'
      · subst hc
        obtain ⟨d, r, rfl, hd⟩ := hh [] t rfl
        have hq2 : ¬ quotes <:+: r ++ ['\'', '\''] := fun h => hq (List.infix_cons_iff.2 (.inr (List.infix_cons_iff.2 (.inr h))))
        have ih2 := ih r (by simp at hn; omega) hh.tail.tail hq2
        rw [show '\\' :: d :: r ++ quotes ++ rest = '\\' :: (d :: (r ++ quotes ++ rest)) from rfl, literal_cons, if_neg (fun h => absurd h.1 (by decide)), if_pos rfl]
        simp only [escape_harmless d hd, ih2]
        rfl
      · have ih1 := ih t (by simp at hn; omega) hh.tail (fun h => hq (List.infix_cons_iff.2 (.inr h)))
        rw [show (c :: t) ++ quotes ++ rest = c :: (t ++ quotes ++ rest) from rfl, literal_cons, if_neg, if_neg hc, ih1]
        rintro ⟨rfl, h⟩
        apply hq
        rw [List.cons_append, List.infix_cons_iff]
        left
        match t, h with
        | [], _ => exact ⟨[], rfl⟩
        | [x], h => simp [quotes] at h; rw [h]; exact ⟨['\''], rfl⟩
        | x :: y :: t, h => simp [quotes] at h; rw [h.1, h.2]; exact ⟨t ++ ['\'', '\''], rfl⟩

/-- C115 for texts without backslashes, exactly: the installed text is that of the sources if and only if there are no three quotes in a row and no quote
at the end. -/
theorem C115_exact (t : Text) (hb : '\\' ∉ t) :
    (installedLicense t = some (sourceLicense t) ↔ NoTriple t ∧ t.getLast? ≠ some '\'') ∧
    (installedDoc t = some (sourceDoc t) ↔ NoTriple t ∧ t.getLast? ≠ some '\'') := by
  rw [noTriple_iff]
  constructor
  · unfold installedLicense sourceLicense writtenLicense
    constructor
    · intro h
      cases hl : literal ('\n' :: t ++ quotes ++ ['\n']) with
      | none => rw [hl] at h; cases h
      | some p =>
        obtain ⟨v, r⟩ := p
        rw [hl] at h
        have hv : v = '\n' :: t := by
          revert h; split
          · next e => intro h; cases e; exact Option.some.inj h
          · intro h; cases h
        have := (literal_sound _ _ _ hl (by simp [quotes, hb])).2
        rw [hv, infix_quotes, triple_newline, getLast_newline] at this
        exact this
    · rintro h
      rw [← triple_newline, ← getLast_newline, ← infix_quotes] at h
      rw [literal_complete _ _ (by simp [hb]) h]
      rfl
  · unfold installedDoc sourceDoc writtenDoc
    constructor
    · intro h
      cases hl : literal (t ++ quotes ++ ['\n', '\n']) with
      | none => rw [hl] at h; cases h
      | some p =>
        obtain ⟨v, r⟩ := p
        rw [hl] at h
        have hv : v = t := by
          revert h; split
          · next e => intro h; cases e; exact Option.some.inj h
          · intro h; cases h
        have := (literal_sound _ _ _ hl (by simp [quotes, hb])).2
        rw [hv, infix_quotes] at this
        exact this
    · rintro h
      rw [← infix_quotes] at h
      rw [literal_complete _ _ hb h]
      rfl

/-- C115 for texts without backslashes, without three quotes in a row, and without a quote at the end. -/
theorem C115_same_text_partial (t : Text) (hb : '\\' ∉ t) (hq : NoTriple t) (hl : t.getLast? ≠ some '\'') :
    installedLicense t = some (sourceLicense t) ∧ installedDoc t = some (sourceDoc t) :=
  ⟨(C115_exact t hb).1.2 ⟨hq, hl⟩, (C115_exact t hb).2.2 ⟨hq, hl⟩⟩

/-- C115, with backslashes, as long as Python does not know them: the texts are the same, too (though Python warns of such literals). -/
theorem C115_harmless_backslashes_partial (t : Text) (hb : HarmlessBackslashes t) (hq : NoTriple t) (hl : t.getLast? ≠ some '\'') :
    installedLicense t = some (sourceLicense t) ∧ installedDoc t = some (sourceDoc t) := by
  rw [noTriple_iff] at hq
  have h1 : ¬ quotes <:+: t ++ ['\'', '\''] := (infix_quotes t).2 ⟨hq, hl⟩
  have h2 : ¬ quotes <:+: ('\n' :: t) ++ ['\'', '\''] :=
    (infix_quotes _).2 ⟨fun h => hq ((triple_newline t).1 h), (getLast_newline t).2 hl⟩
  constructor
  · unfold installedLicense sourceLicense writtenLicense
    rw [literal_harmless ['\n'] _ ('\n' :: t) (Nat.le_refl _) ?_ h2]
    · rfl
    · intro a b e
      cases a with
      | nil => simp at e
      | cons x a => simp only [List.cons_append, List.cons.injEq] at e; exact hb a b e.2
  · unfold installedDoc sourceDoc writtenDoc
    rw [literal_harmless ['\n', '\n'] _ t (Nat.le_refl _) hb h1]
    rfl

/-- C115 is false: a description that quotes a Windows path, `C:\new`, has a line break there once it is installed. -/
theorem C115_full_false : ¬ C115_full := by
  intro h
  have := h.2 "C:\\new".toList
  revert this; decide +kernel

/-- the same text, installed -/
theorem C115_line_break : installedDoc "C:\\new".toList = some ['C', ':', '\n', 'e', 'w'] := by decide +kernel

/-! ### concrete cases -/

example : installedLicense "Copyright (c) 'dill'. ".toList = some "\nCopyright (c) 'dill'. ".toList := by decide +kernel

/-- with the hypotheses of C115_same_text_partial: quotes, two in a row, but none at the end -/
example : ('\\' ∉ "it''s.".toList) ∧ NoTriple "it''s.".toList ∧ "it''s.".toList.getLast? ≠ some '\'' := by
  refine ⟨by decide, ?_, by decide⟩
  rw [noTriple_iff, show "it''s.".toList = ['i', 't', '\'', '\'', 's', '.'] from rfl]
  simp [List.infix_cons_iff, quotes]

/-- with the hypotheses of C115_harmless_backslashes_partial -/
example : HarmlessBackslashes ['a', '\\', '.', 'b'] := by
  intro a b e
  match a, e with
  | [], e => simp at e
  | [x], e => simp at e; exact ⟨'.', ['b'], e.2.symm, by decide⟩
  | [x, y], e => simp at e
  | [x, y, z], e => simp at e
  | x :: y :: z :: w :: a, e => simp at e

/-- a quote at the end: the literal ends one quote early -/
example : literal (writtenDoc "a'".toList) = some (['a'], ['\'', '\n', '\n']) := by decide +kernel

end Verif.Info
