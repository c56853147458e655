import Verif.Model.PyStr
/-! Lemmas on the Python string operations of Model/PyStr. -/
set_option linter.unusedSimpArgs false
namespace Verif.PyStr


theorem splitGo_skip {sep : List Char} {c : Char} (h : sep.head? ≠ some c) (hs : sep ≠ []) (cur s : List Char) :
    splitGo sep 0 cur (c :: s) = splitGo sep 0 (c :: cur) s := by
  cases sep with
  | nil => exact absurd rfl hs
  | cons a t =>
    have : a ≠ c := by intro e; subst e; exact h rfl
    simp [splitGo, List.isPrefixOf, this]

theorem splitGo_skips {sep : List Char} (hs : sep ≠ []) (p : List Char) (h : ∀ c ∈ p, sep.head? ≠ some c)
    (cur s : List Char) : splitGo sep 0 cur (p ++ s) = splitGo sep 0 (p.reverse ++ cur) s := by
  induction p generalizing cur with
  | nil => simp
  | cons c p ih =>
    rw [List.cons_append, splitGo_skip (h c (by simp)) hs, ih (fun c hc => h c (by simp [hc]))]
    simp

/-- the first piece extends what has been read -/
theorem splitGo_head (sep : List Char) : ∀ (s : List Char) (k : Nat) (cur : List Char),
    ∃ w tl, splitGo sep k cur s = (cur.reverse ++ w) :: tl := by
  intro s
  induction s with
  | nil => intro k cur; exact ⟨[], [], by cases k <;> simp [splitGo]⟩
  | cons c s ih =>
    intro k cur
    cases k with
    | zero =>
      simp only [splitGo]
      split
      · exact ⟨[], splitGo sep (sep.length - 1) [] s, by simp⟩
      · obtain ⟨w, tl, h⟩ := ih 0 (c :: cur)
        exact ⟨c :: w, tl, by rw [h]; simp⟩
    | succ k =>
      obtain ⟨w, tl, h⟩ := ih k cur
      exact ⟨w, tl, by simp [splitGo, h]⟩

theorem splitWsGo_token (t : List Char) (h : ∀ c ∈ t, isSpace c = false) (ht : t ≠ []) (w : List Char)
    (cur : List Char) : ∃ tl, splitWsGo cur (t ++ ' ' :: w) = (cur.reverse ++ t) :: tl := by
  induction t generalizing cur with
  | nil => exact absurd rfl ht
  | cons c t ih =>
    have hc := h c (by simp)
    simp only [List.cons_append, splitWsGo, hc]
    cases t with
    | nil => exact ⟨splitWsGo [] w, by simp [splitWsGo, isSpace]⟩
    | cons d t =>
      obtain ⟨tl, e⟩ := ih (fun c hc => h c (by simp [hc])) (by simp) (c :: cur)
      exact ⟨tl, by simpa using e⟩

theorem splitWs_token (t w : List Char) (h : ∀ c ∈ t, isSpace c = false) (ht : t ≠ []) :
    (splitWs (t ++ ' ' :: w))[0]? = some t := by
  obtain ⟨tl, e⟩ := splitWsGo_token t h ht w []
  simp [splitWs, e]

theorem digit_ne {c d : Char} (h : c.isDigit = true) (hd : d.isDigit = false) : c ≠ d := by
  intro e; subst e; rw [h] at hd; cases hd

theorem str10_digit (n : Nat) : ∀ c ∈ str10 n, c.isDigit = true := fun _ h =>
  Nat.isDigit_of_mem_toDigits (by decide) (by decide) h

theorem str10_ne (n : Nat) : str10 n ≠ [] := Nat.toDigits_ne_nil

theorem isSpace_range {c : Char} (h : isSpace c = true) : c.toNat ≤ 32 ∨ 0x85 ≤ c.toNat := by
  simp only [isSpace, Bool.or_eq_true, Bool.and_eq_true, decide_eq_true_eq, beq_iff_eq] at h
  omega

theorem alphanum_range {c : Char} (h : c.isAlphanum = true) : 48 ≤ c.toNat ∧ c.toNat ≤ 122 := by
  simp only [Char.isAlphanum, Char.isAlpha, Char.isUpper, Char.isLower, Char.isDigit, Bool.or_eq_true, Bool.and_eq_true, decide_eq_true_eq,
    UInt32.le_iff_toNat_le, ge_iff_le] at h
  have e : c.toNat = c.val.toNat := rfl
  rw [e]
  simp at h
  omega

theorem isSpace_alphanum {c : Char} (h : c.isAlphanum = true) : isSpace c = false := by
  cases hs : isSpace c with
  | false => rfl
  | true =>
    have h1 := isSpace_range hs
    have h2 := alphanum_range h
    omega

theorem isSpace_digit {c : Char} (h : c.isDigit = true) : isSpace c = false :=
  isSpace_alphanum (by simp [Char.isAlphanum, h])

theorem int10_str10 (n : Nat) : int10 (str10 n) = some n := by
  have h1 : (str10 n).all Char.isDigit = true := List.all_eq_true.2 (str10_digit n)
  have h2 : (str10 n).isEmpty = false := by simpa using str10_ne n
  unfold int10
  rw [h1, h2]
  simp [str10, Nat.ofDigitChars_ten_toDigits]

theorem rstrip_noop (c : Char) (t : List Char) (h : ∀ d ∈ t, d ≠ c) : rstrip c t = t := by
  unfold rstrip
  have : t.reverse.dropWhile (· == c) = t.reverse := by
    cases e : t.reverse with
    | nil => rfl
    | cons d l =>
      have : d ∈ t := by rw [← List.mem_reverse, e]; simp
      have h' : (d == c) = false := by simp [h d this]
      simp [List.dropWhile, h']
  rw [this, List.reverse_reverse]

end Verif.PyStr
