import Verif.Model.Indent
/-! C36: indent and outdent. -/
set_option linter.unusedSimpArgs false
namespace Verif.Indent
open PyStr

/-! ### specification -/

/-- number of white characters at the start of a text -/
def leading : List Char → Nat
  | [] => 0
  | c :: s => if isSpace c then leading s + 1 else 0

/-- the text as lines: `Lines code ls` when joining `ls` with newlines gives `code` and no line has a newline -/
def Lines (code : List Char) (ls : List (List Char)) : Prop :=
  ls ≠ [] ∧ List.intercalate ['\n'] ls = code ∧ ∀ l ∈ ls, '\n' ∉ l

/-- no tab is used in the indentation of a line -/
def NoTabIndent (ls : List (List Char)) : Prop := ∀ l ∈ ls, '\t' ∉ l.take (leading l)

/-! ### lemmas -/

theorem joinNL_eq (ls : List (List Char)) : joinNL ls = List.intercalate ['\n'] ls := by
  induction ls with
  | nil => rfl
  | cons l ls ih =>
    cases ls with
    | nil => simp [joinNL, List.intercalate]
    | cons m ms =>
      simp only [joinNL, ih]
      simp [List.intercalate, List.intersperse]

theorem splitNL_ne (s : List Char) : splitNL s ≠ [] := by
  cases s with
  | nil => simp [splitNL]
  | cons c s =>
    simp only [splitNL]
    split
    · simp
    · split <;> simp

theorem joinNL_cons (l : List Char) (ls : List (List Char)) (h : ls ≠ []) :
    joinNL (l :: ls) = l ++ '\n' :: joinNL ls := by
  cases ls with
  | nil => exact absurd rfl h
  | cons m ms => rfl

theorem joinNL_cons_char (c : Char) (l : List Char) (ls : List (List Char)) :
    joinNL ((c :: l) :: ls) = c :: joinNL (l :: ls) := by
  cases ls <;> rfl

theorem join_split (s : List Char) : joinNL (splitNL s) = s := by
  induction s with
  | nil => rfl
  | cons c s ih =>
    simp only [splitNL]
    by_cases h : c = '\n'
    · simp only [h, if_true]
      rw [joinNL_cons _ _ (splitNL_ne s), ih]; rfl
    · simp only [h, if_false]
      cases e : splitNL s with
      | nil => exact absurd e (splitNL_ne s)
      | cons l ls =>
        simp only []
        rw [joinNL_cons_char, ← e, ih]

theorem split_nonl (s : List Char) : ∀ l ∈ splitNL s, '\n' ∉ l := by
  induction s with
  | nil => simp [splitNL]
  | cons c s ih =>
    simp only [splitNL]
    by_cases h : c = '\n'
    · simp only [h, if_true]
      intro l hl
      rcases List.mem_cons.1 hl with rfl | hl
      · simp
      · exact ih l hl
    · simp only [h, if_false]
      cases e : splitNL s with
      | nil => exact absurd e (splitNL_ne s)
      | cons m ms =>
        rw [e] at ih
        intro l hl
        rcases List.mem_cons.1 hl with rfl | hl
        · simp only [List.mem_cons, not_or]
          exact ⟨Ne.symm h, ih m (by simp)⟩
        · exact ih l (by simp [hl])

theorem splitNL_nonl_append (l s : List Char) (h : '\n' ∉ l) :
    splitNL (l ++ '\n' :: s) = l :: splitNL s := by
  induction l with
  | nil => simp [splitNL]
  | cons c l ih =>
    simp only [List.mem_cons, not_or] at h
    simp only [List.cons_append, splitNL, Ne.symm h.1, if_false, ih h.2]

theorem splitNL_nonl (l : List Char) (h : '\n' ∉ l) : splitNL l = [l] := by
  induction l with
  | nil => rfl
  | cons c l ih =>
    simp only [List.mem_cons, not_or] at h
    simp only [splitNL, Ne.symm h.1, if_false, ih h.2]

theorem split_join (ls : List (List Char)) (hn : ls ≠ []) (h : ∀ l ∈ ls, '\n' ∉ l) : splitNL (joinNL ls) = ls := by
  induction ls with
  | nil => exact absurd rfl hn
  | cons l ls ih =>
    cases ls with
    | nil => exact splitNL_nonl l (h l (by simp))
    | cons m ms =>
      rw [joinNL_cons _ _ (by simp), splitNL_nonl_append _ _ (h l (by simp)),
        ih (by simp) (fun x hx => h x (by simp [hx]))]

theorem lines_iff (code : List Char) (ls : List (List Char)) : Lines code ls ↔ splitNL code = ls := by
  constructor
  · rintro ⟨h1, h2, h3⟩
    rw [← h2, ← joinNL_eq]; exact split_join ls h1 h3
  · intro h
    subst h
    exact ⟨splitNL_ne code, by rw [← joinNL_eq, join_split], split_nonl code⟩

theorem leading_eq (s : List Char) : leading s = s.length - (s.dropWhile isSpace).length := by
  induction s with
  | nil => rfl
  | cons c s ih =>
    have hle : (s.dropWhile isSpace).length ≤ s.length := (List.dropWhile_sublist _).length_le
    simp only [leading, List.dropWhile_cons]
    by_cases h : isSpace c
    · simp only [h, if_true, ih, List.length_cons]; omega
    · simp [h]

theorem leading_append (w s : List Char) (h : ∀ c ∈ w, isSpace c = true) : leading (w ++ s) = w.length + leading s := by
  induction w with
  | nil => simp
  | cons c w ih =>
    simp only [List.cons_append, leading, h c (by simp), if_true, ih fun x hx => h x (by simp [hx]), List.length_cons]
    omega

theorem leading_expand (col : Nat) (s : List Char) (h : '\t' ∉ s.take (leading s)) :
    leading (expandtabs col s) = leading s := by
  induction s generalizing col with
  | nil => rfl
  | cons c s ih =>
    by_cases hc : isSpace c
    · simp only [leading, hc, if_true, List.take_succ_cons, List.mem_cons, not_or] at h
      simp only [expandtabs, Ne.symm h.1, if_false, leading, hc, if_true]
      rw [ih _ h.2]
    · have : c ≠ '\t' := by rintro rfl; exact hc (by decide)
      simp [expandtabs, this, leading, hc]

theorem indentsize_eq (s : List Char) (h : '\t' ∉ s.take (leading s)) : indentsize s = leading s := by
  unfold indentsize
  simp only []
  rw [← leading_eq, leading_expand 0 s h]

theorem take_leading_space (s : List Char) : ∀ c ∈ s.take (leading s), isSpace c = true := by
  induction s with
  | nil => simp
  | cons c s ih =>
    simp only [leading]
    by_cases h : isSpace c
    · simp only [h, if_true, List.take_succ_cons]
      intro x hx
      rcases List.mem_cons.1 hx with rfl | hx
      · exact h
      · exact ih x hx
    · simp [h]

theorem leading_le (s : List Char) : leading s ≤ s.length := by rw [leading_eq]; omega

/-- the white space at the start of the text holds no tab either -/
theorem code_noTab (code : List Char) (h : NoTabIndent (splitNL code)) : '\t' ∉ code.take (leading code) := by
  induction code with
  | nil => simp
  | cons c s ih =>
    by_cases hc : isSpace c
    · simp only [leading, hc, if_true, List.take_succ_cons, List.mem_cons, not_or]
      by_cases hn : c = '\n'
      · subst hn
        refine ⟨by decide, ih ?_⟩
        intro l hl
        exact h l (by simp only [splitNL, if_true]; exact List.mem_cons_of_mem _ hl)
      · cases e : splitNL s with
        | nil => exact absurd e (splitNL_ne s)
        | cons l ls =>
          have h1 := h (c :: l) (by simp [splitNL, hn, e])
          simp only [leading, hc, if_true, List.take_succ_cons, List.mem_cons, not_or] at h1
          refine ⟨h1.1, ih ?_⟩
          intro m hm
          rw [e] at hm
          rcases List.mem_cons.1 hm with rfl | hm
          · exact h1.2
          · exact h m (by simp [splitNL, hn, e, hm])
    · simp [leading, hc]

theorem leading_code_ge (code l : List Char) (ls : List (List Char)) (h : splitNL code = l :: ls) :
    leading l ≤ leading code := by
  induction code generalizing l ls with
  | nil => simp [splitNL] at h; rw [h.1]; simp [leading]
  | cons c s ih =>
    by_cases hn : c = '\n'
    · simp [splitNL, hn] at h; rw [h.1]; simp [leading]
    · cases e : splitNL s with
      | nil => exact absurd e (splitNL_ne s)
      | cons m ms =>
        simp [splitNL, hn, e] at h
        obtain ⟨rfl, _⟩ := h
        simp only [leading]
        split
        · have := ih m ms e; omega
        · omega

/-- the first line is not blank: the text's indentation is the first line's -/
theorem leading_code_eq (code l : List Char) (ls : List (List Char)) (h : splitNL code = l :: ls)
    (hb : leading l < l.length) : leading code = leading l := by
  induction code generalizing l ls with
  | nil => simp [splitNL] at h; rw [h.1] at hb; simp [leading] at hb
  | cons c s ih =>
    by_cases hn : c = '\n'
    · simp [splitNL, hn] at h; rw [h.1] at hb; simp [leading] at hb
    · cases e : splitNL s with
      | nil => exact absurd e (splitNL_ne s)
      | cons m ms =>
        simp [splitNL, hn, e] at h
        obtain ⟨rfl, _⟩ := h
        simp only [leading] at hb ⊢
        by_cases hc : isSpace c
        · simp only [hc, if_true, List.length_cons] at hb ⊢
          rw [ih m ms e (by omega)]
        · simp [hc]

/-! ### outdent -/

/-- C36: with no tabs in the indentation, each line loses white characters only: as many as asked for, as the first
line (or the text, whichever is less) has, and as it has itself. -/
theorem C36_outdent_partial (code l : List Char) (ls : List (List Char)) (h : Lines code (l :: ls))
    (ht : NoTabIndent (l :: ls)) (spaces : Option Nat) :
    outdent code (spaces.map Int.ofNat) true = List.intercalate ['\n']
      ((l :: ls).map fun x => x.drop (min (leading x) ((spaces.map fun n => min n (leading l)).getD (leading l)))) := by
  have hs := (lines_iff _ _).1 h
  have h1 : indentsize code = leading code := indentsize_eq _ (code_noTab code (by rw [hs]; exact ht))
  have h2 : indentsize l = leading l := indentsize_eq _ (ht l (by simp))
  have h3 := leading_code_ge code l ls hs
  have hcl : ∀ (n m : Nat), clamp (some (n : Int)) m = min n m := by
    intro n m
    unfold clamp
    by_cases hnm : (n : Int) > m ∨ (n : Int) < 0
    · simp only [hnm, if_true]; omega
    · simp only [hnm, if_false]; omega
  have hn : clamp (some ((clamp (spaces.map Int.ofNat) (indentsize code) : Nat) : Int)) (indentsize l) =
      (spaces.map fun n => min n (leading l)).getD (leading l) := by
    rw [h1, h2, hcl]
    cases spaces with
    | none => simp only [clamp, Option.map_none, Option.getD_none]; omega
    | some n =>
      simp only [Option.map_some, Option.getD_some, Int.ofNat_eq_natCast, hcl]; omega
  simp only [outdent, hs, outdentLines, hn, joinNL_eq]
  congr 1
  apply List.map_congr_left
  intro x hx
  simp only [outdentLine, indentsize_eq x (ht x hx)]
  congr 1
  split <;> omega

theorem filter_intercalate (p : Char → Bool) (ls : List (List Char)) :
    (List.intercalate ['\n'] ls).filter p = List.intercalate (['\n'].filter p) (ls.map (·.filter p)) := by
  rw [List.intercalate, List.intercalate, List.filter_flatten]
  congr 1
  induction ls with
  | nil => rfl
  | cons l ls ih => cases ls <;> simp_all [List.intersperse]

theorem drop_nonblank (x : List Char) (n : Nat) (h : n ≤ leading x) :
    (x.drop n).filter (fun c => ! isSpace c) = x.filter (fun c => ! isSpace c) := by
  conv => rhs; rw [← List.take_append_drop n x]
  rw [List.filter_append]
  have : (x.take n).filter (fun c => ! isSpace c) = [] := by
    rw [List.filter_eq_nil_iff]
    intro c hc
    have : c ∈ x.take (leading x) := by
      rw [← Nat.min_eq_left h, ← List.take_take] at hc
      exact List.mem_of_mem_take hc
    simp [take_leading_space x c this]
  rw [this, List.nil_append]

/-- C36: with no tabs in the indentation, outdent never deletes, adds or reorders a non-blank character, whatever
the arguments. -/
theorem C36_nonblank_kept_partial (code : List Char) (ls : List (List Char)) (h : Lines code ls) (ht : NoTabIndent ls)
    (spaces : Option Int) (all : Bool) :
    (outdent code spaces all).filter (fun c => ! isSpace c) = code.filter (fun c => ! isSpace c) := by
  have hs := (lines_iff _ _).1 h
  have h1 : indentsize code = leading code := indentsize_eq _ (code_noTab code (by rw [hs]; exact ht))
  have hcl : ∀ n, clamp spaces n ≤ n := by
    intro n; unfold clamp; split
    · omega
    · split <;> omega
  cases all with
  | false =>
    simp only [outdent, h1]
    exact drop_nonblank code _ (hcl _)
  | true =>
    cases ls with
    | nil => exact absurd rfl h.1
    | cons l ls =>
      simp only [outdent, hs, outdentLines, joinNL_eq]
      conv => rhs; rw [← h.2.1]
      rw [filter_intercalate, filter_intercalate, List.map_map]
      congr 1
      apply List.map_congr_left
      intro x hx
      simp only [Function.comp, outdentLine, indentsize_eq x (ht x hx)]
      exact drop_nonblank x _ (by split <;> omega)

/-- C36 is false with tabs: `indentsize` counts a tab as up to eight columns, and that many characters are cut. -/
theorem C36_tab_deletes_code : outdent ['\t', 'x', ' ', '=', ' ', '1'] none true = [] ∧
    outdent ['\t', 'x', ' ', '=', ' ', '1'] none false = [] := by decide +kernel

/-- the column where a line's text starts, with tab stops at every eight columns -/
def column (ws : List Char) : Nat := ws.foldl (fun c x => if x = '\t' then (c / 8 + 1) * 8 else c + 1) 0

theorem expand_ws (ws r : List Char) (h : ∀ c ∈ ws, c = ' ' ∨ c = '\t') (col : Nat) :
    ∃ n k, expandtabs col (ws ++ r) = List.replicate n ' ' ++ expandtabs k r ∧
      col + n = ws.foldl (fun c x => if x = '\t' then (c / 8 + 1) * 8 else c + 1) col := by
  induction ws generalizing col with
  | nil => exact ⟨0, col, rfl, rfl⟩
  | cons c ws ih =>
    have ih' := fun col => ih (fun x hx => h x (List.mem_cons_of_mem _ hx)) col
    simp only [List.cons_append, List.foldl_cons]
    rcases h c (by simp) with rfl | rfl
    · obtain ⟨n, k, e1, e2⟩ := ih' (col + 1)
      refine ⟨n + 1, k, ?_, ?_⟩
      · have : expandtabs col (' ' :: (ws ++ r)) = ' ' :: expandtabs (col + 1) (ws ++ r) := by
          rw [expandtabs, if_neg (by decide), if_neg (by decide)]
        rw [this, e1, List.replicate_succ, List.cons_append]
      · rw [if_neg (by decide), ← e2]; omega
    · obtain ⟨n, k, e1, e2⟩ := ih' 0
      have hcong : ∀ (l : List Char) (a b : Nat), a % 8 = b % 8 → a ≤ b →
          l.foldl (fun c x => if x = '\t' then (c / 8 + 1) * 8 else c + 1) b =
          l.foldl (fun c x => if x = '\t' then (c / 8 + 1) * 8 else c + 1) a + (b - a) := by
        intro l
        induction l with
        | nil => intro a b _ hab; simp; omega
        | cons x l ihl =>
          intro a b hm hab
          simp only [List.foldl_cons]
          split
          · have := ihl ((a / 8 + 1) * 8) ((b / 8 + 1) * 8) (by omega) (by omega)
            rw [this]; omega
          · rw [ihl (a + 1) (b + 1) (by omega) (by omega)]; omega
      refine ⟨8 - col % 8 + n, k, ?_, ?_⟩
      · have : expandtabs col ('\t' :: (ws ++ r)) = List.replicate (8 - col % 8) ' ' ++ expandtabs 0 (ws ++ r) := by
          rw [expandtabs, if_pos rfl]
        rw [this, e1, ← List.append_assoc, List.replicate_append_replicate]
      · rw [if_pos rfl, hcong ws 0 ((col / 8 + 1) * 8) (by omega) (by omega), ← e2]; omega

theorem indentsize_column (ws r : List Char) (h : ∀ c ∈ ws, c = ' ' ∨ c = '\t') (hr : ∀ c, r.head? = some c → isSpace c = false) :
    indentsize (ws ++ r) = column ws := by
  obtain ⟨n, k, e1, e2⟩ := expand_ws ws r h 0
  have hd : (List.replicate n ' ' ++ expandtabs k r).dropWhile isSpace = expandtabs k r := by
    have hrest : (expandtabs k r).dropWhile isSpace = expandtabs k r := by
      cases r with
      | nil => rfl
      | cons c r =>
        have hc := hr c rfl
        have : c ≠ '\t' := by rintro rfl; exact absurd hc (by decide)
        rw [expandtabs, if_neg this, List.dropWhile_cons_of_neg (by simp [hc])]
    clear e1 e2
    induction n with
    | zero => simpa using hrest
    | succ n ih => rw [List.replicate_succ, List.cons_append, List.dropWhile_cons_of_pos (by decide)]; exact ih
  unfold indentsize
  simp only [e1, hd, List.length_append, List.length_replicate]
  unfold column
  omega

/-- What `outdent` does to a line indented with spaces and tabs: it deletes as many characters as the column where the text starts, so
each tab takes up to seven characters of code with it. -/
theorem C36_tabs_delete_code (ws r : List Char) (h : ∀ c ∈ ws, c = ' ' ∨ c = '\t') (hr : ∀ c, r.head? = some c → isSpace c = false)
    (hn : '\n' ∉ r) (all : Bool) : outdent (ws ++ r) none all = r.drop (column ws - ws.length) := by
  have hlen : ws.length ≤ column ws := by
    have key : ∀ (l : List Char) (c : Nat), c + l.length ≤ l.foldl (fun c x => if x = '\t' then (c / 8 + 1) * 8 else c + 1) c := by
      intro l
      induction l with
      | nil => intro c; exact Nat.le_refl _
      | cons x l ih =>
        intro c
        simp only [List.foldl_cons, List.length_cons]
        split
        · have := ih ((c / 8 + 1) * 8); omega
        · have := ih (c + 1); omega
    have := key ws 0
    unfold column; omega
  have hnl : '\n' ∉ ws ++ r := by
    intro hm
    rcases List.mem_append.1 hm with hm | hm
    · rcases h _ hm with e | e <;> cases e
    · exact hn hm
  have hs : splitNL (ws ++ r) = [ws ++ r] := by
    refine (lines_iff _ _).1 ⟨by simp, by simp [List.intercalate], ?_⟩
    intro l hl
    rw [List.mem_singleton] at hl
    subst hl; exact hnl
  have hi := indentsize_column ws r h hr
  have hdrop : (ws ++ r).drop (column ws) = r.drop (column ws - ws.length) := by
    rw [List.drop_append, List.drop_eq_nil_of_le hlen, List.nil_append]
  cases all with
  | false => simp only [outdent, clamp, hi, hdrop]
  | true =>
    have hc : clamp (some ((column ws : Nat) : Int)) (column ws) = column ws := by
      simp only [clamp]
      split
      · rfl
      · simp
    simp only [outdent, hs, outdentLines, hi, clamp, List.map_cons, List.map_nil, joinNL, outdentLine]
    rw [show (if ((column ws : Nat) : Int) > ((column ws : Nat) : Int) ∨ ((column ws : Nat) : Int) < 0 then column ws
      else ((column ws : Nat) : Int).toNat) = column ws from hc]
    rw [if_neg (by omega), hdrop]

example : column ['\t', ' ', ' ', '\t'] = 16 ∧ outdent "\t\tfoo(some_long_argument)".toList none true = "argument)".toList := by
  decide +kernel

/-! ### indent -/

theorem fixLast_eq (ls : List (List Char)) (init : List (List Char)) (last : List Char) (h : ls = init ++ [last]) :
    fixLast ls = init ++ [if last.all isSpace then [] else last] := by
  subst h
  induction init with
  | nil =>
    simp only [List.nil_append, fixLast]
    split <;> rfl
  | cons a init ih =>
    cases e : init ++ [last] with
    | nil => simp at e
    | cons b bs =>
      simp only [List.cons_append, e, fixLast]
      rw [← e, ih]

/-- C36: when the first line is not blank and no tabs are used, `indent` prefixes exactly the lines that are indented
at least as much as the first; a blank last line is emptied. -/
theorem C36_indent_partial (code l : List Char) (ls init : List (List Char)) (last : List Char)
    (h : Lines code (l :: ls)) (ht : NoTabIndent (l :: ls)) (hb : leading l < l.length) (spaces : List Char)
    (hi : (l :: ls).map (fun x => if leading l ≤ leading x then spaces ++ x else x) = init ++ [last]) :
    indent code spaces = List.intercalate ['\n'] (init ++ [if last.all isSpace then [] else last]) := by
  have hs := (lines_iff _ _).1 h
  have h1 : indentsize code = leading l := by
    rw [indentsize_eq _ (code_noTab code (by rw [hs]; exact ht)), leading_code_eq code l ls hs hb]
  unfold indent
  simp only [h1, hs]
  have : (l :: ls).map (fun x => if leading l > indentsize x then x else spaces ++ x) =
      (l :: ls).map (fun x => if leading l ≤ leading x then spaces ++ x else x) := by
    apply List.map_congr_left
    intro x hx
    rw [indentsize_eq x (ht x hx)]
    by_cases hle : leading l ≤ leading x
    · rw [if_pos hle, if_neg (by omega)]
    · rw [if_neg hle, if_pos (by omega)]
  rw [this, fixLast_eq _ _ _ hi, joinNL_eq]

theorem leading_blank (x : List Char) : x.all isSpace = true ↔ leading x = x.length := by
  induction x with
  | nil => simp [leading]
  | cons c x ih =>
    have := leading_le x
    by_cases h : isSpace c <;> simp [leading, h, ih]

/-- C36: outdent undoes indent, when the first line is not blank, no tabs are used, no line is indented less than
the first without being at the margin, and the last line is not made of spaces only. -/
theorem C36_roundtrip_partial (code l : List Char) (ls : List (List Char)) (h : Lines code (l :: ls))
    (ht : NoTabIndent (l :: ls)) (hb : leading l < l.length)
    (hm : ∀ x ∈ l :: ls, leading l ≤ leading x ∨ leading x = 0)
    (hl : ∀ last, (l :: ls).getLast? = some last → last = [] ∨ leading last < last.length) (n : Nat) :
    outdent (indent code (List.replicate n ' ')) (some (n : Int)) true = code := by
  have hsp : ∀ c ∈ List.replicate n ' ', isSpace c = true := by
    intro c hc; rw [List.mem_replicate] at hc; rw [hc.2]; decide
  -- the lines after indent
  let f : List Char → List Char := fun x =>
    if leading l ≤ leading x then (if x = [] then [] else List.replicate n ' ' ++ x) else x
  let g : List Char → List Char := fun x => if leading l ≤ leading x then List.replicate n ' ' ++ x else x
  obtain ⟨init, last, hil⟩ : ∃ init last, l :: ls = init ++ [last] := by
    refine ⟨(l :: ls).dropLast, (l :: ls).getLast (by simp), (List.dropLast_concat_getLast (by simp)).symm⟩
  have hlast : last = [] ∨ leading last < last.length := hl last (by rw [hil]; simp)
  have hind : indent code (List.replicate n ' ') = List.intercalate ['\n'] (init.map g ++ [f last]) := by
    rw [C36_indent_partial code l ls (init.map g) (g last) h ht hb (List.replicate n ' ')
      (by rw [hil]; simp [g])]
    congr 2
    rcases hlast with rfl | hlast
    · have : f [] = [] := by simp only [f]; split <;> simp
      rw [this]
      have : (g []).all isSpace = true := by
        simp only [g]; split
        · rw [List.append_nil]; exact List.all_eq_true.2 hsp
        · rfl
      rw [if_pos this]
    · have hne : last ≠ [] := by rintro rfl; simp [leading] at hlast
      have hgf : g last = f last := by simp only [f, g, hne, if_false]
      have : ¬ (g last).all isSpace = true := by
        rw [leading_blank]
        simp only [g]
        split
        · rw [leading_append _ _ hsp, List.length_append]; omega
        · omega
      rw [if_neg this, hgf]
  -- facts about each line
  have key : ∀ x ∈ l :: ls, ∀ y, (y = g x ∨ y = f x) → leading y ≤ leading x + n ∧ '\t' ∉ y.take (leading y) ∧ '\n' ∉ y ∧
      y.drop (min (leading y) n) = x := by
    intro x hx y hy
    have hxt := ht x hx
    have hxn := h.2.2 x hx
    have hrep : '\t' ∉ (List.replicate n ' ' ++ x).take (leading (List.replicate n ' ' ++ x)) ∧
        '\n' ∉ List.replicate n ' ' ++ x ∧
        (List.replicate n ' ' ++ x).drop (min (leading (List.replicate n ' ' ++ x)) n) = x := by
      rw [leading_append _ _ hsp, List.length_replicate]
      refine ⟨?_, ?_, ?_⟩
      · rw [List.take_append, List.length_replicate]
        have : n + leading x - n = leading x := by omega
        rw [this, List.mem_append, not_or]
        refine ⟨fun hc => ?_, hxt⟩
        have := List.mem_of_mem_take hc
        rw [List.mem_replicate] at this
        exact absurd this.2 (by decide)
      · rw [List.mem_append, not_or, List.mem_replicate]
        exact ⟨fun hc => absurd hc.2 (by decide), hxn⟩
      · rw [show min (n + leading x) n = n by omega, List.drop_append, List.length_replicate]
        simp
    by_cases hle : leading l ≤ leading x
    · have hgx : g x = List.replicate n ' ' ++ x := by simp [g, hle]
      have hcase : y = List.replicate n ' ' ++ x ∨ (x = [] ∧ y = []) := by
        rcases hy with rfl | rfl
        · exact .inl hgx
        · simp only [f, hle, if_true]
          by_cases hx0 : x = []
          · right; simp [hx0]
          · left; simp [hx0]
      rcases hcase with rfl | ⟨rfl, rfl⟩
      · exact ⟨by rw [leading_append _ _ hsp, List.length_replicate]; omega, hrep⟩
      · simp [leading]
    · have hy : y = x := by rcases hy with rfl | rfl <;> simp [f, g, hle]
      subst hy
      have h0 : leading y = 0 := by rcases hm y hx with h | h; exact absurd h hle; exact h
      refine ⟨by omega, hxt, hxn, ?_⟩
      rw [h0]; simp
  have hgl : ∃ y ys, init.map g ++ [f last] = y :: ys ∧ (y = g l ∨ y = f l) := by
    cases init with
    | nil => simp only [List.nil_append, List.cons.injEq] at hil; rw [← hil.1]; exact ⟨_, _, rfl, .inr rfl⟩
    | cons a init => simp only [List.cons_append, List.cons.injEq] at hil; rw [hil.1]; exact ⟨_, _, rfl, .inl rfl⟩
  obtain ⟨y, ys, hys, hy⟩ := hgl
  have hmem : ∀ z ∈ y :: ys, ∃ x ∈ l :: ls, z = g x ∨ z = f x := by
    intro z hz
    rw [← hys] at hz
    rw [hil]
    rcases List.mem_append.1 hz with hz | hz
    · obtain ⟨x, hx, rfl⟩ := List.mem_map.1 hz; exact ⟨x, by simp [hx], .inl rfl⟩
    · rw [List.mem_singleton] at hz; exact ⟨last, by simp, .inr hz⟩
  have hLines : Lines (indent code (List.replicate n ' ')) (y :: ys) := by
    rw [hind, hys]
    refine ⟨by simp, rfl, fun z hz => ?_⟩
    obtain ⟨x, hx, hz⟩ := hmem z hz
    exact (key x hx z hz).2.2.1
  have hTabs : NoTabIndent (y :: ys) := by
    intro z hz
    obtain ⟨x, hx, hz⟩ := hmem z hz
    exact (key x hx z hz).2.1
  have hly : n ≤ leading y := by
    have hne : l ≠ [] := by rintro rfl; simp [leading] at hb
    have : y = List.replicate n ' ' ++ l := by rcases hy with rfl | rfl <;> simp [f, g, hne]
    rw [this, leading_append _ _ hsp, List.length_replicate]; omega
  have hout := C36_outdent_partial _ y ys hLines hTabs (some n)
  simp only [Option.map_some, Option.getD_some, Int.ofNat_eq_natCast] at hout
  rw [hout]
  rw [← h.2.1, hil, ← hys]
  congr 1
  have hd : ∀ x ∈ l :: ls, ∀ z, (z = g x ∨ z = f x) → z.drop (min (leading z) (min n (leading y))) = x := by
    intro x hx z hz
    have := (key x hx z hz).2.2.2
    rw [show min n (leading y) = n by omega]; exact this
  rw [List.map_append, List.map_map]
  congr 1
  · conv => rhs; rw [← List.map_id init]
    apply List.map_congr_left
    intro x hx
    exact hd x (by rw [hil]; simp [hx]) _ (.inl rfl)
  · simp only [List.map_cons, List.map_nil, List.cons.injEq, and_true]
    exact hd last (by rw [hil]; simp) _ (.inr rfl)

/-- C36 is false when a later line is indented less than the first but not at the margin: it is not indented, yet
outdented. -/
theorem C36_not_inverse : outdent (indent "    a\n  b".toList [' ', ' ']) (some 2) true = "    a\nb".toList := by
  decide +kernel

/-- C36 is false when the text starts with an empty line: nothing at all is indented. -/
theorem C36_nothing_indented : indent "\nx".toList [' ', ' '] = "\nx".toList := by decide +kernel

/-! ### concrete cases -/

example : outdent (indent "  def f():\n    return 1\n\n".toList (List.replicate 4 ' ')) (some 4) true =
    "  def f():\n    return 1\n\n".toList :=
  C36_roundtrip_partial _ "  def f():".toList ["    return 1".toList, [], []]
    (by rw [lines_iff]; decide +kernel) (by unfold NoTabIndent; decide +kernel) (by decide +kernel)
    (by decide +kernel) (by intro last h; simp at h; exact .inl h) 4
example : indent "  def f():\n    return 1\n\n".toList (List.replicate 2 ' ') =
    "    def f():\n      return 1\n\n".toList := by decide +kernel
example : outdent "    def f():\n      return 1\n  # x\n".toList none true = "def f():\n  return 1\n# x\n".toList := by
  decide +kernel

end Verif.Indent
