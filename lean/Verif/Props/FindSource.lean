import Verif.Model.FindSource
/-! C80: the line found for a function or a class is the line where its definition starts. -/
set_option linter.unusedSimpArgs false
namespace Verif.FindSource

/-! ### specification -/

/-- spaces, `def`, a space -/
def IsDef (k : Cls) (s : Line) : Prop :=
  ∃ ws c rest, s = ws ++ "def".toList ++ c :: rest ∧ (∀ x ∈ ws, k.sp x = true) ∧ k.sp c = true

/-- spaces and a decorator -/
def IsAt (k : Cls) (s : Line) : Prop :=
  ∃ ws rest, s = ws ++ '@' :: rest ∧ ∀ x ∈ ws, k.sp x = true

/-- the word `lambda`, then a colon or a space -/
def HasLambda (k : Cls) (s : Line) : Prop :=
  ∃ pre c rest, s = pre ++ "lambda".toList ++ c :: rest ∧ '\n' ∉ pre ∧ (∀ x, pre.getLast? = some x → k.wd x = false) ∧
    (c = ':' ∨ k.sp c = true)

/-- `ws`, `class`, spaces, and the name as a whole word -/
def IsClass (k : Cls) (name ws : List Char) (s : Line) : Prop :=
  ∃ mid rest, s = ws ++ "class".toList ++ mid ++ name ++ rest ∧ (∀ x ∈ ws, k.sp x = true) ∧ (∀ x ∈ mid, k.sp x = true) ∧
    ∀ x, rest.head? = some x → k.wd x = false

/-- a line on which a definition starts, for the search in files -/
def Starts (k : Cls) (s : Line) : Prop := IsDef k s ∨ HasLambda k s ∨ IsAt k s

/-! ### the patterns -/

theorem dropWhile_eq_of {α : Type} {p : α → Bool} {ws r : List α} (h1 : ∀ x ∈ ws, p x = true) (h2 : ∀ x, r.head? = some x → p x = false) :
    (ws ++ r).dropWhile p = r := by
  induction ws with
  | nil =>
    cases r with
    | nil => rfl
    | cons a r => simp [List.dropWhile_cons, h2 a rfl]
  | cons a ws ih =>
    have ha := h1 a (by simp)
    simp only [List.cons_append, List.dropWhile_cons, ha, if_true]
    exact ih fun x hx => h1 x (List.mem_cons_of_mem _ hx)

theorem takeWhile_eq_of {α : Type} {p : α → Bool} {ws r : List α} (h1 : ∀ x ∈ ws, p x = true) (h2 : ∀ x, r.head? = some x → p x = false) :
    (ws ++ r).takeWhile p = ws := by
  induction ws with
  | nil =>
    cases r with
    | nil => rfl
    | cons a r => simp [List.takeWhile_cons, h2 a rfl]
  | cons a ws ih =>
    have ha := h1 a (by simp)
    simp only [List.cons_append, List.takeWhile_cons, ha, if_true]
    rw [ih fun x hx => h1 x (List.mem_cons_of_mem _ hx)]

theorem takeWhile_all {α : Type} {p : α → Bool} {s : List α} : ∀ x ∈ s.takeWhile p, p x = true := by
  induction s with
  | nil => intro x hx; cases hx
  | cons a s ih =>
    intro x hx
    rw [List.takeWhile_cons] at hx
    split at hx
    · rename_i ha
      rcases List.mem_cons.1 hx with rfl | hx
      · exact ha
      · exact ih x hx
    · cases hx

theorem matchDef_iff (k : Cls) (s : Line) : matchDef k s = true ↔ IsDef k s := by
  constructor
  · intro h
    unfold matchDef at h
    split at h
    · rename_i c r he
      refine ⟨s.takeWhile k.sp, c, r, ?_, takeWhile_all, h⟩
      have := List.takeWhile_append_dropWhile (p := k.sp) (l := s)
      rw [he] at this
      simpa using this.symm
    · cases h
  · rintro ⟨ws, c, rest, rfl, h1, h2⟩
    have : (ws ++ "def".toList ++ c :: rest).dropWhile k.sp = 'd' :: 'e' :: 'f' :: c :: rest := by
      rw [List.append_assoc]
      exact dropWhile_eq_of h1 (by intro x hx; simp at hx; subst hx; exact k.d_sp)
    unfold matchDef
    rw [this]
    exact h2

theorem matchAt_iff (k : Cls) (s : Line) : matchAt k s = true ↔ IsAt k s := by
  constructor
  · intro h
    unfold matchAt at h
    split at h
    · rename_i r he
      refine ⟨s.takeWhile k.sp, r, ?_, takeWhile_all⟩
      have := List.takeWhile_append_dropWhile (p := k.sp) (l := s)
      rw [he] at this
      exact this.symm
    · cases h
  · rintro ⟨ws, rest, rfl, h1⟩
    unfold matchAt
    rw [dropWhile_eq_of h1 (by intro x hx; simp at hx; subst hx; exact k.at_sp)]
    rfl

theorem lambdaHere_iff (k : Cls) (s : Line) :
    lambdaHere k s = true ↔ ∃ c rest, s = "lambda".toList ++ c :: rest ∧ (c = ':' ∨ k.sp c = true) := by
  constructor
  · intro h
    unfold lambdaHere at h
    split at h
    · rename_i c r
      refine ⟨c, r, rfl, ?_⟩
      simpa using h
    · cases h
  · rintro ⟨c, rest, rfl, h⟩
    show lambdaHere k ('l' :: 'a' :: 'm' :: 'b' :: 'd' :: 'a' :: c :: rest) = true
    simp only [lambdaHere]
    simpa using h

theorem matchLambda_iff' (k : Cls) (s : Line) : ∀ prev : Bool, matchLambda k prev s = true ↔
    ∃ pre c rest, s = pre ++ "lambda".toList ++ c :: rest ∧ '\n' ∉ pre ∧
      (match pre.getLast? with | some x => k.wd x = false | none => prev = false) ∧ (c = ':' ∨ k.sp c = true) := by
  induction s with
  | nil => intro prev; simp [matchLambda]
  | cons a s ih =>
    intro prev
    rw [matchLambda, Bool.or_eq_true, Bool.and_eq_true, Bool.and_eq_true, lambdaHere_iff, ih]
    constructor
    · rintro (⟨h1, c, rest, h2, h3⟩ | ⟨h1, pre, c, rest, h2, h3, h4, h5⟩)
      · exact ⟨[], c, rest, h2, by simp, by simpa using h1, h3⟩
      · refine ⟨a :: pre, c, rest, by rw [h2]; simp, ?_, ?_, h5⟩
        · simp only [List.mem_cons, not_or]
          exact ⟨fun e => by subst e; simp at h1, h3⟩
        · cases pre with
          | nil => simpa using h4
          | cons b pre => rw [List.getLast?_cons_cons]; exact h4
    · rintro ⟨pre, c, rest, h2, h3, h4, h5⟩
      cases pre with
      | nil => exact .inl ⟨by simpa using h4, c, rest, h2, h5⟩
      | cons b pre =>
        simp only [List.cons_append, List.cons.injEq] at h2
        obtain ⟨rfl, h2⟩ := h2
        simp only [List.mem_cons, not_or] at h3
        refine .inr ⟨bne_iff_ne.2 (Ne.symm h3.1), pre, c, rest, h2, h3.2, ?_, h5⟩
        cases pre with
        | nil => simpa using h4
        | cons d pre => rw [List.getLast?_cons_cons] at h4; exact h4

theorem matchLambda_iff (k : Cls) (s : Line) : matchLambda k false s = true ↔ HasLambda k s := by
  rw [matchLambda_iff']
  constructor
  · rintro ⟨pre, c, rest, h1, h2, h3, h4⟩
    refine ⟨pre, c, rest, h1, h2, ?_, h4⟩
    intro x hx; rw [hx] at h3; exact h3
  · rintro ⟨pre, c, rest, h1, h2, h3, h4⟩
    refine ⟨pre, c, rest, h1, h2, ?_, h4⟩
    cases hx : pre.getLast? with
    | none => rfl
    | some x => exact h3 x hx

theorem isIn_iff (n s : List Char) : isIn n s = true ↔ n <:+: s := by
  induction s with
  | nil => simp [isIn, List.isEmpty_iff]
  | cons a s ih =>
    rw [isIn, Bool.or_eq_true, ih, List.isPrefixOf_iff_prefix, List.infix_cons_iff]

theorem matchClass_iff (k : Cls) (name : List Char) (hn : ∀ x, name.head? = some x → k.sp x = false) (hne : name ≠ []) (s ws : Line) :
    matchClass k name s = some ws ↔ IsClass k name ws s := by
  constructor
  · intro h
    unfold matchClass at h
    split at h
    · rename_i r he
      split at h
      · rename_i ha
        simp only [Option.some.injEq] at h
        subst h
        simp only [afterClass, Bool.and_eq_true, List.isPrefixOf_iff_prefix] at ha
        obtain ⟨⟨t, ht⟩, h2⟩ := ha
        refine ⟨r.takeWhile k.sp, t, ?_, takeWhile_all, takeWhile_all, ?_⟩
        · have e1 := List.takeWhile_append_dropWhile (p := k.sp) (l := s)
          have e2 := List.takeWhile_append_dropWhile (p := k.sp) (l := r)
          rw [← ht] at e2
          rw [he, ← e2] at e1
          simpa using e1.symm
        · intro x hx
          rw [← ht] at h2
          simp only [List.drop_left] at h2
          cases t with
          | nil => cases hx
          | cons c t =>
            simp only [List.head?_cons, Option.some.injEq] at hx
            subst hx
            simpa using h2
      · cases h
    · cases h
  · rintro ⟨mid, rest, rfl, h1, h2, h3⟩
    have e1 : ws ++ "class".toList ++ mid ++ name ++ rest = ws ++ ("class".toList ++ (mid ++ (name ++ rest))) := by
      simp [List.append_assoc]
    have hc : ∀ x, ("class".toList ++ (mid ++ (name ++ rest))).head? = some x → k.sp x = false := by
      intro x hx; simp at hx; subst hx; exact k.c_sp
    have e2 : (ws ++ ("class".toList ++ (mid ++ (name ++ rest)))).dropWhile k.sp = 'c' :: 'l' :: 'a' :: 's' :: 's' :: (mid ++ (name ++ rest)) :=
      dropWhile_eq_of h1 hc
    have e3 : (mid ++ (name ++ rest)).dropWhile k.sp = name ++ rest := by
      apply dropWhile_eq_of h2
      intro x hx
      apply hn
      cases name with
      | nil => exact absurd rfl hne
      | cons a name => simpa using hx
    rw [e1]
    unfold matchClass
    rw [e2]
    have : afterClass k name (mid ++ (name ++ rest)) = true := by
      simp only [afterClass, e3, Bool.and_eq_true, List.isPrefixOf_iff_prefix, List.prefix_append, true_and, List.drop_left]
      cases rest with
      | nil => rfl
      | cons c rest => simpa using h3 c rfl
    simp only [this, if_true, takeWhile_eq_of h1 hc]

theorem pat1_file (k : Cls) (kind : Kind) (s : Line) : pat1 k kind false s = true ↔ Starts k s := by
  simp only [pat1, Bool.false_eq_true, if_false, Bool.or_eq_true, matchDef_iff, matchLambda_iff, matchAt_iff, Starts, or_assoc]

/-! ### functions in files -/

theorem search_file (k : Cls) (kind : Kind) (m : Line → Bool) (lines : List Line) (n : Nat) (hn : n < lines.length) :
    ∃ r, search k kind false m lines n = some r ∧ r ≤ n ∧ (r = 0 ∨ ∃ l, lines[r]? = some l ∧ Starts k l) ∧
      ∀ j l, r < j → j ≤ n → lines[j]? = some l → ¬ Starts k l := by
  induction n with
  | zero => exact ⟨0, rfl, Nat.le_refl _, .inl rfl, fun j _ h1 h2 => absurd h2 (by omega)⟩
  | succ n ih =>
    have hl : lines[n + 1]? = some (lines[n + 1]'hn) := List.getElem?_eq_getElem hn
    simp only [search, hl]
    by_cases hp : pat1 k kind false (lines[n + 1]'hn) = true
    · refine ⟨n + 1, by simp [hp], Nat.le_refl _, .inr ⟨_, hl, (pat1_file k kind _).1 hp⟩, ?_⟩
      intro j l h1 h2; omega
    · obtain ⟨r, h1, h2, h3, h4⟩ := ih (by omega)
      refine ⟨r, by simp [hp, h1], by omega, h3, ?_⟩
      intro j l g1 g2 g3 g4
      by_cases hj : j = n + 1
      · subst hj
        rw [hl] at g3; cases g3
        exact hp ((pat1_file k kind _).2 g4)
      · exact h4 j l g1 (by omega) g3 g4

/-- In a file, the search goes up from the first line of the code to the next line with a `def`, a decorator or a lambda, or to the
first line of the file. -/
theorem C80_file_search (k : Cls) (kind : Kind) (m : Line → Bool) (lines : List Line) (first : Nat) (h1 : 1 ≤ first)
    (h2 : first ≤ lines.length) :
    ∃ r, findCode k kind false first m lines = .ok r ∧ r ≤ first - 1 ∧ (r = 0 ∨ ∃ l, lines[r]? = some l ∧ Starts k l) ∧
      ∀ j l, r < j → j ≤ first - 1 → lines[j]? = some l → ¬ Starts k l := by
  have hne : lines ≠ [] := by intro h; subst h; simp at h2; omega
  obtain ⟨r, g1, g2, g3, g4⟩ := search_file k kind m lines (first - 1) (by omega)
  exact ⟨r, by simp [findCode, hne, g1], g2, g3, g4⟩

/-- A function whose first line starts with `def` or a decorator, or has its `lambda`, is found at that line. -/
theorem C80_function_in_file_partial (k : Cls) (kind : Kind) (m : Line → Bool) (lines : List Line) (first : Nat) (h1 : 1 ≤ first)
    (l : Line) (hl : lines[first - 1]? = some l) (hs : Starts k l) :
    findCode k kind false first m lines = .ok (first - 1) := by
  have hlen : first - 1 < lines.length := by
    rcases Nat.lt_or_ge (first - 1) lines.length with h | h
    · exact h
    · rw [List.getElem?_eq_none h] at hl; cases hl
  obtain ⟨r, g1, g2, g3, g4⟩ := C80_file_search k kind m lines first h1 (by omega)
  rw [g1]
  by_cases hr : r = first - 1
  · rw [hr]
  · exact absurd hs (g4 _ l (by omega) (Nat.le_refl _) hl)

/-- A file that got shorter than the function says: IndexError, not some other text -/
theorem C80_file_too_short (k : Cls) (kind : Kind) (m : Line → Bool) (lines : List Line) (first : Nat) (hne : lines ≠ [])
    (h : lines.length < first) : findCode k kind false first m lines = .error .indexError := by
  have hf : first - 1 = (first - 2) + 1 := by
    have : 0 < lines.length := List.length_pos_iff.2 hne
    omega
  simp only [findCode, hne, if_false, Bool.false_eq_true]
  rw [hf, search, List.getElem?_eq_none (by omega)]

/-! ### functions typed in -/

theorem hats_spec (k : Cls) (lines : List Line) (n : Nat) :
    hats k lines n ≤ n ∧ (∀ j, n - hats k lines n ≤ j → j < n → ∃ l, lines[j]? = some l ∧ IsAt k l) ∧
    ∀ l, n - hats k lines n ≠ 0 → lines[n - hats k lines n - 1]? = some l → ¬ IsAt k l := by
  induction n with
  | zero => exact ⟨Nat.le_refl _, fun j _ h => absurd h (by omega), fun l h => absurd rfl h⟩
  | succ n ih =>
    obtain ⟨h1, h2, h3⟩ := ih
    cases hl : lines[n]? with
    | none =>
      simp only [hats, hl]
      refine ⟨by omega, fun j g1 g2 => absurd g2 (by omega), ?_⟩
      intro l _ g
      simp only [Nat.sub_zero, Nat.add_sub_cancel] at g
      rw [hl] at g; cases g
    | some x =>
      simp only [hats, hl]
      by_cases hx : matchAt k x = true
      · simp only [hx, if_true]
        have he : n + 1 - (hats k lines n + 1) = n - hats k lines n := by omega
        rw [he]
        refine ⟨by omega, ?_, h3⟩
        intro j g1 g2
        by_cases hj : j = n
        · subst hj; exact ⟨x, hl, (matchAt_iff k x).1 hx⟩
        · exact h2 j g1 (by omega)
      · simp only [hx, Bool.false_eq_true, if_false]
        refine ⟨by omega, fun j g1 g2 => absurd g2 (by omega), ?_⟩
        intro l _ g
        simp only [Nat.sub_zero, Nat.add_sub_cancel] at g
        rw [hl] at g; cases g
        exact fun h => hx ((matchAt_iff k _).2 h)

theorem search_stdin (k : Cls) (name : List Char) (m : Line → Bool) (lines : List Line) (n : Nat) (hn : n < lines.length) :
    (∃ d r, search k (.fn name) true m lines n = some r ∧ 0 < d ∧ d ≤ n ∧
      (∃ l, lines[d]? = some l ∧ IsDef k l ∧ name <:+: l) ∧
      (∀ j l, d < j → j ≤ n → lines[j]? = some l → ¬ (IsDef k l ∧ name <:+: l)) ∧ r = d - hats k lines d) ∨
    (search k (.fn name) true m lines n = some 0 ∧ ∀ j l, 0 < j → j ≤ n → lines[j]? = some l → ¬ (IsDef k l ∧ name <:+: l)) := by
  induction n with
  | zero => exact .inr ⟨rfl, fun j _ h1 h2 => absurd h2 (by omega)⟩
  | succ n ih =>
    have hl : lines[n + 1]? = some (lines[n + 1]'hn) := List.getElem?_eq_getElem hn
    generalize hx : lines[n + 1]'hn = x at hl
    have hs : search k (.fn name) true m lines (n + 1) =
        if matchDef k x = true ∧ isIn name x = true then some (n + 1 - hats k lines (n + 1)) else search k (.fn name) true m lines n := by
      rw [search, hl]
      simp only [pat1, if_true, Bool.not_true, Bool.false_eq_true, if_false]
      by_cases h1 : matchDef k x = true <;> by_cases h2 : isIn name x = true <;> simp [h1, h2]
    rw [hs]
    by_cases hp : matchDef k x = true ∧ isIn name x = true
    · rw [if_pos hp]
      refine .inl ⟨n + 1, _, rfl, by omega, Nat.le_refl _, ⟨x, hl, (matchDef_iff k x).1 hp.1, (isIn_iff _ _).1 hp.2⟩, ?_, rfl⟩
      intro j l g1 g2; omega
    · rw [if_neg hp]
      have hno : ∀ l, lines[n + 1]? = some l → ¬ (IsDef k l ∧ name <:+: l) := by
        intro l g1 g2
        rw [hl] at g1; cases g1
        exact hp ⟨(matchDef_iff k _).2 g2.1, (isIn_iff _ _).2 g2.2⟩
      rcases ih (by omega) with ⟨d, r, g1, g2, g3, g4, g5, g6⟩ | ⟨g1, g2⟩
      · refine .inl ⟨d, r, g1, g2, by omega, g4, ?_, g6⟩
        intro j l i1 i2 i3
        by_cases hj : j = n + 1
        · subst hj; exact hno l i3
        · exact g5 j l i1 (by omega) i3
      · refine .inr ⟨g1, ?_⟩
        intro j l i1 i2 i3
        by_cases hj : j = n + 1
        · subst hj; exact hno l i3
        · exact g2 j l i1 (by omega) i3

/-- A function typed in: if line `d` of the history (not the first one) is a `def` line with the name, and no later `def` line has
the name in it, the line found is `d`, or the first of the decorators right above it. -/
theorem C80_function_typed_in_partial (k : Cls) (name : List Char) (m : Line → Bool) (lines : List Line) (first d : Nat) (l : Line)
    (hd : 0 < d) (hl : lines[d]? = some l) (h1 : IsDef k l) (h2 : name <:+: l)
    (hlast : ∀ j l, d < j → lines[j]? = some l → IsDef k l → ¬ name <:+: l) :
    ∃ r, findCode k (.fn name) true first m lines = .ok r ∧ r ≤ d ∧
      (∀ j, r ≤ j → j < d → ∃ x, lines[j]? = some x ∧ IsAt k x) ∧
      (∀ x, r ≠ 0 → lines[r - 1]? = some x → ¬ IsAt k x) := by
  have hlen : d < lines.length := by
    rcases Nat.lt_or_ge d lines.length with h | h
    · exact h
    · rw [List.getElem?_eq_none h] at hl; cases hl
  have hne : lines ≠ [] := by intro h; subst h; simp at hlen
  rcases search_stdin k name m lines (lines.length - 1) (by omega) with ⟨d', r, g1, g2, g3, ⟨l', g4, g5, g6⟩, g7, g8⟩ | ⟨g1, g2⟩
  · have hdd : d' = d := by
      rcases Nat.lt_trichotomy d' d with h | h | h
      · exact absurd ⟨h1, h2⟩ (g7 d l h (by omega) hl)
      · exact h
      · exact absurd g6 (hlast d' l' h g4 g5)
    subst hdd
    obtain ⟨i1, i2, i3⟩ := hats_spec k lines d'
    refine ⟨r, by simp [findCode, hne, g1], by omega, ?_, ?_⟩
    · rw [g8]; exact i2
    · rw [g8]; exact i3
  · exact absurd ⟨h1, h2⟩ (g2 d l hd (by omega) hl)

/-- ... and if no `def` line has the name in it, the first line of the history is given, not an error. -/
theorem C80_unknown_function_gives_first_line (k : Cls) (name : List Char) (m : Line → Bool) (lines : List Line) (first : Nat)
    (hne : lines ≠ []) (h : ∀ l ∈ lines, IsDef k l → ¬ name <:+: l) : findCode k (.fn name) true first m lines = .ok 0 := by
  have hlen : 0 < lines.length := List.length_pos_iff.2 hne
  rcases search_stdin k name m lines (lines.length - 1) (by omega) with ⟨d', r, g1, g2, g3, ⟨l', g4, g5, g6⟩, g7, g8⟩ | ⟨g1, g2⟩
  · exact absurd g6 (h l' (List.mem_of_getElem? g4) g5)
  · simp [findCode, hne, g1]

/-- the search in the history, for any test of a line and any way of getting from it to the result -/
theorem search_last (k : Cls) (kind : Kind) (m : Line → Bool) (lines : List Line) (P : Line → Prop) (f : Nat → Nat)
    (hstep : ∀ n x, lines[n + 1]? = some x → (P x → search k kind true m lines (n + 1) = some (f (n + 1))) ∧
      (¬ P x → search k kind true m lines (n + 1) = search k kind true m lines n))
    (n d : Nat) (hn : n < lines.length) (hd : 0 < d) (hdn : d ≤ n) (l : Line) (hl : lines[d]? = some l) (hp : P l)
    (hlast : ∀ j x, d < j → lines[j]? = some x → ¬ P x) : search k kind true m lines n = some (f d) := by
  induction n with
  | zero => omega
  | succ n ih =>
    have hx := List.getElem?_eq_getElem hn
    by_cases hdn' : d = n + 1
    · subst hdn'
      exact (hstep n l hl).1 hp
    · rw [(hstep n _ hx).2 (hlast (n + 1) _ (by omega) hx)]
      exact ih (by omega) (by omega)

/-- A lambda typed in: the last line of the history (not the first one) that has a lambda and compiles to the code wanted. -/
theorem C80_lambda_typed_in_partial (k : Cls) (m : Line → Bool) (lines : List Line) (first d : Nat) (l : Line)
    (hd : 0 < d) (hl : lines[d]? = some l) (h1 : HasLambda k l) (h2 : m l = true)
    (hlast : ∀ j x, d < j → lines[j]? = some x → HasLambda k x → m x = false) :
    findCode k .lambda true first m lines = .ok d := by
  have hlen : d < lines.length := by
    rcases Nat.lt_or_ge d lines.length with h | h
    · exact h
    · rw [List.getElem?_eq_none h] at hl; cases hl
  have hne : lines ≠ [] := by intro h; subst h; simp at hlen
  have := search_last k .lambda m lines (fun x => HasLambda k x ∧ m x = true) id (by
    intro n x hx
    rw [search, hx]
    simp only [pat1, if_true, Bool.not_true, Bool.false_eq_true, if_false, ← matchLambda_iff]
    by_cases g1 : matchLambda k false x = true <;> by_cases g2 : m x = true <;> simp [g1, g2])
    (lines.length - 1) d (by omega) hd (by omega) l hl ⟨h1, h2⟩ (by
      intro j x g1 g2 g3
      rw [hlast j x g1 g2 g3.1] at g3; cases g3.2)
  simp [findCode, hne, this]

/-- A code object, frame or traceback typed in has no name to look for: the last `def`, decorator or lambda of the history (not on the
first line) is given, with the decorators right above it. -/
theorem C80_code_typed_in (k : Cls) (m : Line → Bool) (lines : List Line) (first d : Nat) (l : Line)
    (hd : 0 < d) (hl : lines[d]? = some l) (h1 : Starts k l) (hlast : ∀ j x, d < j → lines[j]? = some x → ¬ Starts k x) :
    ∃ r, findCode k .code true first m lines = .ok r ∧ r ≤ d ∧
      (∀ j, r ≤ j → j < d → ∃ x, lines[j]? = some x ∧ IsAt k x) ∧
      (∀ x, r ≠ 0 → lines[r - 1]? = some x → ¬ IsAt k x) := by
  have hlen : d < lines.length := by
    rcases Nat.lt_or_ge d lines.length with h | h
    · exact h
    · rw [List.getElem?_eq_none h] at hl; cases hl
  have hne : lines ≠ [] := by intro h; subst h; simp at hlen
  have hs := search_last k .code m lines (Starts k) (fun d => d - hats k lines d) (by
    intro n x hx
    rw [search, hx]
    have hp : pat1 k .code true x = true ↔ Starts k x := by
      simp only [pat1, if_true, Bool.or_eq_true, matchDef_iff, matchLambda_iff, matchAt_iff, Starts, or_assoc]
    simp only [← hp, Bool.not_true, Bool.false_eq_true, if_false]
    by_cases g1 : pat1 k .code true x = true <;> simp [g1])
    (lines.length - 1) d (by omega) hd (by omega) l hl h1 hlast
  obtain ⟨i1, i2, i3⟩ := hats_spec k lines d
  exact ⟨_, by simp [findCode, hne, hs], by omega, i2, i3⟩

/-! ### classes -/

/-- least indentation by the order of strings, then least line number -/
def Before (a b : Line × Nat) : Prop := strLt a.1 b.1 = true ∨ (a.1 = b.1 ∧ a.2 ≤ b.2)

theorem strLt_trans : ∀ (a b c : Line), strLt a b = true → strLt b c = true → strLt a c = true
  | _, _, [] => by intro _ h; simp [strLt] at h
  | _, [], _ :: _ => by intro h _; simp [strLt] at h
  | [], _ :: _, _ :: _ => by intro _ _; rfl
  | x :: a, y :: b, z :: c => by
    intro h1 h2
    simp only [strLt] at h1 h2 ⊢
    have ih := strLt_trans a b c
    split at h1 <;> split at h2 <;> (try simp only [decide_eq_true_eq] at h1 h2) <;> split <;>
      first | exact ih h1 h2 | (simp only [decide_eq_true_eq]; omega) | omega

theorem char_eq {a b : Char} (h : a.toNat = b.toNat) : a = b := Char.ext (UInt32.toNat_inj.mp h)

theorem strLt_total : ∀ (a b : Line), strLt a b = true ∨ a = b ∨ strLt b a = true
  | [], [] => .inr (.inl rfl)
  | [], _ :: _ => .inl rfl
  | _ :: _, [] => .inr (.inr rfl)
  | x :: a, y :: b => by
    simp only [strLt]
    by_cases h : x.toNat = y.toNat
    · simp only [h, if_true]
      have hxy := char_eq h
      subst hxy
      rcases strLt_total a b with g | g | g
      · exact .inl g
      · subst g; exact .inr (.inl rfl)
      · exact .inr (.inr g)
    · simp only [h, Ne.symm h, if_false, decide_eq_true_eq]
      omega

theorem Before.refl (a) : Before a a := .inr ⟨rfl, Nat.le_refl _⟩
theorem Before.trans {a b c} (h : Before a b) (g : Before b c) : Before a c := by
  rcases h with h | ⟨h1, h2⟩ <;> rcases g with g | ⟨g1, g2⟩
  · exact .inl (strLt_trans _ _ _ h g)
  · rw [g1] at h; exact .inl h
  · rw [← h1] at g; exact .inl g
  · exact .inr ⟨h1.trans g1, by omega⟩

theorem candLt_before {a b} (h : candLt a b = true) : Before a b := by
  simp only [candLt, Bool.or_eq_true, Bool.and_eq_true, beq_iff_eq, decide_eq_true_eq] at h
  rcases h with h | ⟨h, g⟩
  · exact .inl h
  · exact .inr ⟨h, by omega⟩

theorem not_candLt {a b} (h : ¬ candLt a b = true) : Before b a := by
  simp only [candLt, Bool.or_eq_true, Bool.and_eq_true, beq_iff_eq, decide_eq_true_eq, not_or, not_and] at h
  rcases strLt_total a.1 b.1 with g | g | g
  · exact absurd g h.1
  · exact .inr ⟨g.symm, by have := h.2 g; omega⟩
  · exact .inl g

theorem least_spec (a : Line × Nat) (l : List (Line × Nat)) : least a l ∈ a :: l ∧ ∀ x ∈ a :: l, Before (least a l) x := by
  induction l generalizing a with
  | nil => exact ⟨by simp [least], by intro x hx; simp at hx; subst hx; exact Before.refl _⟩
  | cons b l ih =>
    simp only [least]
    by_cases h : candLt b a = true
    · rw [if_pos h]
      obtain ⟨g1, g2⟩ := ih b
      refine ⟨List.mem_cons_of_mem _ g1, ?_⟩
      intro x hx
      rcases List.mem_cons.1 hx with rfl | hx
      · exact (g2 b (by simp)).trans (candLt_before h)
      · exact g2 x hx
    · rw [if_neg h]
      obtain ⟨g1, g2⟩ := ih a
      refine ⟨?_, ?_⟩
      · rcases List.mem_cons.1 g1 with g | g
        · rw [g]; simp
        · exact List.mem_cons_of_mem _ (List.mem_cons_of_mem _ g)
      · intro x hx
        rcases List.mem_cons.1 hx with rfl | hx
        · exact g2 x (by simp)
        · rcases List.mem_cons.1 hx with rfl | hx
          · exact (g2 a (by simp)).trans (not_candLt h)
          · exact g2 x (List.mem_cons_of_mem _ hx)

theorem classLoop_spec (k : Cls) (name : List Char) (lines : List Line) (n : Nat) (hn : n ≤ lines.length) (acc : List (Line × Nat)) :
    (∃ i l ws, classLoop k name lines n acc = .inl i ∧ i < n ∧ lines[i]? = some l ∧ matchClass k name l = some ws ∧ l.head? = some 'c' ∧
      ∀ j x ws, i < j → j < n → lines[j]? = some x → matchClass k name x = some ws → x.head? ≠ some 'c') ∨
    (∃ cs, classLoop k name lines n acc = .inr (acc ++ cs) ∧
      (∀ j x ws, j < n → lines[j]? = some x → matchClass k name x = some ws → x.head? ≠ some 'c') ∧
      ∀ ws j, (ws, j) ∈ cs ↔ j < n ∧ ∃ x, lines[j]? = some x ∧ matchClass k name x = some ws) := by
  induction n generalizing acc with
  | zero => exact .inr ⟨[], by simp [classLoop], by intro j x ws h; omega, by intro ws j; simp⟩
  | succ n ih =>
    have hl : lines[n]? = some (lines[n]'(by omega)) := List.getElem?_eq_getElem (by omega)
    generalize lines[n]'(by omega) = x at hl
    cases hm : matchClass k name x with
    | none =>
      have hstep : classLoop k name lines (n + 1) acc = classLoop k name lines n acc := by simp [classLoop, hl, hm]
      rw [hstep]
      have hno : ∀ y ws, lines[n]? = some y → matchClass k name y ≠ some ws := by
        intro y ws h1 h2; rw [hl] at h1; cases h1; rw [hm] at h2; cases h2
      rcases ih (by omega) acc with ⟨i, l, ws, g1, g2, g3, g4, g5, g6⟩ | ⟨cs, g1, g2, g3⟩
      · refine .inl ⟨i, l, ws, g1, by omega, g3, g4, g5, ?_⟩
        intro j y ws' h1 h2 h3 h4
        by_cases hj : j = n
        · subst hj; exact absurd h4 (hno y ws' h3)
        · exact g6 j y ws' h1 (by omega) h3 h4
      · refine .inr ⟨cs, g1, ?_, ?_⟩
        · intro j y ws' h2 h3 h4
          by_cases hj : j = n
          · subst hj; exact absurd h4 (hno y ws' h3)
          · exact g2 j y ws' (by omega) h3 h4
        · intro ws j
          rw [g3]
          constructor
          · rintro ⟨h1, h2⟩; exact ⟨by omega, h2⟩
          · rintro ⟨h1, y, h2, h3⟩
            by_cases hj : j = n
            · subst hj; exact absurd h3 (hno y ws h2)
            · exact ⟨by omega, y, h2, h3⟩
    | some ws =>
      by_cases hc : x.head? = some 'c'
      · refine .inl ⟨n, x, ws, by simp [classLoop, hl, hm, hc], by omega, hl, hm, hc, ?_⟩
        intro j y ws' h1 h2; omega
      · have hstep : classLoop k name lines (n + 1) acc = classLoop k name lines n (acc ++ [(ws, n)]) := by
          simp [classLoop, hl, hm, hc]
        rw [hstep]
        have hno : ∀ y ws, lines[n]? = some y → matchClass k name y = some ws → y.head? ≠ some 'c' := by
          intro y ws h1 h2; rw [hl] at h1; cases h1; exact hc
        rcases ih (by omega) (acc ++ [(ws, n)]) with ⟨i, l, ws', g1, g2, g3, g4, g5, g6⟩ | ⟨cs, g1, g2, g3⟩
        · refine .inl ⟨i, l, ws', g1, by omega, g3, g4, g5, ?_⟩
          intro j y ws' h1 h2 h3 h4
          by_cases hj : j = n
          · subst hj; exact hno y ws' h3 h4
          · exact g6 j y ws' h1 (by omega) h3 h4
        · refine .inr ⟨(ws, n) :: cs, by rw [g1]; simp, ?_, ?_⟩
          · intro j y ws' h2 h3 h4
            by_cases hj : j = n
            · subst hj; exact hno y ws' h3 h4
            · exact g2 j y ws' (by omega) h3 h4
          · intro ws' j
            rw [List.mem_cons, g3]
            constructor
            · rintro (h | ⟨h1, h2⟩)
              · cases h; exact ⟨by omega, x, hl, hm⟩
              · exact ⟨by omega, h2⟩
            · rintro ⟨h1, y, h2, h3⟩
              by_cases hj : j = n
              · subst hj
                rw [hl] at h2; cases h2
                rw [hm] at h3; cases h3
                exact .inl rfl
              · exact .inr ⟨by omega, y, h2, h3⟩

/-- a class name: not empty, starts with no space -/
def IsName (k : Cls) (name : List Char) : Prop := name ≠ [] ∧ ∀ x, name.head? = some x → k.sp x = false

theorem lt_of_some {α : Type} {l : List α} {i : Nat} {x : α} (h : l[i]? = some x) : i < l.length := by
  rcases Nat.lt_or_ge i l.length with g | g
  · exact g
  · rw [List.getElem?_eq_none g] at h; cases h

/-- With definitions of the class at top level, the last of them is found. -/
theorem C80_class_at_top_level (k : Cls) (name : List Char) (hn : IsName k name) (lines : List Line) (i : Nat) (l : Line)
    (hl : lines[i]? = some l) (h : IsClass k name [] l)
    (hlast : ∀ j x, i < j → lines[j]? = some x → ¬ IsClass k name [] x) : findClass k name lines = .ok i := by
  have hlen := lt_of_some hl
  have hne : lines ≠ [] := by intro h; subst h; simp at hlen
  have hm := (matchClass_iff k name hn.2 hn.1 l []).2 h
  have hc : l.head? = some 'c' := by obtain ⟨mid, rest, rfl, _⟩ := h; rfl
  have top : ∀ x ws, matchClass k name x = some ws → x.head? = some 'c' → IsClass k name [] x := by
    intro x ws h1 h2
    have h3 := (matchClass_iff k name hn.2 hn.1 x ws).1 h1
    cases ws with
    | nil => exact h3
    | cons w ws =>
      obtain ⟨mid, rest, rfl, g1, _⟩ := h3
      have := g1 w (by simp)
      simp only [List.cons_append, List.head?_cons, Option.some.injEq] at h2
      rw [h2, k.c_sp] at this; cases this
  rcases classLoop_spec k name lines lines.length (Nat.le_refl _) [] with ⟨i', l', ws, g1, g2, g3, g4, g5, g6⟩ | ⟨cs, g1, g2, g3⟩
  · have : i' = i := by
      rcases Nat.lt_trichotomy i' i with h | h | h
      · exact absurd hc (g6 i l [] h hlen hl hm)
      · exact h
      · exact absurd (top l' ws g4 g5) (hlast i' l' h g3)
    subst this
    simp [findClass, hne, g1]
  · exact absurd hc (g2 i l [] hlen hl hm)

/-- Without one at top level: the line with the least indentation in the order of strings, and of these the first. -/
theorem C80_class_indented (k : Cls) (name : List Char) (hn : IsName k name) (lines : List Line) (i : Nat) (l ws : Line)
    (hl : lines[i]? = some l) (h : IsClass k name ws l)
    (htop : ∀ x ∈ lines, ¬ IsClass k name [] x)
    (hbest : ∀ j x ws', lines[j]? = some x → IsClass k name ws' x → Before (ws, i) (ws', j)) : findClass k name lines = .ok i := by
  have hlen := lt_of_some hl
  have hne : lines ≠ [] := by intro h; subst h; simp at hlen
  have hm := (matchClass_iff k name hn.2 hn.1 l ws).2 h
  rcases classLoop_spec k name lines lines.length (Nat.le_refl _) [] with ⟨i', l', ws', g1, g2, g3, g4, g5, g6⟩ | ⟨cs, g1, g2, g3⟩
  · exfalso
    have h3 := (matchClass_iff k name hn.2 hn.1 l' ws').1 g4
    cases ws' with
    | nil => exact htop l' (List.mem_of_getElem? g3) h3
    | cons w ws' =>
      obtain ⟨mid, rest, rfl, q1, _⟩ := h3
      have := q1 w (by simp)
      simp only [List.cons_append, List.head?_cons, Option.some.injEq] at g5
      rw [g5, k.c_sp] at this; cases this
  · have hmem : (ws, i) ∈ cs := (g3 ws i).2 ⟨hlen, l, hl, hm⟩
    simp only [List.nil_append] at g1
    simp only [findClass, hne, if_false, g1]
    cases cs with
    | nil => cases hmem
    | cons a cs =>
      obtain ⟨q1, q2⟩ := least_spec a cs
      have q3 := q2 _ hmem
      obtain ⟨q4, x, q5, q6⟩ := (g3 (least a cs).1 (least a cs).2).1 q1
      have q7 := hbest _ x _ q5 ((matchClass_iff k name hn.2 hn.1 x _).1 q6)
      have irr : ∀ s : Line, strLt s s ≠ true := by
        intro s
        induction s with
        | nil => simp [strLt]
        | cons a s ih => simpa [strLt] using ih
      have : (least a cs).2 = i := by
        rcases q3 with q3 | ⟨q3, q8⟩ <;> rcases q7 with q7 | ⟨q7, q9⟩
        · exact absurd (strLt_trans _ _ _ q3 q7) (irr _)
        · dsimp only at q3 q7; rw [q7] at q3; exact absurd q3 (irr _)
        · dsimp only at q3 q7; rw [q3] at q7; exact absurd q7 (irr _)
        · dsimp only at q8 q9; omega
      simp [this]

/-- IOError if and only if no line defines a class of the name -/
theorem C80_class_not_found (k : Cls) (name : List Char) (hn : IsName k name) (lines : List Line) (hne : lines ≠ []) :
    findClass k name lines = .error .noClass ↔ ∀ l ∈ lines, ∀ ws, ¬ IsClass k name ws l := by
  rcases classLoop_spec k name lines lines.length (Nat.le_refl _) [] with ⟨i', l', ws', g1, g2, g3, g4, g5, g6⟩ | ⟨cs, g1, g2, g3⟩
  · constructor
    · intro h; simp [findClass, hne, g1] at h
    · intro h; exact absurd ((matchClass_iff k name hn.2 hn.1 _ _).1 g4) (h l' (List.mem_of_getElem? g3) ws')
  · simp only [List.nil_append] at g1
    cases cs with
    | nil =>
      refine ⟨fun _ l hl ws h => ?_, fun _ => by simp [findClass, hne, g1]⟩
      obtain ⟨j, hj⟩ := List.getElem?_of_mem hl
      have := (g3 ws j).2 ⟨lt_of_some hj, l, hj, (matchClass_iff k name hn.2 hn.1 l ws).2 h⟩
      cases this
    | cons a cs =>
      refine ⟨fun h => by simp [findClass, hne, g1] at h, fun h => ?_⟩
      obtain ⟨_, x, q5, q6⟩ := (g3 a.1 a.2).1 (by simp)
      exact absurd ((matchClass_iff k name hn.2 hn.1 x _).1 q6) (h x (List.mem_of_getElem? q5) _)

/-- A class defined once in the file, at top level or not, is found. -/
theorem C80_class_defined_once (k : Cls) (name : List Char) (hn : IsName k name) (lines : List Line) (i : Nat) (l ws : Line)
    (hl : lines[i]? = some l) (h : IsClass k name ws l)
    (honce : ∀ j x ws', lines[j]? = some x → IsClass k name ws' x → j = i) : findClass k name lines = .ok i := by
  cases ws with
  | nil => exact C80_class_at_top_level k name hn lines i l hl h fun j x h1 h2 h3 => absurd (honce j x _ h2 h3) (by omega)
  | cons w ws =>
    have huniq : ∀ x ws', lines[i]? = some x → IsClass k name ws' x → ws' = w :: ws := by
      intro x ws' h1 h2
      rw [hl] at h1; cases h1
      have e1 := (matchClass_iff k name hn.2 hn.1 l _).2 h
      have e2 := (matchClass_iff k name hn.2 hn.1 l _).2 h2
      rw [e1] at e2; cases e2; rfl
    refine C80_class_indented k name hn lines i l (w :: ws) hl h ?_ ?_
    · intro x hx h2
      obtain ⟨j, hj⟩ := List.getElem?_of_mem hx
      have := honce j x _ hj h2
      subst this
      have := huniq x [] hj h2
      cases this
    · intro j x ws' h1 h2
      have := honce j x ws' h1 h2
      subst this
      rw [huniq x ws' h1 h2]
      exact Before.refl _

/-! ### examples and counterexamples -/

instance {α : Type} [DecidableEq α] : DecidableEq (Except Exc α)
  | .ok a, .ok b => if h : a = b then isTrue (by rw [h]) else isFalse (by simp [h])
  | .error a, .error b => if h : a = b then isTrue (by rw [h]) else isFalse (by simp [h])
  | .ok _, .error _ => isFalse (by simp)
  | .error _, .ok _ => isFalse (by simp)

/-- the ASCII part of `\s` and `\w` -/
def ascii : Cls where
  sp c := c == ' ' || c == '\t' || c == '\n' || c == '\r'
  wd c := c.isAlphanum || c == '_'
  d_sp := by decide
  c_sp := by decide
  at_sp := by decide

def ln (l : List String) : List Line := l.map String.toList

def exFile : List Line := ln ["import abc\n", "def f():\n", "    return 1\n", "@abc.x\n", "@abc.y\n", "def g():\n", "    return 2\n", "h = lambda x: x\n"]

example : findCode ascii (.fn "g".toList) false 4 (fun _ => true) exFile = .ok 3 :=
  C80_function_in_file_partial _ _ _ _ _ (by decide) "@abc.x\n".toList rfl ((pat1_file ascii .code _).1 (by decide))
example : findCode ascii .lambda false 8 (fun _ => true) exFile = .ok 7 :=
  C80_function_in_file_partial _ _ _ _ _ (by decide) "h = lambda x: x\n".toList rfl ((pat1_file ascii .code _).1 (by decide))
example : findCode ascii (.fn "g".toList) true 1 (fun _ => true) exFile = .ok 3 := by decide
example : findCode ascii (.fn "g".toList) false 40 (fun _ => true) exFile = .error .indexError :=
  C80_file_too_short _ _ _ _ _ (by decide) (by decide)

/-- `async def`: the source of another function is given -/
theorem C80_async_function_wrong_source :
    ∃ lines : List Line, lines[2]? = some "async def g():\n".toList ∧
      findCode ascii (.fn "g".toList) false 3 (fun _ => true) lines = .ok 1 ∧ lines[1]? = some "def f():\n".toList :=
  ⟨ln ["import abc\n", "def f():\n", "async def g():\n", "    return 2\n"], rfl, by decide, rfl⟩

/-- so for `lambda` with a star right after it -/
theorem C80_star_lambda_wrong_source :
    ∃ lines : List Line, lines[2]? = some "g = lambda*a: a\n".toList ∧
      findCode ascii .lambda false 3 (fun _ => true) lines = .ok 1 ∧ lines[1]? = some "def f(): pass\n".toList :=
  ⟨ln ["import abc\n", "def f(): pass\n", "g = lambda*a: a\n"], rfl, by decide, rfl⟩

/-- typed in: a later function whose `def` line has the name somewhere in it is taken instead -/
theorem C80_typed_in_wrong_function :
    ∃ lines : List Line, lines[1]? = some "def add(x): return x\n".toList ∧
      findCode ascii (.fn "add".toList) true 1 (fun _ => true) lines = .ok 2 ∧ lines[2]? = some "def add_all(xs): return xs\n".toList :=
  ⟨ln ["import abc\n", "def add(x): return x\n", "def add_all(xs): return xs\n"], rfl, by decide, rfl⟩

/-- hypotheses of C80_function_typed_in_partial -/
example : ∃ r, findCode ascii (.fn "f".toList) true 1 (fun _ => true) (ln ["x = 1\n", "@a\n", "def f():\n", "    pass\n"]) = .ok r ∧ r ≤ 2 := by
  obtain ⟨r, h1, h2, _⟩ := C80_function_typed_in_partial ascii "f".toList (fun _ => true) (ln ["x = 1\n", "@a\n", "def f():\n", "    pass\n"]) 1 2
    "def f():\n".toList (by decide) rfl ((matchDef_iff _ _).1 (by decide)) ((isIn_iff _ _).1 (by decide)) (by
      intro j l h1 h2 h3
      have : j = 3 := by have := lt_of_some h2; simp [ln] at this; omega
      subst this
      cases h2
      exact absurd ((matchDef_iff _ _).2 h3) (by decide))
  exact ⟨r, h1, h2⟩

/-- a function that is not in the history -/
example : findCode ascii (.fn "zz".toList) true 1 (fun _ => true) exFile = .ok 0 :=
  C80_unknown_function_gives_first_line _ _ _ _ _ (by decide) (by
    intro l hl _ h
    have : ∀ l ∈ exFile, isIn "zz".toList l = false := by decide
    exact absurd (this l hl) (by rw [(isIn_iff _ _).2 h]; decide))

/-- Of two classes of one name, indented alike, the first is found, whichever is meant; and one tab counts as less than one
space, though two tabs are deeper than one space. -/
theorem C80_indented_class_wrong :
    findClass ascii "C".toList (ln ["def a():\n", "    class C: pass\n", "def b():\n", "    class C: pass\n"]) = .ok 1 ∧
    findClass ascii "C".toList (ln ["if 1:\n", " class C: pass\n", "def b():\n", "\tif 1:\n", "\t\tclass C: pass\n"]) = .ok 4 := by
  decide

/-- A line of a docstring at top level can be taken for the class. -/
theorem C80_docstring_taken_for_class :
    findClass ascii "C".toList (ln ["class C: pass\n", "'''\n", "class C is the class of ...\n", "'''\n"]) = .ok 2 := by decide

example : findClass ascii "C".toList (ln ["class CD: pass\n", "class  C(CD):\n", "    pass\n"]) = .ok 1 := by decide

example : findCode ascii .code true 1 (fun _ => true) (ln ["import abc\n", "@a\n", "@b\n", "def f():\n", "    pass\n"]) = .ok 1 := by decide
example : findCode ascii .lambda true 1 (fun l => l.contains 'y') (ln ["import abc\n", "f = lambda x: y\n", "g = lambda x: x\n"]) = .ok 1 := by decide

end Verif.FindSource
