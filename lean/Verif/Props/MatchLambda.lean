import Verif.Model.MatchLambda
import Verif.Props.FindSource
/-! C93: a lambda typed at the prompt is found at the line it was typed on. -/
set_option linter.unusedSimpArgs false
namespace Verif.MatchLambda
open Verif.FindSource (Line Cls isIn HasLambda)

/-! ### Specification -/

/-- `s` occurs in `t` -/
def Occurs (s t : Line) : Prop := ∃ a b, t = a ++ s ++ b

/-- the line is `... lambda ARGS:BODY`, at its first `lambda `, and at the first colon after it; a line without `lambda ` (with the
colon right after the word, or with a tab) is cut at its first colon -/
def Parts (line args body : Line) : Prop :=
  ':' ∉ args ∧
  ((∃ pre, line = pre ++ "lambda ".toList ++ args ++ ':' :: body ∧ ¬ Occurs "lambda ".toList (pre ++ "lambda".toList)) ∨
   (¬ Occurs "lambda ".toList line ∧ line = args ++ ':' :: body))

/-- the bytecode that the line is compared by: that of the lambda it shows, or a constant function when that text does not compile -/
def Compares (E : Env) (line : Line) (c : Code) : Prop :=
  ∃ args body, Parts line args body ∧ (E.eval args body = .fn c ∨ (E.eval args body = .raises ∧ c = E.dummy))

/-! ### Lemmas -/

theorem afterFirst_none {s t : Line} (hs : s ≠ []) (h : ¬ Occurs s t) : afterFirst s t = none := by
  induction t with
  | nil =>
    cases s with
    | nil => exact absurd rfl hs
    | cons a s => rfl
  | cons c t ih =>
    unfold afterFirst
    rw [if_neg, ih]
    · rintro ⟨a, b, rfl⟩; exact h ⟨c :: a, b, rfl⟩
    · intro hp
      obtain ⟨r, hr⟩ := List.isPrefixOf_iff_prefix.1 hp
      exact h ⟨[], r, hr.symm⟩

theorem afterFirst_some {s t r : Line} (h : afterFirst s t = some r) : ∃ a, t = a ++ s ++ r := by
  induction t with
  | nil =>
    unfold afterFirst at h
    split at h
    · next hs => cases h; cases s with
      | nil => exact ⟨[], rfl⟩
      | cons => simp at hs
    · cases h
  | cons c t ih =>
    unfold afterFirst at h
    split at h
    · next hp =>
      obtain ⟨q, hq⟩ := List.isPrefixOf_iff_prefix.1 hp
      cases h
      refine ⟨[], ?_⟩
      rw [← hq]; simp
    · obtain ⟨a, rfl⟩ := ih h
      exact ⟨c :: a, rfl⟩

theorem afterFirst_first {pre r : Line} (h : ¬ Occurs lambdaWord (pre ++ "lambda".toList)) :
    afterFirst lambdaWord (pre ++ lambdaWord ++ r) = some r := by
  induction pre with
  | nil =>
    have e : lambdaWord = 'l' :: "ambda ".toList := rfl
    rw [List.nil_append]
    have : afterFirst lambdaWord (lambdaWord ++ r) = afterFirst lambdaWord ('l' :: ("ambda ".toList ++ r)) := rfl
    rw [this]
    unfold afterFirst
    have hp : List.isPrefixOf lambdaWord ('l' :: ("ambda ".toList ++ r)) = true := List.isPrefixOf_iff_prefix.2 ⟨r, rfl⟩
    rw [if_pos hp]
    rfl
  | cons c pre ih =>
    rw [List.cons_append, List.cons_append]
    unfold afterFirst
    rw [if_neg, ih]
    · rintro ⟨a, b, e⟩; exact h ⟨c :: a, b, by rw [List.cons_append, e]; rfl⟩
    · intro hp
      obtain ⟨q, hq⟩ := List.isPrefixOf_iff_prefix.1 hp
      apply h
      have e : c :: (pre ++ lambdaWord ++ r) = (c :: pre ++ "lambda".toList) ++ (' ' :: r) := by simp [lambdaWord]
      rw [e] at hq
      have hl : lambdaWord.length ≤ (c :: pre ++ "lambda".toList).length := by
        simp only [lambdaWord, List.length_append, List.length_cons]
        have h1 : "lambda ".toList.length = 7 := rfl
        have h2 : "lambda".toList.length = 6 := rfl
        omega
      have hpre : lambdaWord <+: (c :: pre ++ "lambda".toList) := by
        refine List.prefix_of_prefix_length_le ⟨q, hq⟩ (List.prefix_append _ _) hl
      obtain ⟨b, hb⟩ := hpre
      exact ⟨[], b, hb.symm⟩

theorem splitColon_some (a b : Line) (h : ':' ∉ a) : splitColon (a ++ ':' :: b) = some (a, b) := by
  unfold splitColon
  have hp : ∀ c ∈ a, (c != ':') = true := by
    intro c hc
    have : c ≠ ':' := fun e => h (e ▸ hc)
    simpa using this
  rw [if_pos (by simp), List.takeWhile_append_of_pos hp, List.dropWhile_append_of_pos hp]
  simp

theorem takeWhile_sat {p : Char → Bool} {l : Line} {c : Char} (h : c ∈ l.takeWhile p) : p c = true := by
  induction l with
  | nil => cases h
  | cons a l ih =>
    by_cases ha : p a = true
    · rw [List.takeWhile_cons_of_pos ha] at h
      rcases List.mem_cons.1 h with rfl | h
      · exact ha
      · exact ih h
    · rw [List.takeWhile_cons_of_neg ha] at h; cases h

theorem splitColon_inv {s a b : Line} (h : splitColon s = some (a, b)) : ':' ∉ a ∧ s = a ++ ':' :: b := by
  unfold splitColon at h
  split at h
  · next hm =>
    cases h
    refine ⟨?_, ?_⟩
    · intro hc
      have := takeWhile_sat hc
      simp at this
    · have hs := List.takeWhile_append_dropWhile (p := (· != ':')) (l := s)
      cases hd : s.dropWhile (· != ':') with
      | nil =>
        rw [hd, List.append_nil] at hs
        rw [← hs] at hm
        have := takeWhile_sat hm
        simp at this
      | cons x d =>
        have hx : x = ':' := by
          have := List.head?_dropWhile_not (· != ':') s
          rw [hd] at this; simpa using this
        subst hx
        rw [hd] at hs
        simpa using hs.symm
  · cases h

theorem splitLambda_parts {line args body : Line} (h : Parts line args body) : splitLambda line = some (args, body) := by
  obtain ⟨hc, ⟨pre, rfl, hn⟩ | ⟨hn, rfl⟩⟩ := h
  · unfold splitLambda
    rw [show "lambda ".toList = lambdaWord from rfl, List.append_assoc, afterFirst_first hn, Option.getD_some]
    exact splitColon_some args body hc
  · unfold splitLambda
    have hn' : ¬ Occurs lambdaWord (args ++ ':' :: body) := hn
    rw [afterFirst_none (by decide) hn', Option.getD_none]
    exact splitColon_some args body hc

/-- the first occurrence is the first -/
theorem afterFirst_min {s t r : Line} (h : afterFirst s t = some r) : ∃ a, t = a ++ s ++ r ∧
    ∀ x y, t = x ++ s ++ y → a.length ≤ x.length := by
  induction t with
  | nil =>
    obtain ⟨a, ha⟩ := afterFirst_some h
    refine ⟨a, ha, ?_⟩
    have : a = [] := by cases a with | nil => rfl | cons => cases ha
    intro x y _; subst this; simp
  | cons c t ih =>
    unfold afterFirst at h
    split at h
    · next hp =>
      obtain ⟨q, hq⟩ := List.isPrefixOf_iff_prefix.1 hp
      cases h
      exact ⟨[], by rw [← hq]; simp, fun x y _ => by simp⟩
    · next hp =>
      obtain ⟨a, rfl, hmin⟩ := ih h
      refine ⟨c :: a, rfl, ?_⟩
      intro x y hxy
      cases x with
      | nil =>
        exfalso
        apply hp
        refine List.isPrefixOf_iff_prefix.2 ⟨y, ?_⟩
        simpa using hxy.symm
      | cons d x =>
        simp only [List.cons_append, List.cons.injEq] at hxy
        have := hmin x y hxy.2
        simp only [List.length_cons]; omega

theorem splitLambda_inv {line args body : Line} (h : splitLambda line = some (args, body)) : Parts line args body := by
  unfold splitLambda at h
  cases ha : afterFirst lambdaWord line with
  | none =>
    rw [ha, Option.getD_none] at h
    obtain ⟨h1, h2⟩ := splitColon_inv h
    refine ⟨h1, .inr ⟨?_, h2⟩⟩
    rintro ⟨a, b, rfl⟩
    have : ∀ a : Line, afterFirst lambdaWord (a ++ lambdaWord ++ b) ≠ none := by
      intro a
      induction a with
      | nil =>
        have : afterFirst lambdaWord ([] ++ lambdaWord ++ b) = afterFirst lambdaWord ('l' :: ("ambda ".toList ++ b)) := rfl
        rw [this]
        unfold afterFirst
        have hp : List.isPrefixOf lambdaWord ('l' :: ("ambda ".toList ++ b)) = true := List.isPrefixOf_iff_prefix.2 ⟨b, rfl⟩
        rw [if_pos hp]
        simp
      | cons c a ih =>
        rw [List.cons_append, List.cons_append]
        unfold afterFirst
        split
        · simp
        · exact ih
    exact this a ha
  | some r =>
    rw [ha, Option.getD_some] at h
    obtain ⟨h1, rfl⟩ := splitColon_inv h
    obtain ⟨pre, hpre, hmin⟩ := afterFirst_min ha
    refine ⟨h1, .inl ⟨pre, by rw [hpre]; simp [lambdaWord], ?_⟩⟩
    rintro ⟨a, b, e⟩
    have e2 : line = a ++ lambdaWord ++ (b ++ (' ' :: (args ++ ':' :: body))) := by
      have e3 : line = (pre ++ "lambda".toList) ++ (' ' :: (args ++ ':' :: body)) := by rw [hpre]; simp [lambdaWord]
      rw [e3, e]; simp [lambdaWord]
    have h2 := hmin _ _ e2
    have h3 : (pre ++ "lambda".toList).length = (a ++ "lambda ".toList ++ b).length := by rw [e]
    simp only [List.length_append] at h3
    have h4 : "lambda ".toList.length = 7 := rfl
    have h5 : "lambda".toList.length = 6 := rfl
    omega

theorem match_free {k : Cls} {E : Env} {L : Lam} {line : Line} (hf : L.free = []) {c : Code} (h : Compares E line c) :
    matchLambda k E L line = .ok (c == L.code) := by
  obtain ⟨args, body, hp, he⟩ := h
  unfold matchLambda
  rw [splitLambda_parts hp]
  have : codeOf E args body = some c := by
    unfold codeOf
    rcases he with he | ⟨he, rfl⟩ <;> rw [he]
  simp only [this, hf, if_true]

theorem search_stop {k : Cls} {E : Env} {L : Lam} {lines : List Line} {n i : Nat} (hi : i ≤ n) (hn : n < lines.length)
    (hskip : ∀ j, i < j → j ≤ n → ∀ l : Line, lines[j]? = some l → FindSource.matchLambda k false l = true → matchLambda k E L l = .ok false)
    (hstop : i = 0 ∨ ∃ l : Line, lines[i]? = some l ∧ FindSource.matchLambda k false l = true ∧ matchLambda k E L l = .ok true) :
    search k E L lines n = .ok i := by
  induction n with
  | zero => obtain rfl : i = 0 := by omega
            rfl
  | succ n ih =>
    unfold search
    have hl : lines[n + 1]? = some lines[n + 1] := List.getElem?_eq_getElem hn
    rw [hl]
    simp only
    by_cases e : i = n + 1
    · subst e
      rcases hstop with h | ⟨l, h1, h2, h3⟩
      · omega
      · rw [hl] at h1; cases h1
        rw [if_pos h2, h3]
    · have hr := ih (by omega) (by omega) (fun j h1 h2 => hskip j h1 (by omega))
      split
      · next hm => rw [hskip (n + 1) (by omega) (by omega) _ hl hm]; exact hr
      · exact hr

/-! ### C93 -/

/-- C93, proved for a lambda without free variables: it is found at the line it was typed on if that line's text compiles to it and every
later line with a lambda is compared by other bytecode.  (The first line of the history is the answer when no line matches.) -/
theorem C93_found_partial (k : Cls) (E : Env) (L : Lam) (lines : List Line) (i : Nat) (line : Line) (hf : L.free = [])
    (hi : lines[i]? = some line) (hl : HasLambda k line) (hc : Compares E line L.code)
    (hlater : ∀ j l, i < j → lines[j]? = some l → HasLambda k l → ∃ c, Compares E l c ∧ c ≠ L.code) :
    findLambda k E L lines = .ok i := by
  have hlt : i < lines.length := by
    rcases Nat.lt_or_ge i lines.length with h | h
    · exact h
    · rw [List.getElem?_eq_none h] at hi; cases hi
  unfold findLambda
  rw [if_neg (by rintro rfl; simp at hlt)]
  refine search_stop (by omega) (by omega) ?_ (.inr ⟨line, hi, (FindSource.matchLambda_iff k line).2 hl, ?_⟩)
  · intro j h1 _ l h3 h4
    obtain ⟨c, hc, hne⟩ := hlater j l h1 h3 ((FindSource.matchLambda_iff k l).1 h4)
    rw [match_free hf hc]
    simp [hne]
  · rw [match_free hf hc]; simp

/-- Conversely, a line after the first that is returned for such a lambda is compared by its bytecode, and no later line is. -/
theorem C93_sound_partial (k : Cls) (E : Env) (L : Lam) (lines : List Line) (i : Nat) (hf : L.free = []) (hi : 0 < i)
    (h : findLambda k E L lines = .ok i) :
    (∃ line, lines[i]? = some line ∧ HasLambda k line ∧ Compares E line L.code) ∧
    ∀ j l, i < j → lines[j]? = some l → HasLambda k l → ¬ Compares E l L.code := by
  have key : ∀ n, search k E L lines n = .ok i →
      (∃ line, lines[i]? = some line ∧ HasLambda k line ∧ Compares E line L.code) ∧
      ∀ j l, i < j → j ≤ n → lines[j]? = some l → HasLambda k l → ¬ Compares E l L.code := by
    intro n
    induction n with
    | zero => intro h; simp [search] at h; omega
    | succ n ih =>
      intro h
      unfold search at h
      cases hl : lines[n + 1]? with
      | none => rw [hl] at h; cases h
      | some line =>
        rw [hl] at h
        simp only at h
        by_cases hm : FindSource.matchLambda k false line = true
        · rw [if_pos hm] at h
          cases hx : matchLambda k E L line with
          | error e => rw [hx] at h; cases h
          | ok b =>
            rw [hx] at h
            cases b with
            | true =>
              have hin : n + 1 = i := by simpa using h
              subst hin
              refine ⟨⟨line, hl, (FindSource.matchLambda_iff k line).1 hm, ?_⟩, fun j l h1 h2 => by omega⟩
              unfold matchLambda at hx
              cases hs : splitLambda line with
              | none => rw [hs] at hx; cases hx
              | some p =>
                obtain ⟨a, b⟩ := p
                rw [hs] at hx
                simp only at hx
                refine ⟨a, b, splitLambda_inv hs, ?_⟩
                unfold codeOf at hx
                cases he : E.eval a b with
                | raises =>
                  rw [he] at hx; simp [hf] at hx
                  exact .inr ⟨rfl, hx.symm⟩
                | other => rw [he] at hx; simp at hx
                | fn c =>
                  rw [he] at hx; simp [hf] at hx
                  subst hx; exact .inl rfl
            | false =>
              simp only at h
              obtain ⟨h1, h2⟩ := ih h
              refine ⟨h1, ?_⟩
              intro j l h3 h4 h5 h6
              by_cases e : j = n + 1
              · subst e
                rw [hl] at h5; cases h5
                intro hcmp
                rw [match_free hf hcmp] at hx
                simp at hx
              · exact h2 j l h3 (by omega) h5 h6
        · rw [if_neg hm] at h
          obtain ⟨h1, h2⟩ := ih h
          refine ⟨h1, ?_⟩
          intro j l h3 h4 h5 h6
          by_cases e : j = n + 1
          · subst e
            rw [hl] at h5; cases h5
            exact absurd ((FindSource.matchLambda_iff k _).2 h6) hm
          · exact h2 j l h3 (by omega) h5 h6
  unfold findLambda at h
  split at h
  · cases h
  · obtain ⟨h1, h2⟩ := key _ h
    refine ⟨h1, ?_⟩
    intro j l h3 h4
    have : j < lines.length := by
      rcases Nat.lt_or_ge j lines.length with h | h
      · exact h
      · rw [List.getElem?_eq_none h] at h4; cases h4
    exact h2 j l h3 (by omega) h4

/-- C93 fails for every lambda with free variables: no line is ever found for it, except lines with two lambdas. -/
theorem C93_closure_not_found (k : Cls) (E : Env) (L : Lam) (lines : List Line) (i : Nat) (hf : L.free ≠ []) (hi : 0 < i)
    (h : findLambda k E L lines = .ok i) : ∃ line a b, lines[i]? = some line ∧ line = a ++ "lambda ".toList ++ b ∧ Occurs "lambda ".toList b := by
  have key : ∀ n, search k E L lines n = .ok i → ∃ line, lines[i]? = some line ∧ matchLambda k E L line = .ok true := by
    intro n
    induction n with
    | zero => intro h; simp [search] at h; omega
    | succ n ih =>
      intro h
      unfold search at h
      cases hl : lines[n + 1]? with
      | none => rw [hl] at h; cases h
      | some line =>
        rw [hl] at h
        simp only at h
        split at h
        · cases hx : matchLambda k E L line with
          | error e => rw [hx] at h; cases h
          | ok b =>
            rw [hx] at h
            cases b with
            | true => have : n + 1 = i := by simpa using h
                      subst this; exact ⟨line, hl, hx⟩
            | false => exact ih h
        · exact ih h
  have hs : search k E L lines (lines.length - 1) = .ok i := by
    unfold findLambda at h
    split at h
    · cases h
    · exact h
  obtain ⟨line, h1, h2⟩ := key _ hs
  have h3 : twoLambdas line = true := by
    unfold matchLambda at h2
    cases ht : twoLambdas line with
    | true => rfl
    | false =>
      exfalso
      rw [ht] at h2
      revert h2
      cases splitLambda line with
      | none => simp
      | some p =>
        simp only
        cases codeOf E p.1 p.2 with
        | none => simp
        | some c =>
          simp only [if_neg hf, Bool.false_and]
          repeat' split
          all_goals simp_all
  unfold twoLambdas at h3
  cases ha : afterFirst lambdaWord line with
  | none => rw [ha] at h3; cases h3
  | some r =>
    rw [ha] at h3
    obtain ⟨a, e⟩ := afterFirst_some ha
    refine ⟨line, a, r, h1, e, ?_⟩
    have hin : ∀ r : Line, isIn lambdaWord r = true → Occurs lambdaWord r := by
      intro r
      induction r with
      | nil => intro h; simp [isIn, lambdaWord] at h
      | cons c r ih =>
        intro h
        simp only [isIn, Bool.or_eq_true] at h
        rcases h with h | h
        · obtain ⟨q, hq⟩ := List.isPrefixOf_iff_prefix.1 h
          exact ⟨[], q, hq.symm⟩
        · obtain ⟨x, y, rfl⟩ := ih h
          exact ⟨c :: x, y, rfl⟩
    exact hin r h3

/-- C93 fails for every lambda when the last line typed has the word lambda and no colon (a comment, say): ValueError. -/
theorem C93_comment_raises (k : Cls) (E : Env) (L : Lam) (lines : List Line) (line : Line) (hne : lines ≠ [])
    (hl : HasLambda k line) (hc : ':' ∉ line) : findLambda k E L (lines ++ [line]) = .error .valueError := by
  unfold findLambda
  rw [if_neg (by simp)]
  have hlen : (lines ++ [line]).length - 1 = (lines.length - 1) + 1 := by
    have : lines.length ≠ 0 := by simpa using hne
    simp; omega
  rw [hlen]
  unfold search
  have hg : (lines ++ [line])[lines.length - 1 + 1]? = some line := by
    have : lines.length ≠ 0 := by simpa using hne
    have : lines.length - 1 + 1 = lines.length := by omega
    rw [this]; simp
  rw [hg]
  simp only
  rw [if_pos ((FindSource.matchLambda_iff k line).2 hl)]
  have hs : splitLambda line = none := by
    cases h : splitLambda line with
    | none => rfl
    | some p =>
      obtain ⟨a, b⟩ := p
      obtain ⟨_, ⟨pre, e, _⟩ | ⟨_, e⟩⟩ := splitLambda_inv h
      · exact absurd (by rw [e]; simp) hc
      · exact absurd (by rw [e]; simp) hc
  unfold matchLambda
  rw [hs]

instance {α : Type} [DecidableEq α] : DecidableEq (Except Exc α)
  | .ok a, .ok b => if h : a = b then isTrue (h ▸ rfl) else isFalse (by simp [h])
  | .error a, .error b => if h : a = b then isTrue (h ▸ rfl) else isFalse (by simp [h])
  | .ok _, .error _ => isFalse (by simp)
  | .error _, .ok _ => isFalse (by simp)

/-! ### closures -/

/-- a lambda that mentions what this closure needs: its free variables, its variables and its globals -/
def Mentions (L : Lam) (line : Line) : Prop :=
  (∀ n ∈ L.free, Occurs n line) ∧ (∀ n ∈ L.vars, Occurs n line) ∧ (∀ n ∈ L.globs, Occurs n line)

/-- the two bytecodes have the same length, and differ, always in the same pair of bytes -/
def OneDifference (c d : Code) : Prop :=
  c.length = d.length ∧ ∃ p : Nat × Nat, p.1 ≠ p.2 ∧ (∃ i : Nat, c[i]? = some p.1 ∧ d[i]? = some p.2) ∧
    ∀ (i x y : Nat), c[i]? = some x → d[i]? = some y → x = y ∨ (x, y) = p

theorem occurs_iff (s t : Line) : isIn s t = true ↔ Occurs s t := by
  rw [FindSource.isIn_iff]
  constructor
  · rintro ⟨a, b, h⟩; exact ⟨a, b, h.symm⟩
  · rintro ⟨a, b, h⟩; exact ⟨a, b, h.symm⟩

theorem mem_zip_iff {c d : Code} {x y : Nat} : (x, y) ∈ c.zip d ↔ ∃ i : Nat, c[i]? = some x ∧ d[i]? = some y := by
  rw [List.mem_iff_getElem?]
  constructor
  · rintro ⟨i, h⟩
    rw [List.getElem?_zip_eq_some] at h
    exact ⟨i, h⟩
  · rintro ⟨i, h⟩
    exact ⟨i, by rw [List.getElem?_zip_eq_some]; exact h⟩

theorem one_of_eraseDups {α : Type} [BEq α] [LawfulBEq α] (l : List α) : l.eraseDups.length = 1 ↔ ∃ p, p ∈ l ∧ ∀ q ∈ l, q = p := by
  cases l with
  | nil => simp
  | cons a l =>
    rw [List.eraseDups_cons]
    simp only [List.length_cons, Nat.add_eq_right, List.length_eq_zero_iff]
    constructor
    · intro h
      refine ⟨a, by simp, ?_⟩
      intro q hq
      rcases List.mem_cons.1 hq with e | e
      · exact e
      · cases hb : (q == a) with
        | true => exact eq_of_beq hb
        | false =>
          have : q ∈ (l.filter fun b => !b == a).eraseDups := by
            rw [List.mem_eraseDups]
            exact List.mem_filter.2 ⟨e, by simp [hb]⟩
          rw [h] at this; cases this
    · rintro ⟨p, hp, hq⟩
      have ha : a = p := hq a (by simp)
      have : l.filter (fun b => !b == a) = [] := by
        rw [List.filter_eq_nil_iff]
        intro b hb
        have := hq b (List.mem_cons_of_mem _ hb)
        simp [this, ha]
      rw [this]; rfl

theorem diffs_one (c d : Code) (h : c.length = d.length) : (diffs c d).length = 1 ↔ OneDifference c d := by
  unfold diffs OneDifference
  rw [one_of_eraseDups]
  constructor
  · rintro ⟨p, hp, hq⟩
    obtain ⟨h1, h2⟩ := List.mem_filter.1 hp
    refine ⟨h, p, by simpa using h2, mem_zip_iff.1 h1, ?_⟩
    intro i x y hx hy
    by_cases e : x = y
    · exact .inl e
    · exact .inr (hq (x, y) (List.mem_filter.2 ⟨mem_zip_iff.2 ⟨i, hx, hy⟩, by simpa using e⟩))
  · rintro ⟨-, p, hne, hi, hall⟩
    refine ⟨p, List.mem_filter.2 ⟨mem_zip_iff.2 hi, by simpa using hne⟩, ?_⟩
    rintro ⟨x, y⟩ hq
    obtain ⟨h1, h2⟩ := List.mem_filter.1 hq
    obtain ⟨i, hx, hy⟩ := mem_zip_iff.1 h1
    rcases hall i x y hx hy with e | e
    · simp [e] at h2
    · exact e

theorem codeOf_iff (E : Env) (a b : Line) (c : Code) : codeOf E a b = some c ↔ (E.eval a b = .fn c ∨ (E.eval a b = .raises ∧ c = E.dummy)) := by
  unfold codeOf
  cases E.eval a b <;> simp [eq_comm]

theorem all_isIn (l : List Line) (line : Line) : (l.all fun n => isIn n line) = true ↔ ∀ n ∈ l, Occurs n line := by
  simp only [List.all_eq_true, occurs_iff]

theorem two_iff {line : Line} : twoLambdas line = true ↔ ∃ r, afterFirst lambdaWord line = some r ∧ Occurs "lambda ".toList r := by
  unfold twoLambdas
  cases afterFirst lambdaWord line with
  | none => simp
  | some r => simp only [occurs_iff, lambdaWord, Option.some.injEq, exists_eq_left']

/-- the line has the word twice: `... lambda ... lambda ...` -/
def Twice (line : Line) : Prop := ∃ pre r, line = pre ++ "lambda ".toList ++ r ∧ ¬ Occurs "lambda ".toList (pre ++ "lambda".toList) ∧
  Occurs "lambda ".toList r

theorem twice_of {line : Line} (h : Twice line) : twoLambdas line = true := by
  obtain ⟨pre, r, e, h1, h2⟩ := h
  refine two_iff.2 ⟨r, ?_, h2⟩
  rw [e]
  exact afterFirst_first h1

theorem two_twice {line : Line} (h : twoLambdas line = true) : Twice line := by
  obtain ⟨r, h1, h2⟩ := two_iff.1 h
  obtain ⟨a, e, hmin⟩ := afterFirst_min h1
  refine ⟨a, r, e, ?_, h2⟩
  rintro ⟨x, y, hxy⟩
  have e2 : line = x ++ lambdaWord ++ (y ++ (' ' :: r)) := by
    have e3 : line = (a ++ "lambda".toList) ++ (' ' :: r) := by rw [e]; simp [lambdaWord]
    rw [e3, hxy]; simp [lambdaWord]
  have h2 := hmin _ _ e2
  have h3 : (a ++ "lambda".toList).length = (x ++ "lambda ".toList ++ y).length := by rw [hxy]
  simp only [List.length_append] at h3
  have h4 : "lambda ".toList.length = 7 := rfl
  have h5 : "lambda".toList.length = 6 := rfl
  omega

/-- what happens with a closure on one line -/
theorem match_closure {k : Cls} {E : Env} {L : Lam} {line args body : Line} (hf : L.free ≠ []) (hp : Parts line args body)
    (hc : E.eval args body ≠ .other) :
    (¬ Mentions L line → matchLambda k E L line = .ok false) ∧
    (Mentions L line → ¬ (Twice line ∧ args ∈ L.free) → (∀ c t, line = c :: t → k.sp c = false) → matchLambda k E L line = .ok false) ∧
    (Mentions L line → ¬ (Twice line ∧ args ∈ L.free) → (∃ c t, line = c :: t ∧ k.sp c = true) → matchLambda k E L line = .error .typeError) ∧
    (Mentions L line → Twice line → args ∈ L.free → ∀ args' body' c, Parts body args' body' →
      (E.eval args' body' = .fn c ∨ (E.eval args' body' = .raises ∧ c = E.dummy)) →
      matchLambda k E L line = .ok ((diffs c L.code).length == 1 && decide (c.length = L.code.length))) := by
  have hco : ∃ c, codeOf E args body = some c := by
    cases he : E.eval args body with
    | raises => exact ⟨_, (codeOf_iff ..).2 (.inr ⟨he, rfl⟩)⟩
    | other => exact absurd he hc
    | fn c => exact ⟨c, (codeOf_iff ..).2 (.inl he)⟩
  obtain ⟨c0, hc0⟩ := hco
  have e0 : matchLambda k E L line =
      if (L.free.all fun n => isIn n line) = false then .ok false
      else if (L.vars.all fun n => isIn n line) = false then .ok false
      else if (L.globs.all fun n => isIn n line) = false then .ok false
      else if twoLambdas line && L.free.contains args then
        match splitLambda body with
        | none => .error .valueError
        | some (lhs', rhs') =>
          match codeOf E lhs' rhs' with
          | none => .error .attributeError
          | some c' =>
            if c'.length ≠ L.code.length then .ok false
            else .ok ((diffs c' L.code).length == 1)
      else if indented k line = false then .ok false
      else .error .typeError := by
    unfold matchLambda
    rw [splitLambda_parts hp]
    simp only [hc0, if_neg hf]
    rfl
  have hmen : Mentions L line ↔ (L.free.all fun n => isIn n line) = true ∧ (L.vars.all fun n => isIn n line) = true ∧
      (L.globs.all fun n => isIn n line) = true := by
    unfold Mentions; rw [all_isIn, all_isIn, all_isIn]
  have e1 : Mentions L line → matchLambda k E L line =
      if twoLambdas line && L.free.contains args then
        match splitLambda body with
        | none => .error .valueError
        | some (lhs', rhs') =>
          match codeOf E lhs' rhs' with
          | none => .error .attributeError
          | some c' =>
            if c'.length ≠ L.code.length then .ok false
            else .ok ((diffs c' L.code).length == 1)
      else if indented k line = false then .ok false
      else .error .typeError := by
    intro hm
    obtain ⟨h1, h2, h3⟩ := hmen.1 hm
    rw [e0, h1, h2, h3]
    rfl
  have e2 : Mentions L line → ¬ (Twice line ∧ args ∈ L.free) → matchLambda k E L line =
      if indented k line = false then .ok false else .error .typeError := by
    intro hm ht
    rw [e1 hm]
    have : (twoLambdas line && L.free.contains args) = false := by
      cases h1 : twoLambdas line with
      | false => rfl
      | true =>
        cases h2 : L.free.contains args with
        | false => rfl
        | true => exact absurd ⟨two_twice h1, by simpa using h2⟩ ht
    rw [this]; rfl
  refine ⟨?_, ?_, ?_, ?_⟩
  · intro hn
    rw [e0]
    by_cases h1 : (L.free.all fun n => isIn n line) = false
    · rw [if_pos h1]
    · rw [if_neg h1]
      by_cases h2 : (L.vars.all fun n => isIn n line) = false
      · rw [if_pos h2]
      · rw [if_neg h2]
        by_cases h3 : (L.globs.all fun n => isIn n line) = false
        · rw [if_pos h3]
        · exact absurd (hmen.2 ⟨by simpa using h1, by simpa using h2, by simpa using h3⟩) hn
  · intro hm ht hs
    rw [e2 hm ht]
    have : indented k line = false := by
      cases line with
      | nil => rfl
      | cons c t => exact hs c t rfl
    rw [if_pos this]
  · rintro hm ht ⟨c, t, rfl, hs⟩
    rw [e2 hm ht]
    have : ¬ indented k (c :: t) = false := by simp [indented, hs]
    rw [if_neg this]
  · intro hm ht ha args' body' c hp' he
    rw [e1 hm, twice_of ht]
    have : L.free.contains args = true := by simpa using ha
    rw [this, splitLambda_parts hp']
    simp only [Bool.and_self, if_true, (codeOf_iff ..).2 he]
    by_cases hlen : c.length = L.code.length
    · simp [hlen]
    · simp [hlen]

theorem find_last {k : Cls} {E : Env} {L : Lam} {lines : List Line} {line : Line} (hne : lines ≠ []) (hl : HasLambda k line) :
    findLambda k E L (lines ++ [line]) = (match matchLambda k E L line with
      | .error e => .error e
      | .ok true => .ok lines.length
      | .ok false => findLambda k E L lines) := by
  have hpos : 0 < lines.length := List.length_pos_iff.2 hne
  unfold findLambda
  rw [if_neg (by simp), if_neg hne]
  have hlen : (lines ++ [line]).length - 1 = (lines.length - 1) + 1 := by simp; omega
  rw [hlen]
  have hstep : ∀ n, search k E L (lines ++ [line]) (n + 1) = _ := fun n => by rw [search]
  rw [hstep]
  have hg : (lines ++ [line])[lines.length - 1 + 1]? = some line := by
    have : lines.length - 1 + 1 = lines.length := by omega
    rw [this]; simp
  rw [hg]
  simp only
  rw [if_pos ((FindSource.matchLambda_iff k line).2 hl)]
  have hrest : ∀ n, n < lines.length → search k E L (lines ++ [line]) n = search k E L lines n := by
    intro n
    induction n with
    | zero => intro _; rfl
    | succ n ih =>
      intro hn
      unfold search
      rw [List.getElem?_append_left hn, ih (by omega)]
  rw [hrest _ (by omega)]
  have : lines.length - 1 + 1 = lines.length := by omega
  cases hm : matchLambda k E L line with
  | error e => rfl
  | ok b => cases b <;> simp [this]

/-- C93, exactly when the last line with a lambda is taken for a closure, if it shows a lambda that returns a lambda: the line mentions
every name that the closure uses, and the inner lambda compiles to bytecode that differs from the closure's in exactly one pair of bytes
(a free variable is a global variable there).  Otherwise the search goes on with the lines before. -/
theorem C93_closure_taken_partial (k : Cls) (E : Env) (L : Lam) (lines : List Line) (line args body : Line) (hf : L.free ≠ []) (hne : lines ≠ [])
    (hl : HasLambda k line) (hp : Parts line args body) (hc : E.eval args body ≠ .other) (ht : Twice line) (ha : args ∈ L.free)
    (args' body' : Line) (c : Code) (hp' : Parts body args' body')
    (he : E.eval args' body' = .fn c ∨ (E.eval args' body' = .raises ∧ c = E.dummy)) :
    (Mentions L line ∧ OneDifference c L.code → findLambda k E L (lines ++ [line]) = .ok lines.length) ∧
    (¬ (Mentions L line ∧ OneDifference c L.code) → findLambda k E L (lines ++ [line]) = findLambda k E L lines) := by
  obtain ⟨h1, -, -, h4⟩ := match_closure (k := k) (L := L) hf hp hc
  constructor
  · rintro ⟨hm, ho⟩
    rw [find_last hne hl, h4 hm ht ha args' body' c hp' he]
    have e1 := (diffs_one c L.code ho.1).2 ho
    simp [e1, ho.1]
  · intro hn
    rw [find_last hne hl]
    by_cases hm : Mentions L line
    · rw [h4 hm ht ha args' body' c hp' he]
      have : ((diffs c L.code).length == 1 && decide (c.length = L.code.length)) = false := by
        by_cases hlen : c.length = L.code.length
        · cases hd : ((diffs c L.code).length == 1) with
          | false => rfl
          | true => exact absurd ⟨hm, (diffs_one c L.code hlen).1 (by simpa using hd)⟩ hn
        · simp [hlen]
      rw [this]
    · rw [h1 hm]

/-- C93 fails for closures made by a `def`, or by a lambda with other parameters: such a line is passed over when it begins in the first
column, or when a name is not in it; and when it is indented (as the body of a `def` is) the search raises TypeError. -/
theorem C93_closure_line (k : Cls) (E : Env) (L : Lam) (lines : List Line) (line args body : Line) (hf : L.free ≠ []) (hne : lines ≠ [])
    (hl : HasLambda k line) (hp : Parts line args body) (hc : E.eval args body ≠ .other) (ht : ¬ (Twice line ∧ args ∈ L.free)) :
    (Mentions L line → (∃ c t, line = c :: t ∧ k.sp c = true) → findLambda k E L (lines ++ [line]) = .error .typeError) ∧
    (¬ Mentions L line ∨ (∀ c t, line = c :: t → k.sp c = false) → findLambda k E L (lines ++ [line]) = findLambda k E L lines) := by
  obtain ⟨h1, h2, h3, -⟩ := match_closure (k := k) (L := L) hf hp hc
  rw [find_last hne hl]
  constructor
  · intro hm hs
    rw [h3 hm ht hs]
  · intro h
    by_cases hm : Mentions L line
    · rcases h with h | h
      · exact absurd hm h
      · rw [h2 hm ht h]
    · rw [h1 hm]

/-! ### Witnesses: Python 3.11 -/

/-- spaces are blanks, tabs and newlines; word characters are letters, digits and `_` -/
def py : Cls := ⟨fun c => c == ' ' || c == '\t' || c == '\n', fun c => c.isAlphanum || c == '_', by decide, by decide, by decide⟩

/-- the bytecode of `lambda x: x+1` and of `lambda y: y+2` (constants are not part of it) -/
def addCode : Code := [151, 0, 124, 0, 100, 1, 122, 0, 0, 0, 83, 0]
/-- the bytecode of `lambda: c` for every constant, and of the dummy -/
def constCode : Code := [151, 0, 100, 1, 83, 0]

def demo : Env where
  eval a b :=
    if (a = "x".toList ∧ b = " x+1\n".toList) ∨ (a = "y".toList ∧ b = " y+2\n".toList) then .fn addCode
    else if a = "x".toList ∧ b = " x+a\n".toList then .fn [151, 0, 124, 0, 116, 0]
    else if a = "x".toList ∧ b = " 1\n".toList then .fn constCode
    else .raises
  dummy := constCode

/-- C93 fails: of two lambdas that differ in a constant, the later line is taken for the earlier lambda. -/
theorem C93_constants_ignored : findLambda py demo ⟨addCode, [], ["x".toList], []⟩
    ["import dill\n".toList, "f = lambda x: x+1\n".toList, "g = lambda y: y+2\n".toList] = .ok 2 := by decide +kernel

/-- C93 fails: a line whose lambda does not compile on its own (here an argument of `map`) is taken for any constant lambda. -/
theorem C93_uncompilable_taken : findLambda py demo ⟨constCode, [], ["x".toList], []⟩
    ["import dill\n".toList, "f = lambda x: 1\n".toList, "list(map(lambda x: x, [1]))\n".toList] = .ok 2 := by decide +kernel

/-- C93 fails: a closure typed on an indented line raises TypeError. -/
theorem C93_closure_raises : findLambda py demo ⟨[149, 1, 151, 0], ["a".toList], ["x".toList], []⟩
    ["def f(a):\n".toList, "    return lambda x: x+a\n".toList, "g = f(1)\n".toList] = .error .typeError := by decide +kernel

/-! ### concrete cases -/

/-- `C93_closure_taken_partial` and `C93_closure_line` on lines of a session -/
example : Parts "f = lambda x: lambda y: x+y\n".toList "x".toList " lambda y: x+y\n".toList ∧ Twice "f = lambda x: lambda y: x+y\n".toList ∧
    Parts " lambda y: x+y\n".toList "y".toList " x+y\n".toList ∧
    Mentions ⟨[1, 9, 3], ["x".toList], ["y".toList], []⟩ "f = lambda x: lambda y: x+y\n".toList ∧ OneDifference [1, 2, 3] [1, 9, 3] := by
  refine ⟨splitLambda_inv (by decide +kernel), two_twice (by decide +kernel), splitLambda_inv (by decide +kernel),
    ⟨(all_isIn ..).1 (by decide +kernel), (all_isIn ..).1 (by decide +kernel), (all_isIn ..).1 (by decide +kernel)⟩,
    (diffs_one [1, 2, 3] [1, 9, 3] rfl).1 (by decide +kernel)⟩
example : Mentions ⟨[149, 1, 151, 0], ["a".toList], ["x".toList], []⟩ "    return lambda x: x+a\n".toList :=
  ⟨(all_isIn ..).1 (by decide +kernel), (all_isIn ..).1 (by decide +kernel), (all_isIn ..).1 (by decide +kernel)⟩

example : findLambda py demo ⟨addCode, [], ["x".toList], []⟩
    ["import dill\n".toList, "f = lambda x: x+1\n".toList, "h = lambda x: 1\n".toList] = .ok 1 := by decide +kernel
example : Parts "f = lambda x: x+1\n".toList "x".toList " x+1\n".toList := by
  have := splitLambda_inv (line := "f = lambda x: x+1\n".toList) (args := "x".toList) (body := " x+1\n".toList) (by decide +kernel)
  exact this
example : demo.eval "x".toList " x+1\n".toList = .fn addCode := by decide +kernel
example : HasLambda py "f = lambda x: x+1\n".toList := (FindSource.matchLambda_iff _ _).1 (by decide +kernel)
example : HasLambda py "# lambda calculus\n".toList ∧ ':' ∉ "# lambda calculus\n".toList :=
  ⟨(FindSource.matchLambda_iff _ _).1 (by decide +kernel), by decide +kernel⟩
/-- a line with two lambdas: found when the inner bytecode differs in one kind of byte -/
example : findLambda py ⟨fun _ b => if b = " x+y\n".toList then .fn [1, 2, 3] else .fn [0], constCode⟩ ⟨[1, 9, 3], ["x".toList], ["y".toList], []⟩
    ["\n".toList, "f = lambda x: lambda y: x+y\n".toList] = .ok 1 := by decide +kernel

end Verif.MatchLambda
