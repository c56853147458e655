import Verif.Model.GetBlocks
/-! C47: source extraction terminates, and what it returns is a piece of the file that holds the object's source. -/
set_option linter.unusedSimpArgs false
namespace Verif.GetBlocks

/-! ### specification -/

/-- what is asked of `inspect.getblock`: a non-empty piece from the start of the lines -/
def GoodReader (S : Src) : Prop :=
  ∀ ls b, ls ≠ [] → S.getblock ls = some b → b ≠ [] ∧ ∃ rest, ls = b ++ rest

/-- block `b` is what the file has from line `n` on -/
def At (S : Src) (b : Block) (n : Nat) : Prop := ∃ pre post, S.lines = pre ++ b ++ post ∧ pre.length = n

/-- the text `t` occurs in the block -/
def Holds (t : Line) (b : Block) : Prop := ∃ p q, b.flatten = p ++ t ++ q

/-! ### lemmas -/

theorem infixOf_iff (t s : Line) : infixOf t s = true ↔ ∃ p q, s = p ++ t ++ q := by
  induction s with
  | nil =>
    simp only [infixOf, List.isEmpty_iff]
    constructor
    · rintro rfl; exact ⟨[], [], rfl⟩
    · rintro ⟨p, q, h⟩
      have := congrArg List.length h
      simp at this
      exact List.eq_nil_of_length_eq_zero (by omega)
  | cons c s ih =>
    simp only [infixOf, Bool.or_eq_true, ih, List.isPrefixOf_iff_prefix]
    constructor
    · rintro (⟨q, h⟩ | ⟨p, q, h⟩)
      · exact ⟨[], q, by simp [h]⟩
      · exact ⟨c :: p, q, by simp [h]⟩
    · rintro ⟨p, q, h⟩
      cases p with
      | nil => left; exact ⟨q, by simpa using h.symm⟩
      | cons a p => right; simp at h; exact ⟨p, q, by simp [h.2]⟩

theorem contains_iff (t : Line) (b : Block) : contains t b = true ↔ Holds t b := infixOf_iff t b.flatten

/-- the block read at line `n`: what `getblock` gives, or one line if it fails -/
def Read (S : Src) (b : Block) (n : Nat) : Prop := b = (S.getblock (S.lines.drop n)).getD [S.lines.getD n []]

theorem at_drop (S : Src) (n : Nat) (b rest : Block) (hn : n ≤ S.lines.length) (h : S.lines.drop n = b ++ rest) :
    At S b n := by
  refine ⟨S.lines.take n, rest, ?_, by simp [hn]⟩
  rw [List.append_assoc, ← h, List.take_append_drop]

theorem decorators_le (p : Line → Bool) (ls : List Line) : decorators p ls ≤ ls.length := by
  induction ls with
  | nil => simp [decorators]
  | cons l ls ih => simp only [decorators]; split <;> simp <;> omega

theorem decorators_last (p : Line → Bool) (ls : List Line) (i : Nat) (h : i < decorators p ls) :
    ∃ l, ls[i]? = some l ∧ p l = true := by
  induction ls generalizing i with
  | nil => simp [decorators] at h
  | cons a ls ih =>
    simp only [decorators] at h
    split at h
    · rename_i ha
      cases i with
      | zero => exact ⟨a, rfl, ha⟩
      | succ i => simpa using ih i (by omega)
    · omega

section
variable (S : Src) (lnum : Nat)

/-- what holds of the loop's variables -/
structure Ok (target : Line) (s : St) : Prop where
  skipLe : s.skip ≤ s.line
  skipCode : s.skip ≤ s.code.length
  codeAt : 0 < s.skip → s.line - s.skip ≤ lnum ∧ Read S s.code (s.line - s.skip)
  decor : ∀ i, i < s.skip → ∃ l, s.code[i]? = some l ∧ S.pat2 l = true
  blocks : ∀ b ∈ s.blocks, Holds target b.1 ∧ At S b.1 b.2 ∧ b.2 ≤ lnum

variable (hg : GoodReader S) (hl : lnum < S.lines.length)
include hg hl

theorem read_at (n : Nat) (hn : n ≤ lnum) :
    (S.getblock (S.lines.drop n)).getD [S.lines.getD n []] ≠ [] ∧
      At S ((S.getblock (S.lines.drop n)).getD [S.lines.getD n []]) n := by
  have hlt : n < S.lines.length := by omega
  have hne : S.lines.drop n ≠ [] := by
    intro h; have := congrArg List.length h; simp at this; omega
  cases e : S.getblock (S.lines.drop n) with
  | none =>
    refine ⟨by simp, ?_⟩
    simp only [Option.getD_none]
    refine at_drop S n _ (S.lines.drop (n + 1)) (by omega) ?_
    rw [List.drop_eq_getElem_cons hlt]
    simp [List.getD_eq_getElem?_getD, List.getElem?_eq_getElem hlt]
  | some b =>
    obtain ⟨h1, rest, h2⟩ := hg _ b hne e
    exact ⟨by simpa using h1, by simpa using at_drop S n b rest (by omega) h2⟩

theorem step_ok (ind : Nat) (target : Line) (s : St) (h : Ok S lnum target s) (hs : s.line ≤ lnum) :
    Ok S lnum target (step S ind target s) := by
  obtain ⟨hr1, hr2⟩ := read_at S lnum hg hl s.line hs
  have hcode : ∀ code, code = (if s.skip = 0 then (S.getblock (S.lines.drop s.line)).getD [S.lines.getD s.line []]
      else s.code) → At S code (s.line - s.skip) := by
    intro code hc
    by_cases h0 : s.skip = 0
    · rw [if_pos h0] at hc; rw [hc, h0]; exact hr2
    · rw [if_neg h0] at hc
      obtain ⟨h1, h2⟩ := h.codeAt (by omega)
      rw [hc, h2]; exact (read_at S lnum hg hl _ h1).2
  unfold step
  simp only []
  split
  · have hcode := hcode _ rfl
    generalize (if s.skip = 0 then (S.getblock (S.lines.drop s.line)).getD [S.lines.getD s.line []] else s.code)
      = code at hcode ⊢
    split
    · exact ⟨by simp, by simp, by simp, by simp, h.blocks⟩
    · split
      · rename_i hc
        refine ⟨by simp, by simp, by simp, by simp, ?_⟩
        intro b hb
        rcases List.mem_append.1 hb with hb | hb
        · exact h.blocks b hb
        · rw [List.mem_singleton] at hb
          subst hb
          exact ⟨(contains_iff _ _).1 hc, hcode, by simp; omega⟩
      · exact ⟨by simp, by simp, by simp, by simp, h.blocks⟩
  · split
    · rename_i hp
      have hread : Read S ((S.getblock (S.lines.drop s.line)).getD [S.lines.getD s.line []]) s.line := rfl
      generalize hc : (S.getblock (S.lines.drop s.line)).getD [S.lines.getD s.line []] = code at hr1 hr2 hread
      have hd := decorators_le S.pat2 code.tail
      have hlen : 0 < code.length := by cases code with | nil => exact absurd rfl hr1 | cons => simp
      have htl : code.tail.length = code.length - 1 := by simp
      have hsk : s.line + (1 + decorators S.pat2 code.tail) - (1 + decorators S.pat2 code.tail) = s.line := by omega
      refine ⟨by simp, by simp only; omega, fun _ => ?_, fun i hi => ?_, h.blocks⟩
      · simp only
        rw [hsk]
        exact ⟨hs, hread⟩
      · simp only at hi ⊢
        cases i with
        | zero =>
          obtain ⟨pre, post, h1, h2⟩ := hr2
          have : code[0]? = S.lines[s.line]? := by
            rw [h1, List.append_assoc, List.getElem?_append_right (by omega), h2, Nat.sub_self,
              List.getElem?_append_left hlen]
          rw [this, List.getElem?_eq_getElem (by omega)]
          refine ⟨_, rfl, ?_⟩
          rw [List.getD_eq_getElem?_getD, List.getElem?_eq_getElem (by omega), Option.getD_some] at hp
          exact hp
        | succ i =>
          obtain ⟨l, hl1, hl2⟩ := decorators_last S.pat2 code.tail i (by omega)
          rw [List.getElem?_tail] at hl1
          exact ⟨l, hl1, hl2⟩
    · exact ⟨by simp, by simp, by simp, by simp, h.blocks⟩

/-- work left: two per remaining line, one less right after decorators -/
def work (s : St) : Nat := 2 * (lnum + 1 - s.line) + (if s.skip = 0 then 0 else 1)

theorem step_work (ind : Nat) (target : Line) (s : St) (h : Ok S lnum target s) (hs : s.line ≤ lnum) :
    work lnum (step S ind target s) < work lnum s := by
  obtain ⟨hr1, hr2⟩ := read_at S lnum hg hl s.line hs
  have hcode : ∀ code, code = (if s.skip = 0 then (S.getblock (S.lines.drop s.line)).getD [S.lines.getD s.line []]
      else s.code) → s.skip ≤ code.length ∧ (s.skip = 0 → 0 < code.length) := by
    intro code hc
    by_cases h0 : s.skip = 0
    · rw [if_pos h0] at hc
      refine ⟨by omega, fun _ => ?_⟩
      rw [hc]; exact List.length_pos_iff.2 hr1
    · rw [if_neg h0] at hc; rw [hc]; exact ⟨h.skipCode, fun h => absurd h h0⟩
  obtain ⟨hc1, hc2⟩ := hcode _ rfl
  unfold step work
  simp only []
  generalize (if s.skip = 0 then (S.getblock (S.lines.drop s.line)).getD [S.lines.getD s.line []] else s.code) = code
    at hc1 hc2 ⊢
  split
  · split
    · simp only [if_true]; split <;> omega
    · split
      · simp only [if_true]; split <;> omega
      · simp only [if_true]; split <;> omega
  · split
    · simp only; split <;> split <;> omega
    · simp only [if_true]; split <;> omega

theorem loop_ends (ind : Nat) (target : Line) (fuel : Nat) (s : St) (h : Ok S lnum target s)
    (hf : work lnum s < fuel) : ∃ s', loop S lnum ind target fuel s = some s' ∧ Ok S lnum target s' := by
  induction fuel generalizing s with
  | zero => omega
  | succ n ih =>
    simp only [loop]
    by_cases hs : s.line ≤ lnum
    · rw [if_pos hs]
      exact ih _ (step_ok S lnum hg hl ind target s h hs)
        (by have := step_work S lnum hg hl ind target s h hs; omega)
    · rw [if_neg hs]; exact ⟨s, rfl, h⟩

end

theorem ok_init (S : Src) (lnum : Nat) (target : Line) : Ok S lnum target ⟨0, 0, [], []⟩ :=
  ⟨by simp, by simp, by simp, by simp, by simp⟩

/-- C47: the search ends after at most `2 * lnum + 3` rounds, however the file looks and whatever `getblock` answers,
and returns at least one block; every block is what the file has from the line number returned with it, at or before
the object's line, and holds the text of the object's own block. -/
theorem C47_getblocks (S : Src) (hg : GoodReader S) (lnum : Nat) (block : Block)
    (hl : lnum < S.lines.length) (hb : S.getblock (S.lines.drop lnum) = some block) (enclosing : Bool) (fuel : Nat)
    (hf : 2 * lnum + 3 ≤ fuel) :
    ∃ bs, getblocks S lnum enclosing fuel = .ok bs ∧ bs ≠ [] ∧
      ∀ p ∈ bs, Holds block.flatten p.1 ∧ At S p.1 p.2 ∧ p.2 ≤ lnum := by
  have hne : S.lines.drop lnum ≠ [] := by
    intro h; have := congrArg List.length h; simp at this; omega
  obtain ⟨_, rest, h2⟩ := hg _ block hne hb
  have hself : Holds block.flatten block ∧ At S block lnum ∧ lnum ≤ lnum :=
    ⟨⟨[], [], by simp⟩, at_drop S lnum block rest (by omega) h2, Nat.le_refl _⟩
  unfold getblocks
  simp only [List.getElem?_eq_getElem hl, hb]
  split
  · exact ⟨_, rfl, by simp, by simpa using hself⟩
  · obtain ⟨s, e, hok⟩ := loop_ends S lnum hg hl (S.size S.lines[lnum]) block.flatten fuel ⟨0, 0, [], []⟩
      (ok_init S lnum _) (by simp [work]; omega)
    simp only [e]
    split
    · exact ⟨_, rfl, by simp, by simpa using hself⟩
    · rename_i hemp
      exact ⟨_, rfl, by simpa using hemp, fun p hp => hok.blocks p hp⟩

/-- C47, getsourcelines: it returns lines of the file, from the line number it gives, that hold the object's own
source; without `enclosing` it returns exactly the object's block. -/
theorem C47_getsourcelines (S : Src) (hg : GoodReader S) (lnum : Nat) (block : Block)
    (hl : lnum < S.lines.length) (hb : S.getblock (S.lines.drop lnum) = some block) (enclosing : Bool) (fuel : Nat)
    (hf : 2 * lnum + 3 ≤ fuel) :
    ∃ b n, getsourcelines S lnum enclosing fuel = .ok (b, n) ∧ Holds block.flatten b ∧ At S b n ∧ n ≤ lnum ∧
      (enclosing = false → b = block ∧ n = lnum) := by
  obtain ⟨bs, h1, h2, h3⟩ := C47_getblocks S hg lnum block hl hb enclosing fuel hf
  unfold getsourcelines
  simp only [h1]
  have hlast := List.getLast?_eq_some_getLast h2
  simp only [hlast]
  refine ⟨_, _, rfl, (h3 _ (List.getLast_mem h2)).1, (h3 _ (List.getLast_mem h2)).2.1,
    (h3 _ (List.getLast_mem h2)).2.2, ?_⟩
  rintro rfl
  unfold getblocks at h1
  simp only [List.getElem?_eq_getElem hl, hb, Bool.not_false, Bool.true_or, if_true] at h1
  cases h1
  exact ⟨rfl, rfl⟩

/-! ### the line number -/

/-- the last block covers the object's line -/
def Covers (lnum : Nat) (p : Block × Nat) : Prop := p.2 ≤ lnum ∧ lnum < p.2 + p.1.length

/-- a def line indented deeper than the object, with its decorators, ends before the object's line -/
def DeepEnds (S : Src) (lnum ind : Nat) : Prop :=
  ∀ n b i l, n < lnum → Read S b n → n + i < lnum → (∀ j, j < i → ∃ d, b[j]? = some d ∧ S.pat2 d = true) →
    b[i]? = some l → S.pat1 l = true → ind < S.size l → n + b.length ≤ lnum

theorem loop_covers (S : Src) (lnum : Nat) (hg : GoodReader S) (hl : lnum < S.lines.length) (block : Block)
    (hb : S.getblock (S.lines.drop lnum) = some block) (hp1 : S.pat1 S.lines[lnum] = true)
    (hp2 : ∀ l, 0 < lnum → S.lines[lnum - 1]? = some l → S.pat2 l = false)
    (hdeep : DeepEnds S lnum (S.size S.lines[lnum]))
    (fuel : Nat) (s : St) (h : Ok S lnum block.flatten s) (hf : work lnum s < fuel)
    (hs : s.line ≤ lnum ∨ ∃ p, s.blocks.getLast? = some p ∧ Covers lnum p) :
    ∃ s', loop S lnum (S.size S.lines[lnum]) block.flatten fuel s = some s' ∧
      ∃ p, s'.blocks.getLast? = some p ∧ Covers lnum p := by
  induction fuel generalizing s with
  | zero => omega
  | succ n ih =>
    simp only [loop]
    by_cases hle : s.line ≤ lnum
    · rw [if_pos hle]
      refine ih _ (step_ok S lnum hg hl _ _ s h hle)
        (by have := step_work S lnum hg hl (S.size S.lines[lnum]) block.flatten s h hle; omega) ?_
      have hcur : S.lines.getD s.line [] = S.lines[s.line]'(by omega) := by
        rw [List.getD_eq_getElem?_getD, List.getElem?_eq_getElem (by omega)]; rfl
      obtain ⟨hr1, hr2⟩ := read_at S lnum hg hl s.line hle
      have hcode : ∀ code, code = (if s.skip = 0 then (S.getblock (S.lines.drop s.line)).getD [S.lines.getD s.line []]
          else s.code) → Read S code (s.line - s.skip) := by
        intro code hc
        by_cases h0 : s.skip = 0
        · rw [if_pos h0] at hc; rw [hc, h0]; rfl
        · rw [if_neg h0] at hc
          rw [hc]; exact (h.codeAt (by omega)).2
      have hsl := h.skipLe
      -- two consecutive decorator lines cannot end at the object's line
      have noDec : ∀ b m, Read S b m → m < lnum → (∃ d, b[lnum - 1 - m]? = some d ∧ S.pat2 d = true) → False := by
        rintro b m hr hm ⟨d, hd1, hd2⟩
        have hat := (read_at S lnum hg hl m (by omega)).2
        rw [← hr] at hat
        obtain ⟨pre, post, h1, h2⟩ := hat
        have hlt : lnum - 1 - m < b.length := (List.getElem?_eq_some_iff.1 hd1).1
        have : S.lines[lnum - 1]? = some d := by
          rw [h1, List.append_assoc, List.getElem?_append_right (by omega), h2, List.getElem?_append_left hlt, hd1]
        rw [hp2 d (by omega) this] at hd2; cases hd2
      have hskip : s.line = lnum → s.skip = 0 := by
        intro e
        refine Nat.eq_zero_of_not_pos fun hpos => ?_
        refine noDec s.code (s.line - s.skip) (h.codeAt hpos).2 (by omega) ?_
        rw [show lnum - 1 - (s.line - s.skip) = s.skip - 1 by omega]
        exact h.decor _ (by omega)
      unfold step
      simp only []
      split
      · rename_i hpat
        generalize hc : (if s.skip = 0 then (S.getblock (S.lines.drop s.line)).getD [S.lines.getD s.line []] else s.code)
          = code
        have hread := hcode _ hc.symm
        split
        · rename_i hsz
          simp only
          left
          have hne : s.line ≠ lnum := by
            intro e
            rw [hcur] at hsz
            simp only [e] at hsz
            omega
          by_cases hlen : s.skip < code.length
          · have hat := (read_at S lnum hg hl (s.line - s.skip) (by omega)).2
            rw [← hread] at hat
            obtain ⟨pre, post, h1, h2⟩ := hat
            have hi : code[s.skip]? = some (S.lines.getD s.line []) := by
              rw [hcur]
              have : S.lines[s.line]? = code[s.skip]? := by
                rw [h1, List.append_assoc, List.getElem?_append_right (by omega), h2,
                  show s.line - (s.line - s.skip) = s.skip by omega, List.getElem?_append_left hlen]
              rw [← this, List.getElem?_eq_getElem (by omega)]
            have := hdeep (s.line - s.skip) code s.skip _ (by omega) hread (by omega) ?_ hi hpat hsz
            · omega
            · intro j hj
              have h0 : s.skip ≠ 0 := by omega
              rw [if_neg h0] at hc
              rw [← hc]
              exact h.decor j hj
          · omega
        · split
          · simp only
            by_cases hbig : s.line + code.length - s.skip ≤ lnum
            · exact .inl hbig
            · right
              refine ⟨(code, s.line - s.skip), by rw [List.getLast?_append]; rfl, ?_⟩
              unfold Covers
              simp only
              omega
          · rename_i hcon
            simp only
            left
            by_cases e : s.line = lnum
            · exfalso
              apply hcon
              rw [if_pos (hskip e), e, hb] at hc
              rw [← hc]
              exact (contains_iff _ _).2 ⟨[], [], by simp⟩
            · omega
      · rename_i hn1
        have hne : s.line ≠ lnum := by
          intro e
          apply hn1
          rw [hcur]; simp only [e]; exact hp1
        split
        · rename_i hp
          simp only
          left
          have hok := step_ok S lnum hg hl (S.size S.lines[lnum]) block.flatten s h hle
          have hst : step S (S.size S.lines[lnum]) block.flatten s =
              ⟨s.line + (1 + decorators S.pat2 ((S.getblock (S.lines.drop s.line)).getD [S.lines.getD s.line []]).tail),
                1 + decorators S.pat2 ((S.getblock (S.lines.drop s.line)).getD [S.lines.getD s.line []]).tail,
                (S.getblock (S.lines.drop s.line)).getD [S.lines.getD s.line []], s.blocks⟩ := by
            unfold step; simp only [hn1, hp, if_true, if_false, Bool.false_eq_true]
          rw [hst] at hok
          generalize 1 + decorators S.pat2 ((S.getblock (S.lines.drop s.line)).getD [S.lines.getD s.line []]).tail = k
            at hok ⊢
          refine Nat.le_of_not_lt fun hbig => ?_
          exact noDec _ s.line rfl (by omega) (hok.decor (lnum - 1 - s.line) (by simp only; omega))
        · simp only; left; omega
    · rw [if_neg hle]
      rcases hs with hs | hs
      · exact absurd hs hle
      · exact ⟨s, rfl, hs⟩

/-- C47, position: for a def or lambda line without decorators, when deeper defs before it end before it, the lines
returned include the object's own line: the block returned is the object's or encloses it. -/
theorem C47_covers_partial (S : Src) (hg : GoodReader S) (lnum : Nat) (block : Block)
    (hl : lnum < S.lines.length) (hb : S.getblock (S.lines.drop lnum) = some block)
    (hp1 : S.pat1 S.lines[lnum] = true) (hp2 : ∀ l, 0 < lnum → S.lines[lnum - 1]? = some l → S.pat2 l = false)
    (hdeep : DeepEnds S lnum (S.size S.lines[lnum])) (enclosing : Bool) (fuel : Nat) (hf : 2 * lnum + 3 ≤ fuel) :
    ∃ p, getsourcelines S lnum enclosing fuel = .ok p ∧ Covers lnum p := by
  have hne : S.lines.drop lnum ≠ [] := by
    intro h; have := congrArg List.length h; simp at this; omega
  obtain ⟨hbn, _, _⟩ := hg _ block hne hb
  have hself : Covers lnum (block, lnum) :=
    ⟨Nat.le_refl _, by have := List.length_pos_iff.2 hbn; simp only; omega⟩
  unfold getsourcelines getblocks
  simp only [List.getElem?_eq_getElem hl, hb]
  by_cases hc : (!enclosing || S.size S.lines[lnum] == 0) = true
  · simp only [hc, if_true]; exact ⟨_, rfl, hself⟩
  · simp only [hc, if_false]
    obtain ⟨s, e, p, hp, hcov⟩ := loop_covers S lnum hg hl block hb hp1 hp2 hdeep fuel ⟨0, 0, [], []⟩
      (ok_init S lnum _) (by simp [work]; omega) (.inl (Nat.zero_le _))
    simp only [e]
    have : s.blocks.isEmpty = false := by cases h : s.blocks with | nil => simp [h] at hp | cons => rfl
    simp only [this, Bool.false_eq_true, if_false, hp]
    exact ⟨p, rfl, hcov⟩

/-! ### decorators -/

/-- the line before line `n` is not a decorator -/
def NoDecoratorBefore (S : Src) (n : Nat) : Prop := ∀ l, 0 < n → S.lines[n - 1]? = some l → S.pat2 l = false

/-- a block read at a `def`, a `lambda` or a decorator does not end in a decorator -/
def WholeBlocks (S : Src) : Prop :=
  ∀ n b l, Read S b n → S.lines[n]? = some l → S.pat1 l = true ∨ S.pat2 l = true → ∃ e, b.getLast? = some e ∧ S.pat2 e = false

theorem at_last (S : Src) (b : Block) (n : Nat) (e : Line) (h : At S b n) (he : b.getLast? = some e) (hd : S.pat2 e = false) :
    NoDecoratorBefore S (n + b.length) := by
  obtain ⟨pre, post, h1, h2⟩ := h
  intro l _ hl
  have hb : b ≠ [] := by rintro rfl; simp at he
  have hlen : 0 < b.length := List.length_pos_iff.2 hb
  rw [h1, List.append_assoc, List.getElem?_append_right (by omega), List.getElem?_append_left (by omega)] at hl
  rw [List.getLast?_eq_getElem?] at he
  have : n + b.length - 1 - pre.length = b.length - 1 := by omega
  rw [this, he] at hl
  cases hl
  exact hd

/-- the first line after the decorators counted is not a decorator -/
theorem decorators_stop (p : Line → Bool) (ls : List Line) (l : Line) (h : ls[decorators p ls]? = some l) : p l = false := by
  induction ls with
  | nil => simp [decorators] at h
  | cons a ls ih =>
    simp only [decorators] at h
    split at h
    · exact ih (by simpa using h)
    · rename_i ha
      simp only [List.getElem?_cons_zero, Option.some.injEq] at h
      subst h
      simpa using ha

structure Dec (S : Src) (s : St) : Prop where
  before : NoDecoratorBefore S (s.line - s.skip)
  here : 0 < s.skip → ∀ l, S.lines[s.line]? = some l → S.pat2 l = false
  blocks : ∀ p ∈ s.blocks, NoDecoratorBefore S p.2

theorem step_dec (S : Src) (lnum : Nat) (hg : GoodReader S) (hl : lnum < S.lines.length)
    (hx : ∀ l ∈ S.lines, S.pat2 l = true → S.pat1 l = false) (hw : WholeBlocks S)
    (ind : Nat) (target : Line) (s : St) (h : Ok S lnum target s) (hd : Dec S s) (hs : s.line ≤ lnum) :
    Dec S (step S ind target s) := by
  have hlt : s.line < S.lines.length := by omega
  have hcur : S.lines.getD s.line [] = S.lines[s.line] := by
    rw [List.getD_eq_getElem?_getD, List.getElem?_eq_getElem hlt, Option.getD_some]
  have hget := List.getElem?_eq_getElem hlt
  obtain ⟨hr1, hr2⟩ := read_at S lnum hg hl s.line hs
  have next : S.pat2 S.lines[s.line] = false → NoDecoratorBefore S (s.line + 1) := by
    intro h2 l _ hl
    rw [show s.line + 1 - 1 = s.line from rfl, hget] at hl
    cases hl; exact h2
  unfold step
  simp only [hcur]
  rw [hcur] at hr1 hr2
  split
  · rename_i hp1
    have hnp2 : S.pat2 S.lines[s.line] = false := by
      cases h2 : S.pat2 S.lines[s.line] with
      | false => rfl
      | true => rw [hx _ (List.getElem_mem hlt) h2] at hp1; cases hp1
    have hend : ∀ code, code = (if s.skip = 0 then (S.getblock (S.lines.drop s.line)).getD [S.lines[s.line]] else s.code) →
        NoDecoratorBefore S (s.line + code.length - s.skip) := by
      intro code hc
      by_cases h0 : s.skip = 0
      · rw [if_pos h0] at hc
        obtain ⟨e, he1, he2⟩ := hw s.line code S.lines[s.line] (by rw [hc]; unfold Read; rw [hcur]) hget (.inl hp1)
        rw [h0]
        exact at_last S code s.line e (by rw [hc]; exact hr2) he1 he2
      · rw [if_neg h0] at hc
        obtain ⟨h1, h2⟩ := h.codeAt (by omega)
        obtain ⟨l, hl1, hl2⟩ := h.decor 0 (by omega)
        have hat := (read_at S lnum hg hl _ h1).2
        have h3 : At S s.code (s.line - s.skip) := by rw [h2]; exact hat
        have hlen := h.skipCode
        have hline : S.lines[s.line - s.skip]? = some l := by
          obtain ⟨pre, post, g1, g2⟩ := h3
          rw [g1, List.append_assoc, List.getElem?_append_right (by omega), g2, Nat.sub_self,
            List.getElem?_append_left (by omega), hl1]
        obtain ⟨e, he1, he2⟩ := hw _ _ l h2 hline (.inr hl2)
        have := at_last S s.code _ e h3 he1 he2
        have hsk := h.skipLe
        rw [hc]
        rwa [show s.line - s.skip + s.code.length = s.line + s.code.length - s.skip by omega] at this
    have hend := hend _ rfl
    generalize (if s.skip = 0 then (S.getblock (S.lines.drop s.line)).getD [S.lines[s.line]] else s.code) = code at hend ⊢
    split
    · exact ⟨by simpa using hend, by simp, hd.blocks⟩
    · split
      · refine ⟨by simpa using hend, by simp, ?_⟩
        intro b hb
        rcases List.mem_append.1 hb with hb | hb
        · exact hd.blocks b hb
        · rw [List.mem_singleton] at hb
          subst hb
          exact hd.before
      · exact ⟨by simpa using next hnp2, by simp, hd.blocks⟩
  · rename_i hnp1
    split
    · rename_i hp2
      have h0 : s.skip = 0 := by
        rcases Nat.eq_zero_or_pos s.skip with h0 | h0
        · exact h0
        · rw [hd.here h0 _ hget] at hp2; cases hp2
      have hb := hd.before
      rw [h0, Nat.sub_zero] at hb
      refine ⟨?_, ?_, hd.blocks⟩
      · simp only [Nat.add_sub_cancel]
        exact hb
      · intro _ l hl
        simp only at hl
        obtain ⟨e, he1, he2⟩ := hw s.line _ S.lines[s.line] rfl hget (.inr hp2)
        rw [hcur] at he1
        generalize (S.getblock (S.lines.drop s.line)).getD [S.lines[s.line]] = code at hr1 hr2 hl he1
        obtain ⟨pre, post, g1, g2⟩ := hr2
        cases code with
        | nil => exact absurd rfl hr1
        | cons c code =>
          simp only [List.tail_cons] at hl
          have hc : c = S.lines[s.line] := by
            have : S.lines[s.line]? = some c := by
              rw [g1, List.append_assoc, List.getElem?_append_right (by omega), g2, Nat.sub_self]; rfl
            rw [hget] at this; exact (Option.some.inj this).symm
          have hdl := decorators_le S.pat2 code
          have hlt2 : decorators S.pat2 code < code.length := by
            rcases Nat.lt_or_ge (decorators S.pat2 code) code.length with h | h
            · exact h
            · exfalso
              rw [List.getLast?_eq_getElem?] at he1
              cases code with
              | nil =>
                simp at he1
                rw [hc] at he1; rw [he1] at hp2; rw [hp2] at he2; cases he2
              | cons c2 code =>
                obtain ⟨d, hd1, hd2⟩ := decorators_last S.pat2 (c2 :: code) code.length (by simp at h; omega)
                simp only [List.length_cons, Nat.add_sub_cancel, List.getElem?_cons_succ] at he1
                rw [hd1] at he1; cases he1
                rw [hd2] at he2; cases he2
          refine decorators_stop S.pat2 code l ?_
          rw [g1, List.append_assoc, List.getElem?_append_right (by omega), g2] at hl
          rw [show s.line + (1 + decorators S.pat2 code) - s.line = decorators S.pat2 code + 1 by omega,
            List.cons_append, List.getElem?_cons_succ, List.getElem?_append_left hlt2] at hl
          exact hl
    · rename_i hnp2
      exact ⟨by simpa using next (by simpa using hnp2), by simp, hd.blocks⟩

theorem loop_dec (S : Src) (lnum : Nat) (hg : GoodReader S) (hl : lnum < S.lines.length)
    (hx : ∀ l ∈ S.lines, S.pat2 l = true → S.pat1 l = false) (hw : WholeBlocks S)
    (ind : Nat) (target : Line) (fuel : Nat) (s s' : St) (h : Ok S lnum target s) (hd : Dec S s)
    (e : loop S lnum ind target fuel s = some s') : Dec S s' := by
  induction fuel generalizing s with
  | zero => simp [loop] at e
  | succ n ih =>
    simp only [loop] at e
    split at e
    · rename_i hs
      exact ih _ (step_ok S lnum hg hl ind target s h hs) (step_dec S lnum hg hl hx hw ind target s h hd hs) e
    · cases e; exact hd

/-- C47: an enclosing function is returned with all its decorators: no block returned starts below a decorator, if the object's own
line does not and no decorator of the file has a `lambda` in it. -/
theorem C47_decorators_partial (S : Src) (hg : GoodReader S) (lnum : Nat)
    (hx : ∀ l ∈ S.lines, S.pat2 l = true → S.pat1 l = false) (hw : WholeBlocks S) (hn : NoDecoratorBefore S lnum)
    (enclosing : Bool) (fuel : Nat) (bs : List (Block × Nat)) (h : getblocks S lnum enclosing fuel = .ok bs) :
    ∀ p ∈ bs, NoDecoratorBefore S p.2 := by
  unfold getblocks at h
  cases hl : S.lines[lnum]? with
  | none => rw [hl] at h; cases h
  | some l =>
    have hlt : lnum < S.lines.length := by
      rcases Nat.lt_or_ge lnum S.lines.length with g | g
      · exact g
      · rw [List.getElem?_eq_none g] at hl; cases hl
    rw [hl] at h
    simp only at h
    cases hb : S.getblock (S.lines.drop lnum) with
    | none => rw [hb] at h; cases h
    | some block =>
      rw [hb] at h
      simp only at h
      split at h
      · cases h; intro p hp; rw [List.mem_singleton] at hp; subst hp; exact hn
      · cases e : loop S lnum (S.size l) block.flatten fuel ⟨0, 0, [], []⟩ with
        | none => rw [e] at h; cases h
        | some s =>
          rw [e] at h
          simp only at h
          have := loop_dec S lnum hg hlt hx hw _ _ fuel _ s (ok_init S lnum _)
            ⟨by intro l h; exact absurd h (by simp), by simp, by simp⟩ e
          split at h
          · cases h; intro p hp; rw [List.mem_singleton] at hp; subst hp; exact hn
          · cases h; exact this.blocks

/-! ### concrete cases -/

section concrete
def dec : Line := "  @d\n".toList
def deff : Line := "  def f(): 0\n".toList

/-- two classes with the same decorated method -/
def twin : Src where
  lines := ["class A:\n".toList, dec, deff, "class B:\n".toList, dec, deff]
  pat1 := fun l => l == deff
  pat2 := fun l => l == dec
  size := fun l => (l.takeWhile (· == ' ')).length
  getblock := fun ls => some (if ls.head? = some dec then ls.take 2 else ls.take 1)

theorem twin_reader : GoodReader twin := by
  intro ls b hls h
  simp only [twin] at h
  cases ls with
  | nil => exact absurd rfl hls
  | cons a ls =>
    split at h
    · cases h; exact ⟨by simp, (a :: ls).drop 2, (List.take_append_drop 2 _).symm⟩
    · cases h; exact ⟨by simp, ls, by simp⟩

/-- C47, position, is false for decorated objects: the loop passes the object's decorators without considering its
def line, so the same text earlier in the file is returned, with that line number. -/
theorem C47_wrong_twin : GoodReader twin ∧ getsourcelines twin 4 true 20 = .ok ([dec, deff], 1) ∧
    ¬ Covers 4 ([dec, deff], 1) := by
  refine ⟨twin_reader, by rfl, ?_⟩
  unfold Covers; decide

/-- a nested function: the enclosing function is returned -/
def nested : Src where
  lines := ["def g():\n".toList, deff, "  return f\n".toList]
  pat1 := fun l => l == deff || l == "def g():\n".toList
  pat2 := fun l => l == dec
  size := fun l => (l.takeWhile (· == ' ')).length
  getblock := fun ls => some (if ls.head? = some "def g():\n".toList then ls.take 3 else ls.take 1)

example : getsourcelines nested 1 true 5 = .ok (nested.lines, 0) := by rfl
example : getsourcelines nested 1 false 5 = .ok ([deff], 1) := by rfl
example : GoodReader nested ∧ nested.getblock (nested.lines.drop 1) = some [deff] ∧ nested.pat1 deff = true := by
  refine ⟨?_, by decide +kernel, by decide +kernel⟩
  intro ls b hls h
  simp only [nested] at h
  cases ls with
  | nil => exact absurd rfl hls
  | cons a ls =>
    split at h
    · cases h; exact ⟨by simp, (a :: ls).drop 3, (List.take_append_drop 3 _).symm⟩
    · cases h; exact ⟨by simp, ls, by simp⟩
example : DeepEnds nested 1 2 := by
  intro n b i l hn hr hi _ hl _ hs
  obtain rfl : n = 0 := by omega
  obtain rfl : i = 0 := by omega
  rw [show b = nested.lines from hr] at hl
  cases hl
  exact absurd hs (by decide +kernel)

/-- a nested function in a function with two decorators -/
def decorated : Src where
  lines := ["@a\n".toList, "@b\n".toList, "def g():\n".toList, deff, "  return f\n".toList]
  pat1 := fun l => l == deff || l == "def g():\n".toList
  pat2 := fun l => l == "@a\n".toList || l == "@b\n".toList
  size := fun l => (l.takeWhile (· == ' ')).length
  getblock := fun ls => some (if ls.head? = some deff ∨ ls.head? = some "  return f\n".toList then ls.take 1 else ls)

example : getsourcelines decorated 3 true 9 = .ok (decorated.lines, 0) := by rfl
example : (∀ l ∈ decorated.lines, decorated.pat2 l = true → decorated.pat1 l = false) := by decide +kernel
example : NoDecoratorBefore decorated 3 := by
  intro l _ h; cases h; decide +kernel
example : WholeBlocks decorated := by
  intro n b l hr hl _
  unfold Read at hr
  have hn : n < 5 := by
    rcases Nat.lt_or_ge n 5 with g | g
    · exact g
    · rw [List.getElem?_eq_none (Nat.le_trans (Nat.le_of_eq (by rfl)) g)] at hl; cases hl
  have key : ∀ n : Fin 5, ∃ e, ((decorated.getblock (decorated.lines.drop n)).getD [decorated.lines.getD n []]).getLast? = some e ∧
      decorated.pat2 e = false := by
    intro n
    have : ∀ n : Fin 5, (((decorated.getblock (decorated.lines.drop n)).getD [decorated.lines.getD n []]).getLast?.elim false
        fun e => !decorated.pat2 e) = true := by decide +kernel
    have h := this n
    cases hh : ((decorated.getblock (decorated.lines.drop n)).getD [decorated.lines.getD n []]).getLast? with
    | none => rw [hh] at h; cases h
    | some e => rw [hh] at h; exact ⟨e, rfl, by simpa using h⟩
  obtain ⟨e, h1, h2⟩ := key ⟨n, hn⟩
  exact ⟨e, hr ▸ h1, h2⟩
end concrete

end Verif.GetBlocks
