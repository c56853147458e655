import Verif.Model.Overwrite
import Verif.Props.WireFits
import Mathlib.Tactic.FinCases
/-! C107: a session file that is overwritten while it is read, or by two dumps at the same time. -/
set_option linter.unusedSimpArgs false
namespace Verif.Overwrite
open Wire Core Core.Spec

/-! ### the specification -/

/-- no dump but the `w`-th takes part -/
def Only (w : Nat) (s : List Ev) : Prop := ∀ e ∈ s, match e with
  | .open_ v => v = w
  | .write v _ => v = w
  | .read _ => True

/-- the reader always asks for at least `n` bytes -/
def Reads (n : Nat) (s : List Ev) : Prop := ∀ e ∈ s, match e with
  | .read k => n ≤ k
  | _ => True

/-- `load` of these bytes gives a copy of what this dump pickled -/
def Loads (d : Dumped) (bs : Bytes) : Prop :=
  ∃ tv heap r φ, loadFile (kindsOf d.ops) bs = some ((tv, heap), r) ∧ IsCopy d.W d.root tv heap φ

/-- `load` of these bytes raises -/
def Fails (bs : Bytes) : Prop := ∀ kinds, loadFile kinds bs = none

/-! ### one dump and one reader -/

theorem writeAt_end (new : Bytes) (p n : Nat) (h : p ≤ new.length) :
    writeAt (new.take p) p ((new.drop p).take n) = new.take (p + ((new.drop p).take n).length) := by
  unfold writeAt
  by_cases hd : (new.drop p).take n = []
  · rw [if_pos hd, hd]; simp
  · rw [if_neg hd]
    have hl : (new.take p).length = p := by simp; omega
    rw [List.drop_eq_nil_of_le (as := new.take p) (by omega), hl]
    simp only [List.take_take, Nat.min_self, Nat.sub_self, List.replicate_zero, List.append_nil, List.length_take, List.length_drop]
    rw [List.take_add]
    congr 1
    rw [List.take_eq_take_iff]
    simp

/-- what the reader has: a head of the old contents and then bytes of the new ones, each at its place -/
def Splice (old new got : Bytes) (j : Nat) : Prop := j ≤ got.length ∧ j ≤ old.length ∧ got = old.take j ++ (new.drop j).take (got.length - j)

structure Inv (old new : Bytes) (w : Nat) (st : St) : Prop where
  before : st.pos w = none → st.file = old ∧ st.got = old.take st.got.length
  after : ∀ p, st.pos w = some p → p ≤ new.length ∧ st.file = new.take p ∧ ∃ j, Splice old new st.got j

theorem splice_read {old new got : Bytes} {j p n : Nat} (h : Splice old new got j) :
    Splice old new (got ++ ((new.take p).drop got.length).take n) j := by
  obtain ⟨h1, h0, h2⟩ := h
  refine ⟨by simp; omega, h0, ?_⟩
  have e : (old.take j).length = j := by simp; omega
  generalize hx : ((new.take p).drop got.length).take n = x
  have hxl : x.length ≤ new.length - got.length := by rw [← hx]; simp; omega
  have hx' : x = (new.drop got.length).take x.length := by
    rw [← hx]
    rw [List.drop_take, List.take_take, List.take_eq_take_iff]
    simp
  have hgl : got.length - j + x.length = (got ++ x).length - j := by simp; omega
  rw [← hgl, List.take_add, ← List.append_assoc]
  have hd : (new.drop j).drop (got.length - j) = new.drop got.length := by
    rw [List.drop_drop]
    congr 1
    omega
  rw [hd, ← hx', ← h2]

theorem inv_step (D : Nat → Bytes) (old : Bytes) (w : Nat) (st : St) (e : Ev) (he : Only w [e]) (h : Inv old (D w) w st) :
    Inv old (D w) w (step D st e) := by
  cases e with
  | open_ v =>
    obtain rfl : v = w := he _ (List.mem_cons_self ..)
    simp only [step]
    cases hp : st.pos v with
    | some p => exact h
    | none =>
      refine ⟨by simp, ?_⟩
      intro p hp'
      simp only [if_true] at hp'
      obtain rfl := Option.some.inj hp'
      obtain ⟨_, h2⟩ := h.before hp
      refine ⟨Nat.zero_le _, by simp, st.got.length, Nat.le_refl _, ?_, ?_⟩
      · have := congrArg List.length h2
        simp at this
        omega
      · simp only [Nat.sub_self, List.take_zero, List.append_nil]
        exact h2
  | write v n =>
    obtain rfl : v = w := he _ (List.mem_cons_self ..)
    simp only [step]
    cases hp : st.pos v with
    | none => simpa [hp] using h
    | some p =>
      obtain ⟨h1, h2, h3⟩ := h.after p hp
      refine ⟨by simp, ?_⟩
      intro q hq
      simp only [if_true] at hq
      obtain rfl := Option.some.inj hq
      refine ⟨by simp; omega, ?_, h3⟩
      show writeAt st.file p _ = _
      rw [h2, writeAt_end _ _ _ h1]
  | read n =>
    simp only [step]
    refine ⟨?_, ?_⟩
    · intro hp
      obtain ⟨h1, h2⟩ := h.before hp
      refine ⟨h1, ?_⟩
      show st.got ++ _ = _
      rw [h1]
      have hl : st.got.length ≤ old.length := by
        have := congrArg List.length h2
        simp at this
        omega
      rw [List.length_append, List.take_add, ← h2]
      congr 1
      rw [List.take_eq_take_iff]
      simp
    · intro p hp
      obtain ⟨h1, h2, j, h3⟩ := h.after p hp
      refine ⟨h1, h2, j, ?_⟩
      show Splice _ _ (st.got ++ _) _
      rw [h2]
      exact splice_read h3

theorem foldl_inv {P : St → Prop} {Q : Ev → Prop} (D : Nat → Bytes) (hs : ∀ st e, Q e → P st → P (step D st e)) (s : List Ev) :
    ∀ st, (∀ e ∈ s, Q e) → P st → P (s.foldl (step D) st) := by
  induction s with
  | nil => intro st _ h; exact h
  | cons e s ih =>
    intro st hq h
    exact ih _ (fun e he => hq e (List.mem_cons_of_mem _ he)) (hs _ _ (hq e (List.mem_cons_self ..)) h)

theorem inv_run (D : Nat → Bytes) (old : Bytes) (w : Nat) (s : List Ev) (hs : Only w s) : Inv old (D w) w (run D old s) := by
  refine foldl_inv (Q := fun e => Only w [e]) D (fun st e he h => inv_step D old w st e he h) s _ ?_ ?_
  · intro e he e' he'
    obtain rfl := List.mem_singleton.mp he'
    exact hs e' he
  · exact ⟨fun _ => ⟨rfl, rfl⟩, fun p hp => by cases hp⟩

theorem loads_append (d : Dumped) (r : Bytes) : Loads d (d.bytes ++ r) := by
  obtain ⟨tv, heap, φ, h1, h2⟩ := C01_bytes_partial d.how d.W d.wf d.fuel d.root d.ops d.bytes r d.ok
  exact ⟨tv, heap, r, φ, h1, h2⟩

theorem loads_take (d : Dumped) (k : Nat) : Loads d (d.bytes.take k) ∨ Fails (d.bytes.take k) := by
  by_cases hk : d.bytes.length ≤ k
  · left
    rw [List.take_of_length_le hk]
    simpa using loads_append d []
  · right
    intro kinds
    refine C69_truncated d.how d.W d.fuel d.root d.ops d.bytes (d.bytes.take k) (d.bytes.drop k) d.ok (by simp) ?_ kinds
    intro h
    have := congrArg List.length h
    simp at this
    omega

/-- C107, at any moment, wherever the dump has been interrupted or killed, the file holds the old contents or a beginning of the new
session: it loads as the old file did, or as the new session, or not at all. -/
theorem C107_any_moment (D : Nat → Bytes) (old : Bytes) (w : Nat) (d : Dumped) (hd : D w = d.bytes) (s : List Ev) (hs : Only w s) :
    (run D old s).file = old ∨ Loads d (run D old s).file ∨ Fails (run D old s).file := by
  have h := inv_run D old w s hs
  cases hp : (run D old s).pos w with
  | none => exact .inl (h.before hp).1
  | some p =>
    right
    rw [(h.after p hp).2.1, hd]
    exact loads_take d p

/-- C107: a dump that has written everything has left its session, whatever the file held before. -/
theorem C107_finished (D : Nat → Bytes) (old : Bytes) (w : Nat) (s : List Ev) (hs : Only w s)
    (hf : (run D old s).pos w = some (D w).length) : (run D old s).file = D w := by
  have h := (inv_run D old w s hs).after _ hf
  rw [h.2.1, List.take_length]

/-- C107, a reader that runs while the dump runs: it gets a head of the old file and then bytes of the new one, each at its place. -/
theorem C107_splice (D : Nat → Bytes) (old : Bytes) (w : Nat) (s : List Ev) (hs : Only w s) :
    ∃ j k, j ≤ old.length ∧ (run D old s).got = old.take j ++ ((D w).drop j).take k := by
  have h := inv_run D old w s hs
  cases hp : (run D old s).pos w with
  | none =>
    refine ⟨min (run D old s).got.length old.length, 0, Nat.min_le_right .., ?_⟩
    have := (h.before hp).2
    simp only [List.take_zero, List.append_nil]
    rw [List.take_eq_take_iff.mpr (by simp : min (min (run D old s).got.length old.length) old.length = min (run D old s).got.length old.length)]
    exact this
  | some p =>
    obtain ⟨_, _, j, h1, h2, h3⟩ := h.after p hp
    exact ⟨j, _, h2, h3⟩

/-! ### a file that fits into one read -/

/-- the reader has nothing of the old file, or all of it -/
structure InvS (old new : Bytes) (w : Nat) (st : St) : Prop where
  before : st.pos w = none → st.file = old ∧ (st.got = [] ∨ st.got = old)
  after : ∀ p, st.pos w = some p → p ≤ new.length ∧ st.file = new.take p ∧ ((∃ k, st.got = new.take k) ∨ old <+: st.got)

theorem take_read (new got : Bytes) (p n k : Nat) (h : got = new.take k) : ∃ k', got ++ ((new.take p).drop got.length).take n = new.take k' := by
  have hl : got.length ≤ new.length := by rw [h]; simp
  have hg : got = new.take got.length := by
    conv => lhs; rw [h]
    rw [List.take_eq_take_iff, h]
    simp
  generalize hx : ((new.take p).drop got.length).take n = x
  have hx' : x = (new.drop got.length).take x.length := by
    rw [← hx]
    rw [List.drop_take, List.take_take, List.take_eq_take_iff]
    simp
  refine ⟨got.length + x.length, ?_⟩
  rw [List.take_add, ← hg, ← hx']

theorem invS_step (D : Nat → Bytes) (old : Bytes) (w : Nat) (st : St) (e : Ev) (he : Only w [e]) (hr : Reads old.length [e])
    (h : InvS old (D w) w st) : InvS old (D w) w (step D st e) := by
  cases e with
  | open_ v =>
    obtain rfl : v = w := he _ (List.mem_cons_self ..)
    simp only [step]
    cases hp : st.pos v with
    | some p => exact h
    | none =>
      refine ⟨by simp, ?_⟩
      intro p hp'
      simp only [if_true] at hp'
      obtain rfl := Option.some.inj hp'
      refine ⟨Nat.zero_le _, by simp, ?_⟩
      rcases (h.before hp).2 with h2 | h2
      · exact .inl ⟨0, by simpa using h2⟩
      · exact .inr (by rw [h2]; exact List.prefix_refl _)
  | write v n =>
    obtain rfl : v = w := he _ (List.mem_cons_self ..)
    simp only [step]
    cases hp : st.pos v with
    | none => simpa [hp] using h
    | some p =>
      obtain ⟨h1, h2, h3⟩ := h.after p hp
      refine ⟨by simp, ?_⟩
      intro q hq
      simp only [if_true] at hq
      obtain rfl := Option.some.inj hq
      refine ⟨by simp; omega, ?_, h3⟩
      show writeAt st.file p _ = _
      rw [h2, writeAt_end _ _ _ h1]
  | read n =>
    have hn : old.length ≤ n := hr _ (List.mem_cons_self ..)
    simp only [step]
    refine ⟨?_, ?_⟩
    · intro hp
      obtain ⟨h1, h2⟩ := h.before hp
      refine ⟨h1, .inr ?_⟩
      show st.got ++ _ = _
      rw [h1]
      rcases h2 with h2 | h2 <;> rw [h2]
      · simp [List.take_of_length_le hn]
      · simp
    · intro p hp
      obtain ⟨h1, h2, h3⟩ := h.after p hp
      refine ⟨h1, h2, ?_⟩
      show (∃ k, st.got ++ _ = _) ∨ old <+: st.got ++ _
      rw [h2]
      rcases h3 with ⟨k, h3⟩ | h3
      · exact .inl (take_read _ _ _ _ k h3)
      · exact .inr (h3.trans (List.prefix_append ..))

theorem invS_run (D : Nat → Bytes) (old : Bytes) (w : Nat) (s : List Ev) (hs : Only w s) (hr : Reads old.length s) :
    InvS old (D w) w (run D old s) := by
  refine foldl_inv (Q := fun e => Only w [e] ∧ Reads old.length [e]) D (fun st e he h => invS_step D old w st e he.1 he.2 h) s _ ?_ ?_
  · intro e he
    refine ⟨?_, ?_⟩ <;> intro e' he' <;> obtain rfl := List.mem_singleton.mp he'
    · exact hs e' he
    · exact hr e' he
  · exact ⟨fun _ => ⟨rfl, .inl rfl⟩, fun p hp => by cases hp⟩

/-- C107 for a reader whose buffer takes the old file in one read: it loads the old session, or the new one, or raises. -/
theorem C107_one_read_partial (D : Nat → Bytes) (o d : Dumped) (w : Nat) (hd : D w = d.bytes) (s : List Ev) (hs : Only w s)
    (hr : Reads o.bytes.length s) :
    Loads o (run D o.bytes s).got ∨ Loads d (run D o.bytes s).got ∨ Fails (run D o.bytes s).got := by
  have h := invS_run D o.bytes w s hs hr
  have hpre : ∀ k, (run D o.bytes s).got = d.bytes.take k →
      Loads o (run D o.bytes s).got ∨ Loads d (run D o.bytes s).got ∨ Fails (run D o.bytes s).got := by
    intro k hk
    right
    rw [hk]
    exact loads_take d k
  cases hp : (run D o.bytes s).pos w with
  | none =>
    rcases (h.before hp).2 with h1 | h1
    · exact hpre 0 (by simpa using h1)
    · left
      rw [h1]
      simpa using loads_append o []
  | some p =>
    rcases (h.after p hp).2.2 with ⟨k, h1⟩ | ⟨r, h1⟩
    · exact hpre k (by rw [h1, hd])
    · left
      rw [← h1]
      exact loads_append o r

/-- C107 for a reader that opens the file after the dump has: it loads the new session or raises. -/
theorem C107_later_reader (D : Nat → Bytes) (old : Bytes) (w : Nat) (d : Dumped) (hd : D w = d.bytes) (s t : List Ev)
    (hs : Only w (s ++ .open_ w :: t)) (hn : ∀ e ∈ s, ∀ n, e ≠ .read n) :
    Loads d (run D old (s ++ .open_ w :: t)).got ∨ Fails (run D old (s ++ .open_ w :: t)).got := by
  have hg : ∀ (s : List Ev) (st : St), (∀ e ∈ s, ∀ n, e ≠ .read n) → (s.foldl (step D) st).got = st.got := by
    intro s
    induction s with
    | nil => intro st _; rfl
    | cons e s ih =>
      intro st h
      rw [List.foldl_cons, ih _ (fun e he => h e (List.mem_cons_of_mem _ he))]
      cases e with
      | open_ v => simp only [step]; split <;> rfl
      | write v n => simp only [step]; split <;> rfl
      | read n => exact absurd rfl (h _ (List.mem_cons_self ..) n)
  let P : St → Prop := fun st => ∃ p, st.pos w = some p ∧ p ≤ (D w).length ∧ st.file = (D w).take p ∧ ∃ k, st.got = (D w).take k
  have hP : P (run D old (s ++ .open_ w :: t)) := by
    have h0 : Only w s := fun e he => hs e (List.mem_append_left _ he)
    have h1 := inv_run D old w s h0
    have h2 : P (step D (run D old s) (.open_ w)) := by
      have hgot : (run D old s).got = [] := hg s _ hn
      simp only [step]
      cases hp : (run D old s).pos w with
      | none => exact ⟨0, by simp, Nat.zero_le _, by simp, 0, by simpa using hgot⟩
      | some p =>
        obtain ⟨h3, h4, _⟩ := h1.after p hp
        exact ⟨p, hp, h3, h4, 0, by simpa using hgot⟩
    unfold run
    rw [List.foldl_append, List.foldl_cons]
    refine foldl_inv (P := P) (Q := fun e => Only w [e]) D ?_ t _ ?_ h2
    · rintro st e he ⟨p, h3, h4, h5, k, h6⟩
      cases e with
      | open_ v =>
        obtain rfl : v = w := he _ (List.mem_cons_self ..)
        simp only [step, h3]
        exact ⟨p, h3, h4, h5, k, h6⟩
      | write v n =>
        obtain rfl : v = w := he _ (List.mem_cons_self ..)
        simp only [step, h3]
        refine ⟨p + (((D v).drop p).take n).length, by simp, ?_, ?_, k, h6⟩
        · simp; omega
        · show writeAt st.file p _ = _
          rw [h5, writeAt_end _ _ _ h4]
      | read n =>
        refine ⟨p, h3, h4, h5, ?_⟩
        show ∃ k, st.got ++ _ = _
        rw [h5]
        exact take_read _ _ _ _ k h6
    · intro e he e' he'
      obtain rfl := List.mem_singleton.mp he'
      exact hs e' (List.mem_append_right _ (List.mem_cons_of_mem _ he))
  obtain ⟨_, _, _, _, k, hk⟩ := hP
  rw [hk, hd]
  exact loads_take d k

/-! ### several dumps -/

theorem writeAt_getElem (file d : Bytes) (p i : Nat) (hd : d ≠ []) : (writeAt file p d)[i]? =
    if i < p then (if i < file.length then file[i]? else some 0)
    else if i < p + d.length then d[i - p]? else file[i]? := by
  unfold writeAt
  rw [if_neg hd]
  simp only [List.append_assoc, List.getElem?_append, List.length_append, List.length_take, List.length_replicate, List.getElem?_take,
    List.getElem?_replicate, List.getElem?_drop]
  grind

theorem writeAt_length (file d : Bytes) (p : Nat) (hd : d ≠ []) : (writeAt file p d).length = max file.length (p + d.length) := by
  unfold writeAt
  rw [if_neg hd]
  simp
  omega

/-- C107: whatever dumps run, in whatever order, every byte of the file is the byte that one of them has at this place, or a zero that
fills a gap, or (before the first opens) that of the old file. -/
theorem C107_bytes_from_dumps (D : Nat → Bytes) (old : Bytes) (s : List Ev) :
    (run D old s).file = old ∨
      ∀ (i : Nat) (b : UInt8), (run D old s).file[i]? = some b → b = 0 ∨ ∃ w, .open_ w ∈ s ∧ (D w)[i]? = some b := by
  let P : St → Prop := fun st => (st.file = old ∧ ∀ w, st.pos w = none) ∨
    ((∀ w p, st.pos w = some p → .open_ w ∈ s) ∧
      ∀ (i : Nat) (b : UInt8), st.file[i]? = some b → b = 0 ∨ ∃ w, .open_ w ∈ s ∧ (D w)[i]? = some b)
  have h : P (run D old s) := by
    refine foldl_inv (P := P) (Q := fun e => e ∈ s) D ?_ s _ (fun e h => h) (.inl ⟨rfl, fun _ => rfl⟩)
    intro st e he h
    cases e with
    | open_ v =>
      simp only [step]
      cases hp : st.pos v with
      | some p => exact h
      | none =>
        right
        refine ⟨?_, by simp⟩
        intro w p hw
        by_cases hv : w = v
        · rw [hv]; exact he
        · simp only [hv, if_false] at hw
          rcases h with h | h
          · rw [h.2 w] at hw; cases hw
          · exact h.1 w p hw
    | read n => exact h
    | write v n =>
      simp only [step]
      cases hp : st.pos v with
      | none => exact h
      | some p =>
        rcases h with h | h
        · rw [h.2 v] at hp; cases hp
        right
        refine ⟨?_, ?_⟩
        · intro w q hw
          by_cases hv : w = v
          · rw [hv]; exact h.1 v p hp
          · simp only [hv, if_false] at hw
            exact h.1 w q hw
        · intro i b hb
          by_cases hd : ((D v).drop p).take n = []
          · simp only [hd, writeAt, if_true] at hb
            exact h.2 i b hb
          · have hb : (writeAt st.file p (((D v).drop p).take n))[i]? = some b := hb
            rw [writeAt_getElem _ _ _ _ hd] at hb
            by_cases h1 : i < p
            · rw [if_pos h1] at hb
              by_cases h2 : i < st.file.length
              · rw [if_pos h2] at hb; exact h.2 i b hb
              · rw [if_neg h2] at hb; exact .inl (Option.some.inj hb).symm
            · rw [if_neg h1] at hb
              by_cases h2 : i < p + (((D v).drop p).take n).length
              · rw [if_pos h2] at hb
                refine .inr ⟨v, h.1 v p hp, ?_⟩
                rw [List.getElem?_take] at hb
                split at hb
                · rw [List.getElem?_drop] at hb
                  rwa [Nat.add_sub_cancel' (by omega)] at hb
                · cases hb
              · rw [if_neg h2] at hb; exact h.2 i b hb
  rcases h with h | h
  · exact .inl h.1
  · exact .inr h.2

/-- C107 for dumps that write the same bytes: when all that began have finished, the file holds them, however they were interleaved. -/
theorem C107_same_session (D : Nat → Bytes) (old new : Bytes) (s : List Ev) (hD : ∀ w, .open_ w ∈ s → D w = new)
    (hb : ∃ w, .open_ w ∈ s) (hf : ∀ w, .open_ w ∈ s → (run D old s).pos w = some new.length) : (run D old s).file = new := by
  let P : St → Prop := fun st => (∀ w, st.pos w = none) ∨
    (∃ l q, .open_ l ∈ s ∧ st.pos l = some q ∧ q ≤ st.file.length ∧ st.file.length ≤ new.length ∧ ∀ i, i < q → st.file[i]? = new[i]?) ∧
      (∀ w p, st.pos w = some p → .open_ w ∈ s ∧ p ≤ new.length)
  have h : P (run D old s) := by
    refine foldl_inv (P := P) (Q := fun e => e ∈ s) D ?_ s _ (fun e h => h) (.inl fun _ => rfl)
    intro st e he h
    cases e with
    | open_ v =>
      simp only [step]
      cases hp : st.pos v with
      | some p => exact h
      | none =>
        right
        refine ⟨⟨v, 0, he, by simp, by simp, by simp, by simp⟩, ?_⟩
        intro w p hw
        by_cases hv : w = v
        · simp only [hv, if_true] at hw
          obtain rfl := Option.some.inj hw
          exact ⟨hv ▸ he, Nat.zero_le _⟩
        · simp only [hv, if_false] at hw
          rcases h with h | h
          · rw [h w] at hw; cases hw
          · exact h.2 w p hw
    | read n => exact h
    | write v n =>
      simp only [step]
      cases hp : st.pos v with
      | none => exact h
      | some p =>
        rcases h with h | ⟨⟨l, q, h1, h2, h3, h4, h5⟩, h6⟩
        · rw [h v] at hp; cases hp
        right
        obtain ⟨hv, hpl⟩ := h6 v p hp
        rw [hD v hv]
        have hdl : ((new.drop p).take n).length = min n (new.length - p) := by simp
        refine ⟨?_, ?_⟩
        · by_cases hd : (new.drop p).take n = []
          · refine ⟨l, q, h1, ?_, by simpa [hd, writeAt] using h3, by simpa [hd, writeAt] using h4, by simpa [hd, writeAt] using h5⟩
            by_cases hl : l = v
            · subst hl
              rw [h2] at hp
              obtain rfl := Option.some.inj hp
              simp [hd]
            · simp only [hl, if_false]; exact h2
          · have hpos : 0 < ((new.drop p).take n).length := List.length_pos_iff.mpr hd
            have hin : ∀ i, ¬ i < p → i < p + ((new.drop p).take n).length → ((new.drop p).take n)[i - p]? = new[i]? := by
              intro i g1 g2
              rw [List.getElem?_take, if_pos (by omega), List.getElem?_drop, Nat.add_sub_cancel' (by omega)]
            by_cases hl : l = v
            · subst hl
              rw [h2] at hp
              obtain rfl := Option.some.inj hp
              refine ⟨l, q + ((new.drop q).take n).length, h1, by simp only [if_true], ?_, ?_, ?_⟩
              · show _ ≤ (writeAt _ _ _).length
                rw [writeAt_length _ _ _ hd]
                simp only [List.length_take, List.length_drop] at *
                omega
              · show (writeAt _ _ _).length ≤ _
                rw [writeAt_length _ _ _ hd]
                omega
              · intro i hi
                show (writeAt _ _ _)[i]? = _
                rw [writeAt_getElem _ _ _ _ hd]
                by_cases g1 : i < q
                · rw [if_pos g1, if_pos (by omega)]; exact h5 i g1
                · rw [if_neg g1, if_pos hi]; exact hin i g1 hi
            · refine ⟨l, q, h1, by simp only [hl, if_false]; exact h2, ?_, ?_, ?_⟩
              · show _ ≤ (writeAt _ _ _).length
                rw [writeAt_length _ _ _ hd]
                omega
              · show (writeAt _ _ _).length ≤ _
                rw [writeAt_length _ _ _ hd]
                omega
              · intro i hi
                show (writeAt _ _ _)[i]? = _
                rw [writeAt_getElem _ _ _ _ hd]
                by_cases g1 : i < p
                · rw [if_pos g1, if_pos (by omega)]; exact h5 i hi
                · rw [if_neg g1]
                  by_cases g2 : i < p + ((new.drop p).take n).length
                  · rw [if_pos g2]; exact hin i g1 g2
                  · rw [if_neg g2]; exact h5 i hi
        · intro w p' hw
          by_cases hwv : w = v
          · simp only [hwv, if_true] at hw
            obtain rfl := Option.some.inj hw
            rw [hwv]
            exact ⟨hv, by omega⟩
          · simp only [hwv, if_false] at hw
            exact h6 w p' hw
  obtain ⟨w, hw⟩ := hb
  rcases h with h | ⟨⟨l, q, h1, h2, h3, h4, h5⟩, _⟩
  · have := hf w hw
    rw [h w] at this
    cases this
  · have := hf l h1
    rw [h2] at this
    obtain rfl := Option.some.inj this
    apply List.ext_getElem?
    intro i
    by_cases hi : i < new.length
    · exact h5 i hi
    · rw [List.getElem?_eq_none (by omega), List.getElem?_eq_none (by omega)]

/-! ### what goes wrong -/

/-- a session with two variables -/
def sess (a b : Int) : World := { exGlobs with H := fun
  | _ => .node .dict [] [(.atom (.str "x"), .atom (.int a)), (.atom (.str "y"), .atom (.int b))] none }

/-- its pickle at protocol 3 -/
def pickleOf (a b : Int) : Bytes := ((dumpBytes ⟨3, [], [(false, 9)]⟩ (sess a b) 10 (.ref 0)).map (·.2)).getD []

example : pickleOf 1 2 = [0x80, 3, 0x7d, 0x71, 0, 0x28, 0x58, 1, 0, 0, 0, 0x78, 0x4b, 1, 0x58, 1, 0, 0, 0, 0x79, 0x4b, 2, 0x75, 0x2e] := by
  decide +kernel

theorem sess_wf (a b : Int) : WF (sess a b) := by
  refine ⟨rfl, rfl, rfl, rfl, rfl, rfl, rfl, rfl, ?_, (by intro _ _ h; cases h), (by intro _ _ h; cases h), (by intro _ _ _ h; cases h)⟩
  intro x
  exact ⟨rfl, rfl, by
    show KNodup _ _
    simp [KNodup, sess, res]⟩

/-- what it means to have loaded this session: one dictionary with these two entries -/
def isSess (a b : Int) (bs : Bytes) : Bool :=
  (loadFile [] bs).map (·.1) == some (.ref 0, [.node .dict [] [(.atom (.str "x"), .atom (.int a)), (.atom (.str "y"), .atom (.int b))] [] none])

/-- The full claim is false of the code: while the file of the session x = 1, y = 2 is overwritten with x = 3, y = 4, a reader that needs
more than one read loads, without any error, x = 1, y = 4: a session nobody ever saved.  (Scaled down: the buffer of the reader has 16
bytes here, and 4096 or more in CPython.) -/
theorem C107_torn_load : isSess 1 2 (pickleOf 1 2) = true ∧ isSess 3 4 (pickleOf 3 4) = true ∧
    ∃ s, Only 0 s ∧ isSess 1 4 (run (fun _ => pickleOf 3 4) (pickleOf 1 2) s).got = true :=
  ⟨by decide +kernel, by decide +kernel, [.read 16, .open_ 0, .write 0 100, .read 16], (by intro e he; fin_cases he <;> trivial), by decide +kernel⟩

/-- Two dumps at the same time leave a file that is neither session, for good. -/
theorem C107_torn_file : ∃ s, let st := run (fun w => if w = 0 then pickleOf 1 2 else pickleOf 3 4) [] s
    (st.pos 0 = some (pickleOf 1 2).length ∧ st.pos 1 = some (pickleOf 3 4).length) ∧ isSess 1 4 st.file = true :=
  ⟨[.open_ 0, .open_ 1, .write 1 16, .write 0 100, .write 1 100], by decide +kernel, by decide +kernel⟩

/-- A dump that is overtaken by another one between two of its writes leaves a gap of zeros in a file that no longer loads. -/
theorem C107_gap : ∃ s, let st := run (fun w => if w = 0 then pickleOf 1 2 else pickleOf 3 4) [] s
    st.pos 0 = some (pickleOf 1 2).length ∧ st.file.take 8 = List.replicate 8 0 ∧ (loadFile [] st.file).isNone = true :=
  ⟨[.open_ 0, .write 0 16, .open_ 1, .write 0 100], by decide +kernel⟩

/-! ### non-vacuity -/

theorem sess_dumped (a b : Int) (ops : List Op) (bs : Bytes) (h : dumpBytes ⟨3, [], [(false, 9)]⟩ (sess a b) 10 (.ref 0) = some (ops, bs)) :
    ∃ d : Dumped, d.bytes = bs ∧ d.W = sess a b ∧ d.root = .ref 0 := ⟨⟨_, sess a b, 10, .ref 0, ops, bs, sess_wf a b, h⟩, rfl, rfl, rfl⟩

/-- the hypotheses of the theorems above are met: a reader whose first read comes before the dump opens the file -/
example : ∃ (o d : Dumped) (s : List Ev), o.W = sess 1 2 ∧ d.W = sess 3 4 ∧ Only 0 s ∧ Reads o.bytes.length s ∧
    Ev.read 100 ∈ s ∧ Loads o (run (fun _ => d.bytes) o.bytes s).got := by
  obtain ⟨o, ho, ho', _⟩ := sess_dumped 1 2 _ _ (Option.eq_some_of_isSome (by decide +kernel))
  obtain ⟨d, hd, hd', _⟩ := sess_dumped 3 4 _ _ (Option.eq_some_of_isSome (by decide +kernel))
  refine ⟨o, d, [.read 100, .open_ 0, .write 0 10], ho', hd', ?_, ?_, by simp, ?_⟩
  · intro e he; fin_cases he <;> trivial
  · have hl : o.bytes.length ≤ 100 := by rw [ho]; decide +kernel
    intro e he
    fin_cases he <;> first | exact hl | trivial
  · have hl : o.bytes.length ≤ 100 := by rw [ho]; decide +kernel
    have : (run (fun _ => d.bytes) o.bytes [.read 100, .open_ 0, .write 0 10]).got = o.bytes := by
      simp [run, step, List.take_of_length_le hl]
    rw [this]
    simpa using loads_append o []

/-- two dumps of the same session, interleaved -/
example : ∃ s, (∃ w, .open_ w ∈ s) ∧ (∀ w, .open_ w ∈ s → (run (fun _ => pickleOf 1 2) [] s).pos w = some (pickleOf 1 2).length) ∧
    (∃ w, w ≠ 0 ∧ .open_ w ∈ s) :=
  ⟨[.open_ 0, .write 0 10, .open_ 1, .write 0 5, .write 1 12, .write 0 9, .write 1 12], ⟨0, by simp⟩, (by
    intro w hw
    simp only [List.mem_cons, Ev.open_.injEq, reduceCtorEq, List.not_mem_nil, or_false, false_or] at hw
    rcases hw with rfl | rfl <;> decide +kernel), ⟨1, by simp⟩⟩

end Verif.Overwrite
