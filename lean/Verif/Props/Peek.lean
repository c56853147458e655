import Verif.Model.Peek
set_option linter.unusedSimpArgs false
set_option linter.unusedVariables false
namespace Verif.Peek

/-- the bytes still to be read. -/
def Stream.remaining (s : Stream) : Bytes := s.data.drop s.pos
def Buffered.remaining (b : Buffered) : Bytes := b.buf ++ b.raw.remaining

/-- C19: a peek that returns leaves the stream exactly as it was, and returns the start of what remains:
all `n` bytes, or everything if there is less (for a stream that does not read short). -/
theorem C19_peek_keeps (b : Behaviour) (s s' : Stream) (n : Nat) (c : Bytes)
    (h : peek b s n = (.ok c, s')) :
    s' = s ∧ c = s.remaining.take (min n b.short) := by
  unfold peek at h
  split at h
  · simp at h
  split at h
  · simp at h
  dsimp only at h
  split at h
  · simp at h
  split at h
  · simp at h
  dsimp only [Stream.read] at h
  split at h
  · simp at h
  · simp only [Prod.mk.injEq, Except.ok.injEq] at h
    obtain ⟨h1, h2⟩ := h
    exact ⟨by rw [← h2], by rw [← h1]; rfl⟩

theorem C19_peek_length (b : Behaviour) (s s' : Stream) (n : Nat) (c : Bytes) (hb : n ≤ b.short)
    (h : peek b s n = (.ok c, s')) : c = s.remaining.take n ∧ c.length = min n s.remaining.length := by
  have := (C19_peek_keeps b s s' n c h).2
  rw [Nat.min_eq_left hb] at this
  exact ⟨this, by rw [this, List.length_take]⟩

/-- C19: a stream that cannot tell or seek is reported (NotImplementedError, which `_identify_module` turns into
UnpicklingError or None), and not a byte has been taken from it. -/
theorem C19_unseekable_reported (b : Behaviour) (s : Stream) (n : Nat)
    (hflush : b.hasFlush = true → b.flush = .ok)
    (htell : ∀ e, b.tell = .raises e → e = .osError ∨ e = .attributeError)
    (hseek : ∀ e, b.seek1 = .raises e → e = .osError ∨ e = .attributeError)
    (h : ¬ (b.hasTell = true ∧ b.tell = .ok ∧ b.hasSeek = true ∧ b.seek1 = .ok)) :
    peek b s n = (.error .notImplementedError, s) := by
  have hf : (if b.hasFlush then b.flush else .ok) = Outcome.ok := by
    cases hh : b.hasFlush with
    | false => rfl
    | true => simpa using hflush hh
  simp only [peek, hf]
  cases ht : b.hasTell with
  | false => rfl
  | true =>
    simp only [if_true]
    cases htl : b.tell with
    | raises e => rcases htell e htl with rfl | rfl <;> rfl
    | ok =>
      simp only
      cases hs : b.hasSeek with
      | false => rfl
      | true =>
        simp only [if_true]
        cases hsk : b.seek1 with
        | raises e => rcases hseek e hsk with rfl | rfl <;> rfl
        | ok => exact absurd ⟨ht, htl, hs, hsk⟩ h

/-- Whatever happens, the position moves only if the second seek fails after the first one worked, and then the
caller is told. -/
theorem C19_moved_is_reported (b : Behaviour) (s : Stream) (n : Nat) :
    (peek b s n).2 = s ∨ ∃ e, (peek b s n).1 = .error e := by
  cases h : peek b s n with
  | mk r s' =>
    cases r with
    | ok c => exact .inl (C19_peek_keeps b s s' n c h).1
    | error e => exact .inr ⟨e, rfl⟩

theorem drop_take_length (r : Bytes) (n : Nat) : r.drop (r.take n).length = r.drop n := by
  rw [List.length_take]
  by_cases hl : n ≤ r.length
  · rw [Nat.min_eq_left hl]
  · rw [Nat.min_eq_right (by omega), List.drop_of_length_le (Nat.le_refl _), List.drop_of_length_le (by omega)]

/-- C19 for the io.BufferedReader used when the stream has no tell/seek: peeking keeps what will be read, and
shows its beginning. -/
theorem C19_buffered_peek_keeps (b : Buffered) (size : Nat) :
    (b.peek size).2.remaining = b.remaining ∧ (b.peek size).1 <+: b.remaining := by
  unfold Buffered.peek
  split
  · rename_i h
    exact ⟨rfl, List.prefix_append _ _⟩
  · rename_i h
    have h : b.buf = [] := by simpa using h
    simp only [Buffered.remaining, Stream.remaining, Stream.read, h, List.nil_append]
    refine ⟨?_, List.take_prefix _ _⟩
    rw [← List.drop_drop, drop_take_length, List.take_append_drop]

/-- Reading from the buffered reader gives the next `n` bytes of what remains and drops exactly those. -/
theorem C19_buffered_read (b : Buffered) (n : Nat) :
    (b.read n).1 = b.remaining.take n ∧ (b.read n).2.remaining = b.remaining.drop n := by
  unfold Buffered.read
  split
  · rename_i h
    simp only [Buffered.remaining]
    rw [List.take_append_of_le_length h, List.drop_append_of_le_length h]
    exact ⟨rfl, rfl⟩
  · rename_i h
    simp only [Buffered.remaining, Stream.remaining, Stream.read, List.nil_append]
    constructor
    · rw [List.take_append, List.take_of_length_le (l := b.buf) (by omega)]
    · rw [List.drop_append, List.drop_of_length_le (l := b.buf) (by omega), List.nil_append, ← List.drop_drop,
        drop_take_length]

/-- `_make_peekable` never touches the stream, and a freshly wrapped stream has the same bytes to read. -/
theorem C19_wrap (b : Behaviour) (s : Stream) (wrapOk : Bool) :
    (∀ w, makePeekable b s wrapOk = .buffered w → w.remaining = s.remaining) ∧
    (b.hasTell = true → b.hasSeek = true → b.hasPeek = false → makePeekable b s wrapOk = .peekable) ∧
    (b.hasPeek = true → makePeekable b s wrapOk = .same) := by
  refine ⟨?_, ?_, ?_⟩
  · intro w h
    unfold makePeekable at h
    split at h
    · cases h
    split at h
    · split at h
      · cases h; rfl
      · cases h
    · cases h
  · intro h1 h2 h3; simp [makePeekable, h1, h2, h3]
  · intro h; simp [makePeekable, h]

/-- C19: a stream that lacks tell or seek is buffered whenever Python can, so that peeking does not need them. -/
theorem C19_wrap_unseekable (b : Behaviour) (s : Stream) (hp : b.hasPeek = false)
    (h : b.hasTell = false ∨ b.hasSeek = false) :
    ∃ w, makePeekable b s true = .buffered w ∧ w.remaining = s.remaining := by
  refine ⟨⟨[], s⟩, ?_, by simp [Buffered.remaining]⟩
  rcases h with h | h <;> simp [makePeekable, hp, h]

/-- C19: only a failure to seek or to tell is reported as "cannot peek"; any other exception of the stream reaches the caller as it is, and
the stream has not moved. -/
theorem C19_other_errors_propagate (b : Behaviour) (s : Stream) (n : Nat)
    (hflush : b.hasFlush = true → b.flush = .ok) (ht : b.hasTell = true) (hs : b.hasSeek = true)
    (h : b.tell = .raises .other ∨ (b.tell = .ok ∧ b.seek1 = .raises .other) ∨
      (b.tell = .ok ∧ b.seek1 = .ok ∧ b.read = .raises .other)) :
    peek b s n = (.error .other, s) := by
  have hf : (if b.hasFlush then b.flush else .ok) = Outcome.ok := by
    cases hh : b.hasFlush with
    | false => rfl
    | true => simpa using hflush hh
  rcases h with h | ⟨h, h'⟩ | ⟨h, h', h''⟩
  · simp [peek, hf, ht, h, handler]
  · simp [peek, hf, ht, h, hs, h', handler]
  · simp [peek, hf, ht, h, hs, h', h'', handler]

/-- any number of peeks in a row show the same chunk. -/
theorem C19_peek_again (b : Behaviour) (s s' : Stream) (n : Nat) (c : Bytes) (h : peek b s n = (.ok c, s')) :
    peek b s' n = (.ok c, s') := by
  obtain rfl := (C19_peek_keeps b s s' n c h).1; exact h

example : peek ⟨false, true, true, false, .ok, .ok, .ok, .ok, .ok, 1000⟩ ⟨[1, 2, 3, 4, 5], 1⟩ 3 =
    (.ok [2, 3, 4], ⟨[1, 2, 3, 4, 5], 1⟩) := by rfl
example : peek ⟨false, true, true, false, .ok, .raises .osError, .ok, .ok, .ok, 1000⟩ ⟨[1, 2, 3, 4, 5], 1⟩ 3 =
    (.error .notImplementedError, ⟨[1, 2, 3, 4, 5], 1⟩) := by rfl

end Verif.Peek
