import Verif.Model.Locks
import Verif.Props.PyStr
/-! C44: locks keep their state. -/
set_option linter.unusedSimpArgs false
namespace Verif.Locks
open PyStr

/-! ### reading the repr -/

theorem split_count (l : RLock) (addr : List Char) :
    ∃ w, (split "count=".toList (l.repr addr))[1]? = some (str10 l.count ++ ' ' :: w) := by
  have hd : ∀ c ∈ str10 l.owner, "count=".toList.head? ≠ some c := by
    intro c hc
    have := digit_ne (str10_digit _ c hc) (d := 'c') (by decide)
    simpa using this.symm
  have hd2 : ∀ c ∈ str10 l.count, "count=".toList.head? ≠ some c := by
    intro c hc
    have := digit_ne (str10_digit _ c hc) (d := 'c') (by decide)
    simpa using this.symm
  unfold split RLock.repr
  have key : ∀ cur, ∃ a w tl, splitGo "count=".toList 0 cur (str10 l.owner ++ (" count=".toList ++
      (str10 l.count ++ (" at ".toList ++ (addr ++ ">".toList))))) = a :: (str10 l.count ++ ' ' :: w) :: tl := by
    intro cur
    rw [splitGo_skips (by decide) _ hd]
    obtain ⟨w, tl, h⟩ := splitGo_head "count=".toList ("at ".toList ++ (addr ++ ">".toList)) 0
      (' ' :: (str10 l.count).reverse)
    refine ⟨(' ' :: ((str10 l.owner).reverse ++ cur)).reverse, w, tl, ?_⟩
    have e1 : ∀ cur s, splitGo "count=".toList 0 cur (" count=".toList ++ s) =
        (' ' :: cur).reverse :: splitGo "count=".toList 0 [] s := by
      intro cur s
      simp [splitGo, List.isPrefixOf]
    rw [e1, splitGo_skips (by decide) _ hd2]
    have e2 : " at ".toList ++ (addr ++ ">".toList) = ' ' :: ("at ".toList ++ (addr ++ ">".toList)) := rfl
    rw [e2, splitGo_skip (by decide) (by decide)]
    simp only [List.append_nil]
    rw [h]
    simp
  simp only [List.append_assoc]
  split
  · have e : ∀ s, splitGo "count=".toList 0 [] ("<".toList ++ ("unlocked".toList ++
        (" _thread.RLock object owner=".toList ++ s))) = splitGo "count=".toList 0
        ("<unlocked _thread.RLock object owner=".toList.reverse) s := by
      intro s
      simp [splitGo, List.isPrefixOf]
    rw [e]
    obtain ⟨a, w, tl, h⟩ := key "<unlocked _thread.RLock object owner=".toList.reverse
    exact ⟨w, by rw [h]; rfl⟩
  · have e : ∀ s, splitGo "count=".toList 0 [] ("<".toList ++ ("locked".toList ++
        (" _thread.RLock object owner=".toList ++ s))) = splitGo "count=".toList 0
        ("<locked _thread.RLock object owner=".toList.reverse) s := by
      intro s
      simp [splitGo, List.isPrefixOf]
    rw [e]
    obtain ⟨a, w, tl, h⟩ := key "<locked _thread.RLock object owner=".toList.reverse
    exact ⟨w, by rw [h]; rfl⟩

theorem split_owner (l : RLock) (addr : List Char) :
    ∃ w, (split "owner=".toList (l.repr addr))[1]? = some (str10 l.owner ++ ' ' :: w) := by
  have hd : ∀ c ∈ str10 l.owner, "owner=".toList.head? ≠ some c := by
    intro c hc
    have := digit_ne (str10_digit _ c hc) (d := 'o') (by decide)
    simpa using this.symm
  unfold split RLock.repr
  have key : ∃ w tl, splitGo "owner=".toList 0 [] (str10 l.owner ++ (" count=".toList ++
      (str10 l.count ++ (" at ".toList ++ (addr ++ ">".toList))))) = (str10 l.owner ++ ' ' :: w) :: tl := by
    rw [splitGo_skips (by decide) _ hd]
    obtain ⟨w, tl, h⟩ := splitGo_head "owner=".toList ("count=".toList ++
      (str10 l.count ++ (" at ".toList ++ (addr ++ ">".toList)))) 0 (' ' :: (str10 l.owner).reverse)
    refine ⟨w, tl, ?_⟩
    have e2 : ∀ s, " count=".toList ++ s = ' ' :: ("count=".toList ++ s) := fun _ => rfl
    rw [e2, splitGo_skip (by decide) (by decide)]
    simp only [List.append_nil]
    rw [h]
    simp
  obtain ⟨w, tl, h⟩ := key
  simp only [List.append_assoc]
  split
  · have e : ∀ s, splitGo "owner=".toList 0 [] ("<".toList ++ ("unlocked".toList ++
        (" _thread.RLock object owner=".toList ++ s))) = "<unlocked _thread.RLock object ".toList ::
          splitGo "owner=".toList 0 [] s := by
      intro s
      simp [splitGo, List.isPrefixOf]
    exact ⟨w, by rw [e, h]; rfl⟩
  · have e : ∀ s, splitGo "owner=".toList 0 [] ("<".toList ++ ("locked".toList ++
        (" _thread.RLock object owner=".toList ++ s))) = "<locked _thread.RLock object ".toList ::
          splitGo "owner=".toList 0 [] s := by
      intro s
      simp [splitGo, List.isPrefixOf]
    exact ⟨w, by rw [e, h]; rfl⟩

/-- C44: whatever its state and address, count and owner of an RLock are read correctly off its repr. -/
theorem C44_repr_read (l : RLock) (addr : List Char) : saveRLock (l.repr addr) = .ok (l.count, l.owner) := by
  obtain ⟨w, h1⟩ := split_count l addr
  obtain ⟨w', h2⟩ := split_owner l addr
  have t1 := splitWs_token (str10 l.count) w (fun c hc => isSpace_digit (str10_digit _ c hc)) (str10_ne _)
  have t2 := splitWs_token (str10 l.owner) w' (fun c hc => isSpace_digit (str10_digit _ c hc)) (str10_ne _)
  have r : rstrip '>' (str10 l.count) = str10 l.count :=
    rstrip_noop _ _ fun d hd => digit_ne (str10_digit _ d hd) (by decide)
  unfold saveRLock
  rw [h1]; dsimp only
  rw [t1]; dsimp only
  rw [r, int10_str10]; dsimp only
  rw [h2]; dsimp only
  rw [t2]; dsimp only
  rw [int10_str10]

/-! ### specification: histories of an RLock -/

/-- What threads (with positive identifiers) can do to an RLock. -/
inductive Act where
  | acquire (tid : Nat)
  | release (tid : Nat)

def act (a : Act) (l : RLock) : RLock :=
  match a with
  | .acquire tid => (l.tryAcquire tid).2
  | .release tid => (l.release tid).getD l

def Act.tid : Act → Nat
  | .acquire t => t
  | .release t => t

/-- the state after a history of a lock that started free -/
def after (h : List Act) : RLock := h.foldl (fun l a => act a l) RLock.new

theorem inv_step (a : Act) (ha : 0 < a.tid) (l : RLock)
    (h : (l.mutex = true ↔ 0 < l.count) ∧ (0 < l.count ↔ 0 < l.owner)) :
    ((act a l).mutex = true ↔ 0 < (act a l).count) ∧ (0 < (act a l).count ↔ 0 < (act a l).owner) := by
  obtain ⟨m, o, c⟩ := l
  cases a with
  | acquire t =>
    simp only [Act.tid] at ha
    simp only at h
    simp only [act, RLock.tryAcquire]
    split
    · cases m <;> simp only at h ⊢ <;> simp at h ⊢ <;> omega
    · split
      · exact h
      · simp; omega
  | release t =>
    simp only [Act.tid] at ha
    simp only at h
    simp only [act, RLock.release]
    split
    · simpa using h
    · split
      · simp
      · simp only [Option.getD_some]
        cases m <;> simp at h ⊢ <;> omega

theorem inv_after (h : List Act) (hp : ∀ a ∈ h, 0 < a.tid) :
    ((after h).mutex = true ↔ 0 < (after h).count) ∧ (0 < (after h).count ↔ 0 < (after h).owner) := by
  have : ∀ (l : RLock), ((l.mutex = true ↔ 0 < l.count) ∧ (0 < l.count ↔ 0 < l.owner)) →
      (((h.foldl (fun l a => act a l) l).mutex = true ↔ 0 < (h.foldl (fun l a => act a l) l).count) ∧
        (0 < (h.foldl (fun l a => act a l) l).count ↔ 0 < (h.foldl (fun l a => act a l) l).owner)) := by
    induction h with
    | nil => intro l hl; exact hl
    | cons a h ih =>
      intro l hl
      simp only [List.foldl_cons]
      exact ih (fun b hb => hp b (by simp [hb])) _ (inv_step a (hp a (by simp)) l hl)
  exact this RLock.new (by simp [RLock.new])

/-! ### what a reentrant lock is: nobody has it, or a thread has it some number of times over -/

/-- one request on the abstract lock: `none` free, `some (t, n)` held by `t`, `n + 1` times -/
def hold (a : Act) (s : Option (Nat × Nat)) : Option (Nat × Nat) :=
  match a, s with
  | .acquire t, none => some (t, 0)
  | .acquire t, some (o, n) => if o = t then some (o, n + 1) else some (o, n)
  | .release _, none => none
  | .release t, some (o, n) => if o = t then (match n with | 0 => none | n + 1 => some (o, n)) else some (o, n)

/-- who has it, and how often, after a history -/
def held (h : List Act) : Option (Nat × Nat) := h.foldl (fun s a => hold a s) none

/-- the C fields that stand for it -/
def fields : Option (Nat × Nat) → RLock
  | none => ⟨false, 0, 0⟩
  | some (t, n) => ⟨true, t, n + 1⟩

theorem act_fields (a : Act) (s : Option (Nat × Nat)) : act a (fields s) = fields (hold a s) := by
  cases a with
  | acquire t =>
    cases s with
    | none => simp [act, fields, hold, RLock.tryAcquire]
    | some p =>
      obtain ⟨o, n⟩ := p
      by_cases h : o = t
      · simp [act, fields, hold, RLock.tryAcquire, h]
      · simp [act, fields, hold, RLock.tryAcquire, h]
  | release t =>
    cases s with
    | none => simp [act, fields, hold, RLock.release]
    | some p =>
      obtain ⟨o, n⟩ := p
      by_cases h : o = t
      · cases n <;> simp [act, fields, hold, RLock.release, h]
      · simp [act, fields, hold, RLock.release, h]

theorem after_fields_from (h : List Act) (s : Option (Nat × Nat)) :
    h.foldl (fun l a => act a l) (fields s) = fields (h.foldl (fun s a => hold a s) s) := by
  induction h generalizing s with
  | nil => rfl
  | cons a h ih => simp only [List.foldl_cons]; rw [act_fields, ih]

theorem after_fields (h : List Act) : after h = fields (held h) := after_fields_from h none

theorem releases_hold (t : Nat) (n k : Nat) :
    (List.replicate k (Act.release t)).foldl (fun s a => hold a s) (some (t, n)) =
      if n < k then none else some (t, n - k) := by
  induction k generalizing n with
  | zero => simp
  | succ k ih =>
    have e : ∀ n, hold (.release t) (some (t, n)) = (match n with | 0 => none | n + 1 => some (t, n)) := by
      intro n; simp [hold]
    have e0 : ∀ k, (List.replicate k (Act.release t)).foldl (fun s a => hold a s) none = none := by
      intro k
      induction k with
      | zero => rfl
      | succ k ih => simp only [List.replicate_succ, List.foldl_cons]; exact ih
    simp only [List.replicate_succ, List.foldl_cons, e]
    cases n with
    | zero => simp only [e0, Nat.zero_lt_succ, if_true]
    | succ n =>
      simp only [ih, Nat.add_lt_add_iff_right, Nat.add_sub_add_right]

/-- C44, seen from outside: when a thread holds an RLock n+1 times over, after whatever history, the copy it
makes answers every request as a lock held n+1 times by that thread: after `k` releases another thread gets it
iff `k` is at least n+1. -/
theorem C44_held_observed (h : List Act) (hp : ∀ a ∈ h, 0 < a.tid) (tid n : Nat) (addr : List Char)
    (hh : held h = some (tid, n)) :
    ∃ c, copyRLock tid (after h) addr = .ok c ∧
      ∀ k other, other ≠ tid →
        ((((List.replicate k (Act.release tid)).foldl (fun l a => act a l) c).tryAcquire other).1 = true ↔ n + 1 ≤ k) := by
  have ha := after_fields h
  rw [hh] at ha
  have h0 : 0 < tid := by
    have := inv_after h hp
    rw [ha] at this
    exact this.2.1 (Nat.succ_pos n)
  refine ⟨fields (some (tid, n)), ?_, ?_⟩
  · unfold copyRLock
    rw [C44_repr_read, ha]
    simp [createRLock, RLock.acquireRestore, RLock.new, RLock.isOwned, fields]
  · intro k other ho
    rw [after_fields_from, releases_hold]
    by_cases hk : n < k
    · simp [hk, fields, RLock.tryAcquire]; omega
    · simp [hk, fields, RLock.tryAcquire, Ne.symm ho]; omega

/-- what the repr says first: free or held -/
theorem C44_repr_word (h : List Act) (addr : List Char) :
    (held h = none → ∃ w, (after h).repr addr = "<unlocked ".toList ++ w) ∧
    (held h ≠ none → ∃ w, (after h).repr addr = "<locked ".toList ++ w) := by
  rw [after_fields]
  constructor
  · intro e
    rw [e]
    exact ⟨_, by simp only [RLock.repr, fields, if_true, List.append_assoc]; rfl⟩
  · intro e
    cases hs : held h with
    | none => exact absurd hs e
    | some p =>
      obtain ⟨o, n⟩ := p
      exact ⟨_, by simp only [RLock.repr, fields, Nat.add_one_ne_zero, if_false, List.append_assoc]; rfl⟩

example : held [.acquire 7, .acquire 9, .acquire 7, .release 9, .acquire 7, .release 7] = some (7, 1) := by decide

/-- C44 for Lock: the copy exists and is locked exactly when the original is. -/
theorem C44_lock (l : Lock) : ∃ c, copyLock l = .ok c ∧ c.locked = l.locked := by
  obtain ⟨b⟩ := l
  cases b <;> exact ⟨_, rfl, rfl⟩

/-- C44, an RLock held by the thread that copies it: whatever was done to it before, the copy is in the same
state, so every later history of the copy is a history of the original. -/
theorem C44_held_partial (h : List Act) (hp : ∀ a ∈ h, 0 < a.tid) (tid : Nat) (addr : List Char)
    (hc : 0 < (after h).count) (ho : (after h).owner = tid) :
    copyRLock tid (after h) addr = .ok (after h) := by
  have hi := inv_after h hp
  unfold copyRLock
  rw [C44_repr_read]
  simp only [createRLock, RLock.acquireRestore, RLock.new, RLock.isOwned]
  have hm := hi.1.2 hc
  generalize after h = l at *
  obtain ⟨m, o, c⟩ := l
  simp only at hm hc ho
  simp [hm, hc, ho]

/-- C44, an RLock held by another thread is never copied into something else: unpickling is refused. -/
theorem C44_other_thread (h : List Act) (hp : ∀ a ∈ h, 0 < a.tid) (tid : Nat) (addr : List Char)
    (hc : 0 < (after h).count) (ho : (after h).owner ≠ tid) :
    copyRLock tid (after h) addr = .error .unpickling := by
  have hi := inv_after h hp
  have h0 := hi.2.1 hc
  unfold copyRLock
  rw [C44_repr_read]
  simp only [createRLock, RLock.acquireRestore, RLock.new, RLock.isOwned]
  have : (after h).owner ≠ 0 := by omega
  simp [this, ho]

/-- C44 fails for a free RLock: the copy exists and looks free, but no thread can ever acquire it. -/
theorem C44_free_rlock_stuck (h : List Act) (hp : ∀ a ∈ h, 0 < a.tid) (tid : Nat) (addr : List Char)
    (hc : (after h).count = 0) :
    ∃ c, copyRLock tid (after h) addr = .ok c ∧
      (∀ addr', c.repr addr' = (after h).repr addr') ∧
      (∀ t, ((after h).tryAcquire t).1 = true) ∧
      (∀ (h' : List Act) t, ((h'.foldl (fun l a => act a l) c).tryAcquire t).1 = false) := by
  have hi := inv_after h hp
  have ho : (after h).owner = 0 := by omega
  have hm : (after h).mutex = false := by
    cases e : (after h).mutex
    · rfl
    · have := hi.1.1 e; omega
  refine ⟨⟨true, 0, 0⟩, ?_, ?_, ?_, ?_⟩
  · unfold copyRLock
    rw [C44_repr_read]
    simp [createRLock, RLock.acquireRestore, RLock.new, hc, ho]
  · intro addr'; simp [RLock.repr, hc, ho]
  · intro t; simp [RLock.tryAcquire, hc, hm]
  · intro h' t
    have : ∀ (h' : List Act), h'.foldl (fun l a => act a l) (⟨true, 0, 0⟩ : RLock) = ⟨true, 0, 0⟩ := by
      intro h'
      induction h' with
      | nil => rfl
      | cons a h' ih =>
        simp only [List.foldl_cons]
        have : act a ⟨true, 0, 0⟩ = ⟨true, 0, 0⟩ := by
          cases a <;> simp [act, RLock.tryAcquire, RLock.release]
        rw [this, ih]
    rw [this]
    simp [RLock.tryAcquire]

/-! ### concrete cases -/

deriving instance DecidableEq for Except

/-- thread 7 acquires twice: the copy made by thread 7 has count 2 -/
example : copyRLock 7 (after [.acquire 7, .acquire 7]) "0x7f00".toList = .ok ⟨true, 7, 2⟩ := by decide +kernel
example : 0 < (after [.acquire 7, .release 7, .acquire 9, .acquire 9]).count := by decide
/-- a lock used and released is free, and its copy is stuck -/
example : (after [.acquire 7, .acquire 7, .release 7, .release 7]).count = 0 := by decide
example : copyLock ⟨true⟩ = .ok ⟨true⟩ := rfl

end Verif.Locks
