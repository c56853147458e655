import Verif.Model.FileFd
/-!
C87: unpickling a handle that has no path (a temporary file, an `os.fdopen` handle) touches no open file of the process that
loads it.  False: the handle is pickled by its descriptor *number*, and attaches to whatever file has that number in the process that loads it.
-/
set_option linter.unusedSimpArgs false
namespace Verif.File.Fd
open Verif.File

/-! ### specification -/

/-- the open files of the process are as they were: none closed, moved or rewritten -/
def Untouched (t t' : Table) : Prop := (∀ n d, t.fds n = some d → t'.fds n = some d) ∧ ∀ k, t'.files k = t.files k

/-- no descriptor but `n` has changed -/
def OthersUntouched (t t' : Table) (n : Nat) : Prop := ∀ k, k ≠ n → t'.fds k = t.fds k

/-- `x` written over a file from `off` on: what was before `off` and beyond `x` stays -/
def overwritten (old : Content) (off : Nat) (x : Content) : Content := old.take off ++ x ++ old.drop (off + x.length)

/-- the handle shares no open file of the process -/
def Fresh (t : Table) (h : Handle) : Prop := ∀ n, h.src = .fd n → t.fds n = none

/-- C87 in full: whatever is open where the pickle is loaded, the load leaves it alone and the handle is attached to none of it. -/
def C87_full : Prop := ∀ (t0 t : Table) (n : Nat) (m : Mode) (pos : Nat) (closed : Bool) (fm : FMode) (s : Saved) (t1 : Table),
  saveFd t0 n m pos closed false fm = some (s, t1) →
  Untouched t (loadFd t s).2 ∧ ∀ h, (loadFd t s).1 = .ok h → Fresh t h

/-- C87 when no file has that number in the process that loads: nothing is touched; a handle that can read (all those of
`tempfile.TemporaryFile`) comes back at the start of a new temporary file, in the same mode, closed if it was; its contents are not there. -/
theorem C87_number_not_in_use_partial (t0 t : Table) (n : Nat) (m : Mode) (pos : Nat) (closed : Bool) (fm : FMode) (s : Saved)
    (t1 : Table) (hs : saveFd t0 n m pos closed false fm = some (s, t1)) (hn : t.fds n = none) :
    Untouched t (loadFd t s).2 ∧ (∀ h, (loadFd t s).1 = .ok h → Fresh t h) ∧
    (fm ≠ .file → m.base = .r → (loadFd t s).1 = .ok ⟨.temp, m, 0, closed⟩) ∧
    (fm = .file ∨ m.base ≠ .r → ∃ e, (loadFd t s).1 = .error e) := by
  have hs' : s.name = n ∧ s.mode = m ∧ s.closed = closed ∧ s.strictio = false ∧ s.fmode = fm := by
    unfold saveFd at hs
    simp only at hs
    split at hs
    · cases h0 : t0.fds n with
      | none => rw [h0] at hs; cases hs
      | some d =>
        rw [h0] at hs
        simp only at hs
        split at hs <;> cases hs
        exact ⟨rfl, rfl, rfl, rfl, rfl⟩
    · cases hs; exact ⟨rfl, rfl, rfl, rfl, rfl⟩
  obtain ⟨h1, h2, h3, h4, h5⟩ := hs'
  have hp0 : 0 ≤ s.position := by
    unfold saveFd at hs
    simp only at hs
    split at hs
    · cases h0 : t0.fds n with
      | none => rw [h0] at hs; cases hs
      | some d =>
        rw [h0] at hs
        simp only at hs
        split at hs <;> cases hs
        simp only; split <;> omega
    · cases hs; simp only; split <;> omega
  have hfin : fm ≠ .file → ∀ p, p = (if s.position > 0 ∧ fm = .contents then (0 : Int) else s.position) →
      (finishTemp t m p closed fm).1 = t ∧ (finishTemp t m p closed fm).2 = ⟨.temp, m, 0, closed⟩ := by
    intro hf p hp
    unfold finishTemp
    cases closed with
    | true => exact ⟨rfl, rfl⟩
    | false =>
      simp only [Bool.false_eq_true, if_false]
      split
      · next h =>
        have hc : fm = .contents := by cases fm <;> simp_all
        have : p = 0 := by
          rw [hp]
          by_cases h' : s.position > 0
          · rw [if_pos ⟨h', hc⟩]
          · rw [if_neg (fun x => h' x.1)]; omega
        subst this; exact ⟨rfl, rfl⟩
      · exact ⟨rfl, rfl⟩
  have hun : Untouched t t := ⟨fun _ _ h => h, fun _ => rfl⟩
  unfold loadFd
  simp only [h1, h2, h3, h4, h5, hn, Option.isSome_none, Bool.and_false, Bool.not_false, Bool.true_and, Bool.false_eq_true, if_false, and_false, openFd]
  by_cases hf : fm = .file
  · subst hf
    simp only [if_true]
    exact ⟨hun, (by intro h e; cases e), (by intro h; exact absurd rfl h), fun _ => ⟨_, rfl⟩⟩
  · rw [if_neg hf]
    by_cases hr : m.base = .r
    · simp only [hr, hf, ne_eq, not_false_iff, decide_true, Bool.and_self, if_true]
      generalize hp : (if s.position > 0 ∧ fm = .contents then (0 : Int) else s.position) = p
      obtain ⟨e1, e2⟩ := hfin hf p hp.symm
      rw [e1, e2]
      refine ⟨hun, ?_, fun _ _ => rfl, ?_⟩
      · intro h e; cases e; intro k hk; cases hk
      · intro h; simp at h
    · simp only [hr, decide_false, Bool.false_and, Bool.false_eq_true, if_false]
      split
      · exact ⟨hun, (by intro h e; cases e), (by intro _ h; exact absurd h (by simp)), fun _ => ⟨_, rfl⟩⟩
      · exact ⟨hun, (by intro h e; cases e), (by intro _ h; exact absurd h (by simp)), fun _ => ⟨_, rfl⟩⟩

/-- What happens, with the default settings, when that number is in use: the handle is a second handle on that open file, whatever it is;
and if the pickled handle was closed, that file is closed.  It is where that file is, or at its end if it appends. -/
theorem C87_takes_over_the_descriptor (t0 t : Table) (n : Nat) (m : Mode) (pos : Nat) (closed : Bool) (s : Saved)
    (t1 : Table) (d : Desc) (hs : saveFd t0 n m pos closed false .handle = some (s, t1)) (hn : t.fds n = some d) :
    (loadFd t s).1 = .ok ⟨.fd n, m, if closed then 0 else if m.base = .a then (t.files d.file).length else d.off, closed⟩ ∧
    (closed = true → (loadFd t s).2.fds n = none) ∧
    (closed = false → (loadFd t s).2.fds n = some { d with off := if m.base = .a then (t.files d.file).length else d.off }) ∧
    OthersUntouched t (loadFd t s).2 n ∧ ∀ k, (loadFd t s).2.files k = t.files k := by
  simp [saveFd] at hs
  obtain ⟨hs, -⟩ := hs
  subst hs
  by_cases ha : m.base = .a
  · cases closed <;> simp [loadFd, hn, openFd, ha, finishFd, Table.set, OthersUntouched] <;> (intro k hk; simp [hk])
  · cases closed <;> simp [loadFd, hn, openFd, ha, finishFd, Table.set, OthersUntouched] <;> (intro k hk; simp [hk])

/-- With FILE_FMODE, loading a handle opened for reading (and writing) overwrites the open file of that number, from its offset on, with what
the pickle holds - if it can be written -, closes it, and then raises. -/
theorem C87_file_fmode_clobbers (t0 t : Table) (n : Nat) (m : Mode) (pos : Nat) (closed : Bool) (s : Saved)
    (t1 : Table) (d0 d : Desc) (hs : saveFd t0 n m pos closed false .file = some (s, t1)) (h0 : t0.fds n = some d0)
    (hm : m.base ≠ .w) (hn : t.fds n = some d) :
    (∃ e, (loadFd t s).1 = .error e) ∧ (loadFd t s).2.fds n = none ∧ OthersUntouched t (loadFd t s).2 n ∧
    (d.writable = true → (loadFd t s).2.files d.file =
      overwritten (t.files d.file) d.off (univ ((t0.files d0.file).drop d0.off))) ∧
    (∀ k, k ≠ d.file → (loadFd t s).2.files k = t.files k) ∧ (d.writable = false → ∀ k, (loadFd t s).2.files k = t.files k) := by
  unfold saveFd at hs
  simp only [if_true, h0] at hs
  split at hs
  · simp only [Option.some.injEq, Prod.mk.injEq] at hs
    obtain ⟨hs, -⟩ := hs
    subst hs
    cases hw : d.writable
    · refine ⟨?_, ?_, ?_, ?_, ?_, ?_⟩ <;>
        simp +contextual [loadFd, hn, hm, hw, Table.set, writeAt, OthersUntouched]
    · refine ⟨?_, ?_, ?_, ?_, ?_, ?_⟩ <;>
        simp +contextual [loadFd, hn, hm, hw, Table.set, writeAt, OthersUntouched, overwritten]
  · cases hs

/-- With CONTENTS_FMODE the open file of that number is moved: to the pickled position, or its end if it is shorter; nothing is written. -/
theorem C87_contents_fmode_moves (t0 t : Table) (n : Nat) (m : Mode) (pos : Nat) (s : Saved)
    (t1 : Table) (d : Desc) (hs : saveFd t0 n m pos false false .contents = some (s, t1)) (hm : m.base = .r ∨ m.base = .a)
    (hn : t.fds n = some d) :
    (loadFd t s).1 = .ok ⟨.fd n, m, min pos (t.files d.file).length, false⟩ ∧
    (loadFd t s).2.fds n = some { d with off := min pos (t.files d.file).length } ∧
    OthersUntouched t (loadFd t s).2 n ∧ ∀ k, (loadFd t s).2.files k = t.files k := by
  simp [saveFd] at hs
  obtain ⟨hs, -⟩ := hs
  subst hs
  have hpos : (if ((pos : Int) > ((t.files d.file).length : Int)) then (((t.files d.file).length : Nat) : Int) else (pos : Int))
      = ((min pos (t.files d.file).length : Nat) : Int) := by
    split <;> omega
  rcases hm with ha | ha
  · simp only [loadFd, hn, openFd, ha, finishFd, Option.isSome_some, Bool.not_true, Bool.false_and, Bool.false_eq_true, and_false, if_false,
      reduceCtorEq, or_self, and_true, hpos, decide_true, Bool.true_and]
    refine ⟨?_, ?_, ?_, ?_⟩
    · simp
    · simp [Table.set]
    · intro k hk; simp [Table.set, hk]
    · simp [Table.set]
  · simp only [loadFd, hn, openFd, ha, finishFd, Option.isSome_some, Bool.not_true, Bool.false_and, Bool.false_eq_true, and_false, if_false,
      reduceCtorEq, or_self, and_true, hpos, decide_true, Bool.true_and, if_true]
    refine ⟨?_, ?_, ?_, ?_⟩
    · simp
    · simp [Table.set]
    · intro k hk; simp [Table.set, hk]
    · simp [Table.set]

/-- With FILE_FMODE a handle opened for writing text overwrites the open file of that number, from its offset on, with what the pickle
holds - the rest of the file at pickling time - and succeeds; the file is then at the pickled position, or closed if the handle was. -/
theorem C87_file_fmode_overwrites (t0 t : Table) (n : Nat) (m : Mode) (pos : Nat) (closed : Bool) (s : Saved)
    (t1 : Table) (d0 d : Desc) (hs : saveFd t0 n m pos closed false .file = some (s, t1)) (h0 : t0.fds n = some d0)
    (hm : m.base = .w) (hb : m.bin = false) (hn : t.fds n = some d) (hw : d.writable = true) :
    (loadFd t s).1 = .ok ⟨.fd n, m, if closed then 0 else pos, closed⟩ ∧
    (loadFd t s).2.fds n = (if closed then none else some { d with off := pos }) ∧ OthersUntouched t (loadFd t s).2 n ∧
    (loadFd t s).2.files d.file = overwritten (t.files d.file) d.off (univ ((t0.files d0.file).drop d0.off)) ∧
    ∀ k, k ≠ d.file → (loadFd t s).2.files k = t.files k := by
  unfold saveFd at hs
  simp only [if_true, h0] at hs
  split at hs
  · simp only [Option.some.injEq, Prod.mk.injEq] at hs
    obtain ⟨hs, -⟩ := hs
    subst hs
    cases closed <;> refine ⟨?_, ?_, ?_, ?_, ?_⟩ <;>
      simp +contextual [loadFd, hn, hm, hb, hw, finishFd, Table.set, writeAt, OthersUntouched, overwritten]
  · cases hs

/-- With FILE_FMODE, *pickling* a handle without a path closes its descriptor: the handle is unusable afterwards. -/
theorem C87_pickling_closes (t : Table) (n : Nat) (m : Mode) (pos : Nat) (closed strictio : Bool) (s : Saved) (t1 : Table)
    (hs : saveFd t n m pos closed strictio .file = some (s, t1)) :
    t1.fds n = none ∧ OthersUntouched t t1 n ∧ ∀ k, t1.files k = t.files k := by
  unfold saveFd at hs
  simp only [if_true] at hs
  cases h0 : t.fds n with
  | none => rw [h0] at hs; cases hs
  | some d =>
    rw [h0] at hs
    simp only at hs
    split at hs <;> cases hs
    exact ⟨by simp [Table.set], fun k hk => by simp [Table.set, hk], fun k => rfl⟩

/-- With the other modes pickling changes nothing. -/
theorem C87_pickling_harmless (t : Table) (n : Nat) (m : Mode) (pos : Nat) (closed strictio : Bool) (fm : FMode) (s : Saved) (t1 : Table)
    (hf : fm ≠ .file) (hs : saveFd t n m pos closed strictio fm = some (s, t1)) : t1 = t := by
  simp [saveFd, hf] at hs
  exact hs.2.symm

/-- Pickling with FILE_FMODE works exactly for descriptors that can be read. -/
theorem C87_file_fmode_needs_reading (t : Table) (n : Nat) (m : Mode) (pos : Nat) (closed strictio : Bool) (d : Desc) (h : t.fds n = some d) :
    (saveFd t n m pos closed strictio .file).isSome = d.readable := by
  unfold saveFd
  simp only [if_true, h]
  cases d.readable <;> rfl

/-! ### concrete cases -/


/-- the process that pickles: a temporary file as descriptor 3 -/
def writer : Table := ⟨fun n => if n = 3 then some ⟨0, 7, true, true⟩ else none, fun _ => "scratch".toList⟩
/-- the process that loads: its database as descriptor 3 -/
def reader : Table := ⟨fun n => if n = 3 then some ⟨1, 0, true, true⟩ else none, fun _ => "ledger 0001".toList⟩
/-- the mode of `tempfile.TemporaryFile()`: "rb+" -/
def tmpMode : Mode := ⟨.r, true, true⟩

example : ∃ s, saveFd writer 3 tmpMode 7 false false .handle = some (s, writer) ∧ reader.fds 3 ≠ none ∧ writer.fds 4 = none :=
  ⟨_, rfl, by decide, rfl⟩
example : (saveFd writer 3 tmpMode 7 false false .file).isSome := by decide

example : (saveFd writer 3 ⟨.w, false, false⟩ 0 false false .file).isSome := by decide
example : (saveFd writer 3 tmpMode 7 false false .contents).isSome := by decide

/-- C87 is false: a closed temporary file, pickled with the default settings, closes the database of the process that loads it. -/
theorem C87_full_false : ¬ C87_full := by
  intro H
  have h := (H writer reader 3 tmpMode 7 true .handle _ writer rfl).1.1 3 ⟨1, 0, true, true⟩ rfl
  revert h
  decide

/-- and with FILE_FMODE it is overwritten first -/
example : overwritten "ledger 0001".toList 0 "scratch".toList = "scratch0001".toList := by decide
example : ∃ s t1, saveFd ⟨writer.fds, fun _ => "scratch, notes".toList⟩ 3 tmpMode 7 false false .file = some (s, t1) ∧
    (loadFd reader s).2.files 1 = ", notes0001".toList ∧ (loadFd reader s).2.fds 3 = none := ⟨_, _, rfl, by decide, by decide⟩

end Verif.File.Fd
