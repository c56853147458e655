import Verif.Model.FileHandle
/-! Model of `_create_filehandle`, /repo/dill/_dill.py:829-898, as a program of system calls, run while other processes change the file
system between any two of them, and possibly killed between any two of them.

Simplified as in FileHandle.lean; `env k` is what the others do before the k-th system call of this process; how the text written is cut
into `write` calls is a parameter; the others remove, create and change files but do not rename a file over the one being written. -/
namespace Verif.FileRace
open Verif.File

/-- a program of system calls -/
inductive Prog where
  | ret (r : Except Err Handle)
  /-- `os.path.exists(name)`, _dill.py:844-845 -/
  | isThere (n : String) (k : Bool → Prog)
  /-- `os.path.getsize(name)`, _dill.py:854; `none`: FileNotFoundError -/
  | size (n : String) (k : Option Nat → Prog)
  /-- `open(name, mode)`, _dill.py:866, 870, 890; `none`: OSError, else the position -/
  | openIt (n : String) (m : Mode) (k : Option Nat → Prog)
  /-- `os.open(name, O_CREAT | …)`, _dill.py:878-883 -/
  | create (n : String) (k : Prog)
  /-- `write(fd, chunk)` at this position, of _dill.py:867-869 -/
  | write (n : String) (pos : Nat) (chunk : Content) (k : Prog)

/-- bytes written at a position of a file (POSIX pwrite: missing ones before it are zeros) -/
def writeAt (c : Content) (pos : Nat) (d : Content) : Content :=
  (c ++ List.replicate (pos - c.length) (Char.ofNat 0)).take pos ++ d ++ c.drop (pos + d.length)

/-- the `write` calls that bring the text to the file, _dill.py:867 -/
def writes (n : String) (pos : Nat) : List Content → Prog → Prog
  | [], k => k
  | d :: ds, k => .write n pos d (writes n (pos + d.length) ds k)

/-- the end, _dill.py:894-897 -/
def ending (h : Handle) (position : Int) (closed : Bool) (fmode : FMode) : Prog :=
  if closed then .ret (.ok { h with closed := true })
  else if position ≥ 0 ∧ fmode ≠ .handle then .ret (.ok { h with pos := position.toNat })
  else .ret (.ok h)

/-- after `open(name, mode)`, _dill.py:890-897 -/
def opened (name : String) (mode : Mode) (position : Int) (closed : Bool) (fmode : FMode) : Option Nat → Prog
  | none => .ret (.error .unpickling)
  | some p => ending ⟨.named name, mode, p, false⟩ position closed fmode

/-- opening, _dill.py:863-893; `there`: what os.path.exists said -/
def opening (cut : Content → List Content) (name : String) (mode : Mode) (position : Int) (closed : Bool) (fmode : FMode)
    (fdata : Content) (there : Bool) : Prog :=
  if fmode = .file then
    let m1 : Mode := if mode.base = .w then mode else ⟨.w, false, false⟩
    .openIt name m1 fun
      | none => .ret (.error .unpickling)
      | some _ =>
        if m1.bin then .ret (.error .typeError)
        else writes name 0 (cut fdata)
          (if mode.base = .w then ending ⟨.named name, mode, fdata.length, false⟩ position closed fmode
          else .openIt name mode (opened name mode position closed fmode))
  else if !there && decide (mode.base = .r) then ending ⟨.temp, mode, 0, false⟩ position closed fmode
  else if fmode = .contents ∧ (mode.base = .w ∨ mode.base = .x) then
    .create name (ending ⟨.named name, mode, 0, false⟩ position closed fmode)
  else .openIt name mode (opened name mode position closed fmode)

/-- the checks of the position, _dill.py:856-860, then opening -/
def sized (cut : Content → List Content) (name : String) (mode : Mode) (position : Int) (closed strictio : Bool) (fmode : FMode)
    (fdata : Content) (there : Bool) (size : Int) : Prog :=
  if position > size ∧ strictio then .ret (.error .valueError)
  else opening cut name mode (if position > size ∧ fmode = .contents then size else position) closed fmode fdata there

/-- `_create_filehandle`, _dill.py:829-898 -/
def createProg (cut : Content → List Content) (s : Saved) : Prog :=
  if s.name ∈ stdNames then ending ⟨.std s.name, s.mode, 0, false⟩ s.position s.closed s.fmode
  else if s.name = "<fdopen>" then ending ⟨.temp, s.mode, 0, false⟩ s.position s.closed s.fmode
  else .isThere s.name fun there =>
    if !there then
      if s.strictio then .ret (.error .fileNotFound)
      else sized cut s.name s.mode s.position s.closed s.strictio s.fmode s.fdata false 0
    else .size s.name fun
      | none => .ret (.error .fileNotFound)
      | some k => sized cut s.name s.mode s.position s.closed s.strictio s.fmode s.fdata true k

/-- what a run shows: the file system before and after each system call of this process, the file system at the end, and the result -/
structure Out where
  steps : List (FS × FS)
  fs : FS
  result : Except Err Handle

/-- put a system call in front (see createProg, _dill.py:829-898) -/
def Out.after (before after : FS) (o : Out) : Out := { o with steps := (before, after) :: o.steps }

/-- running a program (_dill.py:829-898) among other processes -/
def exec (env : Nat → FS → FS) : Prog → Nat → FS → Out
  | .ret r, _, fs => ⟨[], fs, r⟩
  | .isThere n k, i, fs => let fs := env i fs; (exec env (k (fs n).isSome) (i + 1) fs).after fs fs
  | .size n k, i, fs => let fs := env i fs; (exec env (k ((fs n).map List.length)) (i + 1) fs).after fs fs
  | .openIt n m k, i, fs =>
    let fs := env i fs
    match pyOpen fs n m with
    | none => (exec env (k none) (i + 1) fs).after fs fs
    | some (fs', h) => (exec env (k (some h.pos)) (i + 1) fs').after fs fs'
  | .create n k, i, fs =>
    let fs := env i fs
    let fs' := (openNoTrunc fs n ⟨.w, false, false⟩).1
    (exec env k (i + 1) fs').after fs fs'
  | .write n pos d k, i, fs =>
    let fs := env i fs
    let fs' := match fs n with
      | none => fs
      | some c => setFile fs n (writeAt c pos d)
    (exec env k (i + 1) fs').after fs fs'

end Verif.FileRace
