import Verif.Model.FileHandle
/-
Handles whose `name` is a descriptor number: `tempfile.TemporaryFile()`, `os.fdopen(fd)`, `open(fd, ...)`.
/repo/dill/_dill.py:1390-1414 (_save_file), /repo/dill/_dill.py:829-898 (_create_filehandle).

CPython facts used (trusted): `f.name` of such a handle is the number, also after closing; `os.path.exists(n)` and
`os.path.getsize(n)` are `fstat` on the descriptor; `open(n, mode)` wraps the descriptor (OSError if it is not open), without truncating,
and `a` seeks to the end; closing the wrapper closes the descriptor; `os.open(n, ...)` is a TypeError.
Simplifications: as in Model/FileHandle; a descriptor is readable or writable as its file is; the buffer is flushed at once; the descriptor that
a handle left over from a failed load closes when it is collected is not modelled; no two descriptors share one offset (`os.dup`).
-/
namespace Verif.File.Fd
open Verif.File

/-- an open descriptor: the file behind it, the offset, and what it was opened for -/
structure Desc where
  file : Nat
  off : Nat
  readable : Bool := true
  writable : Bool := true
  deriving DecidableEq, Repr

/-- a process: its descriptor table, and the contents of the files -/
structure Table where
  fds : Nat → Option Desc
  files : Nat → Content

def Table.set (t : Table) (n : Nat) (d : Option Desc) : Table := { t with fds := fun m => if m = n then d else t.fds m }

/-- what a handle is attached to -/
inductive Src where | fd (n : Nat) | temp deriving DecidableEq, Repr

structure Handle where
  src : Src
  mode : Mode
  pos : Nat
  closed : Bool
  deriving DecidableEq, Repr

/-- the arguments `_save_file` writes; `name` is the number -/
structure Saved where
  name : Nat
  mode : Mode
  position : Int
  closed : Bool
  strictio : Bool
  fmode : FMode
  fdata : Content

/-- `_save_file`, /repo/dill/_dill.py:1390-1414, for a handle on descriptor `n` at position `pos`; also the process afterwards: line 1400-1402
opens the *number*, reads what is left, and closes it -/
def saveFd (t : Table) (n : Nat) (m : Mode) (pos : Nat) (closed strictio : Bool) (fmode : FMode) : Option (Saved × Table) :=
  let position : Int := if closed then 0 else pos
  if fmode = .file then
    match t.fds n with
    | none => none
    | some d =>
      if d.readable then some (⟨n, m, position, closed, strictio, fmode, univ ((t.files d.file).drop d.off)⟩, t.set n none) else none
  else some (⟨n, m, position, closed, strictio, fmode, []⟩, t)

/-- `f.write(fdata)`, /repo/dill/_dill.py:866-867 (and the flush), on a descriptor: the file is overwritten from the offset on.  The offset it
leaves is not modelled: what follows closes the descriptor or moves it to `position`. -/
def writeAt (t : Table) (d : Desc) (x : Content) : Table :=
  { t with files := fun k => if k = d.file then (t.files k).take d.off ++ x ++ (t.files k).drop (d.off + x.length) else t.files k }

/-- the end of `_create_filehandle`, /repo/dill/_dill.py:894-898, on the open descriptor `n`, which is `d`; the position of a closed handle is
not there, and is 0 here -/
def finishFd (t : Table) (n : Nat) (d : Desc) (m : Mode) (position : Int) (closed : Bool) (fmode : FMode) : Table × Handle :=
  if closed then (t.set n none, ⟨.fd n, m, 0, true⟩)
  else if position ≥ 0 ∧ fmode ≠ .handle then (t.set n (some { d with off := position.toNat }), ⟨.fd n, m, position.toNat, false⟩)
  else (t.set n (some d), ⟨.fd n, m, d.off, false⟩)

/-- the same end (/repo/dill/_dill.py:894-898) on a new temporary file -/
def finishTemp (t : Table) (m : Mode) (position : Int) (closed : Bool) (fmode : FMode) : Table × Handle :=
  if closed then (t, ⟨.temp, m, 0, true⟩)
  else if position ≥ 0 ∧ fmode ≠ .handle then (t, ⟨.temp, m, position.toNat, false⟩)
  else (t, ⟨.temp, m, 0, false⟩)

/-- `open(n, mode)`, /repo/dill/_dill.py:890: the descriptor it leaves; none is an OSError -/
def openFd (t : Table) (n : Nat) (m : Mode) : Option Desc :=
  match t.fds n with
  | none => none
  | some d => if m.base = .a then some { d with off := (t.files d.file).length } else some d

/-- `_create_filehandle`, /repo/dill/_dill.py:829-898, when the name is a number; the result and the process -/
def loadFd (t : Table) (s : Saved) : Except Err Handle × Table :=
  let exists_ := (t.fds s.name).isSome
  if !exists_ && s.strictio then (.error .fileNotFound, t)
  else
    let useTemp : Bool := !exists_ && decide (s.mode.base = .r) && decide (s.fmode ≠ .file)
    let size : Int := match t.fds s.name with | none => 0 | some d => (t.files d.file).length
    if s.position > size ∧ s.strictio then (.error .valueError, t)
    else
      let position := if s.position > size ∧ s.fmode = .contents then size else s.position
      if s.fmode = .file then
        match t.fds s.name with
        | none => (.error .unpickling, t)
        | some d =>
          if s.mode.base = .w ∧ s.mode.bin then (.error .typeError, t)
          else if d.writable = false then (.error .unpickling, t.set s.name none)   -- flushing fails; any OSError
          else
            let t1 := writeAt t d s.fdata
            if s.mode.base = .w then
              let r := finishFd t1 s.name d s.mode position s.closed s.fmode
              (.ok r.2, r.1)
            else (.error .unpickling, t1.set s.name none)
      else if useTemp then
        let r := finishTemp t s.mode position s.closed s.fmode
        (.ok r.2, r.1)
      else if s.fmode = .contents ∧ (s.mode.base = .w ∨ s.mode.base = .x) then (.error .typeError, t)
      else
        match openFd t s.name s.mode with
        | none => (.error .unpickling, t)
        | some d =>
          let r := finishFd t s.name d s.mode position s.closed s.fmode
          (.ok r.2, r.1)

end Verif.File.Fd
