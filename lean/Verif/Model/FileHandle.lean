/-
Model of file-handle pickling.
/repo/dill/_dill.py:829-898 (_create_filehandle), /repo/dill/_dill.py:1390-1414 (_save_file),
/repo/dill/settings.py and /repo/dill/_dill.py HANDLE_FMODE=0, CONTENTS_FMODE=1, FILE_FMODE=2.

Simplifications: a name is either absent or a regular file with full permissions (no directories);
file contents are a list of characters (encoding/decoding is the identity) and `tell()` is an
offset into it; `os.tmpfile` (`'<tmpfile>'`) does not exist on Python 3 and is not modelled.
-/
namespace Verif.File

abbrev Content := List Char
abbrev FS := String → Option Content

/-- A parsed mode string: exactly one of r/w/a/x, optional '+', optional 'b'. -/
inductive Base where | r | w | a | x deriving DecidableEq, Repr
structure Mode where
  base : Base
  plus : Bool := false
  bin : Bool := false
  deriving DecidableEq, Repr

inductive FMode where | handle | contents | file deriving DecidableEq, Repr

/-- What a handle is attached to: a named file, a standard stream, an anonymous temporary file. -/
inductive Src where | named (n : String) | std (n : String) | temp deriving DecidableEq, Repr

structure Handle where
  src : Src
  mode : Mode
  pos : Nat
  closed : Bool
  deriving DecidableEq, Repr

inductive Err where
  | fileNotFound | valueError | unpickling | typeError
  deriving DecidableEq, Repr

def setFile (fs : FS) (n : String) (c : Content) : FS := fun m => if m = n then some c else fs m

/-- Built-in `open(name, mode)` (CPython/POSIX fact, trusted). `none` is an OSError. -/
def pyOpen (fs : FS) (n : String) (m : Mode) : Option (FS × Handle) :=
  match m.base, fs n with
  | .r, none => none
  | .r, some _ => some (fs, ⟨.named n, m, 0, false⟩)
  | .w, _ => some (setFile fs n [], ⟨.named n, m, 0, false⟩)
  | .a, none => some (setFile fs n [], ⟨.named n, m, 0, false⟩)
  | .a, some c => some (fs, ⟨.named n, m, c.length, false⟩)
  | .x, none => some (setFile fs n [], ⟨.named n, m, 0, false⟩)
  | .x, some _ => none

/-- `os.fdopen(os.open(name, O_CREAT|O_RDWR or O_CREAT|O_WRONLY), mode)`:
creates a missing file, never truncates (/repo/dill/_dill.py:872-882). -/
def openNoTrunc (fs : FS) (n : String) (m : Mode) : FS × Handle :=
  match fs n with
  | none => (setFile fs n [], ⟨.named n, m, 0, false⟩)
  | some _ => (fs, ⟨.named n, m, 0, false⟩)

/-- `f.write(data)` right after opening for writing at offset 0 of an empty file; a `str` written
to a binary handle is a TypeError. -/
def writeAll (fs : FS) (n : String) (m : Mode) (d : Content) : Except Err FS :=
  if m.bin then .error .typeError else .ok (setFile fs n d)

/-- `open_(name, "r").read()` with universal newlines: "\r\n" and "\r" become "\n". -/
def univ : Content → Content
  | [] => []
  | '\r' :: '\n' :: t => '\n' :: univ t
  | '\r' :: t => '\n' :: univ t
  | c :: t => c :: univ t

/-- `f.seek(position)` / `f.close()` at the end, /repo/dill/_dill.py:894-898. -/
def finish (fs : FS) (h : Handle) (position : Int) (closed : Bool) (fmode : FMode) : FS × Handle :=
  if closed then (fs, { h with closed := true })
  else if position ≥ 0 ∧ fmode ≠ .handle then (fs, { h with pos := position.toNat })
  else (fs, h)

def stdNames : List String := ["<stdin>", "<stdout>", "<stderr>"]

/-- `_create_filehandle`, /repo/dill/_dill.py:829-898. -/
def createFilehandle (fs : FS) (name : String) (mode : Mode) (position : Int) (closed : Bool)
    (strictio : Bool) (fmode : FMode) (fdata : Content) : Except Err (FS × Handle) :=
  if name ∈ stdNames then .ok (finish fs ⟨.std name, mode, 0, false⟩ position closed fmode)
  else if name = "<fdopen>" then .ok (finish fs ⟨.temp, mode, 0, false⟩ position closed fmode)
  else
    let exists_ := (fs name).isSome
    if !exists_ && strictio then .error .fileNotFound
    else
      let useTemp : Bool := !exists_ && decide (mode.base = .r) && decide (fmode ≠ .file)
      let size : Int := match fs name with | none => 0 | some c => c.length
      if position > size ∧ strictio then .error .valueError
      else
        let position := if position > size ∧ fmode = .contents then size else position
        if fmode = .file then
          -- open(name, mode if "w" in mode else "w"); write; maybe re-open
          let m1 : Mode := if mode.base = .w then mode else ⟨.w, false, false⟩
          match pyOpen fs name m1 with
          | none => .error .unpickling
          | some (fs1, h1) =>
            match writeAll fs1 name m1 fdata with
            | .error e => .error e
            | .ok fs2 =>
              if mode.base = .w then .ok (finish fs2 { h1 with pos := fdata.length } position closed fmode)
              else match pyOpen fs2 name mode with
                | none => .error .unpickling
                | some (fs3, h3) => .ok (finish fs3 h3 position closed fmode)
        else if useTemp then .ok (finish fs ⟨.temp, mode, 0, false⟩ position closed fmode)
        else if fmode = .contents ∧ (mode.base = .w ∨ mode.base = .x) then
          let (fs1, h1) := openNoTrunc fs name mode
          .ok (finish fs1 h1 position closed fmode)
        else
          match pyOpen fs name mode with
          | none => .error .unpickling
          | some (fs1, h1) => .ok (finish fs1 h1 position closed fmode)

/-- Arguments of the reduce written by `_save_file`. -/
structure Saved where
  name : String
  mode : Mode
  position : Int
  closed : Bool
  strictio : Bool
  fmode : FMode
  fdata : Content

/-- `_save_file`, /repo/dill/_dill.py:1390-1414, for a handle on a named file whose buffered output
has been flushed to `fs` (`obj.flush()`); `none` if reading the file back fails. -/
def saveFile (fs : FS) (n : String) (h : Handle) (strictio : Bool) (fmode : FMode) : Option Saved :=
  let position : Int := if h.closed then 0 else h.pos
  if fmode = .file then
    match pyOpen fs n ⟨.r, false, false⟩ with
    | none => none
    | some (fs', _) => some ⟨n, h.mode, position, h.closed, strictio, fmode, univ ((fs' n).getD [])⟩
  else some ⟨n, h.mode, position, h.closed, strictio, fmode, []⟩

/-- `_save_file` for one of the three standard streams (`obj in (sys.__stdout__, sys.__stderr__, sys.__stdin__)`), whose name is
`<stdin>`, `<stdout>` or `<stderr>`, /repo/dill/_dill.py:1390-1414; `none` if reading the file of that name back fails. -/
def saveStd (fs : FS) (n : String) (m : Mode) (closed strictio : Bool) (fmode : FMode) : Option Saved :=
  let position : Int := if closed then 0 else -1
  if fmode = .file then
    match pyOpen fs n ⟨.r, false, false⟩ with
    | none => none
    | some (fs', _) => some ⟨n, m, position, closed, strictio, fmode, univ ((fs' n).getD [])⟩
  else some ⟨n, m, position, closed, strictio, fmode, []⟩

/-- What `loads` does with it. -/
def loadFile (fs : FS) (s : Saved) : Except Err (FS × Handle) :=
  createFilehandle fs s.name s.mode s.position s.closed s.strictio s.fmode s.fdata

end Verif.File
