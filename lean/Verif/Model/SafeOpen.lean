/-
Model of the symlink-safe opening of session files.
/repo/dill/session.py:43-83 (_O_NOFOLLOW, _check_symlink, _safe_open_for_writing,
_safe_open_for_reading), used by dump_module (session.py:295-321), load_module (session.py:497-503)
and load_module_asdict (session.py:631-637).

The operating system is modelled as one directory of entries plus inode contents; POSIX `open`
and `lstat` are definitions below (trusted reading of POSIX).  Only the final path component is
modelled: symlinks in parent directories are out of scope, as they are for O_NOFOLLOW.
-/
namespace Verif.SafeOpen

abbrev Ino := Nat

inductive Entry where
  | absent
  | file (i : Ino)
  | link (target : String)
  deriving DecidableEq, Repr

/-- The file system: directory entries, inode contents, and the inode number the kernel hands out
next. -/
structure S where
  dir : String → Entry
  data : Ino → Option (List Nat)
  next : Ino

/-- The kernel's next inode number is not in use. -/
def S.Fresh (s : S) : Prop := s.data s.next = none

inductive Errno where | exists_ | loop | noent | refused deriving DecidableEq, Repr

structure Flags where
  creat : Bool := false
  excl : Bool := false
  trunc : Bool := false
  nofollow : Bool := false

/-- Follow symlinks at the final component (the kernel's bound is 40). -/
def resolve (dir : String → Entry) : Nat → String → Option String
  | 0, _ => none
  | k + 1, p => match dir p with
    | .link t => resolve dir k t
    | _ => some p

def setDir (s : S) (p : String) (i : Ino) : S :=
  { s with
    dir := fun q => if q = p then .file i else s.dir q
    data := fun j => if j = i then some [] else s.data j
    next := s.next + 1 }

def setData (s : S) (i : Ino) (d : List Nat) : S :=
  { s with data := fun j => if j = i then some d else s.data j }

/-- `open` on a name that is not a symlink (after resolution). -/
def openAt (s : S) (p : String) (f : Flags) : Except Errno Ino × S :=
  match s.dir p with
  | .absent => if f.creat then (.ok s.next, setDir s p s.next) else (.error .noent, s)
  | .file i =>
    if f.creat && f.excl then (.error .exists_, s)
    else if f.trunc then (.ok i, setData s i []) else (.ok i, s)
  | .link _ => (.error .loop, s)

/-- POSIX `open(path, flags)`. -/
def sysOpen (s : S) (p : String) (f : Flags) : Except Errno Ino × S :=
  match s.dir p with
  | .link t =>
    if f.creat && f.excl then (.error .exists_, s)       -- O_CREAT|O_EXCL never follows
    else if f.nofollow then (.error .loop, s)
    else match resolve s.dir 40 t with
      | none => (.error .loop, s)
      | some q => openAt s q f
  | _ => openAt s p f

/-- One system call of the program: the state just before and just after it. -/
abbrev Log := List (S × S)

/-- What others do to the file system before the `k`-th system call: anything. -/
abbrev Adv := Nat → S → S

/-- `_check_symlink`, /repo/dill/session.py:47-55: true = a symlink, refuse. -/
def checkSymlink (s : S) (p : String) : Bool :=
  match s.dir p with | .link _ => true | _ => false

/-- `_safe_open_for_writing`, /repo/dill/session.py:57-72. `nf` is whether `_O_NOFOLLOW` is a real
flag on this platform (session.py:43-46). -/
def openWrite (nf : Bool) (p : String) (adv : Adv) (s : S) : Except Errno Ino × S × Log :=
  let s0 := adv 0 s
  match sysOpen s0 p { creat := true, excl := true, nofollow := nf } with
  | (.error .exists_, s1) =>
    let s1' := adv 1 s1
    if checkSymlink s1' p then (.error .refused, s1', [(s0, s1), (s1', s1')])
    else
      let s2 := adv 2 s1'
      let r := sysOpen s2 p { trunc := true, nofollow := nf }
      (r.1, r.2, [(s0, s1), (s1', s1'), (s2, r.2)])
  | (r, s1) => (r, s1, [(s0, s1)])

/-- Writing the pickle to the open descriptor, chunk by chunk (`dump`, session.py:316). -/
def writeChunks (i : Ino) (adv : Adv) : Nat → List (List Nat) → S → S × Log
  | _, [], s => (s, [])
  | k, c :: cs, s =>
    let s0 := adv k s
    let s1 := match s0.data i with
      | none => s0                       -- unlinked and gone: nothing visible is written
      | some d => setData s0 i (d ++ c)
    let r := writeChunks i adv (k + 1) cs s1
    (r.1, (s0, s1) :: r.2)

/-- `dump_module(path)`: open, then write; every system call it makes is in the log. -/
def dumpModule (nf : Bool) (p : String) (chunks : List (List Nat)) (adv : Adv) (s : S) :
    Except Errno Ino × S × Log :=
  match openWrite nf p adv s with
  | (.ok i, s1, l) => let r := writeChunks i adv 3 chunks s1; (.ok i, r.1, l ++ r.2)
  | (.error e, s1, l) => (.error e, s1, l)

/-- `_safe_open_for_reading`, /repo/dill/session.py:74-83. The last component is the state in which
the successful `open` was executed. -/
def openRead (nf : Bool) (p : String) (adv : Adv) (s : S) : Except Errno Ino × S × Log :=
  let s0 := adv 0 s
  if checkSymlink s0 p then (.error .refused, s0, [(s0, s0)])
  else
    let s1 := adv 1 s0
    let r := sysOpen s1 p { nofollow := nf }
    (r.1, r.2, [(s0, s0), (s1, r.2)])

/-- Reading from the open descriptor `n` times; each read returns what the inode holds then. -/
def readAll (i : Ino) (adv : Adv) : Nat → Nat → S → List (Option (List Nat)) × S × Log
  | _, 0, s => ([], s, [])
  | k, n + 1, s =>
    let s0 := adv k s
    let r := readAll i adv (k + 1) n s0
    (s0.data i :: r.1, r.2.1, (s0, s0) :: r.2.2)

/-- `load_module(path)` / `load_module_asdict(path)`: open, then read. -/
def loadModule (nf : Bool) (p : String) (reads : Nat) (adv : Adv) (s : S) :
    Except Errno Ino × List (Option (List Nat)) × Log :=
  match openRead nf p adv s with
  | (.ok i, s1, l) => let r := readAll i adv 2 reads s1; (.ok i, r.1, l ++ r.2.2)
  | (.error e, _, l) => (.error e, [], l)

end Verif.SafeOpen
