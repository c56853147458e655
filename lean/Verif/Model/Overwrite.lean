import Verif.Model.Wire
/-!
Model of a session file that several `dump_module` calls write and a `load_module` reads at the same time.
/repo/dill/session.py:57-72 (_safe_open_for_writing: the file that is there is emptied with O_TRUNC and written in place; there is no
temporary file and no rename), session.py:303-319 (dump_module writes the pickle through the buffered file, in as many `write` calls
as the buffer and the pickler make, and closes it), session.py:74-82 (_safe_open_for_reading), session.py:503-511 and 552
(load_module: `peek` and then `unpickler.load()` read the buffered file, in as many `read` calls as they need).

The operating system is a trusted reading of POSIX: `open(O_TRUNC)` empties the file, each process has its own offset, `write` puts
bytes at the offset and fills a gap with zeros, `read` returns what is there at the offset.  Each of these is one step; the schedule
interleaves them in any order.  Simplified: all processes have opened the same inode (nobody removes or renames the file), and the
file exists when the reader opens it.
-/
namespace Verif.Overwrite
open Wire (Bytes)

/-- One system call: the `w`-th dump opens (and empties) the file, it writes its next `n` bytes, the reader asks for `n` bytes.
/repo/dill/session.py:71, 315, 552 -/
inductive Ev where
  | open_ (w : Nat)
  | write (w n : Nat)
  | read (n : Nat)
  deriving DecidableEq, Repr

/-- The file, the offset of each dump that has opened it, and the bytes the reader has got so far (its offset is their number). -/
structure St where
  file : Bytes
  pos : Nat → Option Nat
  got : Bytes

/-- `write(fd, d)` at offset `p`. -/
def writeAt (file : Bytes) (p : Nat) (d : Bytes) : Bytes :=
  if d = [] then file
  else file.take p ++ List.replicate (p - file.length) 0 ++ d ++ file.drop (p + d.length)

/-- /repo/dill/session.py:57-72 (open_), 303-319 (write), 74-82 and 503-552 (read); `D w` is the pickle the `w`-th dump writes. -/
def step (D : Nat → Bytes) (st : St) : Ev → St
  | .open_ w => match st.pos w with
    | some _ => st
    | none => ⟨[], fun v => if v = w then some 0 else st.pos v, st.got⟩
  | .write w n => match st.pos w with
    | none => st
    | some p => ⟨writeAt st.file p (((D w).drop p).take n),
        fun v => if v = w then some (p + (((D w).drop p).take n).length) else st.pos v, st.got⟩
  | .read n => ⟨st.file, st.pos, st.got ++ (st.file.drop st.got.length).take n⟩

/-- Any schedule, from a file with the contents `old`. -/
def run (D : Nat → Bytes) (old : Bytes) (s : List Ev) : St := s.foldl (step D) ⟨old, fun _ => none, []⟩

end Verif.Overwrite
