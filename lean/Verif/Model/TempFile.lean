/-
Model of dill.temp.dump, load, dumpIO and loadIO (/repo/dill/temp.py:120-195) over a file system, open
handles with write buffers, and in-memory buffers.
`pickle.dump(object, file)` writes a sequence of chunks and then ends, or raises after some of them (`Dump`); `pickle.load` of
a stream reads a first pickle from its beginning (`unpickle`, any function of the bytes).
The file names come from `tempfile`: any name that does not exist yet (it opens with O_EXCL).
Simplifications: writing to a file puts everything into the handle's buffer and an arbitrary prefix of the buffer may already be on
disk (argument `early`); the handle `load` opens is closed when it returns and is not kept in the state; POSIX semantics (a
temporary file can be opened a second time by name); directories, permissions and encodings are left out.
-/
namespace Verif.TempFile

abbrev Bytes := List UInt8

/-- an open NamedTemporaryFile: its name, whether it is deleted when closed, and what was written but is not on disk -/
structure Handle where
  name : String
  delete : Bool
  pending : Bytes
  deriving DecidableEq

/-- the system: files by name, open handles by number -/
structure World where
  files : String → Option Bytes
  handles : Nat → Option Handle
  next : Nat

/-- what pickling an object does: the chunks written, and whether it then raises -/
structure Dump where
  chunks : List Bytes
  raises : Bool

/-- open with O_EXCL under a new name (tempfile.NamedTemporaryFile, used at temp.py:162) -/
def openNew (w : World) (name : String) (delete : Bool) : Option (World × Nat) :=
  match w.files name with
  | some _ => none
  | none =>
    some ({ files := fun n => if n = name then some [] else w.files n,
            handles := fun i => if i = w.next then some ⟨name, delete, []⟩ else w.handles i,
            next := w.next + 1 }, w.next)

/-- `file.write(chunk)`: into the buffer; a full buffer may be written out, here its first `early` bytes -/
def write (w : World) (i : Nat) (chunk : Bytes) (early : Nat) : World :=
  match w.handles i with
  | none => w
  | some h =>
    let all := h.pending ++ chunk
    { w with
      files := fun n => if n = h.name then (w.files n).map (· ++ all.take early) else w.files n
      handles := fun j => if j = i then some { h with pending := all.drop early } else w.handles j }

/-- `file.flush()` -/
def flush (w : World) (i : Nat) : World :=
  match w.handles i with
  | none => w
  | some h =>
    { w with
      files := fun n => if n = h.name then (w.files n).map (· ++ h.pending) else w.files n
      handles := fun j => if j = i then some { h with pending := [] } else w.handles j }

/-- `file.close()`, also done when the handle is garbage: flush, then unlink if `delete` -/
def close (w : World) (i : Nat) : World :=
  match w.handles i with
  | none => w
  | some h =>
    let w := flush w i
    { w with
      files := fun n => if n = h.name ∧ h.delete = true then none else w.files n
      handles := fun j => if j = i then none else w.handles j }

/-- one chunk after the other; the buffering decisions are taken from `early` -/
def writeAll (w : World) (i : Nat) : List Bytes → List Nat → World
  | [], _ => w
  | c :: cs, [] => writeAll (write w i c 0) i cs []
  | c :: cs, e :: es => writeAll (write w i c e) i cs es

/-- `temp.dump(object, delete=..., ...)`: temp.py:135-165.  `kwds.setdefault('delete', True)` is line 161, the new file 162, the
pickling 163, flush 164.  When pickling raises, the handle is garbage: it is closed. -/
def dump (w : World) (d : Dump) (delete : Option Bool) (name : String) (early : List Nat) : World × Option Nat :=
  match openNew w name (delete.getD true) with
  | none => (w, none)
  | some (w, i) =>
    let w := writeAll w i d.chunks early
    if d.raises then (close w i, none)
    else (flush w i, some i)

inductive Err (E : Type) where
  | notFound
  | unpickling (e : E)
  deriving DecidableEq

/-- what may be passed to `load`: the object `dump` returned, open or closed, or a path -/
inductive Arg where
  | handle (h : Handle)
  | path (name : String)

/-- line 132: `getattr(file, 'name', file)` -/
def Arg.name : Arg → String
  | .handle h => h.name
  | .path n => n

/-- `temp.load(file)`: temp.py:120-133.  `getattr(file, 'name', file)` (line 132), then the file of that name is opened and
unpickled from its beginning (line 133).  A closed handle keeps its name. -/
def load {E Obj : Type} (unpickle : Bytes → Except E Obj) (w : World) (a : Arg) : Except (Err E) Obj :=
  match w.files a.name with
  | none => .error .notFound
  | some bs =>
    match unpickle bs with
    | .ok o => .ok o
    | .error e => .error (.unpickling e)

/-! ### in memory -/

/-- an io.BytesIO: its value and the position of its cursor -/
structure Buffer where
  value : Bytes
  pos : Nat

/-- writing at the cursor -/
def Buffer.write (b : Buffer) (c : Bytes) : Buffer :=
  { value := (b.value ++ List.replicate (b.pos - b.value.length) 0).take b.pos ++ c ++ b.value.drop (b.pos + c.length),
    pos := b.pos + c.length }

/-- `temp.dumpIO(object)`: temp.py:182-195 -/
def dumpIO (d : Dump) : Option Buffer :=
  if d.raises then none else some (d.chunks.foldl Buffer.write ⟨[], 0⟩)

/-- what may be passed to `loadIO`: a buffer, or its value -/
inductive IOArg where
  | buffer (b : Buffer)
  | bytes (bs : Bytes)

/-- `temp.loadIO(buffer)`: temp.py:167-180.  Line 178 takes the `getvalue` method of a buffer and the value itself of anything
that has no such method; line 179 calls the first. -/
def loadIO {E Obj : Type} (unpickle : Bytes → Except E Obj) : IOArg → Except E Obj
  | .buffer b => unpickle b.value
  | .bytes bs => unpickle bs

/-! ### what else may happen -/

/-- Other events: another temp.dump, dropping or closing a handle, programs writing, replacing or removing a file. -/
inductive Event where
  | dump (d : Dump) (delete : Option Bool) (name : String) (early : List Nat)
  | close (i : Nat)
  | put (name : String) (bs : Bytes)
  | remove (name : String)

def step (w : World) : Event → World
  | .dump d del n e => (dump w d del n e).1
  | .close i => close w i
  | .put n bs => { w with files := fun m => if m = n then some bs else w.files m }
  | .remove n => { w with files := fun m => if m = n then none else w.files m }

def run (w : World) (es : List Event) : World := es.foldl step w

end Verif.TempFile
