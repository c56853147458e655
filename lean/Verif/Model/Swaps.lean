/-! Model of the places where dill replaces an interpreter-wide setting for a moment, in several threads: `capture` (sys.stdout …,
/repo/dill/temp.py:22-41), `save_code` (warnings.filters, by `warnings.catch_warnings`, /repo/dill/_dill.py:1186-1199) and `pickles`
(warnings.filters, /repo/dill/_dill.py:2190-2192).  Each use is a little program whose instructions are single looks at, or changes of, the
setting; a schedule says whose instruction is next, or that a thread outside dill writes to the setting (prints, or adds a filter).

Simplified: an object (a list of filters, or a text stream) is a list of numbers; the body of a `with capture` block only prints; all
threads of one run use the same setting. -/
namespace Verif.Swaps

abbrev Oid := Nat
abbrev Tid := Nat

/-- which setting: `sys.<stream>` or `warnings.filters` -/
inductive Kind where
  | stream | filters
  deriving DecidableEq, Repr

inductive Instr where
  /-- `orig = getattr(sys, stream)`, temp.py:35; `self._filters = self._module.filters`, CPython Lib/warnings.py:471 -/
  | save
  /-- `setattr(sys, stream, StringIO())`, temp.py:36; `self._module.filters = self._filters[:]`, Lib/warnings.py:472 -/
  | replace
  /-- a print; `filterwarnings('ignore', …)`, _dill.py:1189, 2190 -/
  | put (x : Nat)
  /-- `if warnings.filters: del warnings.filters[0]`, _dill.py:2192 -/
  | delFirst
  /-- `setattr(sys, stream, orig)`, temp.py:40; `self._module.filters = self._filters`, Lib/warnings.py:491 -/
  | restore
  deriving DecidableEq, Repr

structure St where
  /-- the object that is the setting now -/
  cell : Oid
  heap : Oid → List Nat
  /-- what is left of each thread's program -/
  rest : Tid → List Instr
  /-- the local variable `orig` / the attribute `_filters` of the context manager -/
  old : Tid → Oid

/-- what the replacing object holds at first, given what the replaced one holds: a new StringIO is empty (temp.py:36), a copy of the list
of filters is like the list (Lib/warnings.py:472) -/
def fresh : Kind → List Nat → List Nat
  | .stream, _ => []
  | .filters, l => l

/-- write to a stream; `_add_filter` (Lib/warnings.py:181-190): an equal entry is removed, then it is put in front -/
def putIn : Kind → List Nat → Nat → List Nat
  | .stream, l, x => l ++ [x]
  | .filters, l, x => x :: l.erase x

/-- an event: thread `i` has its turn, or somebody outside dill writes -/
inductive Ev where
  | turn (i : Tid)
  | write (x : Nat)

def St.setHeap (s : St) (o : Oid) (l : List Nat) : St := { s with heap := fun p => if p = o then l else s.heap p }

/-- one instruction of thread `i` (temp.py:35-40, _dill.py:1187-1189 and 2190-2192); `own i` is the object it makes -/
def instr (K : Kind) (own : Tid → Oid) (s : St) (i : Tid) : Instr → St
  | .save => { s with old := fun j => if j = i then s.cell else s.old j }
  | .replace => { s.setHeap (own i) (fresh K (s.heap (s.old i))) with cell := own i }
  | .put x => s.setHeap s.cell (putIn K (s.heap s.cell) x)
  | .delFirst => s.setHeap s.cell (s.heap s.cell).tail
  | .restore => { s with cell := s.old i }

/-- one event (the threads are the caller's; no lock is taken in temp.py:35-40, _dill.py:1187-1199) -/
def step (K : Kind) (own : Tid → Oid) (s : St) : Ev → St
  | .write x => s.setHeap s.cell (putIn K (s.heap s.cell) x)
  | .turn i =>
    match s.rest i with
    | [] => s
    | c :: l => { instr K own s i c with rest := fun j => if j = i then l else s.rest j }

def run (K : Kind) (own : Tid → Oid) (s : St) (evs : List Ev) : St := evs.foldl (step K own) s

/-- `with capture(name): print …`, temp.py:35-40 -/
def captureProg (out : List Nat) : List Instr := .save :: .replace :: (out.map .put ++ [.restore])

/-- the number of the filter ('ignore', None, DeprecationWarning, None, 0), _dill.py:1189 -/
def ignoreDeprecation : Nat := 7
/-- the number of the filter ('ignore', None, Warning, None, 0), _dill.py:2190 -/
def ignoreAll : Nat := 8

/-- reading a code object's attributes in `save_code`, _dill.py:1187-1199; `new`: Python 3.12 or later (`not OLD312a7`) -/
def codeProg (new : Bool) : List Instr :=
  .save :: .replace :: ((if new then [ignoreDeprecation] else []).map .put ++ [.restore])

/-- the comparison in `pickles`, _dill.py:2190-2192 -/
def picklesProg : List Instr := [.put ignoreAll, .delFirst]

/-- nobody has begun; `prog` are the programs -/
def init (cell : Oid) (heap : Oid → List Nat) (prog : Tid → List Instr) : St := ⟨cell, heap, prog, fun _ => 0⟩

end Verif.Swaps
