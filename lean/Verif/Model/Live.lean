/-
Pickling containers that change while they are being pickled.

`dill.dump` walks the object graph in Python code (`dill/_dill.py:55`, `StockPickler` is the pure
Python `pickle._Pickler`), so other threads, and the `__reduce__` and `__getstate__` methods of the
objects being pickled, run between any two steps of it and may change lists, sets and dicts that
the pickler is in the middle of.

What is modelled: `save_module_dict` (`dill/_dill.py:1245-1268`, the D2 branch, which hands the
dict to `StockPickler.save_dict`) and the standard library methods dill inherits: `save_list` and
`_batch_appends` (`pickle.py:925-963`), `save_dict` and `_batch_setitems` (`pickle.py:965-1007`),
`save_set` (`pickle.py:1009-1031`), with the memo test of `save` (`pickle.py:535-595`); and the
CPython 3.11 iterators they read through (`listiter_next`, `dictiter_iternextitem`,
`setiter_iternext`).

Simplified: `list(islice(it, n))` over one of these iterators runs no Python code, so one read of a
batch is one atomic step; everything else may interleave.  Tuples, instances and the rest are
leaves.  The heap at every moment is an arbitrary function of time: the adversary is unrestricted.
-/

namespace Verif.Live

/-- An object. -/
abbrev Id := Nat

/-- What one slot of a container holds: `[item]` in a list or set, `[key, value]` in a dict. -/
abbrev Entry := List Id

/-- The container kinds the three inherited methods tell apart (`pickle.py:925`, `pickle.py:965`,
`pickle.py:1009`); everything else is a leaf here. -/
inductive Kind where
  | leaf | list | set | dict
deriving DecidableEq, Repr

/-- The contents of every container at one moment: its slots in iteration order.  `none` is a hole
(a deleted dict entry, or an empty or dummy cell of a set's table); lists have none. -/
abbrev Heap := Id → List (Option Entry)

/-- The entries a container has, in iteration order. -/
def live (slots : List (Option Entry)) : List Entry := slots.filterMap id

/-- The iterators' two complaints: `RuntimeError: ... changed size during iteration` and
`RuntimeError: dictionary keys changed during iteration`; with the container they are about. -/
inductive Err where
  | changedSize (x : Id)
  | keysChanged (x : Id)
deriving DecidableEq, Repr

/-- The container a complaint is about. -/
def Err.about : Err → Id
  | .changedSize x => x
  | .keysChanged x => x

/-- What is left to do, innermost call first. `save x` is a pending `self.save(x)`; `openIt x` is
the `iter(items)` of `pickle.py:949`, `pickle.py:990` or `pickle.py:1020`; `batch x pos used left`
is the head of the `while True` loop with an iterator at slot `pos`, which remembered that the
container had `used` entries and (dicts) that `left` of them are still to come. -/
inductive Task where
  | save (x : Id)
  | openIt (x : Id)
  | batch (x : Id) (pos used left : Nat)
deriving DecidableEq, Repr

/-- The pickler: the call stack, the memo, and what has been written into the pickle as the
contents of each container (by `APPENDS`, `SETITEMS` and `ADDITEMS`). -/
structure St where
  work : List Task
  memo : List Id
  out : Id → List Entry

/-- `list(islice(it, n))` (`pickle.py:951`, `pickle.py:992`, `pickle.py:1022`) over the slots from
the iterator's position on: the entries found and the number of slots passed. -/
def walk : List (Option Entry) → Nat → List Entry × Nat
  | _, 0 => ([], 0)
  | [], _ + 1 => ([], 0)
  | none :: r, n + 1 => ((walk r (n + 1)).1, (walk r (n + 1)).2 + 1)
  | some a :: r, n + 1 => (a :: (walk r n).1, (walk r n).2 + 1)

/-- One batch read, with the iterators' checks: a dict or set iterator complains when the number of
entries is not the one it remembers (`dictiter_iternextitem`, `setiter_iternext`); a dict iterator
also complains when it finds more entries than were left; a list iterator never complains. -/
def read (B : Nat) (k : Kind) (x : Id) (slots : List (Option Entry)) (pos used left : Nat) :
    Except Err (List Entry × Nat) :=
  if k ≠ .list ∧ (live slots).length ≠ used then .error (.changedSize x)
  else if k = .dict ∧ left < (walk (slots.drop pos) B).1.length then .error (.keysChanged x)
  else .ok (walk (slots.drop pos) B)

/-- One step of the pickler over the heap of that moment; `B` is `_BATCHSIZE` (`pickle.py:936`,
1000; protocol 0 reads one entry at a time, `pickle.py:943-947` and `pickle.py:983-988`: `B = 1`).
`save` tests the memo first (`pickle.py:545-548`); the container methods memoize before they read
(`pickle.py:931`, `pickle.py:971`, `pickle.py:1018`); a short batch ends the loop
(`pickle.py:962-963`, `pickle.py:1006-1007`, `pickle.py:1029-1030`). -/
def step (B : Nat) (kind : Id → Kind) (h : Heap) (s : St) : Except Err St :=
  match s.work with
  | [] => .ok s
  | .save x :: w =>
    if x ∈ s.memo then .ok { s with work := w }
    else if kind x = .leaf then .ok { s with work := w, memo := x :: s.memo }
    else .ok { s with work := .openIt x :: w, memo := x :: s.memo }
  | .openIt x :: w =>
    .ok { s with work := .batch x 0 (live (h x)).length (live (h x)).length :: w }
  | .batch x pos used left :: w =>
    match read B (kind x) x (h x) pos used left with
    | .error e => .error e
    | .ok (es, c) =>
      .ok { s with
        work := es.flatten.map .save ++
          (if es.length < B then w else .batch x (pos + c) used (left - es.length) :: w)
        out := fun y => if y = x then s.out x ++ es else s.out y }

/-- `dump(root)` (`dill/_dill.py:427-430`, `pickle.py:476-489`) before the first step. -/
def start (root : Id) : St := ⟨[.save root], [], fun _ => []⟩

/-- `dump(root)` after `n` steps while the rest of the program makes the heap `env t` at step
`t`. -/
def after (B : Nat) (kind : Id → Kind) (env : Nat → Heap) (root : Id) : Nat → Except Err St
  | 0 => .ok (start root)
  | n + 1 =>
    match after B kind env root n with
    | .error e => .error e
    | .ok s => step B kind (env n) s

end Verif.Live
