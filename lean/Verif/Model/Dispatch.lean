import Verif.Model.Dict
/-
Model of the dispatch tables: `Pickler.dispatch` and `MetaCatchingDict` /repo/dill/_dill.py:324-350,
`pickle_dispatch_copy` 470, `pickle` 472-475, `register` 477-482, `_revert_extension` 484-490,
`_extend` 2253-2261, and `extend` /repo/dill/__init__.py (bottom).

Types and save functions are numbers.  `own f` means `f.__module__ == 'dill._dill'`.  The try/except in `_extend`
(assignment to a dict cannot fail) is left out.
-/
namespace Verif.Dispatch

abbrev Ty := Nat
abbrev Fn := Nat
abbrev Table := Dict Ty Fn

/-- the Python process: pickle's table, dill's table, and the copy taken when dill was imported. -/
structure St where
  stock : Table
  dill : Table
  copy : Table
  deriving DecidableEq

inductive Op
  /-- `dill.register(t)(f)` or `dill.pickle(t, f)` -/
  | register (t : Ty) (f : Fn)
  /-- `dill.extend(on)` -/
  | extend (on : Bool)
  deriving DecidableEq

/-- `_extend()`, _dill.py:2253-2261. -/
def extendOn (s : St) : St := { s with stock := s.dill.foldl (fun d p => d.set p.1 p.2) s.stock }

/-- one round of the loop of `_revert_extension`, _dill.py:486-490. -/
def revertStep (own : Fn → Bool) (copy : Table) (stock : Table) (p : Ty × Fn) : Table :=
  if own p.2 then
    let stock := stock.del p.1
    match copy.get p.1 with
    | some f => stock.set p.1 f
    | none => stock
  else stock

/-- `_revert_extension()`, _dill.py:484-490: loop over a list copy of the items. -/
def revert (own : Fn → Bool) (s : St) : St :=
  { s with stock := s.stock.foldl (revertStep own s.copy) s.stock }

def step (own : Fn → Bool) (s : St) : Op → St
  | .register t f => { s with dill := s.dill.set t f }
  | .extend true => extendOn s
  | .extend false => revert own s

def run (own : Fn → Bool) (s : St) (ops : List Op) : St := ops.foldl (step own) s

/-- importing dill: both tables start as pickle's, the copy is taken (_dill.py:350, 470). -/
def init (stock : Table) : St := { stock := stock, dill := stock, copy := stock }

/-- `MetaCatchingDict.get(key)`, _dill.py:324-335: the entry, else save_type for a metaclass, else None. -/
def lookup (isMeta : Ty → Bool) (saveType : Fn) (d : Table) (t : Ty) : Option Fn :=
  match d.get t with
  | some f => some f
  | none => if isMeta t then some saveType else none

end Verif.Dispatch
