import Verif.Model.Dict
/-
Model of the numpy part of `Pickler.save`, /repo/dill/_dill.py:378-418: classes of numpy objects are registered in
`Pickler.dispatch` the first time an object of theirs is pickled; the tests `ndarraysubclassinstance` 121-130, `numpyufunc` 131-132,
`numpydtype` 133-138 (and 140-142 without numpy); `MetaCatchingDict` 324-335; `register` 477-482; `_create_array` 982-988.
How an object of a class is then pickled: CPython's `_Pickler.save` (pickle.py:556-590), from the dispatch table on.

Classes are numbers, 0 is `type`.  A program may change a class while it runs (assign or delete `__reduce__`), so what the tests ask
of a class is part of the state.  Importing numpy (`__hook__`) has no effect here.
-/
namespace Verif.Numpy

abbrev Ty := Nat

/-- what the tests and the pickler ask of a class -/
structure Cls where
  /-- `(c.__module__, c.__name__) for c in cls.__mro__` -/
  mro : List (String × String)
  /-- its `__reduce_ex__` or `__reduce__` is not ndarray's -/
  ownReduce : Bool
  /-- `issubclass(cls, type)` -/
  isMeta : Bool
  /-- has a function in copyreg's dispatch table -/
  copyreg : Bool
  deriving DecidableEq, Repr

/-- how an object is saved -/
inductive Way where
  /-- `save_numpy_ufunc`: by name -/
  | byName
  /-- `save_numpy_dtype` -/
  | dtype
  /-- `save_numpy_array` -/
  | array
  /-- a function that a user, dill or pickle registered -/
  | registered (f : Nat)
  /-- `save_type` -/
  | saveType
  /-- the function in copyreg's table -/
  | copyreg
  /-- its own `__reduce_ex__` -/
  | reduceEx
  deriving DecidableEq, Repr

structure St where
  dispatch : Dict Ty Way
  cls : Ty → Cls

/-- `ndarraysubclassinstance(obj_type)`, _dill.py:121-130 -/
def isArray (c : Cls) : Bool := if c.mro.all (· ≠ ("numpy", "ndarray")) then false else if c.ownReduce then false else true

/-- `numpyufunc(obj_type)`, _dill.py:131-132 -/
def isUfunc (c : Cls) : Bool := c.mro.any (· = ("numpy", "ufunc"))

/-- `numpydtype(obj_type)`, _dill.py:133-138; `dm` is `type(numpy.dtype)` -/
def isDtype (dm : Ty) (t : Ty) (c : Cls) : Bool := if c.mro.all (· ≠ ("numpy", "dtype")) then false else decide (t = dm)

/-- the registrations in `Pickler.save`, _dill.py:379-418; `np`: numpy is installed -/
def hack (np : Bool) (dm : Ty) (s : St) (t : Ty) : St :=
  if np = true ∧ ¬ (t = 0 ∨ (s.dispatch.get t).isSome) then
    let d := s.dispatch
    let d := if isUfunc (s.cls t) then d.set t .byName else d
    let d := if isDtype dm t (s.cls t) then d.set t .dtype else d
    let d := if isArray (s.cls t) then d.set t .array else d
    { s with dispatch := d }
  else s

/-- `self.dispatch.get(t)`, then copyreg's table, then `__reduce_ex__`: pickle.py:556-590 with _dill.py:324-335 -/
def way (s : St) (t : Ty) : Way :=
  match s.dispatch.get t with
  | some w => w
  | none =>
    if (s.cls t).isMeta then .saveType
    else if (s.cls t).copyreg then .copyreg
    else .reduceEx

/-- what a program does -/
inductive Op where
  /-- pickle an object of this class -/
  | pickle (t : Ty)
  /-- `dill.register(t)(f)` or `dill.pickle(t, f)`, _dill.py:472-482 -/
  | register (t : Ty) (f : Nat)
  /-- change the class -/
  | define (t : Ty) (c : Cls)

/-- the state after it, and how the object was saved -/
def step (np : Bool) (dm : Ty) (s : St) : Op → St × Option Way
  | .pickle t => (hack np dm s t, some (way (hack np dm s t) t))
  | .register t f => ({ s with dispatch := s.dispatch.set t (.registered f) }, none)
  | .define t c => ({ s with cls := fun u => if u = t then c else s.cls u }, none)

def run (np : Bool) (dm : Ty) (s : St) (ops : List Op) : St := ops.foldl (fun s o => (step np dm s o).1) s

/-! ### arrays -/

/-- an array: its class, its data, and its `__dict__` if it has one -/
structure Arr where
  cls : Ty
  data : Nat
  attrs : Option (Dict String Nat)
  deriving DecidableEq

/-- what `save_numpy_array` stores, _dill.py:407-410: `f`, `args` and `state` of ndarray's `__reduce__` stand for the class and the data -/
structure Saved where
  cls : Ty
  data : Nat
  npdict : Option (Dict String Nat)

def saveArray (a : Arr) : Saved := ⟨a.cls, a.data, a.attrs⟩

/-- `_create_array`, _dill.py:982-988; `final`: the attributes that making an instance of the class sets (`__array_finalize__`), `none` if
its instances have no `__dict__` (then a saved dict makes `array.__dict__` raise) -/
def createArray (final : Ty → Option (Dict String Nat)) (x : Saved) : Option Arr :=
  match x.npdict with
  | none => some ⟨x.cls, x.data, final x.cls⟩
  | some d => match final x.cls with
    | none => none
    | some e => some ⟨x.cls, x.data, some (e.update d)⟩

end Verif.Numpy
