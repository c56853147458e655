import Verif.Model.Modules
/-
Model of `is_dill`, /repo/dill/_dill.py:2247-2251, and of what its answer decides when a dict is pickled
(`save_module_dict`, 1244-1268: the first two tests read the attributes `_main`, `_session` and `_first_pass` of the pickler,
which only dill's picklers have) and when a module is (`save_module`, 1732).

A pickler is what the code reads of it.  Every class has an attribute `mro`, so `is_dill` reads the method resolution order
unless `child is False`.  `_first_pass` exists only in sessions, where it is read after `_session`, as in the code.
-/
namespace Verif.Modules

/-- a pickler object -/
structure Pickler where
  /-- `pickler.__module__`: the module its class was defined in -/
  module_ : Str
  /-- `dill.Pickler in type(pickler).mro()` -/
  derived : Bool
  /-- `_session` and `_first_pass` -/
  session : Bool
  firstPass : Bool
  /-- `pickler._main`, if it has that attribute, and its namespace -/
  main : Option (Obj × Obj)

/-- `is_dill(pickler, child)`, _dill.py:2247-2251; `child` is None, False or True -/
def isDill (P : Pickler) (child : Option Bool) : Bool :=
  if child = some false then contains "dill".toList P.module_
  else P.derived

/-- `save_module_dict` with this pickler, _dill.py:1244-1268; `top` is the namespace of `__main__` -/
def routeOf (I : ImportSys) (eq : Val → Val → Except Exc Bool) (P : Pickler) (top : Obj) (w : World) (o : Obj) :
    World × Except Exc Route :=
  match isDill P (some false), P.main with
  | true, none => (w, .error .attributeError)
  | true, some (_, d) => route I eq ⟨true, P.session, P.firstPass, d, top⟩ w o
  -- `_main` is not read: any dict serves as a placeholder
  | false, _ => route I eq ⟨false, P.session, P.firstPass, top, top⟩ w o

/-- `save_module` with this pickler, _dill.py:1729-1757; `is_session_main`, 1732 -/
def saveModuleOf (S : Sys) (P : Pickler) (w : World) (o : Obj) : Except Exc Stored :=
  saveModule S (if isDill P (some true) = true then P.main.map (·.1) else none) w o

end Verif.Modules
