import Verif.Model.Modules
/-
Model of the choice of a pickled function's globals: the first part of `save_function`'s F1 branch,
/repo/dill/_dill.py:1985-2026, on top of `_import_module` and `save_module_dict` (Model/Modules), and of where the loaded
function's `__globals__` is (`_create_function`, _dill.py:604-608: the dict it is given).
Simplifications: `obj.__globals__` is never None (it cannot be in CPython); `detect.globalvars(obj, recurse=True, builtin=True)` is
an arbitrary function here (Model/GlobalVars); what the copied entries become is the subject of C01 and C04.
-/
namespace Verif.FuncGlobals
open Modules

/-- what is used of a function: the dict object `__globals__`, and `__module__` (None allowed) -/
structure Fn where
  globals : Obj
  modl : Option Str
  deriving DecidableEq

/-- the pickler: that of Model/Modules (`_session`, `_first_pass`, `_main.__dict__`), `_recurse`, `_main_modified`,
`_original_main.__dict__`, and `globalvars` -/
structure Pickler where
  pick : Pick
  recurse : Bool
  mainModified : Bool
  originalMain : Obj
  globalvars : Fn → Dict Str Val

/-- `globs`: an existing dict object, or a new dict `{'__name__': obj.__module__}` to be updated with `copy` after the
function is created -/
inductive Choice where
  | dict (o : Obj)
  | copied (init copy : Dict Str Val)

def nameVal : Option Str → Val
  | some s => .str s
  | none => .none

/-- the test of lines 2005-2006: is the module named by `__module__` importable, and are these globals its namespace? -/
def isModuleNamespace (I : ImportSys) (w : World) (f : Fn) : World × Except Exc Bool :=
  match f.modl with
  | none => (w, .ok false)
  | some name =>
    match importModule I true w name with
    | (w', .error e) => (w', .error e)
    | (w', .ok (.obj m)) => (w', .ok (w'.nsId m = some f.globals))
    | (w', .ok _) => (w', .ok false)

/-- lines 1990-2009 (and 2011-2022: a new dict is updated with the chosen globals) -/
def choose (I : ImportSys) (P : Pickler) (w : World) (f : Fn) : World × Except Exc Choice :=
  let init : Dict Str Val := [("__name__".toList, nameVal f.modl)]
  if P.recurse = true then (w, .ok (.copied init (P.globalvars f)))
  else if P.mainModified = true ∧ f.globals = P.originalMain then (w, .ok (.dict P.pick.mainDict))
  else
    match isModuleNamespace I w f with
    | (w', .error e) => (w', .error e)
    | (w', .ok true) => (w', .ok (.dict f.globals))
    | (w', .ok false) => (w', .ok (.copied init (w'.dicts f.globals)))

/-- What is written for the globals: a chosen dict goes through save_module_dict; a new dict is written as it is, because its
`__name__` entry alone never makes it a module's namespace. -/
inductive Written where
  | ref (r : Route)
  | copied (init copy : Dict Str Val)

def write (I : ImportSys) (eq : Val → Val → Except Exc Bool) (P : Pickler) (w : World) (f : Fn) : World × Except Exc Written :=
  match choose I P w f with
  | (w', .error e) => (w', .error e)
  | (w', .ok (.copied i c)) => (w', .ok (.copied i c))
  | (w', .ok (.dict o)) =>
    match route I eq P.pick w' o with
    | (w'', .error e) => (w'', .error e)
    | (w'', .ok r) => (w'', .ok (.ref r))

/-- the dict object that is `__globals__` of the loaded function; `mainDict` is the unpickler's `_main.__dict__`, `fresh` the
new dict -/
def loadedGlobals (I : ImportSys) (mainDict fresh : Obj) (w : World) : Written → World × Except Exc Obj
  | .ref r => loadDict I mainDict fresh w r
  | .copied _ _ => (w, .ok fresh)

end Verif.FuncGlobals
