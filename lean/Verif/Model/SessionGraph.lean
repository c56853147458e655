import Verif.Model.Core
/-! The graph `dump_module` pickles and what `load_module` makes of the loaded graph
(/repo/dill/session.py:291-319, 500-566; /repo/dill/_dill.py:435-446, 1244-1266, 1714-1760), on top of Model/Core. -/
namespace Verif.SessionGraph
open Verif.Core

/-- `c__builtin__\n__main__`: how `save_module_dict` writes a dict equal to the namespace of the module being saved
(_dill.py:1245-1250); `find_class` answers it with `unpickler._main.__dict__` (_dill.py:438-439). -/
def aMain : Atom := .glob "__builtin__" "__main__"

def aImportModule : Atom := .glob "dill._dill" "_import_module"

/-- `main_dict` in `save_module`: a copy of the namespace without `__builtins__` and `__loader__`, _dill.py:1739-1741
(the IPython singletons are left out of the model). -/
def mainDict (ns : List (String × Val)) : List (String × Val) :=
  ns.filter fun e => decide (e.1 ≠ "__builtins__") && decide (e.1 ≠ "__loader__")

/-- `mod_name`, _dill.py:1737 -/
def modName (imported : Bool) (name : String) : String := if imported then name else "__runtime__." ++ name

/-- the module given to `pickler.dump` in `dump_module`, as `save_module` saves it:
`save_reduce(_import_module, (mod_name,), obj=obj, state=main_dict)`, _dill.py:1745 -/
def savedModule (imported : Bool) (name : String) (ns : List (String × Val)) : SObj :=
  .node (.red (.atom aImportModule) [.atom (.str (modName imported name))]) [] []
    (some (.attrs ((mainDict ns).map fun e => (.atom (.str e.1), e.2))))

/-- One entry of the state of BUILD for a module: `inst_dict[intern(k)] = v` (CPython's `load_build`). -/
def setName {F : Type} (ns : String → Option (TVal ⊕ F)) (e : TVal × TVal) : String → Option (TVal ⊕ F) :=
  match e.1 with
  | .atom (.str k) => fun j => if j = k then some (.inl e.2) else ns j
  | _ => ns

/-- The namespace of the module after `load_module`: the entries of the loaded state put into what the module had. Objects
the target session had before are of the type `F`. session.py:554 -/
def restored {F : Type} (prev : String → Option F) (state : List (TVal × TVal)) : String → Option (TVal ⊕ F) :=
  state.foldl setName fun j => (prev j).map .inr

end Verif.SessionGraph
