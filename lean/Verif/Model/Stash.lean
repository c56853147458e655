import Verif.Model.Dict
/-
Model of dump_module(refimported=True) / load_module name bookkeeping.
/repo/dill/session.py:94-176 (_module_map, _lookup_module, _stash_modules, _restore_modules),
the state written by save_module (/repo/dill/_dill.py:1734-1741) and applied by BUILD.
-/
namespace Verif.Stash

abbrev Obj := Nat

/-- The part of the interpreter that `_stash_modules` looks at. -/
structure World where
  sysmods : Dict String Obj            -- sys.modules
  isModule : Obj → Bool                -- isinstance(obj, ModuleType)
  ns : Obj → Dict String Obj           -- module.__dict__
  importedAs : Obj → Bool              -- the isinstance/regex test of _lookup_module (session.py:125-127)
  singleton : Obj → Bool               -- None, False, True
  builtinMod : Obj → Bool              -- _is_builtin_module
  main : Obj
  mainDict : Obj                       -- the object main_module.__dict__

/-- Modules considered by `_module_map`, /repo/dill/session.py:103-105. -/
def eligible (W : World) : List (String × Obj) :=
  W.sysmods.filter (fun p => !(p.1 == "__main__" || p.1 == "__mp_main__") && W.isModule p.2)

/-- `modmap.by_name[name]`, session.py:109. -/
def byName (W : World) (name : String) : List (Obj × String) :=
  (eligible W).flatMap (fun p => ((W.ns p.2).filter (fun q => q.1 = name)).map (fun q => (q.2, p.1)))

/-- `modmap.by_id[id(obj)]`, session.py:110: (name in module, module name). -/
def byId (W : World) (o : Obj) : List (String × String) :=
  (eligible W).flatMap (fun p => ((W.ns p.2).filter (fun q => q.2 = o)).map (fun q => (q.1, p.1)))

/-- `modmap.top_level.get(id(obj))`, session.py:106-107 (the last name wins). -/
def topLevel (W : World) (o : Obj) : Option String :=
  (((eligible W).filter (fun p => !p.1.toList.contains '.' && p.2 = o)).getLast?).map (·.1)

def notMain (W : World) (modname : String) : Bool := W.sysmods.get modname != some W.main

/-- `_lookup_module`, /repo/dill/session.py:119-131. -/
def lookup (W : World) (name : String) (o : Obj) : Option (String × String) :=
  match (byName W name).find? (fun p => p.1 = o && notMain W p.2) with
  | some p => some (p.2, name)
  | none =>
    if W.importedAs o then
      match (byId W o).find? (fun p => notMain W p.2) with
      | some p => some (p.2, p.1)
      | none => none
    else none

/-- Values in the stashed module's dictionary. -/
inductive SVal where
  | obj (o : Obj)
  | none                                            -- ModuleType()'s default attribute values
  | name                                            -- the module's __name__
  | newmod | newdict                                -- references to the new module / its dict
  | imps (l : List (String × String))
  | impsAs (l : List (String × String × String))
  deriving DecidableEq, Repr

structure Acc where
  original : Dict String SVal := []
  imported : List (String × String) := []
  importedAs : List (String × String × String) := []
  top : List (String × String) := []

/-- One iteration of the loop of `_stash_modules`, /repo/dill/session.py:141-161. -/
def stashStep (W : World) (a : Acc) (p : String × Obj) : Acc :=
  let name := p.1
  let o := p.2
  if o = W.main then { a with original := a.original.set name .newmod }
  else if o = W.mainDict then { a with original := a.original.set name .newdict }
  else if W.singleton o || (W.isModule o && W.builtinMod o) then
    { a with original := a.original.set name (.obj o) }
  else match lookup W name o with
    | some (src, objname) =>
      if objname = name then { a with imported := a.imported ++ [(src, name)] }
      else { a with importedAs := a.importedAs ++ [(src, objname, name)] }
    | none => match topLevel W o with
      | some m => { a with top := a.top ++ [(m, name)] }
      | none => { a with original := a.original.set name (.obj o) }

/-- `ModuleType(name).__dict__`. -/
def moduleDefaults : Dict String SVal :=
  [("__name__", .name), ("__doc__", .none), ("__package__", .none), ("__loader__", .none),
   ("__spec__", .none)]

/-- How the main module's own dictionary is written when it is dumped unmodified: references to itself
come back as references to the loaded module. -/
def selfVal (W : World) (o : Obj) : SVal :=
  if o = W.main then .newmod else if o = W.mainDict then .newdict else .obj o

/-- `_stash_modules`, /repo/dill/session.py:133-172: the dictionary of the module to be dumped.
(The `__loader__ = True` trick of lines 167-169 only affects `__loader__`, which save_module drops.) -/
def stash (W : World) (D : Dict String Obj) : Dict String SVal :=
  let a := D.foldl (stashStep W) {}
  if a.original.length < D.length then
    (((moduleDefaults.update a.original).set "__dill_imported" (.imps a.imported)).set
      "__dill_imported_as" (.impsAs a.importedAs)).set "__dill_imported_top_level" (.imps a.top)
  else D.map (fun p => (p.1, selfVal W p.2))

/-- The state save_module writes, /repo/dill/_dill.py:1734-1736. -/
def saveState (d : Dict String SVal) : Dict String SVal := (d.del "__builtins__").del "__loader__"

/-- Values in the loaded module's dictionary: the very same object (resolved by name), a copy of a
saved object, the loaded module itself or its dictionary, or what was there before (`prior`). -/
inductive LVal where
  | same (o : Obj)
  | copyOf (o : Obj)
  | none | name
  | target | targetDict
  | prior (n : Nat)
  | imps (l : List (String × String))
  | impsAs (l : List (String × String × String))
  deriving DecidableEq, Repr

/-- Unpickling a value of the state. -/
def loadVal : SVal → LVal
  | .obj o => .copyOf o
  | .none => .none
  | .name => .name
  | .newmod => .target
  | .newdict => .targetDict
  | .imps l => .imps l
  | .impsAs l => .impsAs l

/-- BUILD: `target.__dict__` updated with the state, value by value. -/
def build (T : Dict String LVal) (state : Dict String SVal) : Dict String LVal :=
  T.update (state.map (fun p => (p.1, loadVal p.2)))

/-- `unpickler.find_class(modname, name)` for a loaded module: its attribute (`none` = exception). -/
def findClass (W : World) (modname name : String) : Option Obj :=
  match W.sysmods.get modname with
  | some m => (W.ns m).get name
  | none => none

def restoreImps (W : World) : List (String × String) → Dict String LVal → Option (Dict String LVal)
  | [], T => some T
  | (m, n) :: l, T => match findClass W m n with
    | some o => restoreImps W l (T.set n (.same o))
    | none => none

def restoreImpsAs (W : World) :
    List (String × String × String) → Dict String LVal → Option (Dict String LVal)
  | [], T => some T
  | (m, on, n) :: l, T => match findClass W m on with
    | some o => restoreImpsAs W l (T.set n (.same o))
    | none => none

/-- `__import__(modname)` for a top-level loaded module. -/
def restoreTop (W : World) : List (String × String) → Dict String LVal → Option (Dict String LVal)
  | [], T => some T
  | (m, n) :: l, T => match W.sysmods.get m with
    | some o => restoreTop W l (T.set n (.same o))
    | none => none

/-- `_restore_modules`, /repo/dill/session.py:174-184 (a missing key ends it silently;
`none` = exception). -/
def restore (W : World) (T : Dict String LVal) : Option (Dict String LVal) :=
  match T.get "__dill_imported" with
  | some (.imps l1) =>
    match restoreImps W l1 (T.del "__dill_imported") with
    | none => none
    | some T1 =>
      match T1.get "__dill_imported_as" with
      | some (.impsAs l2) =>
        match restoreImpsAs W l2 (T1.del "__dill_imported_as") with
        | none => none
        | some T2 =>
          match T2.get "__dill_imported_top_level" with
          | some (.imps l3) => restoreTop W l3 (T2.del "__dill_imported_top_level")
          | _ => some T2
      | _ => some T1
  | _ => some T

/-- dump_module(refimported=True) then load_module into a module whose dictionary is `T`. -/
def roundtrip (W : World) (D : Dict String Obj) (T : Dict String LVal) : Option (Dict String LVal) :=
  restore W (build T (saveState (stash W D)))

end Verif.Stash
