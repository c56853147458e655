import Verif.Model.Dict
/-
Model of pickling functions and classes by reference:
`_import_module` /repo/dill/_dill.py:1057-1074, `_getattribute` 1077-1088, `_locate_function` 1090-1104,
the decision part of `save_function` 1964-2072 and `save_type` 1807-1932, `Unpickler.find_class` 437-443,
`_load_type` 598-599, and CPython 3.12's `save_global`, `whichmodule`, `find_class`
(pickle.py:1048-1107, 329-346, 1564-1576), which dill calls.

Simplifications: dotted names are lists of their parts (`split('.')`/`'.'.join` are inverse on them).
An import either fails or yields the entry of sys.modules, and the interpreter is unchanged between dump
and load, so both are one table `mods`; importing a submodule has already set the parent's attribute.
`getattr` fails only with AttributeError.  The copyreg extension registry is empty.  The GLOBAL opcode
is not modelled below the pair (module, name): its newline-terminated text encoding is not.  The PyPy-only
branch of save_function (1966-1983) is left out.
-/
namespace Verif.Locate

abbrev Obj := Nat
/-- a dotted name as the list of its parts. -/
abbrev Path := List String

inductive Kind | fn | cls | other
  deriving DecidableEq, Repr

/-- what the code reads from an object: its type, `__module__`, `__qualname__`, `__name__`. -/
structure Info where
  kind : Kind
  modName : Option Path
  qualname : Option Path
  name : Path

/-- the interpreter, unchanged between dump and load. -/
structure Env where
  /-- `__import__(m)` succeeds with `sys.modules[m]` being this object -/
  mods : Path → Option Obj
  /-- the keys of sys.modules in order -/
  modKeys : List Path
  attr : Obj → String → Option Obj
  info : Obj → Info
  isModOrType : Obj → Bool
  isNamedtuple : Obj → Bool
  /-- dill's `_reverse_typemap`, at the time `_typemap` is computed (_dill.py:518-588) -/
  revTypemap : Dict String Obj
  /-- entries added to `_reverse_typemap` afterwards (_dill.py:2121) -/
  revLate : Dict String Obj
  typeOf : Obj → Obj
  noneObj : Obj
  notImplemented : Obj
  ellipsis : Obj
  /-- dill's `EnumMeta` and `ExceptHookArgsType` (_dill.py:60-63, 90) -/
  enumMeta : Obj
  exceptHookArgs : Option Obj
  mainDict : Obj
  /-- `_compat_pickle`'s renaming for protocols below 3, when writing and when reading -/
  fixDump : Path × Path → Path × Path
  fixLoad : Path × Path → Path × Path

/-- the pickler's configuration. -/
structure Cfg where
  proto : Nat
  byref : Bool
  /-- `_session` and the name of `_main`: the module being saved as a session -/
  sessionMain : Option Path
  /-- `id(obj) in pickler._postproc` -/
  recursive : Obj → Bool

/-- `_import_module(import_name, safe=True)`, _dill.py:1057-1074 (`none` is Python's None). -/
def importModule (E : Env) (p : Path) : Option Obj :=
  if p.head? = some "__runtime__" ∧ 1 < p.length then E.mods p
  else if 1 < p.length then
    match E.mods p.dropLast with
    | none => none
    | some m => match E.attr m (p.getLast?.getD "") with
      | none => none
      | some s => if E.isModOrType s then some s else E.mods p
  else E.mods p

/-- `_getattribute(obj, name)`: the object found and the one it was found on, _dill.py:1077-1088.
`none` is AttributeError. -/
def getAttribute (E : Env) (o : Obj) : Path → Option (Obj × Obj)
  | [] => none
  | [s] => if s = "<locals>" then none else (E.attr o s).map (fun o' => (o', o))
  | s :: ss => if s = "<locals>" then none else match E.attr o s with
    | none => none
    | some o' => getAttribute E o' ss

/-- `_locate_function(obj, pickler)`, _dill.py:1090-1104.  `_getattribute(None, …)` raises
AttributeError for every name that is not an attribute of None; taken as always. -/
def locate (E : Env) (c : Cfg) (o : Obj) : Bool :=
  match (E.info o).modName with
  | none => false
  | some m =>
    if m = ["__main__"] then false
    else if c.sessionMain = some m then false
    else match (E.info o).qualname with
      | some q => match importModule E m with
        | none => false
        | some mo => match getAttribute E mo q with
          | none => false
          | some (found, _) => found == o
      | none => importModule E (m ++ (E.info o).name) == some o

/-- what gets written for an object. -/
inductive Ref
  /-- GLOBAL / STACK_GLOBAL -/
  | glob (m n : Path)
  /-- REDUCE of builtin getattr with (parent, name) -/
  | attr (parent : Ref) (name : String)
  /-- REDUCE of `_load_type` -/
  | loadType (key : String)
  /-- REDUCE of `type` with NotImplemented / Ellipsis -/
  | typeOf (o : Obj)
  /-- the contents of the object: loads makes a new object -/
  | value
  deriving DecidableEq, Repr

inductive Err
  | pickling   -- PicklingError
  | recursion  -- RecursionError
  deriving DecidableEq, Repr

/-- pickle.py:329-346 `whichmodule`. -/
def whichmodule (E : Env) (o : Obj) (n : Path) : Path :=
  match (E.info o).modName with
  | some m => m
  | none =>
    match E.modKeys.find? (fun k => k ≠ ["__main__"] && k ≠ ["__mp_main__"] &&
        match E.mods k with
        | none => false
        | some m => match getAttribute E m n with
          | none => false
          | some (f, _) => f == o) with
    | some k => k
    | none => ["__main__"]

/-- the last value for which a key maps to `o`: `_typemap = dict((v, k) for k, v in …)`, _dill.py:593. -/
def typemap (E : Env) (o : Obj) : Option String :=
  ((E.revTypemap.reverse.find? (fun p => p.2 == o))).map (·.1)

/-- the name under which save_function / save_type call save_global, _dill.py:2070, 1909. -/
def objName (E : Env) (o : Obj) : Path := ((E.info o).qualname).getD (E.info o).name

mutual

/-- `StockPickler.save_global(pickler, obj, name)`, pickle.py:1048-1107. -/
def saveGlobal (E : Env) (c : Cfg) : Nat → Obj → Except Err Ref
  | 0, _ => .error .recursion
  | fuel + 1, o =>
    let n := objName E o
    let m := whichmodule E o n
    match E.mods m with
    | none => .error .pickling
    | some mo => match getAttribute E mo n with
      | none => .error .pickling
      | some (o2, parent) =>
        if o2 ≠ o then .error .pickling
        else
          let last := n.getLast?.getD ""
          let n' := if parent = mo then [last] else n
          if 4 ≤ c.proto then .ok (.glob m n')
          else if parent ≠ mo then match save E c fuel parent with
            | .error e => .error e
            | .ok r => .ok (.attr r last)
          else if 3 ≤ c.proto then .ok (.glob m n')
          else .ok (.glob (E.fixDump (m, n')).1 (E.fixDump (m, n')).2)

/-- dispatch of `Pickler.save` to `save_function` (_dill.py:1964-2072) and `save_type` (1807-1932);
any other object is pickled by its contents. -/
def save (E : Env) (c : Cfg) : Nat → Obj → Except Err Ref
  | 0, _ => .error .recursion
  | fuel + 1, o => match (E.info o).kind with
    | .fn => if !locate E c o then .ok .value else saveGlobal E c fuel o
    | .cls => match typemap E o with
      | some k => .ok (.loadType k)
      | none =>
        if E.isNamedtuple o then .ok .value
        else if o = E.typeOf E.noneObj then .ok (.glob ["__builtin__"] ["NoneType"])
        else if o = E.typeOf E.notImplemented then .ok (.typeOf E.notImplemented)
        else if o = E.typeOf E.ellipsis then .ok (.typeOf E.ellipsis)
        else if o = E.enumMeta then .ok (.glob ["enum"] ["EnumMeta"])
        else if E.exceptHookArgs = some o then .ok (.glob ["threading"] ["ExceptHookArgs"])
        else if !c.byref && !c.recursive o && !locate E c o then .ok .value
        else saveGlobal E c fuel o
    | .other => .ok .value

end

/-- `Unpickler.find_class(module, name)`, _dill.py:437-443, then pickle.py:1564-1576. -/
def findClass (E : Env) (proto : Nat) (m n : Path) : Option Obj :=
  if m = ["__builtin__"] ∧ n = ["__main__"] then some E.mainDict
  else if m = ["__builtin__"] ∧ n = ["NoneType"] then some (E.typeOf E.noneObj)
  else
    let m := if m = ["dill", "dill"] then ["dill", "_dill"] else m
    let mn := if proto < 3 then E.fixLoad (m, n) else (m, n)
    match E.mods mn.1 with
    | none => none
    | some mo =>
      if 4 ≤ proto then (getAttribute E mo mn.2).map (·.1)
      else match mn.2 with
        | [s] => E.attr mo s
        | _ => none   -- getattr(module, 'a.b') finds nothing

/-- `_load_type(name)`, _dill.py:598-599; `none` is KeyError. -/
def loadType (E : Env) (k : String) : Option Obj := (E.revTypemap.update E.revLate).get k

/-- what loading gives: the existing object, a new one, or an exception. -/
inductive Res
  | obj (o : Obj)
  | fresh
  | fail
  deriving DecidableEq, Repr

/-- loading what was written. -/
def load (E : Env) (proto : Nat) : Ref → Res
  | .glob m n => match findClass E proto m n with
    | some o => .obj o
    | none => .fail
  | .attr p s => match load E proto p with
    | .obj o => match E.attr o s with
      | some o' => .obj o'
      | none => .fail
    | .fresh => .fresh
    | .fail => .fail
  | .loadType k => match loadType E k with
    | some o => .obj o
    | none => .fail
  | .typeOf o => .obj (E.typeOf o)
  | .value => .fresh

end Verif.Locate
