import Verif.Model.Dict
/-
Model of pickling module objects and dicts that may be module namespaces:
`_import_module` /repo/dill/_dill.py:1057-1075, `save_module_dict` 1244-1268, `_is_builtin_module` 1690-1706,
`_is_imported_module` 1708-1709, `save_module` 1711-1757, `Unpickler.find_class` 437-443, and the parts of CPython
they call: `__import__` with and without a from-list, `dict.__eq__`, the BUILD opcode on a module.

Simplifications: strings are lists of characters; dict keys are strings (a key of another type only makes two dicts
differ); modules have no `__getattr__` function; running the code of a module that is not yet imported is an arbitrary
transformation of the interpreter (`ImportSys`); the values of a saved namespace are loaded by an arbitrary function
`tr` (their own round trip is the subject of C01) without further effects; the `_use_diff` branch of save_module is
dead code (`if False`).
-/
namespace Verif.Modules

abbrev Str := List Char
abbrev Obj := Nat

inductive Val where
  | none
  | str (s : Str)
  | obj (o : Obj)
  deriving DecidableEq, Repr

/-- exceptions: those `_import_module` catches, and any other -/
inductive Exc where
  | importError | attributeError | keyError | typeError | other
  deriving DecidableEq, Repr

inductive Kind where
  | modl | type | other
  deriving DecidableEq, Repr

/-- the interpreter. -/
structure World where
  /-- `sys.modules`; a `None` entry blocks the import -/
  sysModules : Dict Str (Option Obj)
  kind : Obj → Kind
  /-- the dict object `o.__dict__`, for objects whose `__dict__` is a real dict -/
  nsId : Obj → Option Obj
  /-- contents of the dict objects -/
  dicts : Obj → Dict Str Val

/-- `getattr(o, k)` of a module: its namespace (`none`: AttributeError). -/
def attr (w : World) (o : Obj) (k : Str) : Option Val :=
  match w.nsId o with
  | .none => .none
  | .some d => (w.dicts d).get k

/-- what importing does when something has to be run: arbitrary. -/
structure ImportSys where
  /-- finding and running a module not in sys.modules -/
  run : World → Str → World × Option Exc
  /-- the from-list step for a package lacking the attribute -/
  fromlist : World → Obj → Str → World × Option Exc
  /-- the call of a `__setstate__` function with the state -/
  setstate : World → Val → Dict Str Val → World × Option Exc

/-- `__import__(name)` for the module `name` itself (CPython `import_find_and_load`, `PyImport_ImportModuleLevelObject`). -/
def importName (I : ImportSys) (w : World) (name : Str) : World × Except Exc Val :=
  if name = [] then (w, .error .other)   -- ValueError: Empty module name
  else match w.sysModules.get name with
    | some (some o) => (w, .ok (.obj o))
    | some none => (w, .error .importError)
    | none =>
      match I.run w name with
      | (w', some e) => (w', .error e)
      | (w', none) =>
        match w'.sysModules.get name with
        | some (some o) => (w', .ok (.obj o))
        | some none => (w', .error .importError)
        | none => (w', .error .keyError)

/-- `__import__(name, None, None, [item])` (CPython `_handle_fromlist`): the module, after importing the submodule
`item` of a package that has no such attribute. -/
def importFrom (I : ImportSys) (w : World) (name item : Str) : World × Except Exc Val :=
  match importName I w name with
  | (w', .error e) => (w', .error e)
  | (w', .ok (.obj o)) =>
    if (attr w' o "__path__".toList).isSome ∧ (attr w' o item).isNone then
      match I.fromlist w' o item with
      | (w'', some e) => (w'', .error e)
      | (w'', none) => (w'', .ok (.obj o))
    else (w', .ok (.obj o))
  | (w', .ok v) => (w', .ok v)

/-- `(module, obj)` with `items = s.split('.')`, `module = '.'.join(items[:-1])`, `obj = items[-1]`;
`none` when there is no dot.  _dill.py:1061-1064. -/
def rsplitDot (s : Str) : Option (Str × Str) :=
  match s.reverse.dropWhile (· != '.') with
  | [] => none
  | _ :: r => some (r.reverse, (s.reverse.takeWhile (· != '.')).reverse)

def runtimePrefix : Str := "__runtime__.".toList

/-- `isinstance(v, (ModuleType, type))`, _dill.py:1066 -/
def isModOrType (w : World) : Val → Bool
  | .obj o => w.kind o = .modl ∨ w.kind o = .type
  | _ => false

/-- the body of `_import_module`, _dill.py:1058-1070 -/
def importBody (I : ImportSys) (w : World) (name : Str) : World × Except Exc Val :=
  if runtimePrefix.isPrefixOf name then
    match w.sysModules.get name with
    | some (some o) => (w, .ok (.obj o))
    | some none => (w, .ok .none)
    | none => (w, .error .keyError)
  else match rsplitDot name with
    | some (m, item) =>
      match importFrom I w m item with
      | (w', .error e) => (w', .error e)
      | (w', .ok (.obj p)) =>
        match attr w' p item with
        | none => (w', .error .attributeError)
        | some v => if isModOrType w' v then (w', .ok v) else importFrom I w' name item
      | (w', .ok _) => (w', .error .attributeError)
    | none => importName I w name

/-- `_import_module(import_name, safe)`, _dill.py:1057-1075 -/
def importModule (I : ImportSys) (safe : Bool) (w : World) (name : Str) : World × Except Exc Val :=
  match importBody I w name with
  | (w', .ok v) => (w', .ok v)
  | (w', .error e) =>
    if (e = .importError ∨ e = .attributeError ∨ e = .keyError) ∧ safe = true then (w', .ok .none)
    else (w', .error e)

/-! ### save_module -/

/-- what `sys` and `os` say about the installation, and the values' `__module__` -/
structure Sys where
  /-- the values of base_prefix, base_exec_prefix, exec_prefix, prefix, real_prefix that exist -/
  prefixes : List Str
  /-- `os.path.realpath` -/
  realpath : Str → Str
  /-- `importlib.machinery.EXTENSION_SUFFIXES` -/
  extSuffixes : List Str
  /-- `getattr(v, '__module__', '')`: `some (str _)`, `some none`, or absent -/
  moduleOf : Val → Option Val

/-- `needle in s` -/
def contains (needle : Str) : Str → Bool
  | [] => needle.isPrefixOf []
  | c :: s => needle.isPrefixOf (c :: s) || contains needle s

/-- the test on the file name, _dill.py:1698-1706 -/
def isBuiltinFile (S : Sys) (f : Str) : Bool :=
  S.prefixes.any (fun p => p.isPrefixOf f || (S.realpath p).isPrefixOf (S.realpath f))
  || S.extSuffixes.any (fun x => x.isSuffixOf f)
  || contains "site-packages".toList f

/-- `_is_builtin_module(module)`, _dill.py:1690-1706 -/
def isBuiltin (S : Sys) (w : World) (o : Obj) : Except Exc Bool :=
  match attr w o "__file__".toList with
  | none => .ok true
  | some .none => .ok false
  | some (.str f) => .ok (isBuiltinFile S f)
  | some (.obj _) => .error .attributeError

/-- `_is_imported_module(module)`, _dill.py:1708-1709 -/
def isImported (w : World) (o : Obj) : Bool :=
  (match attr w o "__loader__".toList with
   | none => false
   | some .none => false
   | some _ => true) || w.sysModules.values.contains (some o)

/-- what a module is written as -/
inductive Stored where
  /-- M2: `_import_module(name)` -/
  | byName (name : Str)
  /-- M2 for dill._dill: GLOBAL dill _dill -/
  | dillDill
  /-- M1: `_import_module(name)` with a state -/
  | state (name : Str) (d : Dict Str Val)
  deriving DecidableEq, Repr

def ipythonSingletons : List Str := ["exit".toList, "quit".toList, "get_ipython".toList]

/-- the loop over IPYTHON_SINGLETONS, _dill.py:1740-1742 -/
def dropIPython (S : Sys) : List Str → Dict Str Val → Except Exc (Dict Str Val)
  | [], d => .ok d
  | x :: xs, d =>
    match S.moduleOf ((d.get x).getD .none) with
    | none => dropIPython S xs d
    | some (.str m) => if "IPython".toList.isPrefixOf m then dropIPython S xs (d.del x) else dropIPython S xs d
    | some _ => .error .attributeError

/-- `main_dict = obj.__dict__.copy()` without `__builtins__` and `__loader__`, _dill.py:1737-1742 -/
def stateOf (S : Sys) (d : Dict Str Val) : Except Exc (Dict Str Val) :=
  dropIPython S ipythonSingletons ((d.del "__builtins__".toList).del "__loader__".toList)

/-- `save_module(pickler, obj)`, _dill.py:1729-1757; `main` is `pickler._main` when `is_dill(pickler, child=True)`. -/
def saveModule (S : Sys) (main : Option Obj) (w : World) (o : Obj) : Except Exc Stored :=
  match isBuiltin S w o with
  | .error e => .error e
  | .ok b =>
    match attr w o "__name__".toList, w.nsId o with
    | some (.str name), some d =>
      if (name ≠ "builtins".toList ∧ name ≠ "dill".toList ∧ name ≠ "dill._dill".toList ∧ b = false) ∨ main = some o then
        match stateOf S (w.dicts d) with
        | .error e => .error e
        | .ok st => .ok (.state (if isImported w o then name else runtimePrefix ++ name) st)
      else if name = "dill._dill".toList then .ok .dillDill
      else .ok (.byName name)
    | _, _ => .error .attributeError

def setNs (w : World) (d : Obj) (e : Dict Str Val) : World :=
  { w with dicts := fun x => if x = d then (w.dicts d).update e else w.dicts x }

/-- BUILD with a dict state (pickle.py load_build): `inst.__dict__` is updated, unless the object has a
`__setstate__` (for a module: a global of that name), which is called instead. -/
def build (I : ImportSys) (w : World) (v : Val) (st : Dict Str Val) : World × Except Exc Val :=
  match v with
  | .obj o =>
    match attr w o "__setstate__".toList with
    | some g =>
      match I.setstate w g st with
      | (w', none) => (w', .ok v)
      | (w', some e) => (w', .error e)
    | none =>
      match w.nsId o with
      | some d => (setNs w d st, .ok v)
      | none => (w, .error .typeError)   -- a class: its `__dict__` is a mappingproxy
  | _ => (w, .error .attributeError)

/-- `find_class("dill", "_dill")` -/
def findDillDill (I : ImportSys) (w : World) : World × Except Exc Val :=
  match importName I w "dill".toList with
  | (w', .ok (.obj o)) =>
    match attr w' o "_dill".toList with
    | some v => (w', .ok v)
    | none => (w', .error .attributeError)
  | (w', .ok _) => (w', .error .attributeError)
  | (w', .error e) => (w', .error e)

/-- unpickling a stored module; `tr` gives the loaded counterpart of a value. -/
def loadModule (I : ImportSys) (tr : Val → Val) (w : World) : Stored → World × Except Exc Val
  | .byName name => importModule I false w name
  | .dillDill => findDillDill I w
  | .state name st =>
    match importModule I false w name with
    | (w', .ok v) => build I w' v (st.map fun p => (p.1, tr p.2))
    | (w', .error e) => (w', .error e)

/-! ### save_module_dict -/

/-- `a == b` for dicts: same length, and every item of `a` is in `b`, with an identical or equal value.
`eq` is `==` on the values, which may raise. -/
def itemsEq (eq : Val → Val → Except Exc Bool) (b : Dict Str Val) : Dict Str Val → Except Exc Bool
  | [] => .ok true
  | (k, v) :: a =>
    match b.get k with
    | none => .ok false
    | some v' =>
      if v = v' then itemsEq eq b a
      else match eq v v' with
        | .error e => .error e
        | .ok false => .ok false
        | .ok true => itemsEq eq b a

def dictEq (eq : Val → Val → Except Exc Bool) (a b : Dict Str Val) : Except Exc Bool :=
  if a.length ≠ b.length then .ok false else itemsEq eq b a

/-- the pickler saving a dict. -/
structure Pick where
  /-- `is_dill(pickler, child=False)` -/
  isDill : Bool
  session : Bool
  firstPass : Bool
  /-- `pickler._main.__dict__` -/
  mainDict : Obj
  /-- `_main_module.__dict__`, the namespace of `__main__` -/
  topDict : Obj

/-- how a dict is written -/
inductive Route where
  /-- D1: `c__builtin__\n__main__\n` -/
  | main
  /-- D3: `c__main__\n__dict__\n` -/
  | top
  /-- D4: `c<name>\n__dict__\n` -/
  | named (name : Str)
  /-- D2: by value -/
  | value
  deriving DecidableEq, Repr

/-- `save_module_dict(pickler, obj)` up to the choice of what to write, _dill.py:1244-1268.  Python's `and` evaluates
from the left and stops at the first false operand. -/
def route (I : ImportSys) (eq : Val → Val → Except Exc Bool) (P : Pick) (w : World) (o : Obj) : World × Except Exc Route :=
  -- the first two tests
  let first : Except Exc (Option Route) :=
    if P.isDill = true then
      match dictEq eq (w.dicts o) (w.dicts P.mainDict) with
      | .error e => .error e
      | .ok b => .ok (if b = true ∧ ¬ (P.session = true ∧ P.firstPass = true) then some .main else none)
    else
      match dictEq eq (w.dicts o) (w.dicts P.topDict) with
      | .error e => .error e
      | .ok b => .ok (if b = true then some .top else none)
  match first with
  | .error e => (w, .error e)
  | .ok (some r) => (w, .ok r)
  | .ok none =>
    match (w.dicts o).get "__name__".toList with
    | none => (w, .ok .value)
    | some nm =>
      match dictEq eq (w.dicts o) (w.dicts P.topDict) with
      | .error e => (w, .error e)
      | .ok true => (w, .ok .value)
      | .ok false =>
        match nm with
        | .str name =>
          match importModule I true w name with
          | (w', .error e) => (w', .error e)
          | (w', .ok (.obj m)) => if w'.nsId m = some o then (w', .ok (.named name)) else (w', .ok .value)
          | (w', .ok _) => (w', .ok .value)
        | _ => (w, .ok .value)

/-- loading what was written: the dict object.  `mainDict` is the unpickler's `_main.__dict__`; `fresh` is the new dict
a by-value load creates (its contents are the subject of C01). -/
def loadDict (I : ImportSys) (mainDict fresh : Obj) (w : World) : Route → World × Except Exc Obj
  | .main => (w, .ok mainDict)
  | .top => namespaceOf (importName I w "__main__".toList)
  | .named name => namespaceOf (importName I w name)
  | .value => (w, .ok fresh)
where
  namespaceOf : World × Except Exc Val → World × Except Exc Obj
    | (w', .ok (.obj m)) =>
      match w'.nsId m with
      | some d => (w', .ok d)
      | none => (w', .error .attributeError)
    | (w', .ok _) => (w', .error .attributeError)
    | (w', .error e) => (w', .error e)

end Verif.Modules
