import Verif.Model.Dict
/-
Model of `load_module` and `load_module_asdict` as transformations of the interpreter's module
state.  /repo/dill/session.py:424-565 (load_module), 572-660 (load_module_asdict),
/repo/dill/_dill.py:1057-1074 (_import_module), /repo/dill/_dill.py:1706-1708
(_is_imported_module), /repo/dill/_dill.py:1712-1752 (save_module: what the stream does on load).
-/
namespace Verif.Session

abbrev ModId := Nat

inductive Val where
  | data (n : Nat)
  | none
  | str (s : String)
  | mod (m : ModId)
  deriving DecidableEq, Repr

/-- A module object: `__name__`, whether `__loader__` is not None, and its other attributes. -/
structure Mod where
  name : String
  loader : Bool
  dict : Dict String Val
  deriving DecidableEq, Repr

/-- The interpreter: sys.modules and the heap of module objects. -/
structure St where
  mods : Dict String ModId
  heap : List Mod

inductive Err where
  | importError | keyError | attributeError | valueError | typeError | assertionError
  | unpickling | stream
  deriving DecidableEq, Repr

/-- A module name: `__runtime__.foo`, `foo`, or `pkg.foo` (path of a package and a last part). -/
inductive Name where
  | runtime (n : String)
  | top (n : String)
  | dotted (pkg : String) (last : String)
  deriving DecidableEq, Repr

/-- The string form, as used for sys.modules keys. -/
def Name.str : Name → String
  | .runtime n => "__runtime__." ++ n
  | .top n => n
  | .dotted p l => p ++ "." ++ l

/-- `ModuleType(name)`: fresh module object (the default attributes `__doc__`, `__package__`,
`__spec__` are None; `__name__` and `__loader__` are the structure fields). -/
def defaults : Dict String Val := [("__doc__", .none), ("__package__", .none), ("__spec__", .none)]

def newModule (s : St) (name : String) (d : Dict String Val) (loader : Bool) : ModId × St :=
  (s.heap.length, { s with heap := s.heap ++ [⟨name, loader, d⟩] })

def St.setMod (s : St) (k : String) (m : ModId) : St := { s with mods := s.mods.set k m }
def St.delMod (s : St) (k : String) : St := { s with mods := s.mods.del k }

def St.setAttrs (s : St) (m : ModId) (e : Dict String Val) : St :=
  match s.heap[m]? with
  | none => s
  | some md => { s with heap := s.heap.set m { md with dict := md.dict.update e } }

/-- What can be imported from disk: attributes of the module of that name. -/
abbrev Disk := String → Option (Dict String Val)

/-- `__import__(name)` for a top-level name, or the loading of one dotted module whose package is
already loaded (`name` is the full sys.modules key). -/
def importKey (disk : Disk) (key : String) (s : St) : Except Err ModId × St :=
  match s.mods.get key with
  | some m => (.ok m, s)
  | none =>
    match disk key with
    | none => (.error .importError, s)
    | some d =>
      let r := newModule s key d true
      (.ok r.1, r.2.setMod key r.1)

/-- `_import_module`, /repo/dill/_dill.py:1057-1074 (safe=False). For a dotted name:
`getattr(__import__(pkg, fromlist=[last]), last)`; `__import__` with a fromlist loads the submodule
`pkg.last` when the package has no attribute `last` and sys.modules has no entry for it, and then
sets the attribute.  An attribute that is no module is passed over: `__import__('pkg.last')`, line 1068, which sets it
when it loads the submodule.  Simplification: an attribute that is a class (not a module) is not modelled. -/
def importModule (disk : Disk) (n : Name) (s : St) : Except Err ModId × St :=
  match n with
  | .runtime x => match s.mods.get (Name.runtime x).str with
    | some m => (.ok m, s)
    | none => (.error .keyError, s)
  | .top x => importKey disk x s
  | .dotted pkg last =>
    match importKey disk pkg s with
    | (.error e, s) => (.error e, s)
    | (.ok p, s) =>
      match s.heap[p]? with
      | none => (.error .importError, s)
      | some pm =>
        match pm.dict.get last with
        | some (.mod m) => (.ok m, s)
        | some _ =>
          match s.mods.get (pkg ++ "." ++ last) with
          | some m => (.ok m, s)
          | none =>
            match importKey disk (pkg ++ "." ++ last) s with
            | (.error e, s) => (.error e, s)
            | (.ok m, s) => (.ok m, s.setAttrs p [(last, .mod m)])
        | none =>
          match s.mods.get (pkg ++ "." ++ last) with
          | some _ => (.error .attributeError, s)    -- already "imported": attribute never set
          | none =>
            match importKey disk (pkg ++ "." ++ last) s with
            | (.error _, s) => (.error .attributeError, s)
            | (.ok m, s) => (.ok m, s.setAttrs p [(last, .mod m)])

/-- What unpickling the module's state does besides filling it: import top-level modules, or fail.
(A stream can run arbitrary code; this is the modelled part of its side effects.) -/
inductive Act where
  | imp (top : String)
  | raise
  deriving DecidableEq, Repr

def runActs (disk : Disk) : List Act → St → Option Err × St
  | [], s => (none, s)
  | .raise :: _, s => (some .stream, s)
  | .imp n :: l, s =>
    match importKey disk n s with
    | (.error e, s) => (some e, s)
    | (.ok _, s) => runActs disk l s

/-- A session file: the stored module name, the stored state, and the side effects of unpickling
it (before the module object is looked up, and between that and the state being applied). -/
structure Stream where
  name : Name
  before : List Act
  during : List Act
  state : Dict String Val

/-- `unpickler.load()` on a stream written by `dump_module`:
REDUCE `_import_module(name)`, build the state, BUILD (save_module, _dill.py:1741). -/
def unpickle (disk : Disk) (f : Stream) (s : St) : Except Err ModId × St :=
  match runActs disk f.before s with
  | (some e, s) => (.error e, s)
  | (none, s) =>
    match importModule disk f.name s with
    | (.error e, s) => (.error e, s)
    | (.ok m, s) =>
      match runActs disk f.during s with
      | (some e, s) => (.error e, s)
      | (none, s) => (.ok m, s.setAttrs m f.state)

/-- `_is_imported_module`, /repo/dill/_dill.py:1706-1708. -/
def isImported (s : St) (m : ModId) : Bool :=
  (match s.heap[m]? with | some md => md.loader | none => false) || s.mods.values.contains m

/-- The `module` argument of `load_module`. -/
inductive Arg where
  | none
  | name (n : Name)
  | obj (m : ModId)
  | notModule
  deriving DecidableEq, Repr

def modName (s : St) (m : ModId) : String := match s.heap[m]? with | some md => md.name | none => ""

def Name.isRuntime : Name → Bool | .runtime _ => true | _ => false
/-- `pickle_main.partition('.')[-1]` for runtime names, else the name itself. -/
def Name.bare : Name → String | .runtime n => n | n => n.str

/-- Resolution of `unpickler._main`, /repo/dill/session.py:511-527. -/
def resolveMain (disk : Disk) (mainDefault : ModId) (peeked : Option Name) (arg : Arg) (s : St) :
    Except Err ModId × St :=
  let arg := match arg, peeked with | .none, some n => Arg.name n | a, _ => a
  match arg with
  | .name (.runtime n) => let r := newModule s n defaults false; (.ok r.1, r.2)
  | .name n => importModule disk n s
  | .notModule => (.error .typeError, s)
  | .obj m => (.ok m, s)
  | .none => (.ok mainDefault, s)

/-- The checks of /repo/dill/session.py:529-550: true = refuse with ValueError. -/
def refuses (s : St) (m : ModId) (peeked : Option Name) : Bool :=
  match peeked with
  | none => false
  | some n =>
    (n.isRuntime && isImported s m) || (!n.isRuntime && !isImported s m) || modName s m != n.bare

/-- The part of `load_module` after the target module `m` is known: checks, temporary
`__runtime__.` entry, unpickling and the `finally` clean-up, /repo/dill/session.py:529-560. -/
def loadResolved (disk : Disk) (peeked : Option Name) (f : Stream) (m : ModId) (s : St) :
    Except Err ModId × St :=
  if refuses s m peeked then (.error .valueError, s)   -- finally: runtime_main unbound (NameError)
  else if isImported s m then
    match unpickle disk f s with
    | (.error e, s) => (.error e, s)
    | (.ok l, s) => if l = m then (.ok m, s) else (.error .assertionError, s)
  else
    match unpickle disk f (s.setMod (Name.runtime (modName s m)).str m) with
    | (.error e, s') => (.error e, s'.delMod (Name.runtime (modName s m)).str)
    | (.ok l, s') =>
      if l = m then (.ok m, s'.delMod (Name.runtime (modName s m)).str)
      else (.error .assertionError, s'.delMod (Name.runtime (modName s m)).str)

/-- `load_module`, /repo/dill/session.py:424-565, from the point where the file is open.
`_identify_module` returns the stored name for a peekable stream, and None when the stream cannot
be peeked and `module` was given (otherwise UnpicklingError); `_restore_modules` is modelled
separately (Verif.Model.Stash).  `mainDefault` is dill's `_main_module`. -/
def loadModule (disk : Disk) (mainDefault : ModId) (peekable : Bool) (f : Stream) (arg : Arg)
    (s : St) : Except Err ModId × St :=
  let peeked := if peekable then some f.name else none
  if !peekable && arg = .none then (.error .unpickling, s)
  else
    match resolveMain disk mainDefault peeked arg s with
    | (.error e, s) => (.error e, s)                 -- finally: runtime_main unbound (NameError)
    | (.ok m, s) => loadResolved disk peeked f m s

/-- `del sys.modules[k]` outside any handler: KeyError when missing. -/
def delStrict (s : St) (k : String) : Option Err × St :=
  match s.mods.get k with
  | none => (some .keyError, s)
  | some _ => (none, s.delMod k)

/-- The `finally` block of `load_module_asdict`, /repo/dill/session.py:648-656: `old` is the value
of `old_main`, `res` the outcome of the `try` block. -/
def asdictFinally (key : String) (m : ModId) (old : Option ModId) (res : Except Err ModId) (s : St) :
    Except Err ModId × St :=
  match old with
  | none =>
    match delStrict s key with
    | (some e, s) => (.error e, s)
    | (none, s) => match res with | .error e => (.error e, s) | .ok _ => (.ok m, s)
  | some o => match res with
    | .error e => (.error e, s.setMod key o)
    | .ok _ => (.ok m, s.setMod key o)

/-- `sys.modules[main_name] = main; load_module(file, **kwds)` and then the `finally` block,
/repo/dill/session.py:646-656. -/
def asdictLoad (disk : Disk) (mainDefault : ModId) (f : Stream) (key : String) (m : ModId)
    (old : Option ModId) (s : St) : Except Err ModId × St :=
  let r := loadModule disk mainDefault true f .none (s.setMod key m)
  asdictFinally key m old r.1 r.2

/-- A module's attribute dictionary (`old_main.__dict__`). -/
def dictOf (s : St) (o : ModId) : Dict String Val :=
  match s.heap[o]? with | some md => md.dict | none => []

/-- `load_module_asdict`, /repo/dill/session.py:626-660.  On success the returned dictionary is the
attribute dictionary of the module object created for the occasion (its id is returned);
simplification: the extra `__session__` entry added at the very end is left out. -/
def loadModuleAsdict (disk : Disk) (mainDefault : ModId) (peekable : Bool) (f : Stream)
    (update : Bool) (s : St) : Except Err ModId × St :=
  if !peekable then (.error .unpickling, s)          -- old_main unbound: nothing to restore
  else
    let key := f.name.str
    let old := s.mods.get key
    let m := (newModule s key defaults false).1
    let s := (newModule s key defaults false).2
    if update then
      match old with
      | some o => asdictLoad disk mainDefault f key m (some o) (s.setAttrs m (dictOf s o))
      | none =>
        match importModule disk f.name s with
        | (.error e, s) => asdictFinally key m none (.error e) s
        | (.ok o, s) => asdictLoad disk mainDefault f key m (some o) (s.setAttrs m (dictOf s o))
    else asdictLoad disk mainDefault f key m old (s.setAttrs m [("__builtins__", .str "builtins")])

end Verif.Session
