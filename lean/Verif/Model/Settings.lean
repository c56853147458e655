import Verif.Model.Dict
/-
Model of how dump/dumps/load/loads/copy combine keyword arguments with dill.settings, and of the class
re-pointing done by load:
`copy` /repo/dill/_dill.py:242-249, `dump` 251-262, `dumps` 264-290, `load` 292-298, `loads` 300-312,
`Pickler.__init__` 360-374, `Unpickler.__init__` 445-450, `Unpickler.load` 452-461; settings table
/repo/dill/settings.py:13-21; the protocol check of CPython's `_Pickler.__init__` (pickle.py:438-458).

Positional arguments are taken as the keywords they bind to.  Values are opaque apart from None and integers;
`int(v)` is an abstract partial function `toInt` on the other values.  The settings dictionary is mutated in place
(as `dill.settings['recurse'] = True` does); rebinding the name `dill.settings` is not modelled.
-/
namespace Verif.Settings

inductive Val
  | none
  | int (n : Int)
  | other (k : Nat)
  deriving DecidableEq, Repr

abbrev Table := Dict String Val

inductive Err
  | keyError
  | typeError
  | valueError
  deriving DecidableEq, Repr

/-- the options a Pickler works with. -/
structure PickleCfg where
  proto : Int
  byref : Val
  fmode : Val
  recurse : Val
  deriving DecidableEq, Repr

def highestProtocol : Int := 5
def defaultProtocol : Int := 4

/-- pickle.py:438-443, for an integer or None. -/
def normProtocol : Val → Except Err Int
  | .none => .ok defaultProtocol
  | .int n => if n < 0 then .ok highestProtocol
      else if n ≤ highestProtocol then .ok n else .error .valueError
  | .other _ => .error .typeError

/-- the keywords `_Pickler.__init__` and `_Unpickler.__init__` accept. -/
def picklerKw : List String := ["fix_imports", "buffer_callback"]
def unpicklerKw : List String := ["fix_imports", "encoding", "errors", "buffers"]

/-- whether a keyword remains that the stock `__init__` does not accept (TypeError). -/
def badKw (allowed : List String) (kwds : Table) : Bool := kwds.keys.any (fun k => !allowed.contains k)

/-- `settings[k] if v is None else v`. -/
def orSetting (settings : Table) (k : String) (v : Val) : Except Err Val :=
  match v with
  | .none => match settings.get k with
    | some v => .ok v
    | none => .error .keyError
  | v => .ok v

/-- `d.pop(k, None)`: the value and the rest. -/
def popNone (d : Table) (k : String) : Val × Table := ((d.get k).getD .none, d.del k)

/-- `Pickler.__init__(file, protocol, **kwds)`, _dill.py:360-374. -/
def picklerInit (settings : Table) (protocol : Val) (kwds : Table) : Except Err PickleCfg :=
  let (byref, kwds) := popNone kwds "byref"
  let (fmode, kwds) := popNone kwds "fmode"
  let (recurse, kwds) := popNone kwds "recurse"
  match badKw picklerKw kwds with
  | true => .error .typeError
  | false => match normProtocol protocol with
    | .error e => .error e
    | .ok proto => match orSetting settings "byref" byref with
      | .error e => .error e
      | .ok byref => match orSetting settings "fmode" fmode with
        | .error e => .error e
        | .ok fmode => match orSetting settings "recurse" recurse with
          | .error e => .error e
          | .ok recurse => .ok ⟨proto, byref, fmode, recurse⟩

/-- the `int(protocol)` of `dump`. -/
def toInt (int? : Nat → Option Int) : Val → Except Err Val
  | .int n => .ok (.int n)
  | .other k => match int? k with
    | some n => .ok (.int n)
    | none => .error .typeError
  | .none => .error .typeError

/-- `settings['protocol'] if protocol is None else int(protocol)`, _dill.py:258. -/
def dumpProtocol (int? : Nat → Option Int) (settings : Table) : Val → Except Err Val
  | .none => match settings.get "protocol" with
    | some v => .ok v
    | none => .error .keyError
  | v => toInt int? v

/-- `dump(obj, file, protocol=None, byref=None, fmode=None, recurse=None, **kwds)`, _dill.py:251-262 (and `dumps`,
264-290, which passes everything on): the configuration of the pickler it makes. -/
def dump (int? : Nat → Option Int) (settings : Table) (kwds : Table) : Except Err PickleCfg :=
  let (protocol, kwds) := popNone kwds "protocol"
  let (byref, kwds) := popNone kwds "byref"
  let (fmode, kwds) := popNone kwds "fmode"
  let (recurse, kwds) := popNone kwds "recurse"
  match dumpProtocol int? settings protocol with
  | .error e => .error e
  | .ok protocol =>
    picklerInit settings protocol (kwds.update [("byref", byref), ("fmode", fmode), ("recurse", recurse)])

/-- `load(file, ignore=None, **kwds)` / `loads`, _dill.py:292-312 with `Unpickler.__init__` 445-450: the value of
`_ignore`. -/
def load (settings : Table) (kwds : Table) : Except Err Val :=
  let (ignore, kwds) := popNone kwds "ignore"
  match badKw unpicklerKw kwds with
  | true => .error .typeError
  | false => orSetting settings "ignore" ignore

/-- `copy(obj, **kwds)`, _dill.py:242-249. -/
def copy (int? : Nat → Option Int) (settings : Table) (kwds : Table) : Except Err (PickleCfg × Val) :=
  match settings.get "ignore" with
  | none => .error .keyError
  | some dflt =>
    let ignore := (kwds.get "ignore").getD dflt
    match dump int? settings (kwds.del "ignore") with
    | .error e => .error e
    | .ok c => match load settings [("ignore", ignore)] with
      | .error e => .error e
      | .ok i => .ok (c, i)

/-- a program: assignments to the settings table and calls. -/
inductive Op
  | set (k : String) (v : Val)
  | dump (kwds : Table)
  | load (kwds : Table)
  | copy (kwds : Table)

/-- what each call used. -/
inductive Used
  | dump (r : Except Err PickleCfg)
  | load (r : Except Err Val)
  | copy (r : Except Err (PickleCfg × Val))

/-- the settings after an operation, and what the call used. -/
def step (int? : Nat → Option Int) (settings : Table) : Op → Table × List Used
  | .set k v => (settings.set k v, [])
  | .dump kw => (settings, [.dump (dump int? settings kw)])
  | .load kw => (settings, [.load (load settings kw)])
  | .copy kw => (settings, [.copy (copy int? settings kw)])

def run (int? : Nat → Option Int) (settings : Table) : List Op → Table × List Used
  | [] => (settings, [])
  | op :: ops =>
    let (s1, u1) := step int? settings op
    let (s2, u2) := run int? s1 ops
    (s2, u1 ++ u2)

/-! ### Unpickler.load -/

abbrev Obj := Nat
abbrev Cls := Nat

inductive SetErr | attributeError | typeError | other
  deriving DecidableEq, Repr

/-- what `load` looks at. -/
structure World where
  /-- `type(obj)` of every object -/
  classOf : Obj → Cls
  /-- `cls.__module__`, `cls.__name__` -/
  modOf : Cls → String
  nameOf : Cls → String
  /-- `__main__.__name__` -/
  mainName : String
  /-- attributes of the unpickler's `_main` (some of them classes) -/
  mainAttr : String → Option Cls
  /-- what `obj.__class__ = v` does -/
  setClass : Obj → Cls → Option SetErr

/-- `Unpickler.load` after the stock load returned `obj`, _dill.py:452-461: the classes afterwards, and the
exception that escapes, if any. -/
def loadFix (W : World) (ignore : Bool) (obj : Obj) : (Obj → Cls) × Option SetErr :=
  if W.modOf (W.classOf obj) = W.mainName then
    if !ignore then
      match W.mainAttr (W.nameOf (W.classOf obj)) with
      | none => (W.classOf, none)       -- AttributeError, caught
      | some c => match W.setClass obj c with
        | none => (fun o => if o = obj then c else W.classOf o, none)
        | some .attributeError => (W.classOf, none)
        | some .typeError => (W.classOf, none)
        | some .other => (W.classOf, some .other)
    else (W.classOf, none)
  else (W.classOf, none)

end Verif.Settings
