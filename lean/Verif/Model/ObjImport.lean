import Verif.Model.GetImport
import Verif.Model.PyStr
import Verif.Model.Source
/-! Model of `getname`, `_namespace`, `_isinstance`, `getimport` and `_importable`, /repo/dill/source.py:448-466 and
605-835, on lists of characters. What the inspected object answers to `inspect`, `repr`, `str` and `getattr` is a
record of facts; `_intypes` and `exec` are those of `Verif.GetImport`. -/
namespace Verif.ObjImport
open Verif.GetImport (Str Env Exec)

/-- what dill asks of the object -/
structure Facts where
  /-- `str(getmodule(obj))`: "None" without a module -/
  modStr : Str
  /-- `getmodule(obj).__name__`; `none` when there is no module -/
  modName : Option Str
  /-- `ismodule(obj)` -/
  isMod : Bool
  /-- `obj.__name__` -/
  name : Option Str
  /-- `getsource(obj)`, asked for lambdas; `none` when it raises -/
  src : Option Str
  /-- `str(obj)` -/
  str : Str
  /-- `repr(obj)` -/
  repr : Str
  /-- `obj.__class__.__module__` -/
  clsMod : Option Str
  /-- `str(obj.__class__)` -/
  clsStr : Str
  /-- `_hascode(obj) or isclass(obj) or ismodule(obj) or istraceback(obj) or isframe(obj) or iscode(obj)` -/
  special : Bool
  /-- `getmodule(type(obj)).__name__`; `none` when there is no such module -/
  typeMod : Option Str
  /-- `repr(type(obj)).startswith(('<class ', "<type 'instance'>"))` -/
  plainType : Bool
  /-- `obj.__module__` -/
  ownMod : Option Str
  /-- for an array scalar (`hasattr(obj, 'dtype') and not obj.shape`): `getname(obj.__class__) + "(" + repr(obj.tolist()) + ")"` -/
  scalar : Option Str

inductive Exc where
  | attributeError | importError | syntaxError | otherError | timeout
  deriving DecidableEq

def builtinMod (m : Str) : Bool := m == "builtins".toList || m == "__builtin__".toList

/-- `getname(obj, force)`, source.py:605-633 (fqn=False). A failing getsource is taken to raise something else than AttributeError. -/
def getname (F : Facts) (force : Bool) : Except Exc (Option Str) :=
  match F.modName with
  | none =>
    if force = false then .ok none
    else match F.scalar with
      | some s => .ok (some s)
      | none => .ok (some F.repr)
  | some m =>
    match F.name with
    | some n =>
      if n = "<lambda>".toList then
        match F.src with
        | some s => .ok (some (Source.stripWs (Source.beforeEq s)))
        | none => .error .otherError
      else if builtinMod m && n == "ellipsis".toList then .ok (some "EllipsisType".toList)
      else .ok (some n)
    | none =>
      if force = false then .ok none
      else if GetImport.startsWith "<".toList F.repr then .ok none
      else .ok (some F.repr)

/-- `_isinstance(obj)`, source.py:448-466 -/
def isInstance (F : Facts) : Except Exc Bool :=
  if F.special then .ok false
  else match F.modName, F.typeMod with
    | none, none => .error .attributeError
    | none, some t => .ok (t == "numpy".toList)
    | some _, _ =>
      if F.plainType = false then .ok false
      else match F.ownMod with
        | none => .error .attributeError
        | some o =>
          if builtinMod o then .ok false
          else match getname F true with
            | .error e => .error e
            | .ok n => .ok (n != some "array".toList)

/-- `s.strip(c)` for one character -/
def strip1 (c : Char) (s : Str) : Str := PyStr.rstrip c (s.dropWhile (· == c))

/-- `'.'.join(l)` -/
def joinDot : List Str → Str
  | [] => []
  | [a] => a
  | a :: b :: l => a ++ '.' :: joinDot (b :: l)

/-- the name of the module, out of its repr, source.py:647 -/
def moduleOf (modStr : Str) : Option Str :=
  match (PyStr.splitWs modStr)[1]? with
  | some w => some (strip1 '\'' (strip1 '"' (strip1 '>' w)))
  | none => none

/-- the first half of `_namespace`, source.py:646-657; `none` when it raises -/
def moduleNamespace (E : Env) (F : Facts) : Option (List Str) :=
  match moduleOf F.modStr with
  | none => none
  | some m =>
    if F.isMod then some (PyStr.split ['.'] m)
    else match getname F false with
      | .error _ => none
      | .ok r =>
        match (if r = some [] then F.name else r.or F.name) with
        | none => none
        | some name =>
          if builtinMod m && E.inTypes name then some ["types".toList, name]
          else some (PyStr.split ['.'] m ++ [name])

/-- `qual[qual.index("'")+1:-2]`, or all of it without a quote, source.py:664-666 -/
def classQual (s : Str) : Str :=
  match s.dropWhile (· != '\'') with
  | [] => s
  | _ :: r => r.take (r.length - 2)

/-- the second half of `_namespace`, source.py:663-672: where the class of the object is -/
def classNamespace (E : Env) (F : Facts) : List Str :=
  let qual := PyStr.split ['.'] (classQual F.clsStr)
  match F.clsMod with
  | some m =>
    if builtinMod m then
      let last := qual.getLast?.getD []
      let last := if last = "ellipsis".toList then "EllipsisType".toList else last
      (if E.inTypes last then "types".toList else m) :: (qual.dropLast ++ [last])
    else qual
  | none => qual

def nanNames : List Str := ["inf".toList, "nan".toList, "Inf".toList, "NaN".toList]

/-- `_namespace(obj)`, source.py:635-672 -/
def namespace' (E : Env) (F : Facts) : List Str :=
  match moduleNamespace E F with
  | some l => l
  | none => if F.str ∈ nanNames then ["numpy".toList, F.str] else classNamespace E F

/-- `repr(obj).split('<',1)[1].split('>',1)[1]` does not raise: the repr has a `<` and, after it, a `>`; source.py:742 -/
def objectStyle (r : Str) : Bool := (r.dropWhile (· != '<')).contains '>'

/-- `s.split('(')[0]` -/
def beforeParen (s : Str) : Str := s.takeWhile (· != '(')

/-- the name to try instead of the tail of the namespace, source.py:741-750 -/
def reprName (F : Facts) (head : Str) : Except Exc Str :=
  if objectStyle F.repr then .ok []
  else if builtinMod head then .ok F.repr
  else match isInstance F with
    | .error e => .error e
    | .ok true =>
      match getname F true with
      | .error e => .error e
      | .ok (some n) => .ok (beforeParen n)
      | .ok none => .error .attributeError
    | .ok false => .ok (beforeParen F.repr)

def liftErr : GetImport.Err → Exc
  | .importError => .importError
  | .syntaxError => .syntaxError
  | .otherError => .otherError
  | .timeout => .timeout

/-- `_getimport`, with as many levels as the head can have -/
def importFrom (E : Env) (head tail alias : Str) (verify builtin : Bool) : Except GetImport.Err Str :=
  GetImport.getimport E (head.length + 1) head tail alias verify builtin

/-- the last part of `getimport`, source.py:763-775 -/
def importTail (E : Env) (head tail alias : Str) (verify builtin : Bool) : Except Exc Str :=
  match importFrom E head tail alias verify builtin with
  | .ok s => .ok s
  | .error .syntaxError => if builtinMod head then .ok (GetImport.assign alias tail) else .error .syntaxError
  | .error e => .error (liftErr e)

/-- `getimport(obj, alias, verify, builtin)`, source.py:736-775 -/
def importOf (E : Env) (F : Facts) (alias : Str) (verify builtin : Bool) : Except Exc Str :=
  let qual := namespace' E F
  let head := joinDot qual.dropLast
  let tail := qual.getLast?.getD []
  match reprName F head with
  | .error e => .error e
  | .ok name =>
    if name = [] then importTail E head tail alias verify builtin
    else match importFrom E head name alias verify builtin with
      | .ok s => .ok s
      | .error .importError => importTail E head tail alias verify builtin
      | .error .syntaxError =>
        if builtinMod head then .ok (GetImport.assign alias name) else importTail E head tail alias verify builtin
      | .error e => .error (liftErr e)

/-- `getimport(obj, alias, verify, builtin, enclosing)`, source.py:723-775; `outer` is what `outermost(obj)` gives -/
def getimport (E : Env) (F : Facts) (outer : Option Facts) (alias : Str) (verify builtin enclosing : Bool) : Except Exc Str :=
  importOf E (if enclosing then outer.getD F else F) alias verify builtin

/-- the part of `_importable` that wants an import, source.py:806-819; `none` when it raises -/
def wantImport (E : Env) (F : Facts) (outer : Option Facts) (alias : Str) (enclosing force builtin : Bool) : Option Str :=
  match isInstance F with
  | .error _ => none
  | .ok false => (getimport E F outer alias (!force) builtin enclosing).toOption
  | .ok true =>
    match getimport E F outer [] (!force) builtin enclosing, getname F true with
    | .ok i, .ok (some n) => if n = [] then none else some (i ++ GetImport.assign alias n)
    | _, _ => none

/-- `_importable(obj, alias, source, enclosing, force, builtin)`, source.py:777-835; `srcText` is what `getsource`
gives with the same options (`none` when it raises) and `inMain` is `isfrommain(obj)` -/
def importable (E : Env) (F : Facts) (outer : Option Facts) (srcText : Option Str) (inMain : Bool) (alias : Str)
    (source : Option Bool) (enclosing force builtin : Bool) : Except Exc Str :=
  let source := source.getD inMain
  match (if source then srcText else none) with
  | some s => .ok s
  | none =>
    match wantImport E F outer alias enclosing force builtin with
    | some s => .ok s
    | none =>
      match (if source then none else srcText) with
      | some s => .ok s
      | none =>
        match getname F force with
        | .error e => .error e
        | .ok none => .error .attributeError
        | .ok (some n) =>
          if n = [] || GetImport.startsWith "<".toList n then .error .attributeError
          else .ok (GetImport.assign alias n)

end Verif.ObjImport
