import Verif.Model.PyStr
import Verif.Model.Indent
/-
Model of parts of /repo/dill/source.py: the alias logic of `getsource` 416-441, its import expression for instances
395-398, `importable` 931-1010, `_enclose` 552-563, `dumpsource` 566-602.  Strings are lists of characters.
-/
namespace Verif.Source

abbrev Str := List Char

/-! ### getsource: adding an alias -/

/-- what the alias code asks about the object: `_hascode(object)`, `_isinstance(object)`, `object.__name__`, and
`getname(object, force=True)` (None or '' is `[]`) -/
structure Obj where
  hascode : Bool
  isInst : Bool
  name : Str
  getname : Str

/-- `s.lstrip()` -/
def lstripWs : Str → Str
  | [] => []
  | c :: s => if PyStr.isSpace c then lstripWs s else c :: s

/-- `s.strip()` -/
def stripWs (s : Str) : Str := (lstripWs (lstripWs s).reverse).reverse

/-- `needle in s` -/
def contains (needle : Str) : Str → Bool
  | [] => needle.isPrefixOf []
  | c :: s => needle.isPrefixOf (c :: s) || contains needle s

/-- `line.split('=')[0]` -/
def beforeEq (s : Str) : Str := s.takeWhile (· != '=')

/-- `'\n%s = %s\n' % (alias, name)` -/
def aliasLine (alias name : Str) : Str := '\n' :: alias ++ " = ".toList ++ name ++ ['\n']

/-- the number of leading lines that start with '@', source.py:419-422 -/
def skipDecorators : List Str → Nat
  | [] => 0
  | l :: ls => if ['@'].isPrefixOf l then skipDecorators ls + 1 else 0

def setAt (ls : List Str) (n : Nat) (x : Str) : List Str := ls.set n x

/-- source.py:416-441, on the list of lines; `none` is IndexError. -/
def addAlias (o : Obj) (alias : Str) (lines : List Str) : Option (List Str) :=
  if alias = [] then some lines
  else if o.hascode then
    let skip := skipDecorators lines
    match lines[skip]? with
    | none => none
    | some line =>
      if "def ".toList.isPrefixOf (lstripWs line) then
        some (if alias ≠ o.name then lines ++ [aliasLine alias o.name] else lines)
      else if contains "lambda ".toList line then
        some (if alias ≠ stripWs (beforeEq line) then setAt lines skip (alias ++ " = ".toList ++ line) else lines)
      else some (if alias ≠ o.name then lines ++ [aliasLine alias o.name] else lines)
  else if o.isInst then
    match lines.getLast? with
    | none => none
    | some last =>
      some (if alias ≠ stripWs (beforeEq last) then setAt lines (lines.length - 1) (alias ++ " = ".toList ++ last) else lines)
  else
    let name := if o.getname = [] then o.name else o.getname
    some (if alias ≠ name then lines ++ [aliasLine alias name] else lines)

/-! ### getsource: the expression for the class of an instance -/

/-- `"%s = __import__('%s', fromlist=['%s']).%s\n" % (name,module,name,name)`, source.py:396 -/
def importLine (name module : Str) : Str :=
  name ++ " = ".toList ++ ("__import__('".toList ++ module ++ "', fromlist=['".toList ++ name ++ "']).".toList ++ name ++ ['\n'])

/-- `s.lstrip(chars)` -/
def lstripChars (chars : Str) : Str → Str
  | [] => []
  | c :: s => if chars.contains c then lstripChars chars s else c :: s

/-- the text that is evaluated: `lines[0].lstrip(name + ' = ')`, source.py:397 -/
def evalText (name module : Str) : Str := lstripChars (name ++ " = ".toList) (importLine name module)

/-! ### importable -/

/-- the local variable `obj` of `importable`: the object, or the dict of its global variables -/
inductive Tgt where
  | obj
  | globals
  deriving DecidableEq, Repr

/-- what the helpers do; `none` is any exception.  `imp` is the import branch 956-964, `src` is `_closuredsource` and the
stitching 969-994, `gvars` is `globalvars(obj)` 997, `gsrc` the sources of the global variables 998-999. -/
structure Helpers where
  fromMain : Bool
  isBuiltin : Bool
  imp : Tgt → Option Str
  src : Tgt → Option Str
  gvars : Bool
  gsrc : Option Str

/-- one source attempt: the answer, or the value left in the variable `obj`; source.py:969-1003 -/
def trySource (H : Helpers) (t : Tgt) : Except Tgt Str :=
  match H.src t with
  | none => .error t
  | some s =>
    match t, H.gvars with
    | .obj, true =>
      match H.gsrc with
      | none => .error .globals      -- `obj` has been rebound by `obj = globalvars(obj)`
      | some g => .ok (if g = [] then s else if s = [] then g else g ++ s)
    | _, _ => .error t

/-- the loop, source.py:953-1007; `none`: the exception is raised.  At most two rounds. -/
def loop (H : Helpers) : Nat → Bool → Bool → Bool → Tgt → Option Str
  | 0, _, _, _, _ => none
  | n + 1, source, triedSource, triedImport, t =>
    let viaSource (triedImport : Bool) : Option Str :=
      match trySource H t with
      | .ok s => some s
      | .error t' => if triedImport then none else loop H n (!source) true triedImport t'
    match source with
    | true => viaSource triedImport
    | false =>
      match H.imp t with
      | some s => some s
      | none => if triedSource then none else viaSource true

/-- the value of `source` before the loop, source.py:949-952 -/
def startSource (H : Helpers) (source : Option Bool) (builtin : Bool) : Bool :=
  match source with
  | none => H.fromMain
  | some s => if builtin = true ∧ H.isBuiltin = true then false else s

/-- `importable(obj, alias, source, builtin)`, source.py:931-1010 -/
def importable (H : Helpers) (source : Option Bool) (builtin : Bool) : Option Str :=
  loop H 2 (startSource H source builtin) false false .obj

/-! ### dumpsource -/

/-- `s.replace(old, new)` for a non-empty `old` -/
def replaceGo {α : Type} [DecidableEq α] (old new : List α) : Nat → List α → List α
  | _, [] => []
  | k + 1, _ :: s => replaceGo old new k s
  | 0, c :: s =>
    if old.isPrefixOf (c :: s) then new ++ replaceGo old new (old.length - 1) s
    else c :: replaceGo old new 0 s

def replace {α : Type} [DecidableEq α] (old new s : List α) : List α := replaceGo old new 0 s

/-- the bytes `dill.loads` receives from the text written with `new=True` for an instance of a class of module `mod`,
when the text runs in a module called `cur`: `pik.replace(b'mod', bytes(__name__, 'UTF-8'))`, source.py:591 -/
def newPickle (mod cur pik : List UInt8) : List UInt8 := replace mod cur pik

/-- SHORT_BINUNICODE: how a module name is written in a protocol 4 pickle -/
def shortUnicode (s : List UInt8) : List UInt8 := 0x8c :: UInt8.ofNat s.length :: s

def stub : Str := "__this_is_a_stub_variable__".toList
def dummyFn : Str := "__this_is_a_big_dummy_enclosing_function__".toList

def spaces4 : Str := "    ".toList

/-- what `getsource('__this_is_a_big_dummy_object__', alias=stub, lstrip=True, force=True)` gives: a string has no source and
no module, so it is `getimport`'s `alias = repr` line; source.py:379-380, 724-774 -/
def dummySrc : Str := stub ++ " = '__this_is_a_big_dummy_object__'\n".toList

/-- `_enclose(object, alias)`, source.py:552-563; `src` is `getsource(object, alias=stub, lstrip=True, force=True)` -/
def enclose (src alias : Str) : Str :=
  "def ".toList ++ dummyFn ++ "():\n".toList ++ Indent.indent src spaces4 ++
    Indent.indent ("return ".toList ++ stub ++ ['\n']) spaces4 ++
  (if alias = [] then [] else alias ++ " = ".toList) ++ (dummyFn ++ "(); del ".toList ++ dummyFn ++ ['\n'])

/-- `dumpsource(object, alias, new, enclose)`, source.py:566-602, for the text `pik` of the pickle of the object.  `inst` is
`_isinstance(object)`, `cls` the source of its class, `modr` is `repr(object.__module__)`. -/
def dumpsource (pik alias : Str) (new encl inst : Bool) (cls modr : Str) : Str :=
  let new := if encl = true then false else new
  let pre := if encl = true then stub ++ " = ".toList else if alias = [] then [] else alias ++ " = ".toList
  let code := "import dill\n".toList ++
    (if new = false ∨ inst = false then pre ++ "dill.loads(".toList ++ pik ++ ")\n".toList
     else cls ++ pre ++ "dill.loads(".toList ++ pik ++ ".replace(b".toList ++ modr ++
       ",bytes(__name__,\"UTF-8\")))\n".toList)
  if encl = true then
    let dummy := Indent.splitNL (enclose dummySrc alias)
    dummy.headD [] ++ ['\n'] ++ Indent.indent code spaces4 ++ Indent.joinNL (dummy.drop (dummy.length - 3))
  else code

end Verif.Source
