import Verif.Model.Source
import Verif.Model.Dict
/-
Model of `_closuredimport`, /repo/dill/source.py:839-889, and of the import branch of `importable` for objects that are no
instances, 958-964.  The name the import is for is searched in the text of a file.  Objects are numbers; `freevars`, `getsource`,
`outermost` (C83), `getname`, `findsource` and `getimport` are parameters.  The text of the import statement for a name and
module is the subject of C50; here the answer is the module and the name.  The names of functions are identifiers (in the
regular expressions they stand for themselves), word characters are ASCII.
-/
namespace Verif.ClosuredImport
open Source

abbrev Obj := Nat

/-- `\w` -/
def isWord (c : Char) : Bool := c.isAlphanum || c == '_'

/-- what is imported: a name of a module, or what `getimport` finds for an object -/
inductive Answer where
  | name (mod : Str) (name : Str)
  | getimport (o : Obj)
  deriving DecidableEq, Repr

/-- what the functions called give; `none` is an exception, or None where the next step raises -/
structure World where
  free : Obj → List (Str × Obj)
  isFunction : Obj → Bool
  getsource : Obj → Option Str
  /-- `outermost(func)`, None when there is none -/
  outermost : Obj → Option Obj
  /-- `getname(obj)` of an enclosing function or class, or a function -/
  getname : Obj → Option Str
  /-- `getname(obj, force=True)` -/
  forced : Obj → Option Str
  /-- `getname(getmodule(obj))` -/
  modname : Obj → Option Str
  /-- `findsource(obj)[0]` -/
  file : Obj → Option (List Str)

/-- what follows an `=`: `\s*` and the text `call` -/
def callsAfter (call : Str) (s : Str) : Bool := call.isPrefixOf (lstripWs s)

/-- `re.match(r'.*[\w\s]=\s*' + call, line)`, source.py:856, 883: some `=` preceded by a word character or white space is
followed by white space and the call; the dot does not match a newline -/
def matchesCall (call : Str) : Str → Bool
  | [] => false
  | [_] => false
  | c :: d :: s =>
    (d == '=' && (isWord c || PyStr.isSpace c) && callsAfter call s) || (c != '\n' && matchesCall call (d :: s))

/-- `[line for line in lines if name in line and re.match(pat, line)][-1]`; `none` if there is no such line;
source.py:860-869, 882-885 -/
def lastCandidate (name call : Str) (lines : List Str) : Option Str :=
  (lines.filter fun l => contains name l && matchesCall call l).getLast?

/-- `candidate.split('=',1)[0].split()[-1].strip()`, source.py:870, 886; `none` is IndexError -/
def boundName (line : Str) : Option Str := (PyStr.splitWs (beforeEq line)).getLast?

/-- `src.lstrip().startswith('@')`, source.py:851 -/
def startsAt (src : Str) : Bool := ['@'].isPrefixOf (lstripWs src)

/-- one function of the closure, source.py:848-872: the key and the answer -/
def forFunction (W : World) (func fobj : Obj) (name : Str) : Option (Str × Answer) := do
  let src ← W.getsource fobj
  if startsAt src = true then return (name, .getimport fobj)
  else
    let encl ← W.outermost func
    let en ← W.getname encl
    let fn ← W.getname fobj
    let call := en ++ '(' :: fn
    let mod ← W.modname encl
    let lines ← W.file encl
    match lastCandidate en call lines with
    | some c => do
      let n ← boundName c
      return (n, .name mod n)
    | none => do
      let mod ← W.modname fobj
      let lines ← W.file fobj
      let c ← lastCandidate fn call lines
      let n ← boundName c
      return (n, .name mod n)

/-- the loop over the functions of the closure, source.py:845-872 -/
def overFunctions (W : World) (func : Obj) : List (Str × Obj) → Dict Str Answer → Option (Dict Str Answer)
  | [], d => some d
  | (name, x) :: l, d =>
    if W.isFunction x = false then overFunctions W func l d
    else do
      let (k, a) ← forFunction W func x name
      overFunctions W func l (d.set k a)

/-- a closure without functions, source.py:873-888 -/
def noFunctions (W : World) (func : Obj) : Option Answer :=
  match W.outermost func with
  | none => do
    let _ ← W.forced func
    return .getimport func
  | some encl =>
    if (W.modname encl).isNone || encl = func then do
      let _ ← W.forced func
      return .getimport func
    else do
      let mod ← W.modname encl
      let lines ← W.file encl
      let en ← W.getname encl
      let c ← lastCandidate en (en ++ ['(']) lines
      let n ← boundName c
      return .name mod n

/-- `_closuredimport(func, alias, builtin)`, source.py:839-889, and the single value `importable` takes from it, 959-964 -/
def closuredimport (W : World) (func : Obj) : Option Answer := do
  let d ← overFunctions W func (W.free func) []
  match d with
  | [] => noFunctions W func
  | [(_, a)] => return a
  | _ => none

end Verif.ClosuredImport
