import Verif.Model.Source
/-
Model of `_closuredsource`, /repo/dill/source.py:892-929, and of the stitching in `importable`, 969-1003, as a recursion over
the functions a closure refers to.  Objects are numbers; what `getsource`, `globalvars`, `freevars` and the import branch give
is a parameter (their own models: Source, GlobalVars, Detect, GetImport).
-/
namespace Verif.Closured
open Source Indent

abbrev Obj := Nat

/-- the arguments of a call of `getsource` -/
structure Opts where
  lstrip : Bool := false
  enclosing : Bool := false
  force : Bool := false
  deriving DecidableEq, Repr

/-- what the functions called give for each object; `none` is any exception -/
structure World where
  /-- `freevars(func)`, a dict in the order of the cells -/
  free : Obj → List (Str × Obj)
  isFunction : Obj → Bool
  fromMain : Obj → Bool
  isBuiltin : Obj → Bool
  /-- `getsource(obj, alias, ...)` -/
  getsource : Obj → Str → Opts → Option Str
  /-- the import branch of `importable`, source.py:956-964, for the object and alias -/
  imp : Obj → Str → Bool → Option Str
  /-- the same when the variable `obj` holds the dict of the global variables, see C65 -/
  impGlobals : Obj → Str → Bool → Option Str
  /-- `globalvars(obj)` -/
  globalvars : Obj → Option (List (Str × Obj))

/-- `src.lstrip().startswith('@')`, source.py:912 -/
def decorated (src : Str) : Bool := ['@'].isPrefixOf (lstripWs src)

/-- one function among the free variables, source.py:909-920: the pair of texts -/
def funcPair (W : World) (rec : Obj → Str → Option Bool → Option Str) (func : Obj) (alias name : Str) (fobj : Obj) :
    Option (Str × Str) := do
  let src ← W.getsource fobj alias {}
  if decorated src = false then
    let src ← rec fobj name none
    let org ← W.getsource func alias { lstrip := true }
    return (src, org)
  else
    let org ← W.getsource func [] { enclosing := true }
    let src ← rec fobj alias (some true)
    return (org, src)

/-- the loop over the free variables, source.py:903-920: the values left in `free_vars`, and `func_vars` -/
def splitVars (W : World) (rec : Obj → Str → Option Bool → Option Str) (func : Obj) (alias : Str) :
    List (Str × Obj) → Option (List Str × List (Str × Str))
  | [] => some ([], [])
  | (name, x) :: l =>
    if W.isFunction x = false then do
      let t ← W.getsource x name { force := true }
      let (vs, fs) ← splitVars W rec func alias l
      return (t :: vs, fs)
    else do
      let p ← funcPair W rec func alias name x
      let (vs, fs) ← splitVars W rec func alias l
      return (vs, p :: fs)

/-- `_closuredsource(func, alias)`, source.py:892-929: the entry for None, and the others in order -/
def closuredsource (W : World) (rec : Obj → Str → Option Bool → Option Str) (func : Obj) (alias : Str) :
    Option ((Str × Option Str) × List (Str × Str)) := do
  let (vs, fs) ← splitVars W rec func alias (W.free func)
  let src := vs.flatten
  if fs = [] then
    let org ← W.getsource func alias { force := true, lstrip := true }
    return ((src, some org), fs)
  else return ((src, none), fs)

/-- `_code_stitcher`, source.py:973-979 -/
def stitcher (a : Str) (b : Option Str) : Str :=
  let b := b.getD []
  if a ≠ [] ∧ b ≠ [] then joinNL [a, b]
  else if a ≠ [] then a
  else if b ≠ [] then b
  else []

/-- source.py:969-994: the text of the free variables and of the functions -/
def stitched (W : World) (rec : Obj → Str → Option Bool → Option Str) (func : Obj) (alias : Str) : Option Str := do
  let (free, fs) ← closuredsource W rec func alias
  let first := stitcher free.1 free.2
  let rest := (fs.map fun p => stitcher p.1 (some p.2)).filter (· ≠ [])
  return joinNL ((if first = [] then [] else [first]) ++ rest)

/-- source.py:998: the sources of the global variables -/
def globalSources (W : World) : List (Str × Obj) → Option (List Str)
  | [] => some []
  | (name, x) :: l =>
    if W.isBuiltin x = true then globalSources W l
    else do
      let t ← W.getsource x name { force := true }
      let ts ← globalSources W l
      return t :: ts

/-- `importable(obj, alias, source, builtin)`, source.py:931-1010, with at most `n` nested calls (Python's recursion limit;
the RecursionError is an exception like the others) -/
def importable (W : World) : Nat → Obj → Str → Option Bool → Bool → Option Str
  | 0, _, _, _, _ => none
  | n + 1, o, alias, source, builtin =>
    Source.importable
      { fromMain := W.fromMain o
        isBuiltin := W.isBuiltin o
        imp := fun t => match t with
          | .obj => W.imp o alias builtin
          | .globals => W.impGlobals o alias builtin
        src := fun t => match t with
          | .obj => stitched W (fun x a s => importable W n x a s true) o alias
          | .globals => none
        gvars := (W.globalvars o).isSome
        gsrc := (W.globalvars o).bind fun l => (globalSources W l).map joinNL }
      source builtin

end Verif.Closured
