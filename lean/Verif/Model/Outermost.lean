import Verif.Model.Source
/-
Model of `outermost`, /repo/dill/detect.py:32-58, and `referrednested`, 86-114 (with `nestedcode`, 59-70, where Python's equality
of code objects matters).  Objects and code objects are numbers.
-/
namespace Verif.Outermost
open Source

abbrev Obj := Nat

/-- what `outermost` asks; `none` is an exception -/
structure World where
  /-- `func.__func__.__globals__` or `func.__globals__` as a list of items; `none`: neither a method nor a function -/
  globals : Obj → Option (List (Str × Obj))
  /-- `getsourcelines(obj, enclosing=True)`: lines and number -/
  enclosing : Obj → Option (List Str × Nat)
  /-- `getsourcelines(obj)` -/
  source : Obj → Option (List Str × Nat)

/-- the loop over the candidates, detect.py:51-57: `block` is `(lines, lnum)`, `none` for `([], None)` -/
def firstMatch (W : World) (block : Option (List Str × Nat)) : List (Str × Obj) → Option Obj
  | [] => none
  | (_, o) :: l =>
    match W.source o, block with
    | some b, some b' => if b = b' then some o else firstMatch W block l
    | _, _ => firstMatch W block l

/-- `outermost(func)`, detect.py:32-58 -/
def outermost (W : World) (f : Obj) : Option Obj :=
  match W.globals f with
  | none => none
  | some g =>
    let block := W.enclosing f
    let code := match block with
      | some (lines, _) => lines.flatten
      | none => []
    firstMatch W block (g.filter fun p => contains p.1 code)

/-! ### referrednested -/

mutual
/-- a code object: its identity, what Python's `==` compares (before 3.11.2 not the columns), the code objects among its
constants -/
inductive Code where
  | mk (id key : Nat) (kids : Kids)
inductive Kids where
  | nil
  | cons (c : Code) (rest : Kids)
end

def Code.id : Code → Nat | .mk i _ _ => i
def Code.key : Code → Nat | .mk _ k _ => k
def Code.kids : Code → Kids | .mk _ _ k => k

/-- an element of a Python set of code objects: (identity, what `==` compares) -/
abbrev Elem := Nat × Nat

/-- `s.add(c)`: an equal element stays -/
def addKey (s : List Elem) (c : Elem) : List Elem := if c.2 ∈ s.map Prod.snd then s else s ++ [c]

mutual
/-- `nestedcode(code, recurse)`, detect.py:59-70 -/
def nested (recurse : Bool) : Code → List Elem
  | .mk _ _ kids => nestedKids recurse kids []
/-- the loop over the constants -/
def nestedKids (recurse : Bool) : Kids → List Elem → List Elem
  | .nil, s => s
  | .cons c rest, s =>
    let s := addKey s (c.id, c.key)
    let s := if recurse then (nested recurse c).foldl addKey s else s
    nestedKids recurse rest s
end

/-- what `gc.get_referrers` gives for a code object, and the attributes looked at (`none`: no such attribute) -/
structure Heap where
  referrers : Nat → List Obj
  /-- `getattr(getattr(obj, '__func__', None), '__code__', None)` -/
  methodCode : Obj → Option Nat
  /-- `getattr(obj, '__code__', None)` -/
  code : Obj → Option Nat
  /-- `getattr(obj, 'f_code', None)` -/
  frameCode : Obj → Option Nat
  /-- the object is a code object, with this identity -/
  isCode : Obj → Option Nat

/-- one object, detect.py:102-109 -/
def refersTo (H : Heap) (co : Nat) (o : Obj) : Bool :=
  if H.methodCode o = some co then true
  else if H.code o = some co then true
  else if H.frameCode o = some co then true
  else H.isCode o = some co

/-- `referrednested(func, recurse)`, detect.py:86-114, for the code object of the function; a set, so without repetition -/
def referrednested (H : Heap) (recurse : Bool) (c : Code) : List Obj :=
  (nested recurse c).flatMap fun e => (H.referrers e.1).filter (refersTo H e.1)

end Verif.Outermost
