import Verif.Model.Core
/-! What an object refers to, and what can be reached from a value (for C01-C05). -/
namespace Verif.Core.Spec
open Verif.Core

def kvVals (es : List (Val × Val)) : List Val := es.flatMap fun e => [e.1, e.2]

def conRefs : Con → List Val
  | .list => []
  | .dict => []
  | .set => []
  | .red f as => f :: as
  | .newobj c as => c :: as

def stRefs : Option St → List Val
  | none => []
  | some (.opaque v) => [v]
  | some (.attrs es) => kvVals es

/-- everything an object refers to -/
def refs : SObj → List Val
  | .leaf _ => []
  | .tuple es => es
  | .fset es => es
  | .node con lits dits st => conRefs con ++ lits ++ kvVals dits ++ stRefs st
  | .cell none => []
  | .cell (some v) => [v]
  | .func code g name df cl attrs slots =>
    [code, name, df, cl] ++ (match g with
      | .byRef v => [v]
      | .copied init copy => kvVals init ++ kvVals copy) ++ kvVals attrs ++ kvVals slots
  | .cls mt name bases dict qual => [mt, name, bases, qual] ++ kvVals dict
  | .bad => []

/-- the object `x` can be reached from the value `v`, following any references -/
inductive Reaches (W : World) (v : Val) : Addr → Prop
  | here {x} : v = .ref x → Reaches W v x
  | step {x y} : Reaches W v x → .ref y ∈ refs (W.H x) → Reaches W v y

/-- An object with list items (an instance of a list subclass, a deque) that can be reached from what is needed to create it:
its class, the function that makes it or that function's arguments. -/
def SelfMade (W : World) (x : Addr) : Prop :=
  ∃ con lits dits st, W.H x = .node con lits dits st ∧ lits ≠ [] ∧ ∃ v ∈ conRefs con, Reaches W v x

/-- what must exist before a function or class can be created: code, name, defaults, closure, globals as far as they are
there from the start; metaclass, name, bases, class dict -/
def makeRefs : SObj → List Val
  | .func code g name df cl _ _ =>
    [code, name, df, cl] ++ (match g with
      | .byRef v => [v]
      | .copied init _ => kvVals init)
  | .cls mt name bases dict _ => [mt, name, bases] ++ kvVals dict
  | _ => []

/-- What is pickled at once when this object is pickled while the pickler is busy creating `x`: everything it refers to,
except that the contents of cells wait, and so does the copy of a function's globals that has `x` among its values. -/
def eagerRefs (x : Addr) : SObj → List Val
  | .cell _ => []
  | .func code (.copied init copy) name df cl attrs slots =>
    [code, name, df, cl] ++ (kvVals init ++ (if .ref x ∈ copy.map (·.2) then [] else kvVals copy)) ++ kvVals attrs ++
      kvVals slots
  | o => refs o

/-- the object `y` can be reached from the value `v` without following references that wait for `x` -/
inductive Eager (W : World) (x : Addr) (v : Val) : Addr → Prop
  | here {y} : v = .ref y → Eager W x v y
  | step {y z} : Eager W x v y → .ref z ∈ eagerRefs x (W.H y) → Eager W x v z

/-- A function or class that can be reached from what is needed to create it other than through a cell or through
globals that name it: it is one of its own defaults, a class attribute of itself, ... -/
def Circular (W : World) (x : Addr) : Prop := ∃ v ∈ makeRefs (W.H x), Eager W x v x

/-- a function pickled with a copy of its globals -/
def hasCopy : SObj → Prop
  | .func _ (.copied _ _) _ _ _ _ _ => True
  | _ => False

/-- the list, `n` times over -/
def times {α : Type} : Nat → List α → List α
  | 0, _ => []
  | n + 1, l => l ++ times n l

end Verif.Core.Spec
