import Verif.Spec.Refs
import Mathlib.Logic.Relation
/-! Specification for C02: references of an object, and those followed before the object is memoised. -/
namespace Verif.Core.Spec
open Verif.Core

/-- What is needed to create a tuple, a frozenset, a reduce-style object, or a cell. Lists, dicts and sets are created empty;
by-value functions and classes are not included, because dill notices when it meets one again while it is
being saved. -/
def creationRefs : SObj → List Val
  | .tuple es => es
  | .fset es => es
  | .node con _ _ _ => conRefs con
  | .cell (some v) => [v]
  | _ => []

def CreationRef (W : World) (x y : Addr) : Prop := .ref y ∈ creationRefs (W.H x)

/-- no reference cycle consists of creation-time references only -/
def NoCreationCycle (W : World) : Prop := ∀ x, ¬ Relation.TransGen (CreationRef W) x x

/-- a finite set of addresses closed under references: all objects reachable from its members -/
def Closed (W : World) (dom : List Addr) : Prop := ∀ x ∈ dom, ∀ y, .ref y ∈ refs (W.H x) → y ∈ dom

/-- `x` refers to `y`, whenever -/
def Refers (W : World) (x y : Addr) : Prop := .ref y ∈ refs (W.H x)

/-- no object other than a cell is needed, even indirectly, by what has to exist before it can be created -/
def NoKnot (W : World) (dom : List Addr) : Prop :=
  ∀ x ∈ dom, (∀ k, W.H x ≠ .cell k) → ∀ y, CreationRef W x y → ¬ Relation.ReflTransGen (Refers W) y x

end Verif.Core.Spec
