import Verif.Spec.Core
import Verif.Spec.WF
import Verif.Spec.CoreTerm
/-! Specification for C112: what was loaded, seen as the objects of a program that pickles them again. -/
namespace Verif.Core.Spec
open Verif.Core

def toVal : TVal → Val
  | .atom a => .atom a
  | .ref t => .ref t

def toEntries (es : List (TVal × TVal)) : List (Val × Val) := es.map fun e => (toVal e.1, toVal e.2)

def foundCon : TCon → Con
  | .list => .list
  | .dict => .dict
  | .set => .set
  | .red f as => .red (toVal f) (as.map toVal)
  | .newobj c as => .newobj (toVal c) (as.map toVal)

def foundState : Option TVal → List (TVal × TVal) → Option St
  | some u, _ => some (.opaque (toVal u))
  | none, [] => none
  | none, es => some (.attrs (toEntries es))

/-- the globals that are pickled first, `{'__name__': obj.__module__}`; the module of a loaded function is what its globals have
under that name (a module that is not a string is left out) -/
def foundName (es : List (TVal × TVal)) : Val := match lookupD es (.atom (.str "__name__")) with
  | some (.atom a) => .atom a
  | _ => .atom .none

/-- globals of a loaded function: those of a module, by name, or a dict of its own, all of which is copied again -/
def foundGlobs (heap : List TObj) : TVal → Globs
  | .atom a => .byRef (.atom a)
  | .ref t => match heap[t]? with
    | some (.node _ _ es _ _) => .copied [(.atom (.str "__name__"), foundName es)] (toEntries es)
    | _ => .byRef (.ref t)

/-- a loaded object as a source object: the state given to `__setstate__` is the state, or else the entries of `__dict__` -/
def found (heap : List TObj) : TObj → SObj
  | .tuple ts => .tuple (ts.map toVal)
  | .fset ts => .fset (ts.map toVal)
  | .node con l d a s => .node (foundCon con) (l.map toVal) (toEntries d) (foundState s a)
  | .cell c => .cell (c.map toVal)
  | .func c g n df cl a s => .func (toVal c) (foundGlobs heap g) (toVal n) (toVal df) (toVal cl) (toEntries a) (toEntries s)
  | .cls mt n b d q => .cls (toVal mt) (toVal n) (toVal b) (toEntries d) (toVal (q.getD (.atom .none)))

/-- the loaded objects that can be reached from the loaded value -/
inductive Found (heap : List TObj) (tv : TVal) : Nat → Prop
  | here {t} : tv = .ref t → Found heap tv t
  | part {t t' o} : Found heap tv t → heap[t]? = some o → .ref t' ∈ refs (found heap o) → Found heap tv t'

open Classical in
/-- The loaded value and all that can be reached from it, in a program that pickles it again.  None of it is found under its
name: what is there is the original, or nothing. -/
noncomputable def again (heap : List TObj) (tv : TVal) : World where
  H t := if Found heap tv t then (heap[t]?.map (found heap)).getD (.leaf .none) else .leaf .none
  createFunction := .atom aCreateFunction
  createCell := .atom aCreateCell
  createType := .atom aCreateType
  cellEmpty := .atom aCellEmpty
  setattr := .atom aSetattr
  delattr := .atom aDelattr
  contents := .atom aContents
  qualname := .atom aQualname
  byName _ := none

/-- one round trip: from a program with the value `a.2` to a program that has what was loaded -/
def Hop (a b : World × Val) : Prop :=
  ∃ n ops tv heap, dumps a.1 n a.2 = .ok ops ∧ load ops = some (tv, heap) ∧ b = (again heap tv, toVal tv)

/-- A finite graph of objects that can be pickled, none of which is needed for its own creation. -/
structure Regular (W : World) (root : Val) : Prop where
  wf : WF W
  finite : ∃ dom, Closed W dom ∧ ∀ x, root = .ref x → x ∈ dom
  noCycle : NoCreationCycle W
  ok : ∀ x, Reaches W root x → W.H x ≠ .bad ∧ ¬ Circular W x

end Verif.Core.Spec
