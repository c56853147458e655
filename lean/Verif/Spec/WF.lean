import Verif.Spec.Refs
/-! What C01-C05 assume of a source heap: facts true of every Python object graph the model describes. -/
namespace Verif.Core

/-- A value with leaves looked through: an atom, or an object with identity. -/
def res (W : World) (v : Val) : Atom ⊕ Addr :=
  match v with
  | .atom a => .inl a
  | .ref x => match W.H x with
    | .leaf a => .inl a
    | _ => .inr x

/-- no two keys are the same -/
def KNodup (W : World) (es : List (Val × Val)) : Prop := (es.map fun e => res W e.1).Nodup

/-- the value is an atom or an object found by name -/
def isAtomV (W : World) (v : Val) : Prop := ∃ a, res W v = .inl a

/-- functions with an effect of their own in the model of the unpickler -/
def special (a : Atom) : Prop :=
  a = aCreateFunction ∨ a = aCreateCell ∨ a = aCreateType ∨ a = aSetattr ∨ a = aDelattr

def WFSt (W : World) : Option St → Prop
  | some (.attrs es) => KNodup W es
  | _ => True

/-- what the model assumes of a source object -/
def WFObj (W : World) : SObj → Prop
  | .leaf _ => True
  | .tuple es => es ≠ []
  | .fset _ => True
  | .node .list _ dits st => dits = [] ∧ st = none
  | .node .set _ dits st => dits = [] ∧ st = none
  | .node .dict lits dits st => lits = [] ∧ st = none ∧ KNodup W dits
  | .node (.red f as) lits dits st =>
    KNodup W dits ∧ WFSt W st ∧ ∀ a, special a → res W f ≠ .inl a
  | .node (.newobj c as) lits dits st => KNodup W dits ∧ WFSt W st
  | .cell none => True
  | .cell (some v) => res W v ≠ .inl aCellEmpty
  | .func _ g _ _ _ attrs slots =>
    (match g with
      | .byRef v => ∃ a, res W v = .inl a
      | .copied init copy => init ≠ [] ∧ KNodup W init ∧ KNodup W copy) ∧ KNodup W attrs ∧ KNodup W slots
  | .cls _ _ _ dict _ => KNodup W dict
  | .bad => True

structure WF (W : World) : Prop where
  createFunction : res W W.createFunction = .inl aCreateFunction
  createCell : res W W.createCell = .inl aCreateCell
  createType : res W W.createType = .inl aCreateType
  cellEmpty : res W W.cellEmpty = .inl aCellEmpty
  setattr : res W W.setattr = .inl aSetattr
  delattr : res W W.delattr = .inl aDelattr
  contents : res W W.contents = .inl aContents
  qualname : res W W.qualname = .inl aQualname
  obj : ∀ x, WFObj W (W.H x)
  /-- the name under which an object saved by value can be found is not one of dill's or of the builtins -/
  nameOwn : ∀ x a, W.byName x = some a → ∃ m n, a = .glob m n ∧ m ≠ "dill._dill" ∧ m ≠ "builtins" ∧ m ≠ "__builtin__"
  /-- a name leads to one object: nothing in the graph that is saved by name has the name of an object saved by value, and no two
  objects saved by value have the same name -/
  nameOne : ∀ x a, W.byName x = some a → ∀ y, W.H y ≠ .leaf a ∧ .atom a ∉ Spec.refs (W.H y)
  nameInj : ∀ x y a, W.byName x = some a → W.byName y = some a → x = y

/-- the value is not the bare name of an object that is saved by value -/
def Plain (W : World) (v : Val) : Prop := ∀ x a, W.byName x = some a → v ≠ .atom a

end Verif.Core
