import Verif.Spec.Refs
/-! Specification of "the loaded graph is a copy of the pickled graph" for C01, C03, C04, independent of the
pickler and its memo. -/
namespace Verif.Core.Spec
open Verif.Core

/-- `obj x = some t`: the loaded object `t` is the copy of the source object `x`.
`globs f = some t`: the loaded dict `t` is the copied globals of the function `f`. -/
structure Corr where
  obj : Addr → Option Nat
  globs : Addr → Option Nat

/-- atoms are copied as themselves, objects as the corresponding object; a function or class needed for its own creation may
have become a reference to its name instead, and is then not copied at all -/
def CopyVal (W : World) (φ : Corr) (v : Val) (tv : TVal) : Prop :=
  match v with
  | .atom a => tv = .atom a
  | .ref x => match W.H x with
    | .leaf a => tv = .atom a
    | _ => (∃ t, φ.obj x = some t ∧ tv = .ref t) ∨
      (Circular W x ∧ φ.obj x = none ∧ ∃ a, W.byName x = some a ∧ tv = .atom a)

/-- same length, and related element by element -/
def Pointwise {α β : Type} (R : α → β → Prop) (as : List α) (bs : List β) : Prop :=
  as.length = bs.length ∧ ∀ (i : Nat) a b, as[i]? = some a → bs[i]? = some b → R a b

def CopyVals (W : World) (φ : Corr) : List Val → List TVal → Prop := Pointwise (CopyVal W φ)

/-- entries of a dict or of a `__dict__`, in order -/
def CopyEntries (W : World) (φ : Corr) : List (Val × Val) → List (TVal × TVal) → Prop :=
  Pointwise fun e te => CopyVal W φ e.1 te.1 ∧ CopyVal W φ e.2 te.2

/-- `o` is a copy of the source object at `x`; the list items of an object that is reachable from its own constructor
arguments may be there several times -/
def CopyObj (W : World) (φ : Corr) (x : Addr) (o : TObj) : Prop :=
  match W.H x, o with
  | .tuple es, .tuple ts => CopyVals W φ es ts
  | .fset es, .fset ts => CopyVals W φ es ts
  | .node con lits dits st, .node tcon l d a s =>
    (match con, tcon with
      | .list, .list => True
      | .dict, .dict => True
      | .set, .set => True
      | .red f as, .red f' as' => CopyVal W φ f f' ∧ CopyVals W φ as as'
      | .newobj c as, .newobj c' as' => CopyVal W φ c c' ∧ CopyVals W φ as as'
      | _, _ => False) ∧
    (∃ n, CopyVals W φ (times (n + 1) lits) l ∧ (¬ SelfMade W x → n = 0)) ∧ CopyEntries W φ dits d ∧
    (match st with
      | none => a = [] ∧ s = none
      | some (.opaque v) => a = [] ∧ ∃ tv, s = some tv ∧ CopyVal W φ v tv
      | some (.attrs es) => CopyEntries W φ es a ∧ s = none)
  | .cell none, .cell c => c = none
  | .cell (some v), .cell c => ∃ tv, c = some tv ∧ CopyVal W φ v tv
  | .func code g name df cl attrs slots, .func code' g' name' df' cl' attrs' slots' =>
    CopyVal W φ code code' ∧
    (match g with
      | .byRef v => CopyVal W φ v g'
      | .copied _ _ => ∃ t, φ.globs x = some t ∧ g' = .ref t) ∧
    CopyVal W φ name name' ∧ CopyVal W φ df df' ∧ CopyVal W φ cl cl' ∧
    CopyEntries W φ attrs attrs' ∧ CopyEntries W φ slots slots'
  | .cls mt name bases dict qual, .cls mt' name' bases' dict' qual' =>
    CopyVal W φ mt mt' ∧ CopyVal W φ name name' ∧ CopyVal W φ bases bases' ∧ CopyEntries W φ dict dict' ∧
    ∃ tq, qual' = some tq ∧ CopyVal W φ qual tq
  | _, _ => False

/-- `es` are complete copied globals of the function `f`: every entry of the copy is there, and nothing but
entries of the source and `__builtins__`. -/
def CopyGlobals (W : World) (φ : Corr) (f : Addr) (es : List (TVal × TVal)) : Prop :=
  match W.H f with
  | .func _ (.copied init copy) _ _ _ _ _ =>
    (∀ e ∈ copy, ∃ tk tv, CopyVal W φ e.1 tk ∧ CopyVal W φ e.2 tv ∧ lookupD es tk = some tv) ∧
    (∀ te ∈ es, te = (.atom aBuiltins, .atom aBuiltinsVal) ∨
      ∃ e ∈ init ++ copy, CopyVal W φ e.1 te.1 ∧ CopyVal W φ e.2 te.2)
  | _ => False

/-- The loaded value `tv` in `heap` is an isomorphic copy of the graph reachable from `root`: the
correspondence is injective, covers the root, and every object it covers is copied completely, its parts being
covered too. -/
structure IsCopy (W : World) (root : Val) (tv : TVal) (heap : List TObj) (φ : Corr) : Prop where
  root : CopyVal W φ root tv
  inj : ∀ x y t, φ.obj x = some t → φ.obj y = some t → x = y
  globsInj : ∀ f g t, φ.globs f = some t → φ.globs g = some t → f = g
  apart : ∀ x f t, φ.obj x = some t → φ.globs f ≠ some t
  objs : ∀ x t, φ.obj x = some t → ∃ o, heap[t]? = some o ∧ CopyObj W φ x o
  globs : ∀ f t, φ.globs f = some t → (∃ co i c n d cl a s, W.H f = .func co (.copied i c) n d cl a s) →
    ∃ es, heap[t]? = some (.node .dict [] es [] none) ∧ CopyGlobals W φ f es

/-! ### access paths -/

/-- One step from an object to a part of it; `glob k` is the value of the copied global named `k`. -/
inductive Sel where
  | item (n : Nat) | key (n : Nat) | val (n : Nat) | state | attrKey (n : Nat) | attrVal (n : Nat)
  | slotKey (n : Nat) | slotVal (n : Nat) | callee | arg (n : Nat) | contents | code | globRef | glob (k : Atom)
  | name | defaults | closure | metatype | bases | qualname

/-- a value with its leaf looked through: an atom or an object with identity -/
inductive Node (α : Type) where
  | atom (a : Atom)
  | obj (x : α)
  deriving DecidableEq

def node (W : World) : Val → Node Addr
  | .atom a => .atom a
  | .ref x => match W.H x with
    | .leaf a => .atom a
    | _ => .obj x

def tnode : TVal → Node Nat
  | .atom a => .atom a
  | .ref t => .obj t

/-- value bound to the name `k` -/
def lookupGlob (W : World) (k : Atom) : List (Val × Val) → Option Val
  | [] => none
  | (k', v) :: es => if node W k' = .atom k then some v else lookupGlob W k es

/-- a part of a source object -/
def child (W : World) : SObj → Sel → Option Val
  | .tuple es, .item n => es[n]?
  | .fset es, .item n => es[n]?
  | .node _ lits _ _, .item n => lits[n]?
  | .node _ _ dits _, .key n => dits[n]?.map (·.1)
  | .node _ _ dits _, .val n => dits[n]?.map (·.2)
  | .node _ _ _ (some (.opaque v)), .state => some v
  | .node _ _ _ (some (.attrs es)), .attrKey n => es[n]?.map (·.1)
  | .node _ _ _ (some (.attrs es)), .attrVal n => es[n]?.map (·.2)
  | .node (.red f _) _ _ _, .callee => some f
  | .node (.red _ as) _ _ _, .arg n => as[n]?
  | .node (.newobj c _) _ _ _, .callee => some c
  | .node (.newobj _ as) _ _ _, .arg n => as[n]?
  | .cell c, .contents => c
  | .func c _ _ _ _ _ _, .code => some c
  | .func _ (.byRef v) _ _ _ _ _, .globRef => some v
  | .func _ (.copied _ copy) _ _ _ _ _, .glob k => lookupGlob W k copy
  | .func _ _ n _ _ _ _, .name => some n
  | .func _ _ _ d _ _ _, .defaults => some d
  | .func _ _ _ _ c _ _, .closure => some c
  | .func _ _ _ _ _ a _, .attrKey n => a[n]?.map (·.1)
  | .func _ _ _ _ _ a _, .attrVal n => a[n]?.map (·.2)
  | .func _ _ _ _ _ _ s, .slotKey n => s[n]?.map (·.1)
  | .func _ _ _ _ _ _ s, .slotVal n => s[n]?.map (·.2)
  | .cls mt _ _ _ _, .metatype => some mt
  | .cls _ n _ _ _, .name => some n
  | .cls _ _ b _ _, .bases => some b
  | .cls _ _ _ d _, .key n => d[n]?.map (·.1)
  | .cls _ _ _ d _, .val n => d[n]?.map (·.2)
  | .cls _ _ _ _ q, .qualname => some q
  | _, _ => none

/-- the same part of a loaded object -/
def tchild (heap : List TObj) : TObj → Sel → Option TVal
  | .tuple es, .item n => es[n]?
  | .fset es, .item n => es[n]?
  | .node _ lits _ _ _, .item n => lits[n]?
  | .node _ _ dits _ _, .key n => dits[n]?.map (·.1)
  | .node _ _ dits _ _, .val n => dits[n]?.map (·.2)
  | .node _ _ _ _ st, .state => st
  | .node _ _ _ es _, .attrKey n => es[n]?.map (·.1)
  | .node _ _ _ es _, .attrVal n => es[n]?.map (·.2)
  | .node (.red f _) _ _ _ _, .callee => some f
  | .node (.red _ as) _ _ _ _, .arg n => as[n]?
  | .node (.newobj c _) _ _ _ _, .callee => some c
  | .node (.newobj _ as) _ _ _ _, .arg n => as[n]?
  | .cell c, .contents => c
  | .func c _ _ _ _ _ _, .code => some c
  | .func _ (.atom a) _ _ _ _ _, .globRef => some (.atom a)
  | .func _ (.ref t) _ _ _ _ _, .glob k => match heap[t]? with
    | some (.node .dict _ es _ _) => lookupD es (.atom k)
    | _ => none
  | .func _ _ n _ _ _ _, .name => some n
  | .func _ _ _ d _ _ _, .defaults => some d
  | .func _ _ _ _ c _ _, .closure => some c
  | .func _ _ _ _ _ a _, .attrKey n => a[n]?.map (·.1)
  | .func _ _ _ _ _ a _, .attrVal n => a[n]?.map (·.2)
  | .func _ _ _ _ _ _ s, .slotKey n => s[n]?.map (·.1)
  | .func _ _ _ _ _ _ s, .slotVal n => s[n]?.map (·.2)
  | .cls mt _ _ _ _, .metatype => some mt
  | .cls _ n _ _ _, .name => some n
  | .cls _ _ b _ _, .bases => some b
  | .cls _ _ _ d _, .key n => d[n]?.map (·.1)
  | .cls _ _ _ d _, .val n => d[n]?.map (·.2)
  | .cls _ _ _ _ q, .qualname => q
  | _, _ => none

/-- following a path in the source graph -/
def follow (W : World) : Val → List Sel → Option Val
  | v, [] => some v
  | .atom _, _ :: _ => none
  | .ref x, s :: ss => (child W (W.H x) s).bind fun v => follow W v ss

/-- following a path in the loaded graph -/
def tfollow (heap : List TObj) : TVal → List Sel → Option TVal
  | v, [] => some v
  | .atom _, _ :: _ => none
  | .ref t, s :: ss => (heap[t]?.bind fun o => tchild heap o s).bind fun v => tfollow heap v ss

/-- somewhere along the path there is a function or class needed for its own creation, and the loaded graph has a reference to
its name there -/
def ByName (W : World) (root : Val) (heap : List TObj) (tv : TVal) (path : List Sel) : Prop :=
  ∃ pre suf x a, path = pre ++ suf ∧ follow W root pre = some (.ref x) ∧ Circular W x ∧ W.byName x = some a ∧
    tfollow heap tv pre = some (.atom a)

inductive Kind where
  | atom (a : Atom) | tuple | frozenset | list | dict | set | reduced | instance | cell | function | cls | unpicklable
  deriving DecidableEq

/-- kind of a source value; for atoms the atom itself -/
def kind (W : World) : Val → Kind
  | .atom a => .atom a
  | .ref x => match W.H x with
    | .leaf a => .atom a
    | .tuple _ => .tuple
    | .fset _ => .frozenset
    | .node .list _ _ _ => .list
    | .node .dict _ _ _ => .dict
    | .node .set _ _ _ => .set
    | .node (.red _ _) _ _ _ => .reduced
    | .node (.newobj _ _) _ _ _ => .instance
    | .cell _ => .cell
    | .func .. => .function
    | .cls .. => .cls
    | .bad => .unpicklable

def tkind (heap : List TObj) : TVal → Option Kind
  | .atom a => some (.atom a)
  | .ref t => heap[t]?.map fun
    | .tuple _ => .tuple
    | .fset _ => .frozenset
    | .node .list .. => .list
    | .node .dict .. => .dict
    | .node .set .. => .set
    | .node (.red _ _) .. => .reduced
    | .node (.newobj _ _) .. => .instance
    | .cell _ => .cell
    | .func .. => .function
    | .cls .. => .cls

def isGlob : Sel → Bool
  | .glob _ => true
  | _ => false

end Verif.Core.Spec
