import Verif.Model.Core
import Verif.Model.PyStr
/-! Model of weak references and proxies, /repo/dill/_dill.py:964-978, 1630-1687.

`save_weakref` (1669-1677) stores `_create_weakref(obj())`, `save_weakproxy` (1679-1687) stores
`_create_weakproxy(refobj, callable(obj))`: in the pickled graph they are objects re-created by a function of one
or two arguments (Model/Core: `SObj.node (.red f args)`). This file models what the created references refer to
once loading is over, and how `save_weakproxy` finds the referent. Callbacks are not pickled. -/
namespace Verif.Weak
open Verif.Core PyStr

def aCreateWeakref : Atom := .glob "dill._dill" "_create_weakref"
def aCreateWeakproxy : Atom := .glob "dill._dill" "_create_weakproxy"

/-- a loaded object made by `_create_weakref` or `_create_weakproxy` -/
def isWeak : TObj → Bool
  | .node (.red (.atom f) _) _ _ _ _ => f == aCreateWeakref || f == aCreateWeakproxy
  | _ => false

/-- the parts an object keeps alive: items, keys, values, attributes, cell contents, what a function or class
holds. `TObj` constructors as in Model/Core; a globals dict is an object of the heap. -/
def holds : TObj → List TVal
  | .tuple es => es
  | .fset es => es
  | .node con lits dits attrs st =>
    (match con with
      | .red f as => f :: as
      | .newobj c as => c :: as
      | _ => []) ++ lits ++ dits.flatMap (fun e => [e.1, e.2]) ++ attrs.flatMap (fun e => [e.1, e.2]) ++ st.toList
  | .cell c => c.toList
  | .func code globs name defaults closure attrs slots =>
    [code, globs, name, defaults, closure] ++ attrs.flatMap (fun e => [e.1, e.2]) ++
      slots.flatMap (fun e => [e.1, e.2])
  | .cls mt name bases dict qual => [mt, name, bases] ++ dict.flatMap (fun e => [e.1, e.2]) ++ qual.toList

/-- `Kept heap root v`: `v` survives when loading is over and only `root` is held: it is the root, or a part of an
object that survives and is not a weak reference. (Arguments of a constructor are counted as held by the object it
made: that is what `isWeak` objects do not do.) Atoms, including objects found by name, always survive. -/
inductive Kept (heap : List TObj) (root : TVal) : TVal → Prop where
  | root : Kept heap root root
  | atom (a) : Kept heap root (.atom a)
  | part (t o v) : Kept heap root (.ref t) → heap[t]? = some o → isWeak o = false → v ∈ holds o → Kept heap root v

/-- What calling the loaded reference gives (`r = none`: dead), lines 964-978: `_create_weakref(None)` makes a
reference to a temporary, dead at once; otherwise the referent is the argument, if it survives. -/
def Deref (heap : List TObj) (root : TVal) (o : TObj) (r : Option TVal) : Prop :=
  match o with
  | .node (.red _ (arg :: _)) _ _ _ _ =>
    (arg = .atom .none ∧ r = none) ∨
    (arg ≠ .atom .none ∧ Kept heap root arg ∧ r = some arg) ∨
    (arg ≠ .atom .none ∧ ¬ Kept heap root arg ∧ r = none)
  | _ => False

/-! ### finding the referent of a proxy -/

/-- value of a hexadecimal digit -/
def hexVal (c : Char) : Option Nat :=
  if '0' ≤ c ∧ c ≤ '9' then some (c.toNat - '0'.toNat)
  else if 'a' ≤ c ∧ c ≤ 'f' then some (c.toNat - 'a'.toNat + 10)
  else if 'A' ≤ c ∧ c ≤ 'F' then some (c.toNat - 'A'.toNat + 10)
  else none

/-- digits, with single underscores allowed between them -/
def hexDigits : Bool → Nat → List Char → Option Nat
  | pend, acc, [] => if pend then none else some acc
  | pend, acc, c :: s =>
    if c = '_' then (if pend then none else hexDigits true acc s)
    else match hexVal c with
      | some d => hexDigits false (16 * acc + d) s
      | none => none

def stripSpaces (s : List Char) : List Char := ((s.dropWhile isSpace).reverse.dropWhile isSpace).reverse

def sign : List Char → Bool × List Char
  | '-' :: s => (true, s)
  | '+' :: s => (false, s)
  | s => (false, s)

/-- an underscore may follow the `0x` -/
def stripUnderscore : List Char → List Char
  | '_' :: s => s
  | s => s

def hexBody : List Char → Option Nat
  | '0' :: 'x' :: s => hexDigits true 0 (stripUnderscore s)
  | '0' :: 'X' :: s => hexDigits true 0 (stripUnderscore s)
  | s => hexDigits true 0 s

/-- `int(s, base=16)`: surrounding white space, a sign, and `0x` are allowed; `none` is ValueError. A minus sign
gives a negative number, which is no address: it is represented by `some none`. -/
def int16 (s : List Char) : Option (Option Nat) :=
  (hexBody (sign (stripSpaces s)).2).map fun n => if (sign (stripSpaces s)).1 ∧ n ≠ 0 then none else some n

/-- `"%p"` -/
def hexStr (n : Nat) : List Char := '0' :: 'x' :: Nat.toDigits 16 n

/-- the text after the last `' at '`, closing brackets removed -/
def tailAddr (s : List Char) : List Char := ((split " at ".toList (rstrip '>' s)).getLast?).getD []

inductive Err where
  | referenceError
  | valueError
  deriving DecidableEq, Repr

/-- a proxy as `_proxy_helper` sees it on CPython: its own id, its repr, and `str(proxy)`, that is `str` of the
referent; `none` for ReferenceError -/
structure Proxy where
  self : Nat
  repr : List Char
  str : Option (List Char)

/-- `_proxy_helper`, lines 1630-1652 (CPython branch); `idNone` is `id(None)` -/
def proxyHelper (idNone : Nat) (p : Proxy) : Except Err (Option Nat) :=
  match p.str with
  | none => .ok (some idNone)
  | some s =>
    if s = p.repr then .ok (some p.self)
    else match int16 (tailAddr s) with
      | some a => .ok a
      | none => match int16 (tailAddr p.repr) with
        | some a => .ok a
        | none => .error .valueError

/-- `_locate_object`, lines 1654-1668: None, True, False, then the objects known to the garbage collector -/
def locateObject (special tracked : List Nat) (address : Option Nat) : Except Err Nat :=
  match address with
  | none => .error .referenceError
  | some a => if a ∈ special ++ tracked then .ok a else .error .referenceError

/-- `repr(proxy)`: "<weakproxy at %p to %s at %p>" (CPython < 3.13) -/
def proxyRepr (self : Nat) (ty : List Char) (target : Nat) : List Char :=
  "<weakproxy at ".toList ++ hexStr self ++ " to ".toList ++ ty ++ " at ".toList ++ hexStr target ++ ">".toList

/-- the object `save_weakproxy` stores -/
def proxyReferent (idNone : Nat) (special tracked : List Nat) (p : Proxy) : Except Err Nat :=
  match proxyHelper idNone p with
  | .error e => .error e
  | .ok a => locateObject special tracked a

end Verif.Weak
