import Verif.Model.Modules
import Verif.Model.PyStr
/-
Model of dill's small savers and the functions their pickles call:
`save_singleton` / `_eval_repr` /repo/dill/_dill.py:1624-1631, 976-977; `save_lru_cache` 1484-1500;
`save_capsule` / `_create_capsule` 2110-2118, 1005-1031; `save_wrapper_descriptor` / `_getattr` 1535-1545, 1034-1052;
`save_property` 1934-1940; `save_classmethod` 1942-1959; `save_generic_alias` / `_create_typing_tuple` 1341-1356, 797-802.
The CPython constructors they call are written out (`range.__repr__`, `functools.lru_cache`, `property.__init__`,
`property.getter`, `typing.Tuple[...]`) or parameters.
-/
namespace Verif.Reducers
open Verif.Modules (Str Obj rsplitDot)

inductive Exc where
  | valueError | syntaxError | nameError | typeError | unpickling
  deriving DecidableEq, Repr

/-! ### range, Ellipsis, NotImplemented -/

structure Rng where
  start : Int
  stop : Int
  step : Int
  deriving DecidableEq, Repr

/-- `repr(n)` of an int; integers with more than `lim` digits raise ValueError (`sys.get_int_max_str_digits()`,
`none` for no limit: CPython before 3.10.7). -/
def reprInt (lim : Option Nat) (n : Int) : Except Exc Str :=
  let digits := PyStr.str10 n.natAbs
  match lim with
  | some l => if l < digits.length then .error .valueError else .ok (if n < 0 then '-' :: digits else digits)
  | none => .ok (if n < 0 then '-' :: digits else digits)

/-- `range.__repr__` (rangeobject.c:range_repr): the step is left out when it is 1. -/
def reprRange (lim : Option Nat) (r : Rng) : Except Exc Str :=
  match reprInt lim r.start, reprInt lim r.stop, reprInt lim r.step with
  | .ok a, .ok b, .ok c =>
    .ok ("range(".toList ++ a ++ ", ".toList ++ b ++ (if r.step = 1 then [] else ", ".toList ++ c) ++ [')'])
  | _, _, _ => .error .valueError

inductive Single where
  | range (r : Rng)
  | ellipsis
  | notImplemented
  deriving DecidableEq, Repr

/-- `save_singleton`: the text that is stored, _dill.py:1624-1631. -/
def reprSingle (lim : Option Nat) : Single → Except Exc Str
  | .range r => reprRange lim r
  | .ellipsis => .ok "Ellipsis".toList
  | .notImplemented => .ok "NotImplemented".toList

/-- a decimal literal, as the parser reads it -/
def evalNat (lim : Option Nat) (digits : Str) : Except Exc Nat :=
  match PyStr.int10 digits with
  | none => .error .syntaxError
  | some n =>
    match lim with
    | some l => if l < digits.length then .error .syntaxError else .ok n
    | none => .ok n

/-- an int literal with an optional minus sign -/
def evalInt (lim : Option Nat) : Str → Except Exc Int
  | '-' :: t =>
    match evalNat lim t with
    | .ok n => .ok (- (n : Int))
    | .error e => .error e
  | t =>
    match evalNat lim t with
    | .ok n => .ok (n : Int)
    | .error e => .error e

/-- the call `range(a, b[, c])` -/
def mkRange : List Int → Except Exc Single
  | [a, b] => .ok (.range ⟨a, b, 1⟩)
  | [a, b, c] => if c = 0 then .error .valueError else .ok (.range ⟨a, b, c⟩)
  | _ => .error .typeError

/-- the arguments between the parentheses -/
def evalArgs (lim : Option Nat) : List Str → Except Exc (List Int)
  | [] => .ok []
  | s :: ss =>
    match evalInt lim s, evalArgs lim ss with
    | .ok n, .ok ns => .ok (n :: ns)
    | .error e, _ => .error e
    | _, .error e => .error e

/-- `_eval_repr(repr_str)`, _dill.py:976-977: `eval` on the texts that occur (names, and calls of range with int
literals); any other text counts as a SyntaxError. -/
def evalRepr (lim : Option Nat) (s : Str) : Except Exc Single :=
  if s = "Ellipsis".toList then .ok .ellipsis
  else if s = "NotImplemented".toList then .ok .notImplemented
  else if "range(".toList.isPrefixOf s ∧ [')'].isSuffixOf s then
    match evalArgs lim (PyStr.split ", ".toList ((s.drop 6).dropLast)) with
    | .ok ns => mkRange ns
    | .error e => .error e
  else .error .syntaxError

/-! ### functools.lru_cache -/

/-- an lru_cache wrapper: the wrapped function, `maxsize` (None: unbounded), `typed`, the number of cached results. -/
structure Lru where
  func : Obj
  maxsize : Option Nat
  typed : Bool
  cached : Nat
  deriving DecidableEq, Repr

/-- what is stored: the wrapper to call and its argument -/
inductive LruStored where
  /-- `lru_cache` itself: `lru_cache(func)` -/
  | plain (func : Obj)
  /-- `Reduce(lru_cache, args)`: `lru_cache(*args)(func)` -/
  | params (maxsize : Option Nat) (typed : Option Bool) (func : Obj)
  deriving DecidableEq, Repr

/-- `lru_cache.__defaults__` -/
def lruDefaults : Option Nat × Bool := (some 128, false)

/-- `save_lru_cache`, _dill.py:1484-1500; `old39` is `OLD39` (Python before 3.9). -/
def saveLru (old39 : Bool) (x : Lru) : LruStored :=
  match old39 with
  | true => .params x.maxsize none x.func      -- a 1-tuple never equals the 2-tuple of defaults
  | false =>
    if (x.maxsize, x.typed) ≠ lruDefaults then .params x.maxsize (some x.typed) x.func else .plain x.func

/-- `functools.lru_cache`: a new, empty cache -/
def loadLru : LruStored → Lru
  | .plain f => ⟨f, some 128, false, 0⟩
  | .params m t f => ⟨f, m, t.getD false, 0⟩

/-! ### PyCapsule -/

structure CapEnv where
  /-- sys.modules after a successful import of that dotted name; `none`: ImportError -/
  mods : Str → Option Obj
  attr : Obj → Str → Option Obj
  /-- `PyCapsule_IsValid(o, name)` -/
  valid : Obj → Str → Bool

/-- `__import__(n)` without a from-list: imports `n` but returns its top-level package. -/
def importTop (E : CapEnv) (n : Str) : Option Obj :=
  match E.mods n with
  | none => none
  | some _ => E.mods (n.takeWhile (· != '.'))

/-- `s.rsplit('.', i)` -/
def rsplit : Nat → Str → List Str
  | 0, s => [s]
  | i + 1, s =>
    match rsplitDot s with
    | none => [s]
    | some (a, b) => rsplit i a ++ [b]

/-- the `getattr` loop, _dill.py:1016-1017; `none` is AttributeError -/
def walk (E : CapEnv) : Obj → List Str → Option Obj
  | o, [] => some o
  | o, a :: as =>
    match E.attr o a with
    | none => none
    | some o' => walk E o' as

/-- the loop over `i`, _dill.py:1009-1020: `some` when it reaches `break`, `none` when it ends or raises.  `m` is the local
variable `module`, unbound at first (then `obj = module` raises, and the outer `except Exception` ends the search). -/
def search (E : CapEnv) (uname : Str) : List Nat → Option Obj → Option Obj
  | [], _ => none
  | i :: _, m =>
    let names := rsplit i uname
    let m' := match importTop E (names.headD []) with
      | some x => some x
      | none => m
    match m' with
    | none => none
    | some x => walk E x names.tail      -- found: `break`; AttributeError: the outer except, no further iteration

structure Capsule where
  pointer : Nat
  name : Str
  context : Nat
  destructor : Nat
  deriving DecidableEq, Repr

inductive CapResult where
  | existing (o : Obj)
  | new (c : Capsule)
  deriving DecidableEq, Repr

/-- `_create_capsule(pointer, name, context, destructor)`, _dill.py:1005-1031.  (Names are ASCII; a name of None takes the
last branch in the code as a name without dots does here.) -/
def createCapsule (E : CapEnv) (c : Capsule) : Except Exc CapResult :=
  match search E c.name ((List.range (c.name.count '.')).map (· + 1)) none with
  | some o => if E.valid o c.name then .ok (.existing o) else .error .unpickling
  | none => .ok (.new c)

/-! ### method, member, getset and slot descriptors -/

structure DescEnv where
  /-- the `__dict__` of a class -/
  dict : Obj → Str → Option Obj
  /-- `getattr(cls, name)` -/
  getattr : Obj → Str → Option Obj
  /-- `eval(text)` of a class expression in the namespace of dill._dill; `none`: it raises -/
  evalName : Str → Option Obj
  /-- `_dictproxy_helper`, used for `__weakref__` and `__dict__` from Python 3.15 on -/
  helper : Obj
  v315 : Bool

/-- `repr` of a descriptor (descrobject.c: `<method 'append' of 'list' objects>`): the kind word, the name, the type's name -/
def descRepr (word name tpname : Str) : Str :=
  "<".toList ++ word ++ " '".toList ++ name ++ "' of '".toList ++ tpname ++ "' objects>".toList

/-- `_getattr(objclass, name, repr_str)`, _dill.py:1034-1052; `none`: it raises.  The evaluated text is
`attr+'.__dict__["'+name+'"]'`; names contain no quotes or backslashes. -/
def getattr_ (E : DescEnv) (objclass : Obj) (name repr : Str) : Option Obj :=
  let direct : Option Obj :=
    match (PyStr.split ['\''] repr)[3]? with
    | none => none
    | some a =>
      match E.evalName a with
      | none => none
      | some c => E.dict c name
  match direct with
  | some d => some d
  | none =>
    let own := if E.v315 ∧ (name = "__weakref__".toList ∨ name = "__dict__".toList) then E.dict E.helper name
      else E.dict objclass name
    match own with
    | some d => some d
    | none => E.getattr objclass name

/-! ### property, staticmethod, classmethod -/

/-- a property object: its functions, its doc string and CPython's flag that the doc string was taken from the getter -/
structure Prop_ where
  fget : Option Obj
  fset : Option Obj
  fdel : Option Obj
  doc : Option Str
  getterDoc : Bool
  deriving DecidableEq, Repr

/-- `property(fget, fset, fdel, doc)` (descrobject.c:property_init_impl); `docOf` is the `__doc__` of a function -/
def mkProperty (docOf : Obj → Option Str) (fget fset fdel : Option Obj) (doc : Option Str) : Prop_ :=
  match doc with
  | some d => ⟨fget, fset, fdel, some d, false⟩
  | none =>
    match fget with
    | none => ⟨fget, fset, fdel, none, false⟩
    | some g =>
      match docOf g with
      | some d => ⟨fget, fset, fdel, some d, true⟩
      | none => ⟨fget, fset, fdel, none, false⟩

/-- `p.getter(g)` (descrobject.c:property_copy) -/
def propGetter (docOf : Obj → Option Str) (p : Prop_) (g : Obj) : Prop_ :=
  mkProperty docOf (some g) p.fset p.fdel (if p.getterDoc then none else p.doc)

/-- `save_property` and its load, _dill.py:1934-1940 -/
def loadProperty (docOf : Obj → Option Str) (p : Prop_) : Prop_ := mkProperty docOf p.fget p.fset p.fdel p.doc

inductive WrapKind where
  | static | cls | abstractStatic | abstractCls
  deriving DecidableEq, Repr

/-- a staticmethod or classmethod object: its type, function and `__dict__` -/
structure Wrap where
  kind : WrapKind
  func : Obj
  attrs : Dict Str Obj
  deriving DecidableEq, Repr

/-- `staticmethod(f)`, …: `initial f` is what the constructor puts into `__dict__` -/
def mkWrap (initial : Obj → Dict Str Obj) (k : WrapKind) (f : Obj) : Wrap := ⟨k, f, initial f⟩

/-- `save_classmethod` and its load, _dill.py:1942-1959: `type(obj)(obj.__func__)` -/
def loadWrap (initial : Obj → Dict Str Obj) (x : Wrap) : Wrap := mkWrap initial x.kind x.func

/-! ### typing.Tuple[...] -/

/-- an element of `__args__`: a type or the empty tuple -/
inductive TArg where
  | type (o : Obj)
  | emptyTuple
  deriving DecidableEq, Repr

/-- `typing.Tuple[()]`: its `__args__` are `((),)` before Python 3.11 and `()` from then on; `new` is 3.11 or later -/
def tupleEmpty (new : Bool) : List TArg := match new with
  | true => []
  | false => [.emptyTuple]

/-- `save_generic_alias` for a Tuple alias (`__reduce__` gives a tuple): the stored form, _dill.py:1341-1356 -/
inductive GaStored where
  /-- Ga1 -/
  | create (args : List TArg)
  /-- Ga2: `operator.getitem(typing.Tuple, args)` -/
  | getitem (args : List TArg)
  deriving DecidableEq, Repr

def saveTuple (args : List TArg) : GaStored :=
  if args = [] ∨ args = [.emptyTuple] then .create args else .getitem args

/-- `_create_typing_tuple(argz)`, _dill.py:797-802, and `typing.Tuple[args]` for a non-empty tuple of types -/
def loadTuple (new : Bool) : GaStored → List TArg
  | .create args =>
    if args = [] then []                                  -- Tuple[()].copy_with(())
    else if args = [.emptyTuple] then tupleEmpty new       -- Tuple[()]
    else args
  | .getitem args => args

end Verif.Reducers
