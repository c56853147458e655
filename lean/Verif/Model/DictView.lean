/-! Model of saving dictionary views and mapping proxies, /repo/dill/_dill.py:935-950, 1271-1323, 1601-1617.
Mappings are objects with an identity (an address) and entries in insertion order; keys are compared by `=`.
What `|` returns follows CPython's binary_op1: the right operand's `__ror__` goes first only if its class is a
subclass of the left operand's class; otherwise `dict.__or__` (or OrderedDict's, defaultdict's) returns a new
mapping. Loading a reduction calls the saved function on the loaded argument (C01); `ck`, `cv` are what copying
does to the keys and values themselves. -/
namespace Verif.DictView

/-- exact `dict`, exact `OrderedDict`, any other subclass of dict -/
inductive Cls where
  | dict | odict | sub (name : String)
  deriving DecidableEq, Repr

structure Mapping (K V : Type) where
  cls : Cls
  entries : List (K × V)

inductive View where
  | keys | values | items
  deriving DecidableEq, Repr

/-- a view object: `mapping.keys()` etc.; `fn` is the class whose method made its type (dict_keys vs odict_keys) -/
structure ViewObj where
  kind : View
  mapping : Nat
  deriving DecidableEq, Repr

inductive Elem (K V : Type) where
  | key (k : K) | value (v : V) | item (k : K) (v : V)
  deriving DecidableEq, Repr

variable {K V : Type} [DecidableEq K]

/-- iterating over a view of a mapping with these entries -/
def elems (kind : View) (es : List (K × V)) : List (Elem K V) :=
  match kind with
  | .keys => es.map fun e => .key e.1
  | .values => es.map fun e => .value e.2
  | .items => es.map fun e => .item e.1 e.2

/-- `d[k] = v` -/
def assign (d : List (K × V)) (k : K) (v : V) : List (K × V) :=
  match d with
  | [] => [(k, v)]
  | (k', v') :: d => if k' = k then (k', v) :: d else (k', v') :: assign d k v

/-- `dict(pairs)` / `dict.update` -/
def fromPairs (d : List (K × V)) : List (K × V) → List (K × V)
  | [] => d
  | (k, v) :: es => fromPairs (assign d k v) es

/-- An argument of a saved reduction: an existing object, or a mapping made while saving or loading. -/
inductive Arg (K V : Type) where
  | obj (a : Nat)
  | fresh (m : Mapping K V)

/-- `mappingproxy(m) | _dictproxy_helper_instance`, lines 935-950: `__ror__` returns the mapping itself, but is
asked first only for an exact dict; otherwise `m | {}` is a new mapping with the entries of `m`: an OrderedDict
for an OrderedDict, for other classes a dict or whatever the class's own `__or__` builds. -/
def proxyOr (H : Nat → Mapping K V) (a : Nat) : Arg K V :=
  match (H a).cls with
  | .dict => .obj a
  | c => .fresh ⟨c, fromPairs [] (H a).entries⟩

/-- What the second strategy stores when keys, values or items of a view are collected (lines 1291-1312). Values
of `dict.fromkeys` are None, keys of `dict(enumerate(..))` are numbers; `none'` and `num` stand for these. -/
structure Consts (K V : Type) where
  none' : V
  num : Nat → K

/-- `enumerate(xs)` -/
def enum (c : Consts K V) : Nat → List V → List (K × V)
  | _, [] => []
  | n, v :: vs => (c.num n, v) :: enum c (n + 1) vs

def saveOther (c : Consts K V) (H : Nat → Mapping K V) (v : ViewObj) (cls : Cls) : Arg K V :=
  match v.kind with
  | .keys => .fresh ⟨cls, fromPairs [] ((H v.mapping).entries.map fun e => (e.1, c.none'))⟩
  | .values => .fresh ⟨cls, fromPairs [] (enum c 0 ((H v.mapping).entries.map (·.2)))⟩
  | .items => .fresh ⟨cls, fromPairs [] (H v.mapping).entries⟩

/-- which class's views are used (the loop of lines 1314-1323): only dict and OrderedDict are registered; views of
other subclasses have dict's view types -/
def viewCls : Cls → Cls
  | .odict => .odict
  | _ => .dict

/-- the saved reduction `(cls.keys, (mapping,))`; `trick` is MAPPING_PROXY_TRICK on Python >= 3.10 -/
def saveView (trick : Bool) (c : Consts K V) (H : Nat → Mapping K V) (v : ViewObj) : View × Arg K V :=
  match trick with
  | true => (v.kind, proxyOr H v.mapping)
  | false => (v.kind, saveOther c H v (viewCls (H v.mapping).cls))

/-- `save_dictproxy`, lines 1601-1617: the argument of `mappingproxy` -/
def saveProxy (trick : Bool) (H : Nat → Mapping K V) (a : Nat) : Arg K V :=
  match trick with
  | true => proxyOr H a
  | false => .fresh ⟨.dict, fromPairs [] (H a).entries⟩

/-- the loaded heap: object `a` is copied to address `a`; a fresh mapping gets an address of its own -/
def loadArg (ck : K → K) (cv : V → V) (H : Nat → Mapping K V) (new : Nat) (arg : Arg K V) :
    Nat × (Nat → Mapping K V) :=
  let copied : Nat → Mapping K V := fun a =>
    ⟨(H a).cls, fromPairs [] ((H a).entries.map fun e => (ck e.1, cv e.2))⟩
  match arg with
  | .obj a => (a, copied)
  | .fresh m => (new, fun a => if a = new then
      ⟨m.cls, fromPairs [] (m.entries.map fun e => (ck e.1, cv e.2))⟩ else copied a)

/-- `dill.copy` of a view together with everything else in the pickle: the loaded view and heap -/
def copyView (trick : Bool) (c : Consts K V) (ck : K → K) (cv : V → V) (H : Nat → Mapping K V) (new : Nat)
    (v : ViewObj) : ViewObj × (Nat → Mapping K V) :=
  let (kind, arg) := saveView trick c H v
  let (a, H') := loadArg ck cv H new arg
  (⟨kind, a⟩, H')

/-- the mapping a loaded mappingproxy shows -/
def copyProxy (trick : Bool) (ck : K → K) (cv : V → V) (H : Nat → Mapping K V) (new : Nat) (a : Nat) :
    Nat × (Nat → Mapping K V) :=
  loadArg ck cv H new (saveProxy trick H a)

end Verif.DictView
