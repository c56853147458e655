import Verif.Model.Dict
/-! Model of the class creation protocol around `save_type` and the load of a class by value, /repo/dill/_dill.py:601-602 (`_create_type`),
1107-1109 (`_setitems`) and 1853-1907: the metaclass and the `__init_subclass__` hooks are run again, on the saved dictionary and
without the keywords of the class statement.  What is left out of the saved dictionary is the subject of Verif.Model.TypeDict; here the
dictionary is what is saved of it. -/
namespace Verif.ClassHooks

variable {V : Type}

inductive Exc where
  | typeError | attributeError
  deriving DecidableEq, Repr

/-- what a hook assigns to an attribute: something it makes, or one of its keyword parameters (`default = none`: a required one) -/
inductive Src (V : Type) where
  | made (v : V)
  | param (k : String) (default : Option V)

/-- `__init_subclass__` of a base, or `__new__`/`__init__` of the metaclass: `cls.a = ...` for each pair (CPython, no dill code) -/
abbrev Hook (V : Type) := List (String × Src V)

/-- the metaclass's own demand on the namespace: `type` takes any dictionary, `EnumMeta.__new__` asks for the attribute `_member_names`
of the one its `__prepare__` makes (enum.py:515) -/
inductive Meta where
  | plain | enum
  deriving DecidableEq

/-- the namespace given to the metaclass -/
inductive Namespace (V : Type) where
  | dict (d : Dict String V)
  | enumDict (d : Dict String V) (members : List String)

/-- the value of a parameter; `none`: missing -/
def Src.value (kw : Dict String V) : Src V → Option V
  | .made v => some v
  | .param k d => (kw.get k).or d

/-- a call of a hook: all parameters are bound before the body runs -/
def runHook (kw : Dict String V) (h : Hook V) (d : Dict String V) : Except Exc (Dict String V) :=
  if h.all fun p => (p.2.value kw).isSome then
    .ok (h.foldl (fun d p => match p.2.value kw with | some v => d.set p.1 v | none => d) d)
  else .error .typeError

def runHooks (kw : Dict String V) : List (Hook V) → Dict String V → Except Exc (Dict String V)
  | [], d => .ok d
  | h :: hs, d =>
    match runHook kw h d with
    | .ok d' => runHooks kw hs d'
    | .error e => .error e

/-- `metaclass(name, bases, namespace, **kw)`: the class dictionary -/
def callMeta (m : Meta) (hooks : List (Hook V)) (kw : Dict String V) : Namespace V → Except Exc (Dict String V)
  | .dict d => match m with
    | .plain => runHooks kw hooks d
    | .enum => .error .attributeError
  | .enumDict d _ => runHooks kw hooks d

/-- `metaclass.__prepare__(name, bases)` -/
def prepare : Meta → Namespace V
  | .plain => .dict []
  | .enum => .enumDict [] []

/-- `namespace[k] = v`; `_EnumDict` notes the member names (names that are no members are noted as well: a simplification that no
theorem looks at) -/
def Namespace.set : Namespace V → String → V → Namespace V
  | .dict d, k, v => .dict (d.set k v)
  | .enumDict d ms, k, v => .enumDict (d.set k v) (ms ++ [k])

/-- the class statement (or types.new_class): prepare, execute the body, call the metaclass -/
def classStatement (m : Meta) (hooks : List (Hook V)) (kw : Dict String V) (body : List (String × V)) : Except Exc (Dict String V) :=
  callMeta m hooks kw (body.foldl (fun n p => n.set p.1 p.2) (prepare m))

/-- a class -/
structure Cls (V : Type) where
  kind : Meta
  hooks : List (Hook V)
  dict : Dict String V
  /-- `hasattr(cls, '__orig_bases__')` -/
  generic : Bool

/-- the load of a class saved by value: `_create_type(type(obj), name, bases, _dict)`, _dill.py:601-602 and 1893-1895, or, with
`__orig_bases__`, `new_class(name, bases, {'metaclass': type(obj)}, partial(_setitems, source=_dict))`, 1107-1109 and 1897-1907 -/
def load (c : Cls V) : Except Exc (Dict String V) :=
  if c.generic then classStatement c.kind c.hooks [] c.dict
  else callMeta c.kind c.hooks [] (.dict c.dict)

end Verif.ClassHooks
