/-! Model of `save_super`, /repo/dill/_dill.py:1502-1507, with the parts of CPython it rests on (Objects/typeobject.c: `super_getattro`,
`super_init`, `supercheck`): the reducer reads `obj.__thisclass__` and `obj.__self__` with ordinary attribute access, and
`super(type, obj)` computes the class to start from anew.

Objects are numbers; classes are objects with a method resolution order.  Metaclasses with an own `mro`, and classes changed by the code of
descriptors while it runs, are not modelled. -/
namespace Verif.Super

abbrev Obj := Nat

/-- the objects there are -/
structure World where
  /-- `o.__mro__`, for classes -/
  mro : Obj → Option (List Obj)
  /-- the entry in a class's own `__dict__` -/
  dict : Obj → String → Option Obj
  /-- `type(o)` -/
  typeOf : Obj → Obj
  /-- `o.__class__` -/
  clsAttr : Obj → Option Obj
  /-- `attr.__get__(instance, owner)`, or the attribute itself if it has no `__get__`; `none`: raises -/
  get : Obj → Option Obj → Obj → Option Obj
  /-- what else the type `super` itself and `object` define (`__init__`, `__doc__`, ...): found by name if no class has it -/
  rest : String → Option Obj

/-- a `super` object: `__thisclass__`, and, unless it is unbound, `__self__` and `__self_class__` -/
structure Sup where
  thisclass : Obj
  bound : Option (Obj × Obj)
  deriving DecidableEq, Repr

inductive Exc where
  | typeError
  | attributeError
  /-- raised by a descriptor -/
  | other
  deriving DecidableEq, Repr

/-- what an attribute of a `super` object is: an object, or None -/
abbrev Value := Option Obj

/-- the classes after `c` -/
def after (c : Obj) : List Obj → List Obj
  | [] => []
  | d :: ds => if d = c then ds else after c ds

/-- the first class that has the name in its `__dict__` -/
def firstWith (W : World) (name : String) : List Obj → Option Obj
  | [] => none
  | c :: cs => match W.dict c name with
    | some a => some a
    | none => firstWith W name cs

/-- the attribute in the classes after `__thisclass__` in the order of `__self_class__` -/
def found (W : World) (s : Sup) (name : String) : Option Obj :=
  match s.bound with
  | none => none
  | some (_, start) => match W.mro start with
    | none => none
    | some l => firstWith W name (after s.thisclass l)

/-- the attributes of the `super` object itself -/
def own (W : World) (s : Sup) (name : String) : Except Exc Value :=
  if name = "__thisclass__" then .ok (some s.thisclass)
  else if name = "__self__" then .ok (s.bound.map (·.1))
  else if name = "__self_class__" then .ok (s.bound.map (·.2))
  else match W.rest name with
    | some a => .ok (some a)
    | none => .error .attributeError

/-- `getattr(s, name)`: `super_getattro` -/
def read (W : World) (s : Sup) (name : String) : Except Exc Value :=
  if name = "__class__" then own W s name
  else
    match found W s name, s.bound with
    | some a, some (o, start) =>
      match W.get a (if o = start then none else some o) start with
      | some v => .ok (some v)
      | none => .error .other
    | _, _ => own W s name

/-- `issubclass(a, b)` by the method resolution order -/
def subtype (W : World) (a b : Obj) : Bool :=
  match W.mro a with
  | none => false
  | some l => l.contains b

/-- `supercheck` -/
def superCheck (W : World) (type obj : Obj) : Except Exc Obj :=
  if subtype W obj type then .ok obj
  else if subtype W (W.typeOf obj) type then .ok (W.typeOf obj)
  else match W.clsAttr obj with
    | some c => if c ≠ W.typeOf obj ∧ subtype W c type = true then .ok c else .error .typeError
    | none => .error .typeError

/-- `super(type, obj)`: `super_init` -/
def newSuper (W : World) (type obj : Value) : Except Exc Sup :=
  match type with
  | none => .error .typeError
  | some c =>
    match W.mro c with
    | none => .error .typeError
    | some _ =>
      match obj with
      | none => .ok ⟨c, none⟩
      | some o =>
        match superCheck W c o with
        | .ok start => .ok ⟨c, some (o, start)⟩
        | .error x => .error x

/-- `save_super`, _dill.py:1503-1507: the arguments of the call that is written -/
def saveSuper (W : World) (s : Sup) : Except Exc (Value × Value) :=
  match read W s "__thisclass__" with
  | .error x => .error x
  | .ok c =>
    match read W s "__self__" with
    | .error x => .error x
    | .ok o => .ok (c, o)

/-- loading: `super(*args)` -/
def loadSuper (W : World) (args : Value × Value) : Except Exc Sup := newSuper W args.1 args.2

end Verif.Super
