import Verif.Model.Dict
/-! Model of classes pickled by value, /repo/dill/_dill.py:1762-1784 (`_get_typedict_type`), 1857-1911 (the T2 part of
`save_type`), `_create_type` and `types.new_class`, together with what CPython's `type()` does: C3
method resolution order, slots, and the entries `type()` adds to a class dict by itself. Not modelled: metaclasses
other than `type`, ABC registries, `__init_subclass__` and `__set_name__` hooks, which run again at load. -/
namespace Verif.TypeDict

abbrev CId := Nat

/-- an entry of `__orig_bases__`: a class, or an alias such as `Generic[T]` with what its `__mro_entries__` gives -/
inductive OB where
  | cls (c : CId)
  | alias (a : Nat) (entries : List CId)
  deriving DecidableEq

/-- values in class dicts, with object identity as equality. `qn`: whether the object has a `__qualname__`
(functions, classes, builtin wrappers do; strings, numbers, properties and classmethods are taken as given). -/
inductive Val where
  | obj (a : Nat) (qn : Bool)
  | none_
  | slotD (owner : CId) (name : String)     -- member descriptor made for a slot
  | dictD (owner : CId)                     -- the `__dict__` descriptor `type()` makes
  | weakD (owner : CId)                     -- the `__weakref__` descriptor `type()` makes
  | slots (l : List String)                 -- value of `__slots__`: a sequence of strings
  | slotsStr (s : String)                   -- value of `__slots__`: one string
  | orig (l : List OB)                      -- value of `__orig_bases__`
  deriving DecidableEq

/-- `hasattr(value, '__qualname__')` -/
def Val.hasQualname : Val → Bool
  | .obj _ q => q
  | .slotD _ _ => true
  | .dictD _ => true
  | .weakD _ => true
  | _ => false

/-- `L`: whatever CPython keeps of the instance layout of a class (base size, dict and weaklist offsets) -/
structure Cls (L : Type) where
  name : String
  bases : List CId
  mro : List CId
  dict : Dict String Val
  lay : L

/-- all classes, in order of creation; a class's id is its position -/
abbrev World (L : Type) := List (Cls L)

inductive Err where
  | valueError | typeError
  deriving DecidableEq

/-! ### CPython -/

/-- the first head that is in no tail (CPython typeobject.c, pmerge) -/
def candidate (all : List (List CId)) : List (List CId) → Option CId
  | [] => none
  | [] :: rest => candidate all rest
  | (h :: _) :: rest => if all.all fun s => ! s.tail.contains h then some h else candidate all rest

def dropHead (h : CId) (s : List CId) : List CId := if s.head? = some h then s.tail else s

/-- C3 merge; the fuel given by `computeMro` is the number of elements, one is consumed by each step -/
def merge : Nat → List (List CId) → Option (List CId)
  | 0, seqs => if seqs.all (·.isEmpty) then some [] else none
  | n + 1, seqs =>
    if seqs.all (·.isEmpty) then some []
    else match candidate seqs seqs with
      | none => none
      | some h => match merge n (seqs.map (dropHead h)) with
        | none => none
        | some l => some (h :: l)

def total (seqs : List (List CId)) : Nat := (seqs.map (·.length)).sum

variable {L : Type}

def mroOf (W : World L) (c : CId) : List CId := match W[c]? with | some k => k.mro | none => []
def dictOf (W : World L) (c : CId) : Dict String Val := match W[c]? with | some k => k.dict | none => []
def basesOf (W : World L) (c : CId) : List CId := match W[c]? with | some k => k.bases | none => []
def nameOf (W : World L) (c : CId) : String := match W[c]? with | some k => k.name | none => ""

/-- the method resolution order of a new class (typeobject.c, mro_implementation, with its fast path for one base) -/
def computeMro (W : World L) (c : CId) (bases : List CId) : Option (List CId) :=
  match bases with
  | [b] => some (c :: mroOf W b)
  | _ =>
    if ¬ bases.Nodup then none
    else match merge (total (bases.map (mroOf W) ++ [bases])) (bases.map (mroOf W) ++ [bases]) with
      | none => none
      | some l => some (c :: l)

/-- private name mangling (_Py_Mangle) -/
def mangle (cls s : String) : String :=
  if s.toList.take 2 = ['_', '_'] ∧ ¬ s.toList.reverse.take 2 = ['_', '_'] ∧ ¬ cls.toList.all (· == '_') then
    "_" ++ String.ofList (cls.toList.dropWhile (· == '_')) ++ s
  else s

/-- the names listed in `__slots__` -/
def slotNames (d : Dict String Val) : Option (List String) :=
  match d.get "__slots__" with
  | some (.slots l) => some l
  | some (.slotsStr s) => some [s]
  | _ => none

def setDefault (d : Dict String Val) (n : String) (v : Val) : Dict String Val :=
  match d.get n with
  | some _ => d
  | none => d.set n v

def addIf (b : Bool) (d : Dict String Val) (n : String) (v : Val) : Dict String Val :=
  match b with
  | true => setDefault d n v
  | false => d

/-- the slots that become member descriptors -/
def memberSlots (d : Dict String Val) : List String :=
  ((slotNames d).getD []).filter fun s => s ≠ "__dict__" ∧ s ≠ "__weakref__"

/-- the entries `type()` puts in the new class dict by itself -/
def fillDict (c : CId) (name : String) (addDict addWeak : Bool) (ns : Dict String Val) : Dict String Val :=
  let d := ns.del "__qualname__"
  let d := setDefault d "__module__" (.obj 0 false)
  let d := (memberSlots ns).foldl (fun d s => d.set (mangle name s) (.slotD c (mangle name s))) d
  let d := addIf addDict d "__dict__" (.dictD c)
  let d := addIf addWeak d "__weakref__" (.weakD c)
  let d := setDefault d "__doc__" .none_
  addIf (d.get "__eq__").isSome d "__hash__" .none_

/-- `type(name, bases, ns)`. `layout` stands for CPython's best-base and slot layout computation: from the layouts of
the bases and the slot names it gives the layout of the class and whether it gets a `__dict__` and a `__weakref__`
descriptor of its own, or fails. -/
def typeNew (layout : List L → Option (List String) → Option (L × Bool × Bool)) (W : World L) (name : String)
    (bases : List CId) (ns : Dict String Val) : Except Err (World L) :=
  match bases.mapM (fun b => W[b]?) with
  | none => .error .typeError
  | some bs =>
    match computeMro W W.length bases with
    | none => .error .typeError
    | some mro =>
      match layout (bs.map (·.lay)) (slotNames ns) with
      | none => .error .typeError
      | some (lay, ad, aw) =>
        if (memberSlots ns).any fun s => (ns.get (mangle name s)).isSome then .error .valueError
        else .ok (W ++ [⟨name, bases, mro, fillDict W.length name ad aw ns, lay⟩])

/-- attribute lookup on a class: the first class in its method resolution order that has the name -/
def lookup (W : World L) (c : CId) (n : String) : Option Val :=
  (mroOf W c).findSome? fun k => (dictOf W k).get n

/-- `types.resolve_bases` -/
def resolve : List OB → List CId
  | [] => []
  | .cls c :: l => c :: resolve l
  | .alias _ es :: l => es ++ resolve l

def hasAlias (l : List OB) : Bool := l.any fun b => match b with | .alias _ _ => true | .cls _ => false

/-- `types.new_class(name, orig_bases, {'metaclass': type}, exec_body)`, where exec_body puts `ns` in the namespace -/
def newClass (layout : List L → Option (List String) → Option (L × Bool × Bool)) (W : World L) (name : String)
    (ob : List OB) (ns : Dict String Val) : Except Err (World L) :=
  typeNew layout W name (resolve ob)
    (match hasAlias ob with | true => ns.set "__orig_bases__" (.orig ob) | false => ns)

/-! ### dill -/

/-- the `inherited_dict` of `_get_typedict_type`, _dill.py:1764-1769 -/
def inheritedDict (W : World L) (bases : List CId) : Dict String Val :=
  match bases with
  | [b] => dictOf W b
  | bs => bs.reverse.foldl (fun d b => d.update (dictOf W b)) []

/-- the names put in `to_remove`, _dill.py:1770-1777 -/
def toRemove (inh : Dict String Val) (d : Dict String Val) : List String :=
  d.filterMap fun p =>
    match inh.get p.1 with
    | some bv => if p.2 = bv ∧ p.2.hasQualname = true then some p.1 else none
    | none => none

def popAll (d : Dict String Val) (ns : List String) : Dict String Val := ns.foldl (fun d n => d.del n) d

/-- `_get_typedict_type`, _dill.py:1762-1784 -/
def getTypedict (W : World L) (c : CId) : Dict String Val :=
  let d := dictOf W c
  let d := popAll d (toRemove (inheritedDict W (basesOf W c)) d)
  (d.del "__dict__").del "__weakref__"

/-- lines 1866-1877: the names of the slots are dropped too -/
def savedDict (W : World L) (c : CId) : Dict String Val :=
  let d := getTypedict W c
  popAll d ((slotNames d).getD [])

/-- copying of values: classes inside are replaced by their copies -/
def OB.map (r : CId → CId) : OB → OB
  | .cls c => .cls (r c)
  | .alias a es => .alias a (es.map r)

def Val.map (r : CId → CId) : Val → Val
  | .slotD o n => .slotD (r o) n
  | .dictD o => .dictD (r o)
  | .weakD o => .weakD (r o)
  | .orig l => .orig (l.map (OB.map r))
  | v => v

def mapDict (r : CId → CId) (d : Dict String Val) : Dict String Val := d.map fun p => (p.1, p.2.map r)

/-- what loading one class saved by T2 does, lines 1892-1911: `W` the classes at dump time, `W'` at load time -/
def loadClass (layout : List L → Option (List String) → Option (L × Bool × Bool)) (r : CId → CId) (W W' : World L)
    (c : CId) : Except Err (World L) :=
  match lookup W c "__orig_bases__" with
  | none => typeNew layout W' (nameOf W c) ((basesOf W c).map r) (mapDict r (savedDict W c))
  | some (.orig l) => newClass layout W' (nameOf W c) (l.map (OB.map r)) (mapDict r (savedDict W c))
  | some _ => .error .typeError

def loadAll (layout : List L → Option (List String) → Option (L × Bool × Bool)) (r : CId → CId) (W : World L) :
    List CId → World L → Except Err (World L)
  | [], W' => .ok W'
  | c :: cs, W' =>
    match loadClass layout r W W' c with
    | .error e => .error e
    | .ok W'' => loadAll layout r W cs W''

/-- the copies of the classes in `order` come after the existing classes; other classes are kept by reference -/
def copyOf (W : World L) (order : List CId) (c : CId) : CId :=
  if c ∈ order then W.length + order.idxOf c else c

/-- `loads(dumps(...))` of the classes in `order` (bases first, as the pickle stream has them) in the same process -/
def roundtrip (layout : List L → Option (List String) → Option (L × Bool × Bool)) (W : World L) (order : List CId) :
    Except Err (World L) :=
  loadAll layout (copyOf W order) W order W

end Verif.TypeDict
