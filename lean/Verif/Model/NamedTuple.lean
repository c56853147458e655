import Verif.Model.Dict
/-! Model of saving and re-creating namedtuple classes, /repo/dill/_dill.py:996-1002, 1057-1075 (the part reached
from there) and 1814-1830, with `collections.namedtuple(name, fields, defaults=..., module=...)`. -/
namespace Verif.NamedTuple

variable {V : Type}

/-- a namedtuple class: identity, name, module, fields, `_field_defaults` in order, and other attributes (methods
of a typing.NamedTuple class) -/
structure NT (V : Type) where
  name : String
  module : String
  fields : List String
  defaults : Dict String V
  extra : Dict String V
  deriving DecidableEq

/-- what an importable name may be bound to -/
inductive Obj (V : Type) where
  | cls (c : NT V)          -- a namedtuple class
  | other (n : Nat)         -- any other class, or a submodule
  | value (n : Nat)         -- neither a class nor a module
  deriving DecidableEq

inductive Err where
  | valueError | typeError
  deriving DecidableEq

/-- `collections.namedtuple`: field names must be distinct; defaults go to the last fields -/
def namedtuple (name : String) (fields : List String) (defaults : Option (List V)) (module : String) :
    Except Err (NT V) :=
  if ¬ fields.Nodup then .error .valueError
  else match defaults with
    | none => .ok ⟨name, module, fields, [], []⟩
    | some ds =>
      if ds.length > fields.length then .error .typeError
      else .ok ⟨name, module, fields, ((fields.reverse.zip ds.reverse).reverse : List (String × V)), []⟩

/-- the modules of the loading interpreter: what `getattr(__import__(module), name)` finds -/
abbrev Env (V : Type) := String → String → Option (Obj V)

/-- `_import_module(modulename + '.' + name, safe=True)`, _dill.py:1057-1075, for names without dots: the class or
module found, or None (ImportError, AttributeError; a value that is neither ends in ModuleNotFoundError) -/
def importClass (env : Env V) (module name : String) : Option (Obj V) :=
  match env module name with
  | some (.cls c) => some (.cls c)
  | some (.other n) => some (.other n)
  | some (.value _) => none
  | none => none

/-- `_create_namedtuple`, _dill.py:996-1002 -/
def createNamedtuple (env : Env V) (name : String) (fields : List String) (module : String)
    (defaults : Option (List V)) : Except Err (Obj V) :=
  match importClass env module name with
  | some o => .ok o
  | none => match namedtuple name fields defaults module with
    | .ok c => .ok (.cls c)
    | .error e => .error e

/-- save_type T6, _dill.py:1814-1830: the arguments of `_create_namedtuple` -/
def saveNamedtuple (c : NT V) : String × List String × String × Option (List V) :=
  (c.name, c.fields, c.module,
    if c.defaults.isEmpty then none else some (c.fields.filterMap fun f => c.defaults.get f))

/-- `dill.loads(dill.dumps(c))` in an interpreter with the given modules -/
def copy (env : Env V) (c : NT V) : Except Err (Obj V) :=
  let (n, fs, m, ds) := saveNamedtuple c
  createNamedtuple env n fs m ds

end Verif.NamedTuple
