import Verif.Model.Dict
/-! Model of which attributes of a function pickled by value are stored and how they are put back:
/repo/dill/_dill.py:2015-2048 (save_function) and 604-618 (_create_function), with CPython's `FunctionType`
constructor and the BUILD opcode (pickle load_build). Attribute values are opaque and copied as themselves (their
copying is C01); which globals dict is used is Model/Core. -/
namespace Verif.FuncAttrs

variable {V : Type}

/-- what `FunctionType` takes from the code object: `co_qualname` (`co_name` before 3.11) and the docstring -/
structure Code (V : Type) where
  qualname : String
  doc : Option V
  id : Nat

/-- a function; `plainDict`: whether `type(f.__dict__) is dict`; `__annotations__` is always a dict, `none` in
`doc`, `kwdefaults`, `module` is None -/
structure Func (V : Type) where
  code : Code V
  name : String
  qualname : String
  module : Option String
  doc : Option V
  defaults : Option V
  kwdefaults : Option V
  annotations : V
  dict : Dict String V
  plainDict : Bool

/-- entries of `state_dict` -/
structure Slots (V : Type) where
  doc : Option V
  kwdefaults : Option V
  annotations : Option V
  qualname : Option String
  module : Option (Option String)
  dict : Option (Dict String V)

def Slots.isEmpty (s : Slots V) : Bool :=
  s.doc.isNone && s.kwdefaults.isNone && s.annotations.isNone && s.qualname.isNone && s.module.isNone &&
    s.dict.isNone

/-- the arguments of `_create_function` and the state; `globName` is `globs.get('__name__')`: `none` if the key is
missing, `some none` if it is None -/
structure Saved (V : Type) where
  code : Code V
  globName : Option (Option String)
  name : String
  defaults : Option V
  state : Option (Dict String V)
  slots : Option (Slots V)

/-- save_function, _dill.py:2015-2042 -/
def saveFunc (globName : Option (Option String)) (f : Func V) : Saved V :=
  let slots : Slots V :=
    { doc := f.doc, kwdefaults := f.kwdefaults, annotations := some f.annotations
      qualname := if f.qualname ≠ f.name then some f.qualname else none
      module := match globName with
        | none => some f.module
        | some m => if f.module ≠ m then some f.module else none
      dict := if f.plainDict then none else some f.dict }
  let state := if f.plainDict then some f.dict else none
  { code := f.code, globName, name := f.name, defaults := f.defaults, state
    slots := if slots.isEmpty then none else some slots }

/-- `FunctionType(fcode, fglobals or dict(), fname, fdefaults, fclosure)`; `noAnn` is `{}` -/
def functionType (noAnn : V) (code : Code V) (globName : Option (Option String)) (name : String)
    (defaults : Option V) : Func V :=
  { code, name, qualname := code.qualname, module := globName.getD none, doc := code.doc, defaults
    kwdefaults := none, annotations := noAnn, dict := [], plainDict := true }

/-- `setattr` for the entries of the second part of the state; setting `__doc__` etc. stores the value -/
def setSlots (s : Slots V) (f : Func V) : Func V :=
  let f := match s.doc with | some v => { f with doc := some v } | none => f
  let f := match s.kwdefaults with | some v => { f with kwdefaults := some v } | none => f
  let f := match s.annotations with | some v => { f with annotations := v } | none => f
  let f := match s.qualname with | some q => { f with qualname := q } | none => f
  let f := match s.module with | some m => { f with module := m } | none => f
  match s.dict with | some d => { f with dict := d, plainDict := false } | none => f

/-- loading: `_create_function`, then BUILD (`inst.__dict__.update(state)`, setattr of the slot state) -/
def loadFunc (noAnn : V) (s : Saved V) : Func V :=
  let f := functionType noAnn s.code s.globName s.name s.defaults
  let f := match s.state with | some d => { f with dict := f.dict.update d } | none => f
  match s.slots with | some sl => setSlots sl f | none => f

/-- `dill.copy(f)`; `globName` is what the globals dict that is saved has under `__name__` -/
def copyFunc (noAnn : V) (globName : Option (Option String)) (f : Func V) : Func V :=
  loadFunc noAnn (saveFunc globName f)

end Verif.FuncAttrs
