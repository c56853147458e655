import Verif.Model.Dict
/-
Model of `dill.load_types` (/repo/dill/__init__.py:54-86), the registries it reads (/repo/dill/_objects.py:120-125, 539) and the
body of the module it reloads (/repo/dill/objtypes.py:16-24).

Simplifications: the names of registered objects are identifiers other than `objects`, `type` and `_type` (they are in
_objects.py); what importlib.reload itself sets (`__spec__` and other names with leading underscores) is left out, and
nobody else writes to `dill.types` or `dill.objects` between calls.
-/
namespace Verif.LoadTypes

abbrev Obj := Nat
abbrev Ty := Nat

/-- a value in the namespace of `dill.types`: a class, or something else (such as `__doc__`) -/
inductive Val where
  | ty (t : Ty)
  | other
  deriving DecidableEq, Repr

/-- The dicts of `_objects`: `registered = d`, `failures = x`, `succeeds = a`, _objects.py:120-125; `all other type objects` are
written to `a` first. -/
structure Registry where
  registered : Dict String Obj
  failures : Dict String Obj
  others : Dict String Obj

/-- `a.update(d) # registered also succeed`, _objects.py:539 -/
def Registry.succeeds (r : Registry) : Dict String Obj := r.others.update r.registered

/-- `dill.objects` and `dill.types.__dict__` -/
structure St where
  objects : Dict String Obj
  types : Dict String Val
  deriving DecidableEq

/-- `[objects.pop(obj, None) for obj in ks]`, __init__.py:75, 79 -/
def popAll {β : Type} (d : Dict String β) (ks : List String) : Dict String β := ks.foldl (fun d k => d.del k) d

/-- `obj.find('Type') != -1`, __init__.py:84 -/
def findType : List Char → Bool
  | [] => false
  | c :: s => (['T', 'y', 'p', 'e'].isPrefixOf (c :: s)) || findType s

/-- `exec("%s = type(objects['%s'])" % (_type,_type))` with the loop variable, objtypes.py:17-18 -/
def loop (typeOf : Obj → Ty) (ns : Dict String Val) (objs : Dict String Obj) : Dict String Val :=
  objs.foldl (fun ns p => (ns.set "_type" .other).set p.1 (.ty (typeOf p.2))) ns

/-- the body of the module `dill.objtypes`, run in its old namespace by `reload`, objtypes.py:16-24 -/
def reload (typeOf : Obj → Ty) (ns : Dict String Val) (objs : Dict String Obj) : Dict String Val :=
  ((loop typeOf (ns.set "objects" .other) objs).del "objects").del "_type"

/-- `load_types(pickleable, unpickleable)`, __init__.py:54-86 -/
def loadTypes (r : Registry) (typeOf : Obj → Ty) (pickleable unpickleable : Bool) (s : St) : St :=
  let o := if pickleable then s.objects.update r.succeeds else popAll s.objects r.succeeds.keys
  let o := if unpickleable then o.update r.failures else popAll o r.failures.keys
  let o := o.update r.registered
  let t := popAll s.types (s.types.keys.filter fun n => findType n.toList)
  ⟨o, reload typeOf t o⟩

end Verif.LoadTypes
