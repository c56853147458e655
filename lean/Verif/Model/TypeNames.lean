import Verif.Model.Dict
/-
Model of the table of built-in types pickled by name: `_create_typemap`, `_reverse_typemap`, `_typemap` (/repo/dill/_dill.py:509-593,
2119-2122), the first branch of `save_type` (_dill.py:1807-1814) and `_load_type` (_dill.py:598-599).

Simplification: classes are compared by identity (a metaclass with its own `__eq__` and `__hash__` cannot occur: only classes of
type `type` are entered).
-/
namespace Verif.TypeNames

/-- an object; classes are told apart by number -/
abbrev Obj := Nat

/-- what `_create_typemap` looks at: `getattr(value, '__module__', None) == 'builtins'` and `type(value) is type` -/
structure Look where
  moduleIsBuiltins : Obj → Bool
  typeIsType : Obj → Bool

/-- `_create_typemap`, _dill.py:509-517, then `dict(...)`, _dill.py:518: `d` is a dict, so each name comes once -/
def createTypemap (lk : Look) (builtins types : Dict String Obj) : Dict String Obj :=
  (Dict.update [] (builtins ++ types)).filter fun p => lk.moduleIsBuiltins p.2 && lk.typeIsType p.2

/-- `_reverse_typemap` at _dill.py:593: the hand-built types (519-524) and the incidental types (536-588) on top -/
def reverseTypemap (lk : Look) (builtins types handBuilt incidental : Dict String Obj) : Dict String Obj :=
  ((createTypemap lk builtins types).update handBuilt).update incidental

/-- `_typemap = dict((v, k) for k, v in _reverse_typemap.items())`, _dill.py:593 -/
def typemap (reverse : Dict String Obj) : Dict Obj String :=
  Dict.update [] (reverse.map fun p => (p.2, p.1))

/-- What `save_type` writes for a class by its first branch, `_load_type` with the name (_dill.py:1809-1813); `none`: other
branches -/
def saveName (tm : Dict Obj String) (t : Obj) : Option String := tm.get t

/-- `_load_type`, _dill.py:598-599; `none` stands for KeyError -/
def loadType (reverse : Dict String Obj) (name : String) : Option Obj := reverse.get name

/-- `_reverse_typemap['PyCapsuleType'] = PyCapsuleType`, _dill.py:2121, after `_typemap` was made -/
def addLate (reverse : Dict String Obj) (late : Option Obj) : Dict String Obj :=
  match late with
  | none => reverse
  | some c => reverse.set "PyCapsuleType" c

end Verif.TypeNames
