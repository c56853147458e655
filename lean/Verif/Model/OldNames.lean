import Verif.Model.OldTables

/-
References by module and name at every protocol: what dill's Pickler writes and what dill's Unpickler makes of it.

Modelled: `Unpickler.find_class` (`dill/_dill.py:437-443`) on top of the stock `find_class` (`pickle.py:1572-1584`);
`save_global` (`pickle.py:1085-1118`, reached from `dill/_dill.py:1837-1925` and `1964-2075`), from the point where the object has been found in its
module; and the references dill writes itself, past `save_global` (`dill/_dill.py:1249`, `1253`, `1259`, `1837`, `1849`,
`1853`, `2141`, `2148`, `2155`, `2162`).

Simplified: names are top level (a dotted one is written below protocol 4 as a `getattr` of its class, whose name is again
top level); the extension registry is empty; looking up a module's attribute is not modelled, only which one is looked up.
-/
namespace Verif.OldNames

/-- A module name and a name in it. -/
abbrev Ref := String × String

/-- What a loaded reference is: the namespace of the main module, `type(None)`, or what is found under a module and a
name. -/
inductive Found where
  | mainDict
  | noneType
  | named (r : Ref)
deriving DecidableEq, Repr

/-- The renaming of `save_global` at protocols 0 to 2 (`pickle.py:1103-1109`). -/
def toOld (r : Ref) : Ref :=
  match reverseNameMapping.lookup r with
  | some r' => r'
  | none =>
    match reverseImportMapping.lookup r.1 with
    | some m => (m, r.2)
    | none => r

/-- The renaming of the stock `find_class` at protocols 0 to 2 (`pickle.py:1575-1579`). -/
def toNew (r : Ref) : Ref :=
  match nameMapping.lookup r with
  | some r' => r'
  | none =>
    match importMapping.lookup r.1 with
    | some m => (m, r.2)
    | none => r

/-- `bytes(s, "ascii")` does not raise (`pickle.py:1111-1112`). -/
def ascii (s : String) : Bool := s.toList.all (fun c => c.toNat < 128)

/-- The reference `save_global` writes for the object found as `r` (`pickle.py:1092-1118`); `none` is the PicklingError
of a name that is not ASCII. `fix` is the Pickler's `fix_imports`. -/
def saveGlobal (proto : Nat) (fix : Bool) (r : Ref) : Option Ref :=
  if 3 ≤ proto then some r
  else
    let w := if fix then toOld r else r
    if ascii w.1 && ascii w.2 then some w else none

/-- dill's `Unpickler.find_class` (`dill/_dill.py:437-443`), which looks at what is in the pickle before the stock method
renames it. `fix` is the Unpickler's `fix_imports`. -/
def findClass (proto : Nat) (fix : Bool) (r : Ref) : Found :=
  if r = ("__builtin__", "__main__") then .mainDict
  else if r = ("__builtin__", "NoneType") then .noneType
  else
    let r := if r.1 = "dill.dill" then ("dill._dill", r.2) else r
    .named (if proto < 3 && fix then toNew r else r)

/-- What dill writes for the namespace of the module `m` (`dill/_dill.py:1259`), the same at every protocol. -/
def saveNamespace (m : String) : Ref := (m, "__dict__")

/-- The references dill writes out in full, with what they stand for: `type(None)`, the main namespace, and objects of the
standard library (`dill/_dill.py:1249`, `1253`, `1837`, `1849`, `1853`, `2141`, `2148`, `2155`, `2162`; the last writes
the name of one of the three `_FIELD` markers). -/
def fixedRefs : List (Ref × Found) :=
  [(("__builtin__", "__main__"), .mainDict),
   (("__main__", "__dict__"), .named ("__main__", "__dict__")),
   (("__builtin__", "NoneType"), .noneType),
   (("enum", "EnumMeta"), .named ("enum", "EnumMeta")),
   (("threading", "ExceptHookArgs"), .named ("threading", "ExceptHookArgs")),
   (("dataclasses", "_HAS_DEFAULT_FACTORY"), .named ("dataclasses", "_HAS_DEFAULT_FACTORY")),
   (("dataclasses", "MISSING"), .named ("dataclasses", "MISSING")),
   (("dataclasses", "KW_ONLY"), .named ("dataclasses", "KW_ONLY")),
   (("dataclasses", "_FIELD"), .named ("dataclasses", "_FIELD")),
   (("dataclasses", "_FIELD_CLASSVAR"), .named ("dataclasses", "_FIELD_CLASSVAR")),
   (("dataclasses", "_FIELD_INITVAR"), .named ("dataclasses", "_FIELD_INITVAR"))]

end Verif.OldNames
