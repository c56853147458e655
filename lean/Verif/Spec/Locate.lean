import Verif.Model.Locate
/-
Specification for C06, in terms of attributes and module names only.
-/
namespace Verif.Locate

/-- Following the attributes `p`, one after the other, from `o` leads to `r`
(`<locals>` is never an attribute one can follow). -/
inductive Leads (E : Env) : Obj → Path → Obj → Prop
  | one {o s r} : s ≠ "<locals>" → E.attr o s = some r → Leads E o [s] r
  | more {o s o' ss r} : s ≠ "<locals>" → E.attr o s = some o' → Leads E o' ss r → Leads E o (s :: ss) r

/-- The object's own module and qualified name lead back to it. (An object without `__module__` may be
found in any module.) -/
def LeadsBack (E : Env) (o : Obj) : Prop :=
  ∃ m mo, ((E.info o).modName = some m ∨ (E.info o).modName = none) ∧ E.mods m = some mo ∧
    Leads E mo (objName E o) o

/-- Nothing in what was written is a copy: only names. -/
def Ref.ByName : Ref → Prop
  | .glob _ _ => True
  | .attr p _ => p.ByName
  | .loadType _ => True
  | .typeOf _ => True
  | .value => False

/-- dill stores these classes under fixed names, without checking (save_type, T1 and T7). -/
def Special (E : Env) (o : Obj) : Prop :=
  (typemap E o).isSome ∨ o = E.typeOf E.noneObj ∨ o = E.typeOf E.notImplemented ∨
  o = E.typeOf E.ellipsis ∨ o = E.enumMeta ∨ E.exceptHookArgs = some o

/-- The names that `Unpickler.find_class` treats specially. -/
def Hijacked (m n : Path) : Prop :=
  (m = ["__builtin__"] ∧ n = ["__main__"]) ∨ (m = ["__builtin__"] ∧ n = ["NoneType"]) ∨ m = ["dill", "dill"]

instance (m n : Path) : Decidable (Hijacked m n) := by unfold Hijacked; infer_instance

/-- An interpreter in which nobody has taken the names dill and pickle reserve. -/
structure Sane (E : Env) (proto : Nat) : Prop where
  /-- no importable name is one of those find_class treats specially -/
  noHijack : ∀ m n mo o, E.mods m = some mo → Leads E mo n o → ¬ Hijacked m n
  /-- `_reverse_typemap` is a dict and its later additions are new names -/
  typemapWF : E.revTypemap.WF
  lateNew : ∀ k, k ∈ E.revTypemap.keys → E.revLate.get k = none
  /-- `enum.EnumMeta` and `threading.ExceptHookArgs` are still what dill imported -/
  enumMeta : findClass E proto ["enum"] ["EnumMeta"] = some E.enumMeta
  hookArgs : ∀ o, E.exceptHookArgs = some o → findClass E proto ["threading"] ["ExceptHookArgs"] = some o
  /-- below protocol 3: pickle's Python 2 renaming is undone on load -/
  fix : proto < 3 → ∀ m n mo o, E.mods m = some mo → E.attr mo n = some o →
    E.fixLoad (E.fixDump (m, [n])) = (m, [n]) ∧ ¬ Hijacked (E.fixDump (m, [n])).1 (E.fixDump (m, [n])).2

/-- what `import a.b.c` can find under the dotted name: the entry of sys.modules, or the attribute `c` of `a.b`. -/
inductive Means (E : Env) (m : Path) (mo : Obj) : Prop
  | entry (h : E.mods m = some mo)
  | attrOf {p : Obj} {pre : Path} {l : String} (hm : m = pre ++ [l]) (hn : pre ≠ []) (hp : E.mods pre = some p)
      (ha : E.attr p l = some mo)

/-- a healthy import of `m`: sys.modules has the module; a submodule of a real package also is the package's
attribute of that name, unless that attribute is no module or class at all (e.g. a variable shadowing it). -/
structure Imports (E : Env) (m : Path) (mo : Obj) : Prop where
  entry : E.mods m = some mo
  parent : ∀ (pre : Path) (l : String), m = pre ++ [l] → pre ≠ [] → pre.head? ≠ some "__runtime__" →
    ∃ p s, E.mods pre = some p ∧ E.attr p l = some s ∧ (s = mo ∨ E.isModOrType s = false)

end Verif.Locate
