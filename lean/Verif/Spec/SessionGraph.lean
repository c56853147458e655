import Verif.Spec.Core
import Verif.Model.SessionGraph
/-! Access paths through a session: parts of objects, and global names of the module and of its functions (for C81). -/
namespace Verif.SessionGraph.Spec
open Verif.Core Verif.Core.Spec

/-- One step: to a part of an object, or to the global `n`: `main.n`, or `f.__globals__['n']` of a function `f` of main. -/
inductive XSel where
  | part (s : Sel)
  | global (n : String)

/-- the object bound to a name -/
def bound (ns : List (String × Val)) (n : String) : Option Val := (ns.find? fun e => e.1 = n).map (·.2)

/-- a function whose globals are the namespace of the saved module -/
def OfMain (W : World) (v : Val) : Prop :=
  ∃ x co g nm d cl a s, v = .ref x ∧ W.H x = .func co (.byRef g) nm d cl a s ∧ node W g = .atom aMain

/-- paths in the session that was saved: module at `r` with the namespace `ns` -/
inductive Path (W : World) (r : Addr) (ns : List (String × Val)) : Val → List XSel → Val → Prop
  | nil (v) : Path W r ns v [] v
  | part {v w u s p} : follow W v [s] = some w → Path W r ns w p u → Path W r ns v (.part s :: p) u
  | global {v w u n p} : v = .ref r ∨ OfMain W v → bound ns n = some w → n ≠ "__builtins__" → n ≠ "__loader__" →
      Path W r ns w p u → Path W r ns v (.global n :: p) u

/-- a loaded function whose globals are the namespace of the module -/
def TOfMain (heap : List TObj) (v : TVal) : Prop :=
  ∃ t co nm d cl a s, v = .ref t ∧ heap[t]? = some (.func co (.atom aMain) nm d cl a s)

/-- paths in the restored session: module at `t` with the namespace `ns`, in which names lead to loaded objects or to objects of
the target session -/
inductive TPath {F : Type} (heap : List TObj) (t : Nat) (ns : String → Option (TVal ⊕ F)) : TVal → List XSel → TVal → Prop
  | nil (v) : TPath heap t ns v [] v
  | part {v w u s p} : tfollow heap v [s] = some w → TPath heap t ns w p u → TPath heap t ns v (.part s :: p) u
  | global {v w u n p} : v = .ref t ∨ TOfMain heap v → ns n = some (.inl w) → TPath heap t ns w p u →
      TPath heap t ns v (.global n :: p) u

/-- somewhere along the path there is a function or class needed for its own creation, and the restored session has a reference
to its name there -/
def NamedOn {F : Type} (W : World) (r : Addr) (ns : List (String × Val)) (heap : List TObj) (t : Nat)
    (nsT : String → Option (TVal ⊕ F)) (p : List XSel) : Prop :=
  ∃ pre suf x a, p = pre ++ suf ∧ Path W r ns (.ref r) pre (.ref x) ∧ Circular W x ∧ W.byName x = some a ∧
    TPath heap t nsT (.ref t) pre (.atom a)

end Verif.SessionGraph.Spec
