/-
Model of abstract base classes in pickles: `_get_typedict_abc` (/repo/dill/_dill.py:1786-1805), the place where save_type calls it
(_dill.py:1879-1882) and the running of the deferred registrations (`_save_with_postproc`, _dill.py:1112-1160), over CPython's
abc.ABCMeta (`__subclasscheck__`, `register`; Lib/_py_abc.py and Modules/_abc.c, not dill code).

Simplifications: the caches of ABCMeta (sound by the invalidation counter) and `__subclasshook__` are left out; a class is an ABC
iff its metaclass derives from ABCMeta; `__bases__` is never assigned; registries hold live classes (dead weak references
are removed by their callback).  A copy has the number of its original.  Which classes a graph holds, and that bases and
attributes are copied, is the subject of C01.
-/
namespace Verif.Abc

abbrev Cls := Nat

/-- The classes of a process: which exist, their bases, which are ABCs, and the registries. -/
structure CW where
  ex : Cls → Prop
  bases : Cls → List Cls
  abc : Cls → Prop
  reg : Cls → List Cls

/-- `a in c.__mro__` -/
inductive Anc (w : CW) : Cls → Cls → Prop
  | refl (c) : Anc w c c
  | step {c b a} : b ∈ w.bases c → Anc w b a → Anc w c a

/-- `issubclass(c, a)`: `type.__subclasscheck__`, and for an ABC `a` also ABCMeta.__subclasscheck__: subclasses of what is
registered with `a`, and subclasses of a class of `a.__subclasses__()` -/
inductive Sub (w : CW) : Cls → Cls → Prop
  | mro {c a} : Anc w c a → Sub w c a
  | reg {c r a} : w.abc a → r ∈ w.reg a → Sub w c r → Sub w c a
  | sub {c s a} : w.abc a → w.ex s → a ∈ w.bases s → Sub w c s → Sub w c a

inductive Ev where
  /-- a class is made: its bases, and whether the metaclass given is an ABCMeta -/
  | create (c : Cls) (bs : List Cls) (m : Prop)
  /-- `a.register(x)` -/
  | register (a x : Cls)

inductive Exc where
  | noSuchClass | notABC | cycle

/-- `type(name, bases, dict)` / `_create_type`, _dill.py:601-602: the registry of the new class is empty, also when a copy is
made: `_abc_impl` is removed from the dict at _dill.py:1804. -/
def CW.make (w : CW) (c : Cls) (bs : List Cls) (m : Prop) : CW where
  ex := fun x => x = c ∨ w.ex x
  bases := fun x => if x = c then bs else w.bases x
  abc := fun x => if x = c then m ∨ ∃ b ∈ bs, w.abc b else w.abc x
  reg := fun x => if x = c then [] else w.reg x

def CW.enter (w : CW) (a x : Cls) : CW :=
  { w with reg := fun b => if b = a then w.reg b ++ [x] else w.reg b }

open Classical in
/-- One event.  `register`: "already a subclass" returns at once; "Refusing to create an inheritance cycle" raises. -/
noncomputable def step (w : CW) : Ev → Except Exc CW
  | .create c bs m =>
    if w.ex c ∨ ∃ b ∈ bs, ¬ w.ex b then .error .noSuchClass else .ok (w.make c bs m)
  | .register a x =>
    if ¬ w.ex a ∨ ¬ w.ex x then .error .noSuchClass
    else if ¬ w.abc a then .error .notABC
    else if Sub w x a then .ok w
    else if Sub w a x then .error .cycle
    else .ok (w.enter a x)

noncomputable def run (w : CW) : List Ev → Except Exc CW
  | [] => .ok w
  | e :: es => match step w e with
    | .error x => .error x
    | .ok w' => run w' es

/-- What a pickle of the class `c` does when loaded: `_create_type(type(obj), name, bases, _dict)` (_dill.py:1893-1896), then
`obj.register(r)` for all of the registry (_dill.py:1788-1790, run in reversed order by _dill.py:1133-1160). -/
def actions (src : CW) (c : Cls) : List Ev :=
  .create c (src.bases c) (src.abc c) :: ((src.reg c).map (.register c)).reverse

end Verif.Abc
