import Verif.Props.CoreEx
import Verif.Props.CoreTerm
/-! A function or class met again while dill is creating it is saved by its name ("Recursive object not supported. Default to a
global instead", _dill.py:1127-1131, 1858-1860): what that does to C01 and C02, and that ordinary recursion does not lead there. -/
set_option linter.unusedSimpArgs false
namespace Verif.Core.Ex
open Spec

/-- Nothing in the graph of `Ex` is circular: a function that calls itself through its closure and its globals, a class whose
methods close over it.  So C01_paths_exact_partial applies to it. -/
theorem notCircular (x : Addr) : ¬ Circular W x := by
  rintro ⟨v, hv, he⟩
  -- what can be reached eagerly from 3, 1 and 9
  have key : ∀ y, Eager W x v y → x = 0 ∧ y ∈ [1, 2, 3, 4, 5] ∨ x = 6 ∧ y ∈ [3, 4, 9, 10, 11] ∨ x = 9 ∧ y ∈ [3, 4, 10, 11] := by
    intro y h
    induction h with
    | here e =>
      match x with
      | 0 => simp [W, H, makeRefs, s, kvVals, e] at hv ⊢; grind
      | 6 => simp [W, H, makeRefs, s, kvVals, e] at hv ⊢; grind
      | 9 => simp [W, H, makeRefs, s, kvVals, e] at hv ⊢; grind
      | 1 => cases hv
      | 2 => cases hv
      | 3 => cases hv
      | 4 => cases hv
      | 5 => cases hv
      | 7 => cases hv
      | 8 => cases hv
      | 10 => cases hv
      | 11 => cases hv
      | 12 => cases hv
      | 13 => cases hv
      | 14 => cases hv
      | _ + 15 => cases hv
    | step _ hz ih =>
      rcases ih with ⟨rfl, hy⟩ | ⟨rfl, hy⟩ | ⟨rfl, hy⟩ <;> simp only [List.mem_cons, List.not_mem_nil, or_false] at hy <;>
        rcases hy with rfl | rfl | rfl | rfl | rfl <;>
        simp [W, H, eagerRefs, refs, conRefs, stRefs, s, kvVals] at hz ⊢ <;> grind
  rcases key x he with ⟨rfl, h⟩ | ⟨rfl, h⟩ | ⟨rfl, h⟩ <;> simp at h

example : ∃ ops tv heap, dumps W 40 (.ref 7) = .ok ops ∧ load ops = some (tv, heap) ∧
    ∀ path v, follow W (.ref 7) path = some v → ∃ tv', tfollow heap tv path = some tv' ∧ tkind heap tv' = some (kind W v) := by
  obtain ⟨ops, h⟩ := dumps_ok _ list_ok
  obtain ⟨tv, heap, h1, h2, _⟩ := C01_paths_exact_partial W wf 40 (.ref 7) ops h (fun x _ => notCircular x)
  exact ⟨ops, tv, heap, h, h1, h2⟩

end Verif.Core.Ex

/-! ### a class that is an attribute of itself -/
namespace Verif.Core.Own
open Spec
open Ex (s isOk)

/-- 0: `class A: pass` in `__main__`, then `A.me = A` -/
def H : Addr → SObj := fun a => match a with
  | 0 => .cls (.atom (.glob "builtins" "type")) (s "A") (.ref 1) [(s "me", .ref 0)] (s "A")
  | 1 => .tuple [.atom (.glob "builtins" "object")]
  | 2 => .node .list [.ref 0, .ref 0] [] none
  | _ => .leaf .none

def names : Addr → Option Atom := fun a => match a with
  | 0 => some (.glob "__main__" "A")
  | _ => none

def W : World := { Ex.W with H := H, byName := names }

instance (es : List (Val × Val)) : Decidable (KNodup W es) := by unfold KNodup; infer_instance

theorem names_eq {x : Addr} {a : Atom} (h : W.byName x = some a) : x = 0 ∧ a = .glob "__main__" "A" := by
  match x with
  | 0 => cases h; exact ⟨rfl, rfl⟩
  | _ + 1 => cases h

theorem wf : WF W := by
  refine ⟨rfl, rfl, rfl, rfl, rfl, rfl, rfl, rfl, ?_, ?_, ?_, ?_⟩
  · intro x
    match x with
    | 0 => show KNodup W _; decide
    | 1 => simp [W, H, WFObj]
    | 2 => exact ⟨rfl, rfl⟩
    | _ + 3 => trivial
  · intro x a h
    obtain ⟨_, rfl⟩ := names_eq h
    exact ⟨_, _, rfl, by decide, by decide, by decide⟩
  · intro x a h y
    obtain ⟨_, rfl⟩ := names_eq h
    match y with
    | 0 => simp [W, H, refs, kvVals, s]
    | 1 => simp [W, H, refs]
    | 2 => simp [W, H, refs, conRefs, stRefs, kvVals]
    | _ + 3 => simp [W, H, refs]
  · intro x y a h h'
    rw [(names_eq h).1, (names_eq h').1]

/-- C01 does not hold without the exception for circular objects: pickling the class (or the list of it) succeeds, and what is
loaded is whatever `__main__.A` is at that moment, not a copy of the class; a session without such a class cannot load it. -/
theorem C01_class_of_itself_by_name : kind W (.ref 0) = .cls ∧
    ∃ ops tv heap, dumps W 40 (.ref 2) = .ok ops ∧ load ops = some (tv, heap) ∧
      tfollow heap tv [.item 0] = some (.atom (.glob "__main__" "A")) ∧
      tfollow heap tv [.item 1] = some (.atom (.glob "__main__" "A")) ∧ tfollow heap tv [.item 0, .val 0] = none := by
  refine ⟨rfl, ?_⟩
  have h : (match dumps W 40 (.ref 2) with
    | .ok ops => (match load ops with
      | some (tv, heap) => decide (tfollow heap tv [.item 0] = some (.atom (.glob "__main__" "A")) ∧
          tfollow heap tv [.item 1] = some (.atom (.glob "__main__" "A")) ∧ tfollow heap tv [.item 0, .val 0] = none)
      | none => false)
    | .error _ => false) = true := by decide +kernel
  cases hd : dumps W 40 (.ref 2) with
  | error e => rw [hd] at h; cases h
  | ok ops =>
    rw [hd] at h
    simp only at h
    cases hl : load ops with
    | none => rw [hl] at h; cases h
    | some r =>
      obtain ⟨tv, heap⟩ := r
      rw [hl] at h
      exact ⟨ops, tv, heap, rfl, hl, of_decide_eq_true h⟩

/-- the class is what C01_paths_exact_partial excludes -/
example : Circular W 0 := ⟨.ref 0, by simp [W, H, makeRefs, kvVals], .here rfl⟩

/-- a class that is not found under its name cannot be pickled at all: PicklingError -/
example : dumps { W with byName := fun _ => none } 40 (.ref 0) = .error .unpicklable := by rfl

/-- The opcodes of the class alone: a class is created from a dict naming `__main__.A` (push, memoize), dropped (pop, get), and
then `__qualname__` is set on what `__main__.A` is at load time. -/
example : dumps W 40 (.ref 0) = .ok [.push aCreateType, .mark, .push (.glob "builtins" "type"), .push (.str "A"),
    .push (.glob "builtins" "object"), .tupleN 1, .memoize, .emptyDict, .memoize, .push (.str "me"), .push (.glob "__main__" "A"),
    .memoize, .setitem, .tuple, .memoize, .reduce, .pop, .get 2, .push aSetattr, .get 2, .push aQualname, .push (.str "A"),
    .tupleN 3, .memoize, .reduce, .pop] := by decide +kernel

end Verif.Core.Own

/-! ### a function that is its own default -/
namespace Verif.Core.OwnDefault
open Spec
open Ex (s isOk)

/-- 0: `def f(x=[]): return f`, pickled with a copy of its globals (recurse=True), after `f.__defaults__[0].append(f)` -/
def H : Addr → SObj := fun a => match a with
  | 0 => .func (s "code") (.copied [(s "__name__", s "m")] [(s "f", .ref 0)]) (s "f") (.ref 1) (.atom .none) [] []
  | 1 => .tuple [.ref 2]
  | 2 => .node .list [.ref 0] [] none
  | _ => .leaf .none

def names : Addr → Option Atom := fun a => match a with
  | 0 => some (.glob "m" "f")
  | _ => none

def W : World := { Ex.W with H := H, byName := names }

/-- the same function pickled without recurse -/
def W' : World := { W with H := fun a => match a with
  | 0 => .func (s "code") (.byRef (.atom (.glob "m" "__dict__"))) (s "f") (.ref 1) (.atom .none) [] []
  | a => H a }

instance (es : List (Val × Val)) : Decidable (KNodup W es) := by unfold KNodup; infer_instance

theorem names_eq {x : Addr} {a : Atom} (h : W.byName x = some a) : x = 0 ∧ a = .glob "m" "f" := by
  match x with
  | 0 => cases h; exact ⟨rfl, rfl⟩
  | _ + 1 => cases h

theorem wf : WF W := by
  refine ⟨rfl, rfl, rfl, rfl, rfl, rfl, rfl, rfl, ?_, ?_, ?_, ?_⟩
  · intro x
    match x with
    | 0 => exact ⟨⟨by simp, by decide, by decide⟩, by decide, by decide⟩
    | 1 => simp [W, H, WFObj]
    | 2 => exact ⟨rfl, rfl⟩
    | _ + 3 => trivial
  · intro x a h
    obtain ⟨_, rfl⟩ := names_eq h
    exact ⟨_, _, rfl, by decide, by decide, by decide⟩
  · intro x a h y
    obtain ⟨_, rfl⟩ := names_eq h
    match y with
    | 0 => simp [W, H, refs, kvVals, s]
    | 1 => simp [W, H, refs]
    | 2 => simp [W, H, refs, conRefs, stRefs, kvVals]
    | _ + 3 => simp [W, H, refs]
  · intro x y a h h'
    rw [(names_eq h).1, (names_eq h').1]

/-- Although the function can be found under its name, pickling it raises KeyError, at any recursion limit that is large
enough: the second visit has registered an update of globals that are not in the pickle. -/
theorem C04_own_default_raises_keyerror (n : Nat) (hn : 9 ≤ n) : dumps W n (.ref 0) = .error .keyError := by
  have h9 : dumps W 9 (.ref 0) = .error .keyError := by rfl
  obtain ⟨k, rfl⟩ := Nat.exists_eq_add_of_le hn
  rw [dumps_fuel_mono W (.ref 0) (by rw [h9]; simp) k, h9]

/-- without recurse it is pickled, by reference to its name -/
example : (match dumps W' 40 (.ref 0) with
  | .ok ops => (load ops).map (·.1)
  | .error _ => none) = some (.atom (.glob "m" "f")) := by decide +kernel

end Verif.Core.OwnDefault
