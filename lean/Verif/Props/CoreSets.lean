import Verif.Props.WireFits
import Verif.Props.CoreTerm
/-! A concrete graph with a set and a frozenset in cycles that meets the hypotheses of C01, C02, C05 and C68. -/
set_option linter.unusedSimpArgs false
namespace Verif.Core.ExSet
open Spec

/-- 0: `{1}`, a set with the frozenset 1; 1: `frozenset({2})`; 2: an instance of m.C with `r` the set and `s` the
frozenset -/
def H : Addr → SObj := fun a => match a with
  | 0 => .node .set [.ref 1] [] none
  | 1 => .fset [.ref 2]
  | 2 => .node (.newobj (.ref 3) []) [] [] (some (.attrs [(.ref 4, .ref 0), (.ref 5, .ref 1)]))
  | 3 => .leaf (.glob "m" "C")
  | 4 => .leaf (.str "r")
  | 5 => .leaf (.str "s")
  | _ => .leaf .none

def W : World := { Ex.W with H := H }

instance (es : List (Val × Val)) : Decidable (KNodup W es) := by unfold KNodup; infer_instance

theorem wf : WF W := by
  refine ⟨rfl, rfl, rfl, rfl, rfl, rfl, rfl, rfl, ?_, (by intro _ _ h; cases h), (by intro _ _ h; cases h), (by intro _ _ _ h; cases h)⟩
  intro x
  match x with
  | 0 => exact ⟨rfl, rfl⟩
  | 1 => trivial
  | 2 => exact ⟨by decide, by show KNodup W _; decide⟩
  | 3 => trivial
  | 4 => trivial
  | 5 => trivial
  | _ + 6 => trivial

theorem set_ok : Ex.isOk (dumps W 20 (.ref 0)) = true := by decide +kernel

example : ∃ ops tv heap φ, dumps W 20 (.ref 0) = .ok ops ∧ load ops = some (tv, heap) ∧
    IsCopy W (.ref 0) tv heap φ := by
  cases e : dumps W 20 (.ref 0) with
  | error e' => have := set_ok; rw [e] at this; cases this
  | ok ops =>
    obtain ⟨tv, heap, φ, h1, h2⟩ := C01_isomorphic_copy_partial W wf 20 (.ref 0) ops e
    exact ⟨ops, tv, heap, φ, rfl, h1, h2⟩

/-- set → frozenset → instance → `r` is the set, `s` the frozenset -/
example : follow W (.ref 0) [.item 0, .item 0, .attrVal 0] = some (.ref 0) ∧
    follow W (.ref 0) [.item 0, .item 0, .attrVal 1] = follow W (.ref 0) [.item 0] := ⟨rfl, rfl⟩

/-- the pickle at protocol 4: byte for byte what `pickle._dumps` of CPython 3.11 writes for this graph; the frozenset is met
again before it is finished, so it is written inside and the outer one is dropped (POP_MARK, BINGET 8) -/
example : (Wire.dumpBytes ⟨4, [(none, none)], [(true, 31)]⟩ W 20 (.ref 0)).map (·.2) =
    some [128, 4, 149, 42, 0, 0, 0, 0, 0, 0, 0, 143, 148, 40, 40, 140, 1, 109, 148, 140, 1, 67, 148, 147, 148, 41, 129, 148,
      125, 148, 40, 140, 1, 114, 148, 104, 0, 140, 1, 115, 148, 40, 104, 4, 145, 148, 117, 98, 49, 104, 8, 144, 46] := by
  decide +kernel

/-- at protocol 3 the opcodes of sets do not exist -/
example (c : Nat) : Wire.encW 3 c (.op .emptySet) = none ∧ Wire.encW 3 c (.op .frozenset) = none := ⟨rfl, rfl⟩

theorem noCreationCycle : NoCreationCycle W := by
  let r : Addr → Nat := fun x => match x with
    | 1 => 2 | 2 => 1 | _ => 0
  have step : ∀ x y, CreationRef W x y → r y < r x := by
    intro x y h
    unfold CreationRef at h
    match x with
    | 0 => simp [W, H, creationRefs, conRefs] at h
    | 1 => simp [W, H, creationRefs] at h; subst h; decide
    | 2 => simp [W, H, creationRefs, conRefs] at h; subst h; decide
    | 3 => simp [W, H, creationRefs] at h
    | 4 => simp [W, H, creationRefs] at h
    | 5 => simp [W, H, creationRefs] at h
    | _ + 6 => simp [W, H, creationRefs] at h
  intro x h
  have : ∀ y, Relation.TransGen (CreationRef W) x y → r y < r x := by
    intro y h
    induction h with
    | single h => exact step _ _ h
    | tail _ h ih => exact Nat.lt_trans (step _ _ h) ih
  exact absurd (this x h) (Nat.lt_irrefl _)

theorem closed : Closed W (List.range 6) := by
  have : ∀ x ∈ List.range 6, ∀ v ∈ refs (W.H x),
      (match v with | .ref y => decide (y ∈ List.range 6) | .atom _ => true) = true := by decide +kernel
  intro x hx y hy
  simpa using this x hx _ hy

example : dumps W ((6 + 1) * (6 + 1)) (.ref 0) ≠ .error .fuel :=
  (C02_terminates W wf (List.range 6) closed noCreationCycle (.ref 0) (by rintro x h; cases h; decide)).1

end Verif.Core.ExSet
