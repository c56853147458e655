import Verif.Core.Succ2
import Verif.Props.CoreNames
import Verif.Props.CoreSets
/-! C86: pickling ordinary objects succeeds, and the result is exact. -/
set_option linter.unusedSimpArgs false
namespace Verif.Core
open Spec

/-- An exception other than RecursionError has a reason in the graph: an object whose own saver raises, or a function or class
that is needed for its own creation and either is not found under its name or is a function with a copy of its globals. -/
theorem C86_failures_have_a_reason (W : World) (hw : WF W) (n : Nat) (root : Val) (e : Err) (h : dumps W n root = .error e)
    (he : e ≠ .fuel) : ∃ x, Reaches W root x ∧ (W.H x = .bad ∨ (Circular W x ∧ (W.byName x = none ∨ hasCopy (W.H x)))) := by
  by_contra hno
  refine he (dumps_fine hw root ?_ ?_ n e h)
  · intro x hx hb; exact hno ⟨x, hx, .inl hb⟩
  · intro x hx hd hb; exact hno ⟨x, hx, .inr ⟨hb, hd⟩⟩

/-- Pickling a finite graph without unpicklable objects and without creation cycles succeeds if every function or class that is
needed for its own creation is found under its name and is not a function with a copy of its globals. -/
theorem C86_dumps_succeeds (W : World) (hw : WF W) (dom : List Addr) (hd : Closed W dom) (hc : NoCreationCycle W)
    (root : Val) (hr : ∀ x, root = .ref x → x ∈ dom) (hbad : ∀ x, Reaches W root x → W.H x ≠ .bad)
    (hcirc : ∀ x, Reaches W root x → Circular W x → W.byName x ≠ none ∧ ¬ hasCopy (W.H x)) :
    ∃ ops, ∀ n, (dom.length + 1) ^ 2 ≤ n → dumps W n root = .ok ops := by
  obtain ⟨h1, h2⟩ := C02_terminates W hw dom hd hc root hr
  cases hs : dumps W ((dom.length + 1) ^ 2) root with
  | error e =>
    have he : e ≠ .fuel := by rintro rfl; exact h1 hs
    obtain ⟨x, hx, h | ⟨h, h'⟩⟩ := C86_failures_have_a_reason W hw _ root e hs he
    · exact absurd h (hbad x hx)
    · obtain ⟨g1, g2⟩ := hcirc x hx h
      rcases h' with h' | h'
      · exact absurd h' g1
      · exact absurd h' g2
  | ok ops => exact ⟨ops, fun n hn => by rw [h2 n hn, hs]⟩

/-- Pickling and loading a finite graph without unpicklable objects, without creation cycles and without circular functions or
classes succeeds, with any recursion limit above the bound of C02, and the copy is exact. -/
theorem C86_round_trip (W : World) (hw : WF W) (dom : List Addr) (hd : Closed W dom) (hc : NoCreationCycle W)
    (root : Val) (hr : ∀ x, root = .ref x → x ∈ dom) (hbad : ∀ x, Reaches W root x → W.H x ≠ .bad)
    (hcirc : ∀ x, Reaches W root x → ¬ Circular W x) :
    ∃ ops tv heap, (∀ n, (dom.length + 1) ^ 2 ≤ n → dumps W n root = .ok ops) ∧ load ops = some (tv, heap) ∧
      (∀ path v, follow W root path = some v → ∃ tv', tfollow heap tv path = some tv' ∧ tkind heap tv' = some (kind W v)) ∧
      (∀ path path' v v' tv' tv'', follow W root path = some v → follow W root path' = some v' →
        tfollow heap tv path = some tv' → tfollow heap tv path' = some tv'' → (node W v = node W v' ↔ tv' = tv'')) := by
  obtain ⟨h1, h2⟩ := C02_terminates W hw dom hd hc root hr
  cases hs : dumps W ((dom.length + 1) ^ 2) root with
  | error e =>
    rw [hs] at h1
    exact absurd (by rw [dumps_fine hw root hbad (fun x hx _ => hcirc x hx) _ e hs]) h1
  | ok ops =>
    obtain ⟨tv, heap, g1, g2, g3⟩ := C01_paths_exact_partial W hw _ root ops hs hcirc
    exact ⟨ops, tv, heap, fun n hn => by rw [h2 n hn, hs], g1, g2, g3⟩

/-- the graph of `Ex` (recursive closure with copied globals, class whose methods close over it, cyclic containers) -/
example : ∃ ops tv heap, (∀ n, 256 ≤ n → dumps Ex.W n (.ref 7) = .ok ops) ∧ load ops = some (tv, heap) ∧
    ∀ path v, follow Ex.W (.ref 7) path = some v → ∃ tv', tfollow heap tv path = some tv' ∧ tkind heap tv' = some (kind Ex.W v) := by
  have hbad : ∀ x, Ex.W.H x ≠ .bad := by
    intro x h
    match x with
    | 0 => cases h
    | 1 => cases h
    | 2 => cases h
    | 3 => cases h
    | 4 => cases h
    | 5 => cases h
    | 6 => cases h
    | 7 => cases h
    | 8 => cases h
    | 9 => cases h
    | 10 => cases h
    | 11 => cases h
    | 12 => cases h
    | 13 => cases h
    | 14 => cases h
    | _ + 15 => cases h
  obtain ⟨ops, tv, heap, h1, h2, h3, _⟩ := C86_round_trip Ex.W Ex.wf (List.range 15) Ex.closed Ex.noCreationCycle (.ref 7)
    (by rintro x h; cases h; decide) (fun x _ => hbad x) (fun x _ => Ex.notCircular x)
  exact ⟨ops, tv, heap, h1, h2, h3⟩

/-- the class that is an attribute of itself -/
example : ∃ ops, ∀ n, 16 ≤ n → dumps Own.W n (.ref 2) = .ok ops := by
  refine C86_dumps_succeeds Own.W Own.wf [0, 1, 2] ?_ ?_ (.ref 2) (by rintro x h; cases h; decide) ?_ ?_
  · intro x hx y hy
    simp only [List.mem_cons, List.not_mem_nil, or_false] at hx
    rcases hx with rfl | rfl | rfl <;>
      simp [Own.W, Own.H, refs, conRefs, stRefs, kvVals, Ex.s] at hy ⊢ <;> grind
  · have step : ∀ x y, ¬ CreationRef Own.W x y := by
      intro x y h
      unfold CreationRef at h
      match x with
      | 0 => cases h
      | 1 => simp [Own.W, Own.H, creationRefs] at h
      | 2 => cases h
      | _ + 3 => cases h
    intro x h
    cases h with
    | single h => exact step _ _ h
    | tail _ h => exact step _ _ h
  · intro x _ h
    match x with
    | 0 => cases h
    | 1 => cases h
    | 2 => cases h
    | _ + 3 => cases h
  · rintro x _ ⟨v, hv, _⟩
    match x with
    | 0 => exact ⟨by simp [Own.W, Own.names], fun h => h.elim⟩
    | 1 => cases hv
    | 2 => cases hv
    | _ + 3 => cases hv

/-- both reasons are needed: a generator in a list, and the classes and functions of C01_class_of_itself_by_name and
C04_own_default_raises_keyerror -/
example : dumps { Ex.W with H := fun x => if x = 0 then .node .list [.ref 1] [] none else .bad } 40 (.ref 0) = .error .unpicklable := by rfl

example : ∃ x, Reaches OwnDefault.W (.ref 0) x ∧ (OwnDefault.W.H x = .bad ∨ (Circular OwnDefault.W x ∧
    (OwnDefault.W.byName x = none ∨ hasCopy (OwnDefault.W.H x)))) :=
  C86_failures_have_a_reason OwnDefault.W OwnDefault.wf 9 (.ref 0) .keyError (OwnDefault.C04_own_default_raises_keyerror 9 (Nat.le_refl _)) (by simp)

end Verif.Core
