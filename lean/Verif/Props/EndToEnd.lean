import Verif.Props.WireFits
import Verif.Props.CoreSucc
import Verif.Props.SessionGraph
set_option linter.unusedSimpArgs false
/-! From an object graph to bytes and back: C86 (pickling succeeds), C05 (the stream has a byte form), C01 (the bytes load to a copy)
and C81 (sessions) put together. -/
namespace Verif.EndToEnd
open Verif.Core Verif.Core.Spec Verif.Wire Verif.SessionGraph Verif.SessionGraph.Spec

/-- what the opcodes load to is what their bytes load to -/
theorem load_bytes {how : How} {W : World} {n : Nat} {root : Val} {ops : List Op} {b : Bytes}
    (h : dumpBytes how W n root = some (ops, b)) {v : TVal × List TObj} (hv : load ops = some v) (rest : Bytes) :
    loadFile (kindsOf ops) (b ++ rest) = some (v, rest) := by
  obtain ⟨hd, ws, hp, he, hk, hl⟩ := dumpBytes_inv h
  rw [← hk]
  simp only [loadFile, loadFileAt, decode_encode (P := 5) (p := how.proto) (by omega) (by omega) _ ws b rest he, hl _ hv, Option.map_some]

/-- the bytes do not depend on the recursion limit, once it is high enough -/
theorem dumpBytes_fuel {how : How} {W : World} {n n' : Nat} {root : Val} (h : dumps W n root = dumps W n' root) :
    dumpBytes how W n root = dumpBytes how W n' root := by
  unfold dumpBytes
  rw [h]

/-- C86 in bytes: an object graph that is finite, has no unpicklable object, no creation cycle and no circular function or class, whose
strings, integers and names fit the opcodes, has a pickle at each of the protocols 2 to 5; these bytes, whatever follows them
in the file, load to a copy in which every path leads to the same kind of object as before and two paths meet exactly when they
met before, and what follows is left unread. -/
theorem C86_round_trip_bytes (p : Nat) (hp : p = 2 ∨ p = 3 ∨ p = 4 ∨ p = 5) (W : World) (hw : WF W) (hf : WorldFits p W)
    (dom : List Addr) (hd : Closed W dom) (hc : NoCreationCycle W) (root : Val) (hrf : ValFits p root)
    (hr : ∀ x, root = .ref x → x ∈ dom) (hbad : ∀ x, Reaches W root x → W.H x ≠ .bad)
    (hcirc : ∀ x, Reaches W root x → ¬ Circular W x)
    (hm : ∀ ops, dumps W ((dom.length + 1) ^ 2) root = .ok ops → entries p ops ≤ 2 ^ 32) :
    ∃ (how : How) (ops : List Op) (b : Bytes) (tv : TVal) (heap : List TObj), how.proto = p ∧
      (∀ n, (dom.length + 1) ^ 2 ≤ n → dumpBytes how W n root = some (ops, b)) ∧
      (∀ rest, loadFile (kindsOf ops) (b ++ rest) = some ((tv, heap), rest)) ∧
      (∀ path v, follow W root path = some v → ∃ tv', tfollow heap tv path = some tv' ∧ tkind heap tv' = some (kind W v)) ∧
      (∀ path path' v v' tv' tv'', follow W root path = some v → follow W root path' = some v' →
        tfollow heap tv path = some tv' → tfollow heap tv path' = some tv'' → (node W v = node W v' ↔ tv' = tv'')) := by
  obtain ⟨ops, tv, heap, h1, h2, h3, h4⟩ := C86_round_trip W hw dom hd hc root hr hbad hcirc
  have h0 := h1 _ (Nat.le_refl _)
  obtain ⟨strings, N, b, hb, _⟩ := C05_bytes_exist p hp W hw hf _ root hrf ops h0 (hm ops h0)
  refine ⟨⟨p, strings, [(false, N)]⟩, ops, b, tv, heap, rfl, ?_, fun rest => load_bytes hb h2 rest, h3, h4⟩
  intro n hn
  rw [← hb]
  exact dumpBytes_fuel ((h1 n hn).trans h0.symm)

/-- C81 in bytes: whatever byte form a session file has - protocol, frames, memoised strings - loading it gives the restored
session of C81. -/
theorem C81_session_bytes_partial (F : Type) (how : How) (W : World) (hw : WF W) (fuel : Nat) (r : Addr) (imported : Bool) (name : String)
    (ns : List (String × Val)) (hns : (ns.map (·.1)).Nodup) (hr : W.H r = savedModule imported name ns) (ops : List Op)
    (b rest : Bytes) (h : dumpBytes how W fuel (.ref r) = some (ops, b)) :
    ∃ t heap state, loadFile (kindsOf ops) (b ++ rest) = some ((.ref t, heap), rest) ∧
      heap[t]? = some (.node (.red (.atom aImportModule) [.atom (.str (if imported then name else "__runtime__." ++ name))]) [] [] state none) ∧
      ∀ prev : String → Option F,
        (∀ p v, Path W r ns (.ref r) p v → NamedOn W r ns heap t (restored prev state) p ∨
          ∃ tv, TPath heap t (restored prev state) (.ref t) p tv ∧ tkind heap tv = some (kind W v)) ∧
        (∀ p p' v v' tv tv', Path W r ns (.ref r) p v → Path W r ns (.ref r) p' v' →
          TPath heap t (restored prev state) (.ref t) p tv → TPath heap t (restored prev state) (.ref t) p' tv' →
          (node W v = node W v' ↔ tv = tv')) ∧
        (∀ n, bound ns n = none ∨ n = "__builtins__" ∨ n = "__loader__" → restored prev state n = (prev n).map .inr) := by
  obtain ⟨hd, _⟩ := dumpBytes_inv h
  obtain ⟨t, heap, state, h1, h2, h3⟩ := C81_session_graph_partial F W hw fuel r imported name ns hns hr ops hd
  exact ⟨t, heap, state, load_bytes h h1 rest, h2, h3⟩

/-- Saving a session succeeds, at each of the protocols 2 to 5, when its graph is finite and has no unpicklable object, no
creation cycle and no circular function or class; and the file, loaded into any session, has every path of the saved one. -/
theorem C81_session_saved (F : Type) (p : Nat) (hp : p = 2 ∨ p = 3 ∨ p = 4 ∨ p = 5) (W : World) (hw : WF W) (hf : WorldFits p W)
    (dom : List Addr) (hd : Closed W dom) (hc : NoCreationCycle W) (r : Addr) (hrd : r ∈ dom) (imported : Bool) (name : String)
    (ns : List (String × Val)) (hns : (ns.map (·.1)).Nodup) (hr : W.H r = savedModule imported name ns)
    (hbad : ∀ x, Reaches W (.ref r) x → W.H x ≠ .bad) (hcirc : ∀ x, ¬ Circular W x)
    (hm : ∀ ops, dumps W ((dom.length + 1) ^ 2) (.ref r) = .ok ops → entries p ops ≤ 2 ^ 32) :
    ∃ (how : How) (ops : List Op) (b : Bytes) (t : Nat) (heap : List TObj) (state : List (TVal × TVal)), how.proto = p ∧
      (∀ n, (dom.length + 1) ^ 2 ≤ n → dumpBytes how W n (.ref r) = some (ops, b)) ∧
      (∀ rest, loadFile (kindsOf ops) (b ++ rest) = some ((.ref t, heap), rest)) ∧
      ∀ prev : String → Option F, ∀ p v, Path W r ns (.ref r) p v →
        ∃ tv, TPath heap t (restored prev state) (.ref t) p tv ∧ tkind heap tv = some (kind W v) := by
  obtain ⟨how, ops, b, tv, heap, h1, h2, h3, _⟩ := C86_round_trip_bytes p hp W hw hf dom hd hc (.ref r) trivial
    (by rintro x h; cases h; exact hrd) hbad (fun x _ => hcirc x) hm
  obtain ⟨t, heap', state, g1, _, g3⟩ := C81_session_bytes_partial F how W hw _ r imported name ns hns hr ops b [] (h2 _ (Nat.le_refl _))
  have := (h3 []).symm.trans g1
  cases this
  refine ⟨how, ops, b, t, heap, state, h1, h2, h3, ?_⟩
  intro prev q v hq
  rcases (g3 prev).1 q v hq with hn | h
  · exact absurd hn (by
      intro hn
      obtain ⟨_, _, x, _, _, _, hx, _⟩ := hn
      exact hcirc x hx)
  · exact h

/-! ### concrete cases -/

/-- the graph of `Ex` at each protocol -/
example (p : Nat) (hp : p = 2 ∨ p = 3 ∨ p = 4 ∨ p = 5) : ∃ (how : How) (ops : List Op) (b : Bytes) (tv : TVal) (heap : List TObj), how.proto = p ∧
    (∀ n, 256 ≤ n → dumpBytes how Ex.W n (.ref 7) = some (ops, b)) ∧
    (∀ rest, loadFile (kindsOf ops) (b ++ rest) = some ((tv, heap), rest)) := by
  have hbad : ∀ x, Ex.W.H x ≠ .bad := by
    intro x h
    match x with
    | 0 => cases h
    | 1 => cases h
    | 2 => cases h
    | 3 => cases h
    | 4 => cases h
    | 5 => cases h
    | 6 => cases h
    | 7 => cases h
    | 8 => cases h
    | 9 => cases h
    | 10 => cases h
    | 11 => cases h
    | 12 => cases h
    | 13 => cases h
    | 14 => cases h
    | _ + 15 => cases h
  have hm : ∀ ops, dumps Ex.W ((15 + 1) ^ 2) (.ref 7) = .ok ops → entries p ops ≤ 2 ^ 32 := by
    intro o ho
    have : (match dumps Ex.W ((15 + 1) ^ 2) (.ref 7) with | .ok o => decide (memos o + 2 * globs o ≤ 200) | .error _ => true) = true := by
      decide +kernel
    rw [ho] at this
    have := of_decide_eq_true this
    unfold entries
    split <;> omega
  obtain ⟨how, ops, b, tv, heap, h1, h2, h3, _⟩ := C86_round_trip_bytes p hp Ex.W Ex.wf ex_fits (List.range 15) Ex.closed
    Ex.noCreationCycle (.ref 7) trivial (by rintro x h; cases h; decide) (fun x _ => hbad x) (fun x _ => Ex.notCircular x)
    (by simpa using hm)
  exact ⟨how, ops, b, tv, heap, h1, h2, h3⟩

theorem exFits : WorldFits S exW := by
  refine ⟨?_, small_fits _ ?_, small_fits _ ?_, small_fits _ ?_, small_fits _ ?_, small_fits _ ?_, small_fits _ ?_,
    small_fits _ ?_, small_fits _ ?_, (by intro _ _ h; cases h)⟩
  case refine_1 =>
    intro x
    match x with
    | 0 => exact ⟨⟨small_fits _ (by decide +kernel), small_all _ (by decide +kernel)⟩, small_all _ (by decide +kernel),
        small_kvs _ (by decide +kernel), small_kvs _ (by decide +kernel)⟩
    | 1 => exact ⟨small_fits _ (by decide +kernel), small_fits (.atom aMain) (by decide +kernel), small_fits _ (by decide +kernel), small_fits _ (by decide +kernel),
        small_fits _ (by decide +kernel), small_kvs _ (by decide +kernel), small_kvs _ (by decide +kernel)⟩
    | 2 => exact ⟨trivial, small_all _ (by decide +kernel), small_kvs _ (by decide +kernel), trivial⟩
    | _ + 3 => trivial
  all_goals decide +kernel

/-- the session of C81, whose function refers to itself through the module's namespace, at each protocol -/
example (p : Nat) (hp : p = 2 ∨ p = 3 ∨ p = 4 ∨ p = 5) : ∃ (how : How) (ops : List Op) (b : Bytes) (t : Nat) (heap : List TObj)
    (state : List (TVal × TVal)), how.proto = p ∧ (∀ n, 16 ≤ n → dumpBytes how exW n (.ref 0) = some (ops, b)) ∧
    (∀ rest, loadFile (kindsOf ops) (b ++ rest) = some ((.ref t, heap), rest)) ∧
    ∀ prev : String → Option Nat, ∀ q v, Path exW 0 exNs (.ref 0) q v →
      ∃ tv, TPath heap t (restored prev state) (.ref t) q tv ∧ tkind heap tv = some (kind exW v) := by
  refine C81_session_saved Nat p hp exW exWF exFits [0, 1, 2] ?_ ?_ 0 (by decide) true "m" exNs (by decide) rfl ?_ ?_ ?_
  · intro x hx y hy
    simp only [List.mem_cons, List.not_mem_nil, or_false] at hx
    rcases hx with rfl | rfl | rfl <;>
      simp [exW, exH, savedModule, mainDict, exNs, refs, conRefs, stRefs, kvVals] at hy ⊢ <;> grind
  · have step : ∀ x y, ¬ CreationRef exW x y := by
      intro x y h
      unfold CreationRef at h
      match x with
      | 0 => simp [exW, exH, savedModule, creationRefs, conRefs] at h
      | 1 => simp [exW, exH, creationRefs] at h
      | 2 => simp [exW, exH, creationRefs, conRefs] at h
      | _ + 3 => cases h
    intro x h
    cases h with
    | single h => exact step _ _ h
    | tail _ h => exact step _ _ h
  · intro x _ h
    match x with
    | 0 => cases h
    | 1 => cases h
    | 2 => cases h
    | _ + 3 => cases h
  · rintro x ⟨v, hv, hx⟩
    match x with
    | 0 => cases hv
    | 1 =>
      have atom : ∀ a y, ¬ Eager exW 1 (.atom a) y := by
        intro a y h
        generalize hv : Val.atom a = v at h
        induction h with
        | here e => subst hv; cases e
        | step _ _ ih => exact ih
      simp only [exW, exH, makeRefs, List.mem_append, List.mem_cons, List.not_mem_nil, or_false] at hv
      rcases hv with (rfl | rfl | rfl | rfl) | rfl <;> exact atom _ _ hx
    | 2 => cases hv
    | _ + 3 => cases hv
  · intro o ho
    have : (match dumps exW ((3 + 1) ^ 2) (.ref 0) with | .ok o => decide (memos o + 2 * globs o ≤ 200) | .error _ => true) = true := by
      decide +kernel
    have ho : dumps exW ((3 + 1) ^ 2) (.ref 0) = .ok o := ho
    rw [ho] at this
    have := of_decide_eq_true this
    unfold entries
    split <;> omega

end Verif.EndToEnd
