import Verif.Model.Methods
import Verif.Props.CoreEx
/-! C108: the copy of a bound method is bound to the copy of its object. -/
set_option linter.unusedSimpArgs false
namespace Verif.Core
open Spec

theorem follow_append (W : World) (v : Val) (p q : List Sel) : follow W v (p ++ q) = (follow W v p).bind fun w => follow W w q := by
  induction p generalizing v with
  | nil => simp [follow]
  | cons s ss ih =>
    cases v with
    | atom a => simp [follow]
    | ref y =>
      simp only [List.cons_append, follow]
      cases child W (W.H y) s with
      | none => rfl
      | some u => simp [ih]

/-- In the copy, `MethodType(tfunc, tself)` has been called (and nothing else done to the result): this is the method whose
`__func__` is `tfunc` and whose `__self__` is `tself`. -/
def IsMethod (heap : List TObj) (t : Nat) (tmt tfunc tself : TVal) : Prop :=
  heap[t]? = some (.node (.red tmt [tfunc, tself]) [] [] [] none)

/-- C108, for every object graph: wherever a bound method is (unless a reference to the name of a class or function was written on the way to
it), its copy is bound, to what the copies of its object and of its function are; so a path leads to the object (the function) of the copied
method exactly when it led to the object (the function) of the method. -/
theorem C108_everywhere_partial (W : World) (hw : WF W) (n : Nat) (root : Val) (ops : List Op) (h : dumps W n root = .ok ops) :
    ∃ tv heap, load ops = some (tv, heap) ∧
      ∀ p m mt func self, follow W root p = some (.ref m) → W.H m = boundMethod mt func self →
        ByName W root heap tv p ∨
        ∃ t tmt tfunc tself, tfollow heap tv p = some (.ref t) ∧
          IsMethod heap t tmt tfunc tself ∧
          (ByName W root heap tv (p ++ [.callee]) ∨ tkind heap tmt = some (kind W mt)) ∧
          (ByName W root heap tv (p ++ [.arg 0]) ∨ tkind heap tfunc = some (kind W func)) ∧
          (ByName W root heap tv (p ++ [.arg 1]) ∨ tkind heap tself = some (kind W self)) ∧
          (∀ q v, follow W root q = some v → ByName W root heap tv q ∨ ∃ tv', tfollow heap tv q = some tv' ∧
            (node W v = node W self ↔ tv' = tself) ∧ (node W v = node W func ↔ tv' = tfunc)) ∧
          (∀ q v, follow W self q = some v → ByName W root heap tv (p ++ .arg 1 :: q) ∨
            ∃ tv', tfollow heap tself q = some tv' ∧ (node W v = node W func ↔ tv' = tfunc)) := by
  obtain ⟨tv, heap, hl, h1, h2⟩ := C01_paths_partial W hw n root ops h
  obtain ⟨tv0, heap0, φ, hl0, hc⟩ := C01_isomorphic_copy_partial W hw n root ops h
  have := hl.symm.trans hl0
  cases this
  refine ⟨tv, heap, hl, ?_⟩
  intro p m mt func self hp hm
  simp only [boundMethod] at hm
  refine (path_or_name hw hc hp).imp id ?_
  rintro ⟨tm, g1, g2, _⟩
  simp only [CopyVal, hm] at g2
  rcases g2 with ⟨t, g3, rfl⟩ | ⟨g3, _⟩
  case inr => obtain ⟨v, hv, _⟩ := g3; simp [hm, makeRefs] at hv
  obtain ⟨o, h4, h5⟩ := hc.objs m t g3
  unfold CopyObj at h5
  rw [hm] at h5
  cases o with
  | node tcon l d a s =>
    obtain ⟨k1, ⟨k, k2, _⟩, k3, k4⟩ := h5
    cases tcon with
    | red tmt as' =>
      obtain ⟨k5, k6⟩ := k1
      rw [times_nil] at k2
      obtain ⟨rfl, rfl⟩ := k4
      have hl' : l = [] := List.length_eq_zero_iff.1 k2.1.symm
      have hd' : d = [] := List.length_eq_zero_iff.1 k3.1.symm
      subst hl' hd'
      have hlen := k6.1
      match as', hlen, h4 with
      | [tfunc, tself], _, h4 =>
        have pf : follow W root (p ++ [.arg 0]) = some func := by rw [follow_append, hp]; simp [follow, hm, child]
        have ps : follow W root (p ++ [.arg 1]) = some self := by rw [follow_append, hp]; simp [follow, hm, child]
        have pm : follow W root (p ++ [.callee]) = some mt := by rw [follow_append, hp]; simp [follow, hm, child]
        have tf : tfollow heap tv (p ++ [.arg 0]) = some tfunc := by rw [tfollow_append, g1]; simp [tfollow, h4, tchild]
        have ts : tfollow heap tv (p ++ [.arg 1]) = some tself := by rw [tfollow_append, g1]; simp [tfollow, h4, tchild]
        have tm : tfollow heap tv (p ++ [.callee]) = some tmt := by rw [tfollow_append, g1]; simp [tfollow, h4, tchild]
        have kd : ∀ {q v u}, follow W root q = some v → tfollow heap tv q = some u →
            ByName W root heap tv q ∨ tkind heap u = some (kind W v) := by
          intro q v u hq hu
          refine (h1 q v hq).imp id ?_
          rintro ⟨u', e1, e2⟩
          rw [hu] at e1; cases e1; exact e2
        refine ⟨t, tmt, tfunc, tself, g1, h4, kd pm tm, kd pf tf, kd ps ts, ?_, ?_⟩
        · intro q v hq
          refine (h1 q v hq).imp id ?_
          rintro ⟨u, e1, _⟩
          exact ⟨u, e1, h2 _ _ _ _ _ _ hq ps e1 ts, h2 _ _ _ _ _ _ hq pf e1 tf⟩
        · intro q v hq
          have eq : p ++ .arg 1 :: q = (p ++ [.arg 1]) ++ q := by simp
          have hq' : follow W root ((p ++ [.arg 1]) ++ q) = some v := by rw [follow_append, ps]; exact hq
          rw [eq]
          refine (h1 _ v hq').imp id ?_
          rintro ⟨u, e1, _⟩
          have e2 := e1
          rw [tfollow_append, ts] at e2
          exact ⟨u, e2, h2 _ _ _ _ _ _ hq' pf e1 tf⟩
    | _ => exact absurd k1 id
  | _ => exact absurd h5 id

/-- C108: where nothing is needed for its own creation, the copy of a bound method is bound, wherever it is: to the copy of the object it was
bound to, and to the copy of its function.  A path from the root leads to the object (the function) of the copied method exactly when it led
to the object (the function) of the method; and what led from the object to the function - its class and a name in it, say - still does. -/
theorem C108_bound_method_partial (W : World) (hw : WF W) (n : Nat) (root : Val) (ops : List Op) (h : dumps W n root = .ok ops)
    (hnc : ∀ x, Reaches W root x → ¬ Circular W x) :
    ∃ tv heap, load ops = some (tv, heap) ∧
      ∀ p m mt func self, follow W root p = some (.ref m) → W.H m = boundMethod mt func self →
        ∃ t tmt tfunc tself, tfollow heap tv p = some (.ref t) ∧
          IsMethod heap t tmt tfunc tself ∧
          tkind heap tmt = some (kind W mt) ∧ tkind heap tfunc = some (kind W func) ∧ tkind heap tself = some (kind W self) ∧
          (∀ q v, follow W root q = some v → ∃ tv', tfollow heap tv q = some tv' ∧
            (node W v = node W self ↔ tv' = tself) ∧ (node W v = node W func ↔ tv' = tfunc)) ∧
          (∀ q v, follow W self q = some v → ∃ tv', tfollow heap tself q = some tv' ∧ (node W v = node W func ↔ tv' = tfunc)) := by
  obtain ⟨tv, heap, hl, hm⟩ := C108_everywhere_partial W hw n root ops h
  have no : ∀ {p}, ¬ ByName W root heap tv p := by
    rintro p ⟨_, _, x, _, _, g1, g2, _⟩
    exact hnc x (follow_reaches g1) g2
  refine ⟨tv, heap, hl, fun p m mt func self hp hx => ?_⟩
  obtain ⟨t, tmt, tfunc, tself, g1, g2, g3, g4, g5, g6, g7⟩ := (hm p m mt func self hp hx).resolve_left no
  exact ⟨t, tmt, tfunc, tself, g1, g2, g3.resolve_left no, g4.resolve_left no, g5.resolve_left no,
    fun q v hq => (g6 q v hq).resolve_left no, fun q v hq => (g7 q v hq).resolve_left no⟩

namespace MethodEx
open Ex (s)

/-- 0: `[a, a.m]` with `a.callback = a.m`, the class of `a` by value.  1: the instance; 2: its class; 3: the bound method;
4: its function; 5: MethodType -/
def H : Addr → SObj := fun x => match x with
  | 0 => .node .list [.ref 1, .ref 3] [] none
  | 1 => .node (.newobj (.ref 2) []) [] [] (some (.attrs [(s "callback", .ref 3)]))
  | 2 => .cls (.atom (.glob "builtins" "type")) (s "A") (.atom .emptyTuple) [(s "m", .ref 4)] (s "A")
  | 3 => boundMethod (.ref 5) (.ref 4) (.ref 1)
  | 4 => .func (.atom (.str "code")) (.byRef (.atom (.glob "m" "__dict__"))) (s "m") (.atom .none) (.atom .none) [] []
  | 5 => .node (.red (.atom (.glob "dill._dill" "_load_type")) [s "MethodType"]) [] [] none
  | _ => .leaf .none

def W : World := { Ex.W with H := H }

theorem wf : WF W := by
  refine ⟨rfl, rfl, rfl, rfl, rfl, rfl, rfl, rfl, ?_, (by intro _ _ h; cases h), (by intro _ _ h; cases h), (by intro _ _ _ h; cases h)⟩
  intro x
  have hk : ∀ e, KNodup W [e] := by intro e; simp [KNodup]
  match x with
  | 0 => exact ⟨rfl, rfl⟩
  | 1 => exact ⟨by simp [KNodup], hk _⟩
  | 2 => exact hk _
  | 3 => exact ⟨by simp [KNodup], trivial, by
      intro a ha h
      cases h⟩
  | 4 => exact ⟨⟨_, rfl⟩, by simp [KNodup], by simp [KNodup]⟩
  | 5 => exact ⟨by simp [KNodup], trivial, by
      intro a ha h
      cases h
      rcases ha with h | h | h | h | h <;> exact absurd h (by decide)⟩
  | _ + 6 => trivial

theorem notCircular (x : Addr) : ¬ Circular W x := by
  have atom : ∀ x a y, ¬ Eager W x (.atom a) y := by
    intro x a y h
    generalize hv : Val.atom a = v at h
    induction h with
    | here e => subst hv; cases e
    | step _ _ ih => exact ih
  rintro ⟨v, hv, hx⟩
  match x with
  | 0 => cases hv
  | 1 => cases hv
  | 2 =>
    simp only [W, H, makeRefs, kvVals, List.map_cons, List.map_nil, List.flatMap_cons, List.flatMap_nil, List.mem_append, List.mem_cons,
      List.not_mem_nil, or_false, s] at hv
    have four : ∀ y, Eager W 2 (.ref 4) y → y = 4 := by
      intro y h
      generalize hv : Val.ref 4 = v at h
      induction h with
      | here e => subst hv; cases e; rfl
      | step _ hz ih => have := ih; subst this; simp [W, H, eagerRefs, refs, s, kvVals] at hz
    rcases hv with (rfl | rfl | rfl) | rfl | rfl <;> first | exact atom _ _ _ hx | exact absurd (four _ hx) (by decide)
  | 3 => cases hv
  | 4 =>
    simp only [W, H, makeRefs, List.mem_append, List.mem_cons, List.not_mem_nil, or_false] at hv
    rcases hv with (rfl | rfl | rfl | rfl) | rfl <;> exact atom _ _ _ hx
  | 5 => cases hv
  | _ + 6 => cases hv

theorem dumped (r : Val) (h : (dumps W 40 r).toOption.isSome = true) : ∃ ops, dumps W 40 r = .ok ops := by
  cases e : dumps W 40 r with
  | ok ops => exact ⟨ops, rfl⟩
  | error e' => rw [e] at h; cases h

/-- `[a, a.m]`: the copied method is bound to the copied object, its function is the one in the copied class, and the object's
callback is the method -/
example : ∃ ops tv heap t tmt tfunc tself tcls, dumps W 40 (.ref 0) = .ok ops ∧ load ops = some (tv, heap) ∧
    tfollow heap tv [.item 1] = some (.ref t) ∧ IsMethod heap t tmt tfunc tself ∧ tfollow heap tv [.item 0] = some tself ∧
    tfollow heap tself [.callee] = some tcls ∧ tfollow heap tcls [.val 0] = some tfunc ∧ tfollow heap tself [.attrVal 0] = some (.ref t) := by
  obtain ⟨ops, h⟩ := dumped (.ref 0) (by decide +kernel)
  obtain ⟨tv, heap, hl, hm⟩ := C108_bound_method_partial W wf 40 (.ref 0) ops h (fun x _ => notCircular x)
  obtain ⟨t, tmt, tfunc, tself, h1, h2, _, _, _, h6, h7⟩ := hm [.item 1] 3 (.ref 5) (.ref 4) (.ref 1) rfl rfl
  obtain ⟨t', _, _, _, h8, _⟩ := hm [.item 0, .attrVal 0] 3 (.ref 5) (.ref 4) (.ref 1) rfl rfl
  obtain ⟨o, o1, o2, _⟩ := h6 [.item 0] (.ref 1) rfl
  have e := o2.1 rfl
  subst e
  obtain ⟨f, f1, f2⟩ := h7 [.callee, .val 0] (.ref 4) rfl
  have e := f2.1 rfl
  subst e
  have f1' : tfollow heap o ([.callee] ++ [.val 0]) = some f := f1
  rw [tfollow_append] at f1'
  obtain ⟨c, c1, c2⟩ := Option.bind_eq_some_iff.1 f1'
  obtain ⟨_, _, h9, _, h10⟩ := C01_paths_exact_partial W wf 40 (.ref 0) ops h (fun x _ => notCircular x)
  have := hl.symm.trans h9
  cases this
  have e := (h10 [.item 1] [.item 0, .attrVal 0] _ _ _ _ rfl rfl h1 h8).1 rfl
  cases e
  have h8' : tfollow heap tv ([.item 0] ++ [.attrVal 0]) = some (.ref t) := h8
  rw [tfollow_append, o1] at h8'
  exact ⟨ops, tv, heap, t, tmt, f, o, c, h, hl, h1, h2, o1, c1, c2, h8'⟩

/-- the method first, and the object through it: `dumps(a.m)`, whose object refers back to the method -/
example : ∃ ops, dumps W 40 (.ref 3) = .ok ops := dumped _ (by decide +kernel)

/-- the same with the class in a library, found by its name, and a method whose function is not found there: decorated without functools.wraps -/
def libH : Addr → SObj := fun x => match x with
  | 1 => .node (.newobj (.atom (.glob "lib" "A")) []) [] [] none
  | x => H x

def libW : World := { Ex.W with H := libH }

end MethodEx

/-- Not so when the class is found by its name and the function is not: the copied method calls a new copy of the function, while its
object has the class that is there already, with the function that is there already.  `copy.__func__` is not
`type(copy.__self__).m` although this was so for the original. -/
theorem C108_function_apart : ∃ (W : World) (ops : List Op) (heap : List TObj) (t f o : Nat) (tmt : TVal),
    (∃ mt func self cls, W.H 3 = boundMethod mt (.ref func) (.ref self) ∧ (W.H self = .node (.newobj (.atom cls) []) [] [] none) ∧
      kind W (.ref func) = .function) ∧
    dumps W 40 (.ref 3) = .ok ops ∧ load ops = some (.ref t, heap) ∧ IsMethod heap t tmt (.ref f) (.ref o) ∧
    (∃ code g n d c a sl, heap[f]? = some (.func code g n d c a sl)) ∧
    heap[o]? = some (.node (.newobj (.atom (.glob "lib" "A")) []) [] [] [] none) := by
  cases h : dumps MethodEx.libW 40 (.ref 3) with
  | error e =>
    have : (dumps MethodEx.libW 40 (.ref 3)).toOption.isSome = true := by decide +kernel
    rw [h] at this; cases this
  | ok ops =>
    cases hl : load ops with
    | none =>
      have : (match dumps MethodEx.libW 40 (.ref 3) with | .ok ops => (load ops).isSome | _ => false) = true := by decide +kernel
      rw [h] at this; simp only [hl] at this; cases this
    | some r =>
      obtain ⟨v, heap⟩ := r
      have hb : (match dumps MethodEx.libW 40 (.ref 3) with
        | .ok ops => (match load ops with
          | some (v, heap) => decide (v = .ref 7) && decide (heap[7]? = some (.node (.red (.ref 1) [.ref 3, .ref 5]) [] [] [] none)) &&
            decide (heap[3]? = some (.func (.atom (.str "code")) (.atom (.glob "m" "__dict__")) (.atom (.str "m")) (.atom .none) (.atom .none) [] [])) &&
            decide (heap[5]? = some (.node (.newobj (.atom (.glob "lib" "A")) []) [] [] [] none))
          | none => false)
        | _ => false) = true := by decide +kernel
      rw [h] at hb
      simp only [hl, Bool.and_eq_true, decide_eq_true_eq] at hb
      obtain ⟨⟨⟨rfl, b1⟩, b2⟩, b3⟩ := hb
      exact ⟨MethodEx.libW, ops, heap, 7, 3, 5, .ref 1, ⟨_, _, _, _, rfl, rfl, rfl⟩, h, hl, b1, ⟨_, _, _, _, _, _, _, b2⟩, b3⟩

end Verif.Core
