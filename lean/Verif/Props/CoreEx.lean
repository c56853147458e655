import Verif.Props.Core
/-! Concrete graphs that meet the hypotheses of C01-C05: a recursive closure with copied globals, a class with a
method whose closure refers to the class, cyclic containers, a list subclass. -/
set_option linter.unusedSimpArgs false
namespace Verif.Core.Ex
open Spec

def s (x : String) : Val := .atom (.str x)

/-- 0: a recursive function with copied globals and a closure (1) over a cell (2) holding the function itself and
an empty cell (5); 6: a class by value whose method 9 closes over the class (cell 11); 7: a list containing
itself, the function, and twice the same tuple; 8: a dict; 12: an instance of a list subclass with a state
that refers to the list 7. -/
def H : Addr → SObj := fun a => match a with
  | 0 => .func (.ref 3) (.copied [(s "__name__", s "m")] [(s "f", .ref 0), (s "__name__", s "m")])
      (s "f") (.atom .none) (.ref 1) [(s "note", .ref 7)] [(s "__doc__", s "d")]
  | 1 => .tuple [.ref 2, .ref 5]
  | 2 => .cell (some (.ref 0))
  | 3 => .node (.red (.ref 4) [.atom (.int 1)]) [] [] none
  | 4 => .leaf (.glob "dill._dill" "_create_code")
  | 5 => .cell none
  | 6 => .cls (.atom (.glob "builtins" "type")) (s "C") (.atom .emptyTuple) [(s "m", .ref 9)] (s "outer.C")
  | 7 => .node .list [.ref 7, .ref 0, .ref 13, .ref 13, .ref 8, .ref 12, .ref 6] [] none
  | 8 => .node .dict [] [(s "self", .ref 8), (.atom (.int 3), .ref 7)] none
  | 9 => .func (.ref 3) (.byRef (.atom (.glob "m" "__dict__"))) (s "m") (.atom .none) (.ref 10) [] []
  | 10 => .tuple [.ref 11]
  | 11 => .cell (some (.ref 6))
  | 12 => .node (.newobj (.atom (.glob "m" "L")) []) [.atom (.int 1), .ref 12] [] (some (.attrs [(s "back", .ref 7)]))
  | 13 => .tuple [.atom (.int 1), .atom (.int 2), .ref 14, .atom (.bool true)]
  | 14 => .node .list [.ref 13] [] none
  | _ => .leaf .none

def W : World := ⟨H, .atom aCreateFunction, .atom aCreateCell, .atom aCreateType, .atom aCellEmpty,
  .atom aSetattr, .atom aDelattr, .atom aContents, .atom aQualname, fun _ => none⟩

instance (es : List (Val × Val)) : Decidable (KNodup W es) := by unfold KNodup; infer_instance

theorem wf : WF W := by
  refine ⟨rfl, rfl, rfl, rfl, rfl, rfl, rfl, rfl, ?_, (by intro _ _ h; cases h), (by intro _ _ h; cases h), (by intro _ _ _ h; cases h)⟩
  intro x
  match x with
  | 0 => exact ⟨⟨by simp, by decide, by decide⟩, by decide, by decide⟩
  | 1 => simp [W, H, WFObj]
  | 2 => simp [W, H, WFObj, res]
  | 3 => exact ⟨by decide, trivial, by
      intro a ha h
      cases h
      rcases ha with h | h | h | h | h <;> exact absurd h (by decide)⟩
  | 4 => trivial
  | 5 => trivial
  | 6 => show KNodup W _; decide
  | 7 => exact ⟨rfl, rfl⟩
  | 8 => exact ⟨rfl, rfl, by decide⟩
  | 9 => exact ⟨⟨_, rfl⟩, by decide, by decide⟩
  | 10 => simp [W, H, WFObj]
  | 11 => simp [W, H, WFObj, res]
  | 12 => exact ⟨by decide, by show KNodup W _; decide⟩
  | 13 => simp [W, H, WFObj]
  | 14 => exact ⟨rfl, rfl⟩
  | _ + 15 => trivial

def isOk {α : Type} : Except Err α → Bool
  | .ok _ => true
  | .error _ => false

theorem dumps_ok (r : Val) (h : isOk (dumps W 40 r) = true) : ∃ ops, dumps W 40 r = .ok ops := by
  cases e : dumps W 40 r with
  | ok o => exact ⟨o, rfl⟩
  | error e' => rw [e] at h; cases h

/-- dumps of the list, the function, and the class all succeed -/
theorem list_ok : isOk (dumps W 40 (.ref 7)) = true := by decide +kernel
theorem func_ok : isOk (dumps W 40 (.ref 0)) = true := by decide +kernel
theorem cls_ok : isOk (dumps W 40 (.ref 6)) = true := by decide +kernel

example : ∃ ops tv heap φ, dumps W 40 (.ref 7) = .ok ops ∧ load ops = some (tv, heap) ∧
    IsCopy W (.ref 7) tv heap φ := by
  obtain ⟨ops, h⟩ := dumps_ok _ list_ok
  obtain ⟨tv, heap, φ, h1, h2⟩ := C01_isomorphic_copy_partial W wf 40 (.ref 7) ops h
  exact ⟨ops, tv, heap, φ, h, h1, h2⟩

/-- paths that meet: list → function → closure → first cell → contents is the function again -/
example : follow W (.ref 7) [.item 1, .closure, .item 0, .contents] = follow W (.ref 7) [.item 1] := rfl
example : follow W (.ref 7) [.item 1, .glob (.str "f")] = some (.ref 0) := rfl
example : follow W (.ref 7) [.item 6, .val 0, .closure, .item 0, .contents] = some (.ref 6) := rfl
example : follow W (.ref 7) [.item 5, .attrVal 0, .item 0] = some (.ref 7) := rfl

/-- the list of the first example contains no object that can be reached from its own constructor arguments: -/
theorem notSelfMade (x : Addr) : ¬ SelfMade W x := by
  rintro ⟨con, lits, dits, st, hx, hne, v, hv, hr⟩
  have key : ∀ a, con = .newobj (.atom a) [] → False := by
    rintro a rfl
    simp only [conRefs, List.mem_singleton] at hv
    subst hv
    have : ∀ y, Reaches W (.atom a) y → False := by
      intro y h
      induction h with
      | here e => cases e
      | step _ _ ih => exact ih
    exact this _ hr
  match x with
  | 3 => cases hx; exact hne rfl
  | 7 => cases hx; cases hv
  | 8 => cases hx; cases hv
  | 12 => cases hx; exact key _ rfl
  | 14 => cases hx; cases hv
  | 0 => cases hx
  | 1 => cases hx
  | 2 => cases hx
  | 4 => cases hx
  | 5 => cases hx
  | 6 => cases hx
  | 9 => cases hx
  | 10 => cases hx
  | 11 => cases hx
  | 13 => cases hx
  | _ + 15 => cases hx

example : ∃ ops tv heap, dumps W 40 (.ref 7) = .ok ops ∧ load ops = some (tv, heap) ∧
    ∀ path tv', (∀ s ∈ path, isGlob s = false) → tfollow heap tv path = some tv' → ∃ v, follow W (.ref 7) path = some v := by
  obtain ⟨ops, h⟩ := dumps_ok _ list_ok
  obtain ⟨tv, heap, h1, h2⟩ := C01_no_other_paths_partial W wf 40 (.ref 7) ops h (fun x _ => notSelfMade x)
  exact ⟨ops, tv, heap, h, h1, h2⟩

end Verif.Core.Ex

/-! ### list items appended twice -/
namespace Verif.Core.Twice
open Spec
open Ex (s isOk)

/-- 0: an instance `it` of the class 1 with the items 1 and 2; 1: `class L(list)` defined in a function, its method 2 closes over
the variable holding `it`. -/
def H : Addr → SObj := fun a => match a with
  | 0 => .node (.newobj (.ref 1) []) [.atom (.int 1), .atom (.int 2)] [] none
  | 1 => .cls (.atom (.glob "builtins" "type")) (s "L") (.ref 5) [(s "m", .ref 2)] (s "outer.L")
  | 2 => .func (.atom (.str "code")) (.byRef (.atom (.glob "m" "__dict__"))) (s "m") (.atom .none) (.ref 3) [] []
  | 3 => .tuple [.ref 4]
  | 4 => .cell (some (.ref 0))
  | 5 => .tuple [.atom (.glob "builtins" "list")]
  | _ => .leaf .none

def W : World := ⟨H, .atom aCreateFunction, .atom aCreateCell, .atom aCreateType, .atom aCellEmpty,
  .atom aSetattr, .atom aDelattr, .atom aContents, .atom aQualname, fun _ => none⟩

instance (es : List (Val × Val)) : Decidable (KNodup W es) := by unfold KNodup; infer_instance

theorem wf : WF W := by
  refine ⟨rfl, rfl, rfl, rfl, rfl, rfl, rfl, rfl, ?_, (by intro _ _ h; cases h), (by intro _ _ h; cases h), (by intro _ _ _ h; cases h)⟩
  intro x
  match x with
  | 0 => exact ⟨by decide, trivial⟩
  | 1 => show KNodup W _; decide
  | 2 => exact ⟨⟨_, rfl⟩, by decide, by decide⟩
  | 3 => simp [W, H, WFObj]
  | 4 => simp [W, H, WFObj, res]
  | 5 => simp [W, H, WFObj]
  | _ + 6 => trivial

/-- what is loaded -/
def loaded (r : Val) : Option (TVal × List TObj) := match dumps W 40 r with
  | .ok ops => load ops
  | .error _ => none

/-- The Python pickler's `save_reduce` only discards the newly created object when the original was memoised meanwhile and then
appends the items to the memoised one, which has them already: `loads(dumps(it))` is `[1, 2, 1, 2]` although `it` is `[1, 2]`. -/
theorem C01_items_repeated : follow W (.ref 0) [.item 2] = none ∧
    ∃ ops tv heap, dumps W 40 (.ref 0) = .ok ops ∧ load ops = some (tv, heap) ∧
      tfollow heap tv [.item 0] = some (.atom (.int 1)) ∧ tfollow heap tv [.item 1] = some (.atom (.int 2)) ∧
      tfollow heap tv [.item 2] = some (.atom (.int 1)) ∧ tfollow heap tv [.item 3] = some (.atom (.int 2)) ∧
      tfollow heap tv [.item 4] = none := by
  refine ⟨rfl, ?_⟩
  have h : (match dumps W 40 (.ref 0) with
    | .ok ops => (match load ops with
      | some (tv, heap) => decide (tfollow heap tv [.item 0] = some (.atom (.int 1)) ∧ tfollow heap tv [.item 1] = some (.atom (.int 2)) ∧
          tfollow heap tv [.item 2] = some (.atom (.int 1)) ∧ tfollow heap tv [.item 3] = some (.atom (.int 2)) ∧
          tfollow heap tv [.item 4] = none)
      | none => false)
    | .error _ => false) = true := by decide +kernel
  cases hd : dumps W 40 (.ref 0) with
  | error e => rw [hd] at h; cases h
  | ok ops =>
    rw [hd] at h
    simp only at h
    cases hl : load ops with
    | none => rw [hl] at h; cases h
    | some r =>
      obtain ⟨tv, heap⟩ := r
      rw [hl] at h
      exact ⟨ops, tv, heap, rfl, hl, of_decide_eq_true h⟩

/-- the object is one that C01_no_other_paths_partial excludes: -/
example : SelfMade W 0 :=
  ⟨_, _, _, _, rfl, by simp, .ref 1, by simp [conRefs],
    .step (.step (.step (.step (.here rfl) (by simp [W, H, refs, kvVals] : (.ref 2 : Val) ∈ refs (W.H 1)))
      (by simp [W, H, refs] : (.ref 3 : Val) ∈ refs (W.H 2))) (by simp [W, H, refs] : (.ref 4 : Val) ∈ refs (W.H 3)))
      (by simp [W, H, refs])⟩

/-- pickling the class instead gives an instance with two items: -/
example : (loaded (.ref 1)).bind (fun r => tfollow r.2 r.1 [.val 0, .closure, .item 0, .contents, .item 1]) = some (.atom (.int 2)) ∧
    (loaded (.ref 1)).bind (fun r => tfollow r.2 r.1 [.val 0, .closure, .item 0, .contents, .item 2]) = none := by decide +kernel

end Verif.Core.Twice
