import Verif.Core.Cost4
import Verif.Props.CoreTerm
import Verif.Props.CoreSucc
/-! C111: how long a pickle can be. -/
set_option linter.unusedSimpArgs false
namespace Verif.Core
open Spec

/-- C111: Let a finite set of objects contain everything reachable from the root, and no cycle consist of creation-time
references only. Then whatever is shared, however the cycles run and whatever is deferred or done twice, the pickle has at
most `2 + (N + 1) · Σ (40 + 6 · references of the object)` opcodes, `N` being the number of objects. -/
theorem C111_length (W : World) (hw : WF W) (dom : List Addr) (hd : Closed W dom) (hc : NoCreationCycle W) (root : Val)
    (hr : ∀ x, root = .ref x → x ∈ dom) (n : Nat) (ops : List Op) (h : dumps W n root = .ok ops) :
    ops.length ≤ 2 + (dom.length + 1) * (dom.map fun x => 40 + 6 * (refs (W.H x)).length).sum := by
  have hv : InD dom root := by
    cases root with
    | atom a => trivial
    | ref x => exact hr x rfl
  unfold dumps at h
  cases hs : save W n root ⟨[], []⟩ with
  | error e => rw [hs] at h; cases h
  | ok r =>
    obtain ⟨p', o⟩ := r
    rw [hs] at h
    cases h
    obtain ⟨b', hb, _⟩ := (save_c hw hd (modes hd hc) n []).ok root ⟨[], []⟩ (Phi W dom [] ⟨[], []⟩ + 2) 0
      ⟨(by intro e he; cases he), (by simp), trivial⟩ (gd_nil hv) (by omega) p' _ hs
    have e1 : Phi W dom [] ⟨[], []⟩ = (dom.length + 1) * (dom.map fun x => 40 + 6 * (refs (W.H x)).length).sum := by
      have hz : (dom.map fun x => 40 + 6 * (refs (W.H x)).length) = dom.map (sz W) := rfl
      rw [hz]
      have ht : ∀ x, term W dom [] ⟨[], []⟩ x = total W dom + sz W x := by
        intro x; simp [term, free, P.onStack]
      have h0 : Phi W dom [] ⟨[], []⟩ = (dom.map fun x => total W dom + sz W x).sum := by
        unfold Phi Fsum
        simp only [funext ht, pend, List.map_nil, List.sum_nil, Nat.add_zero]
      rw [h0, sum_add, Nat.add_mul, Nat.one_mul]
      congr 1
      rw [List.map_const', List.sum_replicate_nat]; rfl
    omega

/-- C111, graphs without knots: if moreover no object other than a cell is reachable, along any references, from what has to exist
before it can be created (so cycles run through lists, dicts, sets, functions, classes, cells, or the states of instances), then
the pickle is linear in the size of the graph: everything shared is written once. -/
theorem C111_linear (W : World) (hw : WF W) (dom : List Addr) (hd : Closed W dom) (hc : NoCreationCycle W) (hk : NoKnot W dom)
    (root : Val) (hr : ∀ x, root = .ref x → x ∈ dom) (n : Nat) (ops : List Op) (h : dumps W n root = .ok ops) :
    ops.length ≤ 2 + 2 * (dom.map fun x => 40 + 6 * (refs (W.H x)).length).sum := by
  unfold dumps at h
  cases hs : save W n root ⟨[], []⟩ with
  | error e => rw [hs] at h; cases h
  | ok r =>
    obtain ⟨p', o⟩ := r
    rw [hs] at h
    cases h
    have hg : LG W dom [] root ⟨[], []⟩ := by
      cases root with
      | atom a => exact .inl (.inl ⟨a, rfl⟩)
      | ref x => exact .inr ⟨x, rfl, hr x rfl, (by intro e he; cases he), (by intro y hy; cases hy)⟩
    obtain ⟨b', hb, _⟩ := (save_c hw hd (lmodes hd hc hk) n []).ok root ⟨[], []⟩ (LPhi W dom [] ⟨[], []⟩ + 2) 0
      ⟨(by intro e he; cases he), (by simp), (by intro e he; cases he)⟩ hg (by omega) p' _ hs
    have e1 : LPhi W dom [] ⟨[], []⟩ ≤ (dom.map fun x => sz W x + sz W x).sum := by
      unfold LPhi
      simp only [pend, List.map_nil, List.sum_nil, Nat.add_zero]
      refine sum_le fun x _ => ?_
      unfold lterm
      simp only [List.not_mem_nil, if_false]
      split
      · split <;> omega
      · omega
    rw [sum_add] at e1
    have hz : (dom.map fun x => 40 + 6 * (refs (W.H x)).length) = dom.map (sz W) := rfl
    rw [hz]; omega

/-- In particular the pickle of a graph without cycles is linear in the size of the graph, not in that of the tree it unfolds to. -/
theorem C111_linear_acyclic (W : World) (hw : WF W) (dom : List Addr) (hd : Closed W dom)
    (hc : ∀ x, ¬ Relation.TransGen (fun x y => .ref y ∈ refs (W.H x)) x x)
    (root : Val) (hr : ∀ x, root = .ref x → x ∈ dom) (n : Nat) (ops : List Op) (h : dumps W n root = .ok ops) :
    ops.length ≤ 2 + 2 * (dom.map fun x => 40 + 6 * (refs (W.H x)).length).sum := by
  refine C111_linear W hw dom hd ?_ ?_ root hr n ops h
  · intro x hx
    exact hc x (hx.lift id fun _ _ h => creation_refs _ _ h)
  · intro x _ _ y hxy hyx
    exact hc x (.head' (creation_refs _ _ hxy) hyx)

/-! ### The hypotheses can be met -/

/-- the pickle of the example graph of C01-C05 (functions, classes, cells, cycles) -/
example (ops : List Op) (h : dumps Ex.W 256 (.ref 7) = .ok ops) : ops.length ≤ 2 + 16 * ((List.range 15).map fun x => 40 + 6 * (refs (Ex.W.H x)).length).sum :=
  C111_length Ex.W Ex.wf (List.range 15) Ex.closed Ex.noCreationCycle (.ref 7) (by rintro x h; cases h; decide) 256 ops h

example : ∃ ops, dumps Ex.W 256 (.ref 7) = .ok ops ∧ 50 ≤ ops.length := by
  have : (match dumps Ex.W 256 (.ref 7) with | .ok ops => decide (50 ≤ ops.length) | .error _ => false) = true := by decide +kernel
  split at this
  · rename_i ops h; exact ⟨ops, h, by simpa using this⟩
  · cases this

namespace CostEx

/-- object 0 is a tuple of `k` lists, and each of these has the tuple as its only element -/
def H (k : Nat) : Addr → SObj
  | 0 => .tuple ((List.range k).map fun i => .ref (i + 1))
  | _ + 1 => .node .list [.ref 0] [] none

def W (k : Nat) : World := ⟨H k, .atom aCreateFunction, .atom aCreateCell, .atom aCreateType, .atom aCellEmpty,
  .atom aSetattr, .atom aDelattr, .atom aContents, .atom aQualname, fun _ => none⟩

theorem wf (k : Nat) (hk : k ≠ 0) : WF (W k) := by
  refine ⟨rfl, rfl, rfl, rfl, rfl, rfl, rfl, rfl, ?_, (by intro _ _ h; cases h), (by intro _ _ h; cases h), (by intro _ _ _ h; cases h)⟩
  intro x
  match x with
  | 0 =>
    show (List.range k).map _ ≠ []
    simp [hk]
  | _ + 1 => exact ⟨rfl, rfl⟩

theorem closed (k : Nat) : Closed (W k) (List.range (k + 1)) := by
  intro x hx y hy
  match x with
  | 0 =>
    simp only [W, H, refs, List.mem_map, List.mem_range] at hy
    obtain ⟨i, hi, hy⟩ := hy
    cases hy
    simpa using hi
  | x + 1 =>
    simp only [W, H, refs, conRefs, kvVals, stRefs, List.nil_append, List.flatMap_nil, List.append_nil, List.mem_singleton] at hy
    cases hy
    simp

theorem noCreationCycle (k : Nat) : NoCreationCycle (W k) := by
  have step : ∀ x y, CreationRef (W k) x y → x = 0 ∧ y ≠ 0 := by
    intro x y h
    match x with
    | 0 =>
      simp only [CreationRef, W, H, creationRefs, List.mem_map] at h
      obtain ⟨i, _, h⟩ := h
      cases h
      exact ⟨rfl, by simp⟩
    | x + 1 => simp [CreationRef, W, H, creationRefs, conRefs] at h
  intro x h
  have h0 : x = 0 := by
    cases h using Relation.TransGen.head_induction_on with
    | single h => exact (step _ _ h).1
    | head h _ => exact (step _ _ h).1
  have h1 : x ≠ 0 := by
    cases h with
    | single h => exact (step _ _ h).2
    | tail _ h => exact (step _ _ h).2
  exact h1 h0

theorem saveAll_append {sv : Val → PM} (a b : List Val) {p p' o} (h : saveAll sv (a ++ b) p = .ok (p', o)) :
    ∃ p1 o1 o2, saveAll sv a p = .ok (p1, o1) ∧ saveAll sv b p1 = .ok (p', o2) ∧ o = o1 ++ o2 := by
  induction a generalizing p o with
  | nil => exact ⟨p, [], o, rfl, h, rfl⟩
  | cons v a ih =>
    obtain ⟨p1, o1, o2, h1, h2, rfl⟩ := andThen_ok (f := sv v) h
    obtain ⟨p3, o3, o4, h3, h4, rfl⟩ := ih h2
    refine ⟨p3, o1 ++ o3, o4, ?_, h4, by simp⟩
    show (sv v ;; saveAll sv a) p = _
    simp only [andThen, h1, h3]

theorem saveAll_len {sv : Val → PM} (vs : List Val) (hs : ∀ v ∈ vs, ∀ p p' o, sv v p = .ok (p', o) → 1 ≤ o.length) {p p' o}
    (h : saveAll sv vs p = .ok (p', o)) : vs.length ≤ o.length := by
  induction vs generalizing p o with
  | nil => simp
  | cons v vs ih =>
    obtain ⟨p1, o1, o2, h1, h2, rfl⟩ := andThen_ok (f := sv v) h
    have := hs v (by simp) _ _ _ h1
    have := ih (fun w hw => hs w (by simp [hw])) h2
    simp only [List.length_cons, List.length_append]; omega

/-- the elements of the tuple are written one after the other -/
theorem tuple_ops {k n : Nat} (hk : k ≠ 0) {p p' o} (hm : .obj 0 ∉ p.memo) (h : save (W k) (n + 1) (.ref 0) p = .ok (p', o)) :
    ∃ p1 o1, saveAll (save (W k) n) ((List.range k).map fun i => .ref (i + 1)) p = .ok (p1, o1) ∧ o1.length ≤ o.length := by
  have hi : idx p.memo (.obj 0) = none := by
    cases hi : idx p.memo (.obj 0) with
    | none => rfl
    | some i => exact absurd (List.mem_of_getElem? (idx_some hi)) hm
  have he : ((List.range k).map fun i => Val.ref (i + 1)).isEmpty = false := by simp [hk]
  simp only [save, saveStep, hi] at h
  have hH : (W k).H 0 = .tuple ((List.range k).map fun i => .ref (i + 1)) := rfl
  rw [hH] at h
  simp only [saveTuple, he, Bool.false_eq_true, if_false] at h
  split at h
  · obtain ⟨p1, o1, o2, h1, _, rfl⟩ := andThen_ok h
    exact ⟨p1, o1, h1, by simp⟩
  · obtain ⟨p1, o1, o2, h1, h2, rfl⟩ := andThen_ok h
    cases h1
    obtain ⟨p3, o3, o4, h3, _, rfl⟩ := andThen_ok h2
    refine ⟨p3, o3, h3, ?_⟩
    simp only [List.length_append]; omega

/-- one of the lists, met for the first time -/
theorem list_ops {k n i : Nat} {p p' o} (hm : .obj (i + 1) ∉ p.memo) (h : save (W k) (n + 1) (.ref (i + 1)) p = .ok (p', o)) :
    ∃ p1 o1, save (W k) n (.ref 0) { p with memo := p.memo ++ [.obj (i + 1)] } = .ok (p1, o1) ∧ o1.length + 3 ≤ o.length := by
  have hi : idx p.memo (.obj (i + 1)) = none := by
    cases hi : idx p.memo (.obj (i + 1)) with
    | none => rfl
    | some i => exact absurd (List.mem_of_getElem? (idx_some hi)) hm
  simp only [save, saveStep, hi] at h
  have hH : (W k).H (i + 1) = .node .list [.ref 0] [] none := rfl
  rw [hH] at h
  simp only [saveNode] at h
  obtain ⟨p1, o1, o2, h1, h2, rfl⟩ := andThen_ok h
  cases h1
  obtain ⟨p3, o3, o4, h3, h4, rfl⟩ := andThen_ok h2
  cases h3
  have hb : batchAppends (save (W k) n) [.ref 0] = ((save (W k) n (.ref 0) ;; emit [.append]) ;; emit []) := rfl
  rw [hb] at h4
  obtain ⟨p5, o5, o6, h5, h6, rfl⟩ := andThen_ok h4
  obtain ⟨p7, o7, o8, h7, h8, rfl⟩ := andThen_ok h5
  cases h6
  cases h8
  exact ⟨_, _, h7, by simp⟩

theorem save_pos {k n : Nat} (hk : k ≠ 0) : ∀ x p p' o, save (W k) n (.ref x) p = .ok (p', o) → 1 ≤ o.length := by
  induction n with
  | zero => intro x p p' o h; cases h
  | succ n ih =>
    intro x p p' o h
    by_cases hm : .obj x ∈ p.memo
    · obtain ⟨i, hi⟩ := idx_isSome hm
      simp only [save, saveStep, hi] at h
      cases h
      simp
    · match x with
      | 0 =>
        obtain ⟨p1, o1, h1, h2⟩ := tuple_ops hk hm h
        have := saveAll_len _ (by
          intro v hv p p' o
          obtain ⟨i, _, rfl⟩ := List.mem_map.1 hv
          exact ih _ _ _ _) h1
        simp only [List.length_map, List.length_range] at this
        omega
      | x + 1 =>
        obtain ⟨p1, o1, _, h2⟩ := list_ops hm h
        omega

/-- values memoised already change nothing -/
theorem saveAll_memo {k n : Nat} (l : List Nat) {p p' o} (hm : ∀ i ∈ l, .obj (i + 1) ∈ p.memo)
    (h : saveAll (save (W k) (n + 1)) (l.map fun i => .ref (i + 1)) p = .ok (p', o)) : p' = p ∧ o.length = l.length := by
  induction l generalizing o with
  | nil => cases h; exact ⟨rfl, rfl⟩
  | cons i l ih =>
    obtain ⟨p1, o1, o2, h1, h2, rfl⟩ := andThen_ok (f := save (W k) (n + 1) (.ref (i + 1))) h
    obtain ⟨j, hj⟩ := idx_isSome (hm i (by simp))
    simp only [save, saveStep, hj] at h1
    cases h1
    obtain ⟨h3, h4⟩ := ih (fun i hi => hm i (by simp [hi])) h2
    exact ⟨h3, by simp only [List.length_append, List.length_cons, List.length_nil, h4]; omega⟩

theorem lower (k : Nat) (hk : k ≠ 0) (d : Nat) : ∀ (n : Nat) (p p' : P) (o : List Op), d ≤ k → .obj 0 ∉ p.memo →
    (∀ i, i < k → (.obj (i + 1) ∈ p.memo ↔ i < k - d)) → save (W k) n (.ref 0) p = .ok (p', o) → d * k ≤ o.length := by
  induction d with
  | zero => intro n p p' o _ _ _ _; simp
  | succ d ih =>
    intro n p p' o hd h0 hm h
    match n with
    | 0 => cases h
    | 1 =>
      obtain ⟨p1, o1, h1, h2⟩ := tuple_ops hk h0 h
      obtain ⟨k, rfl⟩ : ∃ k', k = k' + 1 := ⟨k - 1, by omega⟩
      rw [List.range_succ_eq_map] at h1
      obtain ⟨_, _, _, h1, _, _⟩ := andThen_ok (f := save (W (k + 1)) 0 _) h1
      cases h1
    | n + 2 =>
      obtain ⟨p1, o1, h1, h2⟩ := tuple_ops hk h0 h
      have hr : List.range k = List.range (k - (d + 1)) ++ ((k - (d + 1)) :: (List.range d).map fun i => k - (d + 1) + 1 + i) := by
        have : k = (k - (d + 1)) + (1 + d) := by omega
        conv => lhs; rw [this]
        rw [List.range_add, List.range_add]
        simp [Function.comp_def, Nat.add_assoc]
      rw [hr, List.map_append] at h1
      obtain ⟨p3, o3, o4, h3, h4, rfl⟩ := saveAll_append _ _ h1
      obtain ⟨rfl, e3⟩ := saveAll_memo (List.range (k - (d + 1))) (by
        intro i hi
        have := List.mem_range.1 hi
        exact (hm i (by omega)).2 this) h3
      rw [List.map_cons] at h4
      obtain ⟨p5, o5, o6, h5, h6, rfl⟩ := andThen_ok (f := save (W k) (n + 1) _) h4
      have e6 := saveAll_len _ (by
        intro v hv p p' o
        obtain ⟨i, _, rfl⟩ := List.mem_map.1 hv
        exact save_pos hk _ _ _ _) h6
      obtain ⟨p7, o7, h7, e7⟩ := list_ops (by
        intro hmem
        exact absurd ((hm _ (by omega)).1 hmem) (by omega)) h5
      have e8 := ih n _ _ _ (by omega) (by simp [h0]) (by
        intro i hi
        simp only [List.mem_append, List.mem_singleton, Key.obj.injEq]
        rw [hm i hi]
        constructor
        · rintro (h | h)
          · omega
          · have : i = k - (d + 1) := by simpa using h
            omega
        · intro h
          by_cases h' : i = k - (d + 1)
          · exact .inr (by rw [h'])
          · exact .inl (by omega)) h7
      simp only [List.length_range, List.length_map, List.length_append] at e3 e6 h2
      rw [Nat.add_mul]
      omega

end CostEx

/-- The bound cannot be improved to a linear one: for every `k > 0` there is a graph of `k + 1` objects with `2k` references in all
(a tuple of `k` lists, each holding the tuple) whose pickle has at least `k²` opcodes. -/
theorem C111_quadratic (k : Nat) (hk : 0 < k) : ∃ (W : World) (dom : List Addr) (root : Addr) (n : Nat) (ops : List Op),
    WF W ∧ Closed W dom ∧ NoCreationCycle W ∧ root ∈ dom ∧ dom.length = k + 1 ∧ (dom.map fun x => (refs (W.H x)).length).sum = 2 * k ∧
      dumps W n (.ref root) = .ok ops ∧ k * k ≤ ops.length := by
  have hk' : k ≠ 0 := by omega
  obtain ⟨ops, h⟩ := C86_dumps_succeeds (CostEx.W k) (CostEx.wf k hk') (List.range (k + 1)) (CostEx.closed k) (CostEx.noCreationCycle k)
    (.ref 0) (by rintro x h; cases h; simp)
    (by intro x _ hb; match x with | 0 => cases hb | _ + 1 => cases hb)
    (by
      rintro x _ ⟨v, hv, _⟩
      match x with
      | 0 => simp [CostEx.W, CostEx.H, makeRefs] at hv
      | _ + 1 => simp [CostEx.W, CostEx.H, makeRefs] at hv)
  have h := h ((k + 2) ^ 2) (by simp)
  refine ⟨CostEx.W k, List.range (k + 1), 0, _, ops, CostEx.wf k hk', CostEx.closed k, CostEx.noCreationCycle k, by simp, by simp, ?_, h, ?_⟩
  · rw [List.range_succ_eq_map]
    simp [CostEx.W, CostEx.H, refs, conRefs, kvVals, stRefs, Function.comp_def, List.map_const', List.sum_replicate_nat]
    omega
  · unfold dumps at h
    cases hs : save (CostEx.W k) ((k + 2) ^ 2) (.ref 0) ⟨[], []⟩ with
    | error e => rw [hs] at h; cases h
    | ok r =>
      obtain ⟨p', o⟩ := r
      rw [hs] at h
      cases h
      exact CostEx.lower k hk' k _ _ _ _ (Nat.le_refl _) (by simp) (by simp) hs

/-! ### Sharing and cycles in linear pickles -/

namespace TowerEx

/-- object `i` is the pair of object `i + 1` and itself, up to `k`, a list; as a tree this has `2 ^ k` leaves -/
def H (k : Nat) : Addr → SObj := fun i => if i < k then .tuple [.ref (i + 1), .ref (i + 1)] else .node .list [] [] none

def W (k : Nat) : World := ⟨H k, .atom aCreateFunction, .atom aCreateCell, .atom aCreateType, .atom aCellEmpty,
  .atom aSetattr, .atom aDelattr, .atom aContents, .atom aQualname, fun _ => none⟩

theorem wf (k : Nat) : WF (W k) := by
  refine ⟨rfl, rfl, rfl, rfl, rfl, rfl, rfl, rfl, ?_, (by intro _ _ h; cases h), (by intro _ _ h; cases h), (by intro _ _ _ h; cases h)⟩
  intro x
  show WFObj _ (H k x)
  unfold H
  split
  · exact List.cons_ne_nil _ _
  · exact ⟨rfl, rfl⟩

theorem up {k x y : Nat} (h : .ref y ∈ refs ((W k).H x)) : y = x + 1 ∧ x < k := by
  have h : .ref y ∈ refs (H k x) := h
  unfold H at h
  split at h
  · simp [refs] at h; exact ⟨h, by assumption⟩
  · simp [refs, conRefs, kvVals, stRefs] at h

theorem closed (k : Nat) : Closed (W k) (List.range (k + 1)) := by
  intro x hx y hy
  obtain ⟨rfl, h⟩ := up hy
  simp only [List.mem_range]; omega

theorem acyclic (k : Nat) : ∀ x, ¬ Relation.TransGen (fun x y => .ref y ∈ refs ((W k).H x)) x x := by
  have : ∀ x y : Nat, Relation.TransGen (fun x y : Addr => .ref y ∈ refs ((W k).H x)) x y → x < y := by
    intro x y h
    induction h with
    | single h => have := (up h).1; omega
    | tail _ h ih => have := (up h).1; omega
  intro x h
  exact Nat.lt_irrefl _ (this x x h)

/-- the pickle of a tower of `k` pairs has at most `104 (k + 1) + 2` opcodes -/
example (k n : Nat) (ops : List Op) (h : dumps (W k) n (.ref 0) = .ok ops) : ops.length ≤ 2 + 104 * (k + 1) := by
  have := C111_linear_acyclic (W k) (wf k) (List.range (k + 1)) (closed k) (acyclic k) (.ref 0) (by rintro x h; cases h; simp) n ops h
  have h2 : ((List.range (k + 1)).map fun x => 40 + 6 * (refs ((W k).H x)).length).sum ≤ 52 * (k + 1) := by
    have := sum_le (l := List.range (k + 1)) (f := fun x => 40 + 6 * (refs ((W k).H x)).length) (g := fun _ => 52) (by
      intro x _
      show 40 + 6 * (refs (H k x)).length ≤ 52
      unfold H
      split <;> simp [refs, conRefs, kvVals, stRefs])
    simpa [List.map_const', List.sum_replicate_nat, Nat.mul_comm] using this
  omega

end TowerEx

namespace ParentEx

/-- a list of two instances of the class 3, the attribute of each of which is the list -/
def H : Addr → SObj
  | 0 => .node .list [.ref 1, .ref 2] [] none
  | 1 => .node (.newobj (.ref 3) []) [] [] (some (.opaque (.ref 0)))
  | 2 => .node (.newobj (.ref 3) []) [] [] (some (.opaque (.ref 0)))
  | _ => .leaf .none

def W : World := ⟨H, .atom aCreateFunction, .atom aCreateCell, .atom aCreateType, .atom aCellEmpty,
  .atom aSetattr, .atom aDelattr, .atom aContents, .atom aQualname, fun _ => none⟩

theorem wf : WF W := by
  refine ⟨rfl, rfl, rfl, rfl, rfl, rfl, rfl, rfl, ?_, (by intro _ _ h; cases h), (by intro _ _ h; cases h), (by intro _ _ _ h; cases h)⟩
  intro x
  match x with
  | 0 => exact ⟨rfl, rfl⟩
  | 1 => simp [W, H, WFObj, KNodup, WFSt]
  | 2 => simp [W, H, WFObj, KNodup, WFSt]
  | _ + 3 => trivial

theorem step {x y : Addr} (h : CreationRef W x y) : (x = 1 ∨ x = 2) ∧ y = 3 := by
  match x with
  | 0 => simp [CreationRef, W, H, creationRefs, conRefs] at h
  | 1 => simp [CreationRef, W, H, creationRefs, conRefs] at h; exact ⟨.inl rfl, h⟩
  | 2 => simp [CreationRef, W, H, creationRefs, conRefs] at h; exact ⟨.inr rfl, h⟩
  | _ + 3 => simp [CreationRef, W, H, creationRefs] at h

theorem three {y : Addr} (h : Relation.ReflTransGen (Refers W) 3 y) : y = 3 := by
  induction h with
  | refl => rfl
  | tail _ h ih => subst ih; simp [Refers, W, H, refs] at h

/-- although every object but the class lies on cycles, the pickle is linear -/
example (n : Nat) (ops : List Op) (h : dumps W n (.ref 0) = .ok ops) : ops.length ≤ 394 := by
  have hc : NoCreationCycle W := by
    intro x h
    have : ∀ y, Relation.TransGen (CreationRef W) x y → (x = 1 ∨ x = 2) ∧ y = 3 := by
      intro y h
      induction h with
      | single h => exact step h
      | tail _ h ih => exact ⟨ih.1, (step h).2⟩
    obtain ⟨h1, h2⟩ := this x h
    rw [h2] at h1
    rcases h1 with h1 | h1 <;> exact absurd h1 (by decide)
  have hd : Closed W [0, 1, 2, 3] := by
    intro x hx y hy
    match x with
    | 0 => simp [W, H, refs, conRefs, kvVals, stRefs] at hy; rcases hy with rfl | rfl <;> decide
    | 1 => simp [W, H, refs, conRefs, kvVals, stRefs] at hy; rcases hy with rfl | rfl <;> decide
    | 2 => simp [W, H, refs, conRefs, kvVals, stRefs] at hy; rcases hy with rfl | rfl <;> decide
    | _ + 3 => simp [W, H, refs] at hy
  refine Nat.le_trans (C111_linear W wf [0, 1, 2, 3] hd hc ?_ (.ref 0) (by rintro x h; cases h; simp) n ops h) (by decide)
  intro x _ _ y hxy hyx
  obtain ⟨h1, rfl⟩ := step hxy
  rw [three hyx] at h1
  rcases h1 with h1 | h1 <;> exact absurd h1 (by decide)

example : ∃ ops, dumps W 9 (.ref 0) = .ok ops := by
  have : (match dumps W 9 (.ref 0) with | .ok _ => true | .error _ => false) = true := by decide +kernel
  split at this
  · rename_i ops h; exact ⟨ops, h⟩
  · cases this

end ParentEx

end Verif.Core
