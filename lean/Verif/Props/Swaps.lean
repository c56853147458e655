import Verif.Model.Swaps
/-! C101: settings of the interpreter that dill replaces for a moment, in several threads. -/
set_option linter.unusedSimpArgs false
set_option linter.unusedVariables false
namespace Verif.Swaps

/-! ### Specification -/

/-- a block: save the setting, replace it, write some things, restore it -/
def block (body : List Nat) : List Instr := .save :: .replace :: (body.map .put ++ [.restore])

/-- the thread is in the middle of its block -/
def Active (prog : Tid → List Instr) (s : St) (i : Tid) : Prop := s.rest i ≠ prog i ∧ s.rest i ≠ []

/-- it has come to its end -/
def Ended (s : St) (i : Tid) : Prop := s.rest i = []

/-- the thread has read the setting but not replaced it yet -/
def Entering (s : St) (i : Tid) : Prop := ∃ l, s.rest i = .replace :: l

/-- Blocks nest: `stack` are the blocks under way, the last one first.  A block begins only while no other one is entering, only the block
that began last ends, and nobody outside dill writes while a block is under way. -/
def Nested (K : Kind) (own : Tid → Oid) : List Tid → St → List Ev → Prop
  | _, _, [] => True
  | stack, s, .write x :: evs => stack = [] ∧ Nested K own stack (step K own s (.write x)) evs
  | stack, s, .turn i :: evs =>
    match s.rest i with
    | .save :: _ => (∀ j ∈ stack, ¬ Entering s j) ∧ Nested K own (i :: stack) (step K own s (.turn i)) evs
    | .restore :: _ => stack.head? = some i ∧ Nested K own stack.tail (step K own s (.turn i)) evs
    | _ => Nested K own stack (step K own s (.turn i)) evs

/-- Blocks do not overlap: one begins only while none is under way, and nobody outside dill writes while one is. -/
def Apart (K : Kind) (own : Tid → Oid) : Option Tid → St → List Ev → Prop
  | _, _, [] => True
  | cur, s, .write x :: evs => cur = none ∧ Apart K own cur (step K own s (.write x)) evs
  | cur, s, .turn i :: evs =>
    match s.rest i with
    | .save :: _ => cur = none ∧ Apart K own (some i) (step K own s (.turn i)) evs
    | .restore :: _ => Apart K own none (step K own s (.turn i)) evs
    | _ => Apart K own cur (step K own s (.turn i)) evs

/-- what somebody outside dill wrote -/
def written (evs : List Ev) : List Nat := evs.filterMap (fun e => match e with | .write x => some x | .turn _ => none)

/-! ### Lemmas -/

/-- the possible rests of a block's program -/
inductive Tail (body : List Nat) : List Instr → Prop
  | all : Tail body (block body)
  | entering : Tail body (.replace :: (body.map .put ++ [.restore]))
  | inside (l : List Nat) : Tail body (l.map .put ++ [.restore])
  | over : Tail body []

/-- the object in force if these blocks are under way -/
def top (own : Tid → Oid) (cell0 : Oid) : List Tid → Oid
  | [] => cell0
  | i :: _ => own i

def chain (own : Tid → Oid) (cell0 : Oid) (old : Tid → Oid) : List Tid → Prop
  | [] => True
  | i :: r => old i = top own cell0 r ∧ chain own cell0 old r

def isEntering : List Instr → Bool
  | .replace :: _ => true
  | _ => false

/-- begun and not ended -/
def mid : List Instr → Bool
  | [] => false
  | .save :: _ => false
  | _ => true

def inForce (own : Tid → Oid) (cell0 : Oid) (s : St) : List Tid → Oid
  | [] => cell0
  | i :: r => if isEntering (s.rest i) then top own cell0 r else own i

structure Inv (own : Tid → Oid) (body : Tid → List Nat) (cell0 : Oid) (l0 : List Nat) (stack : List Tid) (s : St) : Prop where
  tail : ∀ i, Tail (body i) (s.rest i)
  act : ∀ i, i ∈ stack ↔ mid (s.rest i) = true
  nodup : stack.Nodup
  entering : ∀ i ∈ stack.tail, isEntering (s.rest i) = false
  chain : chain own cell0 s.old stack
  cell : s.cell = inForce own cell0 s stack
  keep : s.heap cell0 = l0

theorem chain_congr (own : Tid → Oid) (cell0 : Oid) (old old' : Tid → Oid) : ∀ (st : List Tid), (∀ i ∈ st, old i = old' i) →
    chain own cell0 old st → chain own cell0 old' st := by
  intro st
  induction st with
  | nil => intros; trivial
  | cons i r ih =>
    intro h hc
    exact ⟨by rw [← h i List.mem_cons_self]; exact hc.1, ih (fun j hj => h j (List.mem_cons_of_mem _ hj)) hc.2⟩

theorem inv_write {K : Kind} {own : Tid → Oid} {body : Tid → List Nat} {cell0 : Oid} {l0 : List Nat} {s : St} (x : Nat)
    (h : Inv own body cell0 l0 [] s) : Inv own body cell0 (putIn K l0 x) [] (step K own s (.write x)) := by
  have hc : s.cell = cell0 := h.cell
  exact ⟨h.tail, h.act, h.nodup, h.entering, h.chain, h.cell, by simp [step, St.setHeap, hc, h.keep]⟩

theorem inv_turn {K : Kind} {own : Tid → Oid} {body : Tid → List Nat} {cell0 : Oid} {l0 : List Nat} {stack : List Tid} {s : St} (i : Tid)
    (hown : ∀ j, own j ≠ cell0) (h : Inv own body cell0 l0 stack s) :
    match s.rest i with
    | .save :: _ => (∀ j ∈ stack, ¬ Entering s j) → Inv own body cell0 l0 (i :: stack) (step K own s (.turn i))
    | .restore :: _ => stack.head? = some i → Inv own body cell0 l0 stack.tail (step K own s (.turn i))
    | _ => Inv own body cell0 l0 stack (step K own s (.turn i)) := by
  have ht := h.tail i
  generalize hr : s.rest i = r at ht
  cases ht with
  | all =>
    simp only [block]
    intro he
    have he' : ∀ j ∈ stack, isEntering (s.rest j) = false := by
      intro j hj
      cases hq : isEntering (s.rest j) with
      | false => rfl
      | true =>
        refine absurd ?_ (he j hj)
        unfold Entering
        revert hq
        cases s.rest j with
        | nil => simp [isEntering]
        | cons c l => cases c <;> simp [isEntering]
    have hni : i ∉ stack := by
      intro hi
      have := (h.act i).mp hi
      rw [hr] at this; simp [block, mid] at this
    have hcell : s.cell = top own cell0 stack := by
      rw [h.cell]
      cases stack with
      | nil => rfl
      | cons j r => simp [inForce, top, he' j List.mem_cons_self]
    simp only [step, hr, block, instr]
    refine ⟨?_, ?_, ?_, ?_, ?_, ?_, h.keep⟩
    · intro j
      by_cases hj : j = i
      · subst hj; simp only [if_true]; exact .entering
      · simp only [hj, if_false]; exact h.tail j
    · intro j
      by_cases hj : j = i
      · subst hj; simp [mid]
      · simp only [hj, if_false, List.mem_cons, false_or]; exact h.act j
    · exact List.nodup_cons.mpr ⟨hni, h.nodup⟩
    · intro j hj
      have : j ≠ i := fun hji => hni (hji ▸ hj)
      simp only [this, if_false]
      exact he' j hj
    · refine ⟨by simp [hcell], ?_⟩
      refine chain_congr own cell0 s.old _ stack ?_ h.chain
      intro j hj
      have : j ≠ i := fun hji => hni (hji ▸ hj)
      simp [this]
    · simp [inForce, isEntering, hcell]
  | entering =>
    simp only
    have hi : i ∈ stack := (h.act i).mpr (by rw [hr]; rfl)
    obtain ⟨j, st, rfl⟩ : ∃ j st, stack = j :: st := by cases stack with
      | nil => cases hi
      | cons j st => exact ⟨j, st, rfl⟩
    have hij : i = j := by
      rcases List.mem_cons.mp hi with h' | h'
      · exact h'
      · have := h.entering i h'; rw [hr] at this; cases this
    subst hij
    have hnd := List.nodup_cons.mp h.nodup
    simp only [step, hr, instr]
    refine ⟨?_, ?_, h.nodup, ?_, h.chain, ?_, ?_⟩
    · intro j
      by_cases hj : j = i
      · subst hj; simp only [if_true]; exact .inside _
      · simp only [hj, if_false]; exact h.tail j
    · intro j
      by_cases hj : j = i
      · subst hj
        simp only [if_true, hi, true_iff]
        cases body j <;> rfl
      · simp only [hj, if_false]; exact h.act j
    · intro j hj
      have hne : j ≠ i := fun hji => hnd.1 (hji ▸ hj)
      simp only [hne, if_false]
      exact h.entering j hj
    · have : isEntering ((body i).map Instr.put ++ [.restore]) = false := by cases body i <;> rfl
      simp [inForce, this]
    · simp only [St.setHeap]
      rw [if_neg (fun hc => hown i hc.symm)]
      exact h.keep
  | inside l =>
    have hi : i ∈ stack := (h.act i).mpr (by rw [hr]; cases l <;> rfl)
    cases l with
    | nil =>
      simp only [List.map_nil, List.nil_append]
      intro hh
      obtain ⟨st, rfl⟩ : ∃ st, stack = i :: st := by cases stack with
        | nil => cases hh
        | cons j st => simp only [List.head?_cons, Option.some.injEq] at hh; exact ⟨st, by rw [hh]⟩
      have hnd := List.nodup_cons.mp h.nodup
      simp only [List.tail_cons, step, hr, List.map_nil, List.nil_append, instr]
      refine ⟨?_, ?_, hnd.2, ?_, h.chain.2, ?_, h.keep⟩
      · intro j
        by_cases hj : j = i
        · subst hj; simp only [if_true]; exact .over
        · simp only [hj, if_false]; exact h.tail j
      · intro j
        by_cases hj : j = i
        · subst hj; simp [mid, hnd.1]
        · simp only [hj, if_false]; have := h.act j; simp only [List.mem_cons, hj, false_or] at this; exact this
      · intro j hj
        have hj' := List.mem_of_mem_tail hj
        have hne : j ≠ i := fun hji => hnd.1 (hji ▸ hj')
        simp only [hne, if_false]
        exact h.entering j hj'
      · rw [h.chain.1]
        cases st with
        | nil => rfl
        | cons j r =>
          have hne : j ≠ i := fun hji => hnd.1 (hji ▸ List.mem_cons_self)
          have := h.entering j List.mem_cons_self
          simp [inForce, top, hne, this]
    | cons x l =>
      simp only [List.map_cons, List.cons_append]
      simp only [step, hr, List.map_cons, List.cons_append, instr]
      have hcell : s.cell ≠ cell0 := by
        rw [h.cell]
        cases hst : stack with
        | nil => rw [hst] at hi; cases hi
        | cons j r =>
          rw [hst] at hi
          simp only [inForce]
          split
          · rename_i hen
            have hne : i ≠ j := by intro hij; subst hij; rw [hr] at hen; simp [isEntering] at hen
            have hir : i ∈ r := by
              rcases List.mem_cons.mp hi with h' | h'
              · exact absurd h' hne
              · exact h'
            cases r with
            | nil => cases hir
            | cons k r => exact hown k
          · exact hown j
      have hen : ∀ j, isEntering (if j = i then l.map Instr.put ++ [.restore] else s.rest j) = isEntering (s.rest j) := by
        intro j
        by_cases hj : j = i
        · subst hj; simp only [if_true, hr]; cases l <;> rfl
        · simp [hj]
      refine ⟨?_, ?_, h.nodup, ?_, h.chain, ?_, ?_⟩
      · intro j
        by_cases hj : j = i
        · subst hj; simp only [if_true]; exact .inside _
        · simp only [hj, if_false]; exact h.tail j
      · intro j
        by_cases hj : j = i
        · subst hj
          simp only [if_true, hi, true_iff]
          cases l <;> rfl
        · simp only [hj, if_false]; exact h.act j
      · intro j hj
        simp only [hen]; exact h.entering j hj
      · simp only [St.setHeap]
        rw [h.cell]
        cases stack with
        | nil => rfl
        | cons j r => simp only [inForce, hen]
      · simp only [St.setHeap]
        rw [if_neg (fun hc => hcell hc.symm)]
        exact h.keep
  | over =>
    simp only [step, hr]
    exact h

theorem inv_run (K : Kind) (own : Tid → Oid) (body : Tid → List Nat) (cell0 : Oid) (hown : ∀ j, own j ≠ cell0) (evs : List Ev) :
    ∀ (stack : List Tid) (s : St) (l0 : List Nat), Inv own body cell0 l0 stack s → Nested K own stack s evs →
    ∃ stack', Inv own body cell0 ((written evs).foldl (putIn K) l0) stack' (run K own s evs) := by
  induction evs with
  | nil => intro stack s l0 h _; exact ⟨stack, h⟩
  | cons e evs ih =>
    intro stack s l0 h hn
    cases e with
    | write x =>
      simp only [Nested] at hn
      obtain ⟨rfl, hn⟩ := hn
      exact ih [] _ _ (inv_write x h) hn
    | turn i =>
      have ht := inv_turn (K := K) i hown h
      rw [Nested.eq_def] at hn
      simp only at hn
      have hw : written (.turn i :: evs) = written evs := rfl
      rw [hw]
      split at hn <;> rename_i hr
      · rw [hr] at ht; exact ih _ _ _ (ht hn.1) hn.2
      · rw [hr] at ht; exact ih _ _ _ (ht hn.1) hn.2
      · rename_i h2
        split at ht
        · rename_i q; exact absurd q (h2 _)
        · rename_i q; exact absurd q (hr _)
        · exact ih _ _ _ ht hn

theorem inv_init (own : Tid → Oid) (body : Tid → List Nat) (cell0 : Oid) (heap : Oid → List Nat) :
    Inv own body cell0 (heap cell0) [] (init cell0 heap (fun i => block (body i))) := by
  refine ⟨fun i => .all, ?_, List.nodup_nil, ?_, trivial, rfl, rfl⟩
  · intro i; simp [init, block, mid]
  · intro i hi; cases hi

/-- C101 where blocks nest (also across threads): whenever no block is under way the setting is the object it was, and this object holds
what it held, changed only by what was written outside dill. -/
theorem C101_nested_partial (K : Kind) (own : Tid → Oid) (body : Tid → List Nat) (cell0 : Oid) (heap : Oid → List Nat)
    (hown : ∀ j, own j ≠ cell0) (evs : List Ev)
    (hn : Nested K own [] (init cell0 heap (fun i => block (body i))) evs) :
    let s := run K own (init cell0 heap (fun i => block (body i))) evs
    s.heap cell0 = (written evs).foldl (putIn K) (heap cell0) ∧
    ((∀ i, ¬ Active (fun i => block (body i)) s i) → s.cell = cell0) := by
  intro s
  obtain ⟨stack, h⟩ := inv_run K own body cell0 hown evs _ _ _ (inv_init own body cell0 heap) hn
  refine ⟨h.keep, ?_⟩
  intro ha
  have : stack = [] := by
    cases stack with
    | nil => rfl
    | cons i r =>
      have hm := (h.act i).mp List.mem_cons_self
      refine absurd ⟨?_, ?_⟩ (ha i)
      · intro hc
        have hc' : (run K own (init cell0 heap (fun i => block (body i))) evs).rest i = _ := hc
        rw [hc'] at hm; simp [block, mid] at hm
      · intro hc
        have hc' : (run K own (init cell0 heap (fun i => block (body i))) evs).rest i = _ := hc
        rw [hc'] at hm; simp [mid] at hm
  subst this
  exact h.cell

/-! ### Blocks that do not overlap -/

/-- where a thread is: not begun, entering, inside with these things written and these to come, or over -/
structure ApartInv (own : Tid → Oid) (body : Tid → List Nat) (cell0 : Oid) (cur : Option Tid) (s : St) : Prop where
  waiting : ∀ i, cur ≠ some i → s.rest i = block (body i) ∨ (s.rest i = [] ∧ s.heap (own i) = body i)
  now : ∀ i, cur = some i → s.old i = cell0 ∧
    ((s.rest i = .replace :: ((body i).map .put ++ [.restore]) ∧ s.cell = cell0) ∨
     ∃ d l, body i = d ++ l ∧ s.rest i = l.map .put ++ [.restore] ∧ s.heap (own i) = d ∧ s.cell = own i)
  free : cur = none → s.cell = cell0

theorem apart_run (own : Tid → Oid) (body : Tid → List Nat) (cell0 : Oid) (hown : ∀ j, own j ≠ cell0)
    (hinj : ∀ i j, own i = own j → i = j) (evs : List Ev) :
    ∀ (cur : Option Tid) (s : St), ApartInv own body cell0 cur s → Apart .stream own cur s evs →
    ∃ cur', ApartInv own body cell0 cur' (run .stream own s evs) := by
  induction evs with
  | nil => intro cur s h _; exact ⟨cur, h⟩
  | cons e evs ih =>
    intro cur s h hn
    cases e with
    | write x =>
      simp only [Apart] at hn
      obtain ⟨rfl, hn⟩ := hn
      refine ih none _ ⟨?_, ?_, fun _ => h.free rfl⟩ hn
      · intro i hi
        rcases h.waiting i hi with hw | ⟨h1, h2⟩
        · exact Or.inl hw
        · refine Or.inr ⟨h1, ?_⟩
          simp only [step, St.setHeap, h.free rfl, if_neg (hown i), h2]
      · intro i hi; cases hi
    | turn i =>
      rw [Apart.eq_def] at hn
      simp only at hn
      show ∃ cur', ApartInv own body cell0 cur' (run .stream own (step .stream own s (.turn i)) evs)
      by_cases hc : cur = some i
      · subst hc
        obtain ⟨ho, ⟨hr, hcell⟩ | ⟨d, l, hb, hr, hh, hcell⟩⟩ := h.now i rfl
        · rw [hr] at hn
          refine ih (some i) _ ⟨?_, ?_, (by intro hq; cases hq)⟩ hn
          · intro j hj
            have hji : j ≠ i := fun hq => hj (by rw [hq])
            have hoj : own j ≠ own i := fun hq => hji (hinj _ _ hq)
            simp only [step, hr, instr, St.setHeap, hji, if_false, hoj]
            exact h.waiting j hj
          · intro j hj
            cases hj
            refine ⟨by simpa [step, hr, instr, St.setHeap] using ho, Or.inr ⟨[], body i, rfl, ?_, ?_, ?_⟩⟩ <;>
              simp [step, hr, instr, St.setHeap, fresh]
        · cases l with
          | nil =>
            simp only [List.map_nil, List.nil_append] at hr
            rw [hr] at hn
            refine ih none _ ⟨?_, (by intro j hj; cases hj), ?_⟩ hn
            · intro j _
              by_cases hji : j = i
              · subst hji
                refine Or.inr ⟨by simp [step, hr], ?_⟩
                simp only [step, hr, instr]
                rw [hh, hb, List.append_nil]
              · simp only [step, hr, instr, hji, if_false]
                exact h.waiting j (fun hq => hji (Option.some.inj hq).symm)
            · intro _
              simp [step, hr, instr, ho]
          | cons x l =>
            simp only [List.map_cons, List.cons_append] at hr
            rw [hr] at hn
            refine ih (some i) _ ⟨?_, ?_, (by intro hq; cases hq)⟩ hn
            · intro j hj
              have hji : j ≠ i := fun hq => hj (by rw [hq])
              have hoj : own j ≠ own i := fun hq => hji (hinj _ _ hq)
              simp only [step, hr, instr, St.setHeap, hji, if_false, hcell, hoj]
              exact h.waiting j hj
            · intro j hj
              cases hj
              refine ⟨by simpa [step, hr, instr, St.setHeap] using ho, Or.inr ⟨d ++ [x], l, by simp [hb], ?_, ?_, ?_⟩⟩ <;>
                simp [step, hr, instr, St.setHeap, hcell, putIn, hh]
      · rcases h.waiting i hc with hr | ⟨hr, hh⟩
        · rw [hr] at hn
          simp only [block] at hn
          obtain ⟨rfl, hn⟩ := hn
          have hrest : (step .stream own s (.turn i)).rest =
              fun j => if j = i then .replace :: ((body i).map .put ++ [.restore]) else s.rest j := by
            simp [step, hr, block]
          have hheap : (step .stream own s (.turn i)).heap = s.heap := by simp [step, hr, block, instr]
          have hcell : (step .stream own s (.turn i)).cell = cell0 := by simp [step, hr, block, instr, h.free rfl]
          refine ih (some i) _ ⟨?_, ?_, (by intro hq; cases hq)⟩ hn
          · intro j hj
            have hji : j ≠ i := fun hq => hj (by rw [hq])
            rw [hrest, hheap]
            simp only [hji, if_false]
            exact h.waiting j (by intro hq; cases hq)
          · intro j hj
            cases hj
            refine ⟨by simp [step, hr, block, instr, h.free rfl], Or.inl ⟨by rw [hrest]; simp, hcell⟩⟩
        · rw [hr] at hn
          have hs : step .stream own s (.turn i) = s := by simp [step, hr]
          rw [hs] at hn ⊢
          exact ih _ _ h hn

/-- C101 for captures that do not overlap: every capture that has come to its end holds exactly what was printed in its block. -/
theorem C101_capture_apart_partial (own : Tid → Oid) (out : Tid → List Nat) (cell0 : Oid) (heap : Oid → List Nat)
    (hown : ∀ j, own j ≠ cell0) (hinj : ∀ i j, own i = own j → i = j) (evs : List Ev)
    (hn : Apart .stream own none (init cell0 heap (fun i => captureProg (out i))) evs) (i : Tid)
    (he : Ended (run .stream own (init cell0 heap (fun i => captureProg (out i))) evs) i) :
    (run .stream own (init cell0 heap (fun i => captureProg (out i))) evs).heap (own i) = out i := by
  obtain ⟨cur, h⟩ := apart_run own out cell0 hown hinj evs none (init cell0 heap (fun i => captureProg (out i)))
    ⟨fun i _ => Or.inl rfl, (by intro i hi; cases hi), fun _ => rfl⟩ hn
  unfold Ended at he
  by_cases hc : cur = some i
  · rcases (h.now i hc).2 with ⟨hr, _⟩ | ⟨d, l, _, hr, _⟩
    · rw [hr] at he; cases he
    · rw [hr] at he; simp at he
  · rcases h.waiting i hc with hr | ⟨_, hh⟩
    · rw [hr] at he; cases he
    · exact hh

/-! ### What dill runs are blocks -/

theorem capture_is_block (out : List Nat) : captureProg out = block out := rfl
theorem code_is_block (new : Bool) : codeProg new = block (if new then [ignoreDeprecation] else []) := rfl

/-- functions dumped in several threads, the dumps nested or one after the other: the warning filters are what they were -/
theorem C101_dump_functions_partial (new : Bool) (own : Tid → Oid) (cell0 : Oid) (heap : Oid → List Nat)
    (hown : ∀ j, own j ≠ cell0) (evs : List Ev) (hn : Nested .filters own [] (init cell0 heap (fun _ => codeProg new)) evs)
    (hw : written evs = []) :
    let s := run .filters own (init cell0 heap (fun _ => codeProg new)) evs
    (∀ i, ¬ Active (fun _ => codeProg new) s i) → s.cell = cell0 ∧ s.heap s.cell = heap cell0 := by
  intro s ha
  have h := C101_nested_partial .filters own (fun _ => if new then [ignoreDeprecation] else []) cell0 heap hown evs hn
  have hc : s.cell = cell0 := h.2 ha
  refine ⟨hc, ?_⟩
  rw [hc]
  have := h.1
  rw [hw] at this
  exact this

/-! ### Overlapping blocks -/

def t (l : List Tid) : List Ev := l.map .turn

/-- Two `with capture('stdout')` blocks that overlap: when both are over, sys.stdout is the buffer of the first one; all output of the
program is lost from now on. -/
theorem C101_stdout_lost : ∃ (own : Tid → Oid) (prog : Tid → List Instr) (evs : List Ev),
    (∀ i, ∃ out, prog i = captureProg out) ∧ (∀ j, own j ≠ 0) ∧ (∀ i j, own i = own j → i = j) ∧
    let s := run .stream own (init 0 (fun _ => []) prog) evs
    Ended s 0 ∧ Ended s 1 ∧ (∀ i, 2 ≤ i → s.rest i = prog i) ∧ s.cell = own 0 ∧ s.cell ≠ 0 := by
  refine ⟨fun i => i + 1, fun i => captureProg [i], t [0, 0, 0, 1, 1, 1, 0, 1], fun i => ⟨[i], rfl⟩, fun j => Nat.succ_ne_zero j,
    fun i j h => Nat.succ.inj h, rfl, rfl, ?_, rfl, by decide⟩
  intro i hi
  match i, hi with
  | i + 2, _ => rfl

/-- Two functions dumped at the same time under Python 3.12 or later: afterwards the filters in force are another list, in which
DeprecationWarnings are ignored; the program had not asked for that. -/
theorem C101_warnings_off : ∃ (own : Tid → Oid) (evs : List Ev),
    (∀ j, own j ≠ 0) ∧ (∀ i j, own i = own j → i = j) ∧
    let s := run .filters own (init 0 (fun o => if o = 0 then [1, 2] else []) (fun _ => codeProg true)) evs
    Ended s 0 ∧ Ended s 1 ∧ (∀ i, 2 ≤ i → s.rest i = codeProg true) ∧
    s.cell ≠ 0 ∧ s.heap s.cell = [ignoreDeprecation, 1, 2] := by
  refine ⟨fun i => i + 1, t [0, 0, 0, 1, 1, 1, 0, 1], fun j => Nat.succ_ne_zero j, fun i j h => Nat.succ.inj h, rfl, rfl, ?_,
    by decide, by decide⟩
  intro i hi
  match i, hi with
  | i + 2, _ => rfl

/-- … or the program's own list of filters is changed for good. -/
theorem C101_filters_changed : ∃ (own : Tid → Oid) (evs : List Ev),
    (∀ j, own j ≠ 0) ∧ (∀ i j, own i = own j → i = j) ∧
    let s := run .filters own (init 0 (fun o => if o = 0 then [1, 2] else []) (fun _ => codeProg true)) evs
    Ended s 0 ∧ Ended s 1 ∧ (∀ i, 2 ≤ i → s.rest i = codeProg true) ∧
    s.cell = 0 ∧ s.heap 0 = [ignoreDeprecation, 1, 2] := by
  refine ⟨fun i => i + 1, t [0, 1, 0, 0, 1, 0, 1, 1], fun j => Nat.succ_ne_zero j, fun i j h => Nat.succ.inj h, rfl, rfl, ?_,
    by decide, by decide⟩
  intro i hi
  match i, hi with
  | i + 2, _ => rfl

/-- A filter that another thread of the program adds while a function is being dumped is lost, under every Python version. -/
theorem C101_filter_of_program_lost (new : Bool) : ∃ (own : Tid → Oid) (evs : List Ev),
    (∀ j, own j ≠ 0) ∧ (∀ i j, own i = own j → i = j) ∧ written evs = [5] ∧
    let s := run .filters own (init 0 (fun o => if o = 0 then [1, 2] else []) (fun _ => codeProg new)) evs
    Ended s 0 ∧ (∀ i, 1 ≤ i → s.rest i = codeProg new) ∧ s.cell = 0 ∧ s.heap 0 = [1, 2] := by
  refine ⟨fun i => i + 1, [.turn 0, .turn 0, .write 5] ++ t [0, 0], fun j => Nat.succ_ne_zero j, fun i j h => Nat.succ.inj h, rfl, ?_⟩
  cases new
  · refine ⟨rfl, ?_, by decide, by decide⟩
    intro i hi
    match i, hi with
    | i + 1, _ => rfl
  · refine ⟨rfl, ?_, by decide, by decide⟩
    intro i hi
    match i, hi with
    | i + 1, _ => rfl

/-- Two calls of `pickles` that overlap take away a filter of the program. -/
theorem C101_pickles_overlap : ∃ (evs : List Ev),
    let s := run .filters (fun i => i + 1) (init 0 (fun o => if o = 0 then [1, 2] else []) (fun _ => picklesProg)) evs
    Ended s 0 ∧ Ended s 1 ∧ (∀ i, 2 ≤ i → s.rest i = picklesProg) ∧ s.cell = 0 ∧ s.heap 0 = [2] := by
  refine ⟨t [0, 1, 0, 1], rfl, rfl, ?_, rfl, by decide⟩
  intro i hi
  match i, hi with
  | i + 2, _ => rfl

/-! ### The hypotheses can be met -/

/-- a capture inside a capture, in another thread, and output before and after -/
example : Nested .stream (fun i => i + 1) [] (init 0 (fun _ => []) (fun i => block [i])) ([.write 9] ++ t [0, 0, 1, 1, 1, 0, 1, 0] ++ [.write 8]) := by
  simp [t, Nested, step, init, block, instr, St.setHeap, Entering]

example : Apart .stream (fun i => i + 1) none (init 0 (fun _ => []) (fun i => captureProg [i]))
    ([.write 9] ++ t [0, 0, 0, 0] ++ [.write 8] ++ t [1, 1, 1, 1]) := by
  simp [t, Apart, step, init, captureProg, instr, St.setHeap]

end Verif.Swaps
