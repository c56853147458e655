import Verif.Core.Term2
import Verif.Props.CoreEx
/-! C02: saving terminates unless some cycle consists of creation-time references only. -/
set_option linter.unusedSimpArgs false
namespace Verif.Core
open Spec

/-! ### more fuel changes nothing -/

/-- `g` agrees with `f` wherever `f` does not run out of fuel -/
def Le (f g : PM) : Prop := ∀ p, (∀ q, f p ≠ .error (.fuel, q)) → g p = f p

theorem Le.refl (f : PM) : Le f f := fun _ _ => rfl

theorem Le.seq {f f' g g'} (h : Le f f') (h' : Le g g') : Le (f ;; g) (f' ;; g') := by
  intro p hne
  unfold andThen at hne ⊢
  cases hf : f p with
  | error e =>
    rw [hf] at hne
    rw [h p (by rw [hf]; exact hne), hf]
  | ok r =>
    obtain ⟨p1, o1⟩ := r
    rw [hf] at hne
    rw [h p (by rw [hf]; intro q he; cases he), hf]
    simp only at hne ⊢
    cases hg : g p1 with
    | error e =>
      rw [hg] at hne
      rw [h' p1 (by rw [hg]; exact hne), hg]
    | ok r => rw [h' p1 (by rw [hg]; intro q he; cases he), hg]

section
variable {sv sv' : Val → PM} (h : ∀ v, Le (sv v) (sv' v))
include h

theorem le_saveAll (vs : List Val) : Le (saveAll sv vs) (saveAll sv' vs) := by
  induction vs with
  | nil => exact Le.refl _
  | cons v vs ih => exact (h v).seq ih

theorem le_saveKVs (es : List (Val × Val)) : Le (saveKVs sv es) (saveKVs sv' es) := by
  induction es with
  | nil => exact Le.refl _
  | cons e es ih => exact (h e.1).seq ((h e.2).seq ih)

theorem le_batchAppends (vs : List Val) : Le (batchAppends sv vs) (batchAppends sv' vs) := by
  unfold batchAppends
  induction chunks vs with
  | nil => exact Le.refl _
  | cons c cs ih =>
    simp only [List.foldr_cons]
    refine Le.seq ?_ ih
    split
    · exact (h _).seq (Le.refl _)
    · exact (Le.refl _).seq ((le_saveAll h _).seq (Le.refl _))

theorem le_batchAdds (vs : List Val) : Le (batchAdds sv vs) (batchAdds sv' vs) := by
  unfold batchAdds
  induction chunks vs with
  | nil => exact Le.refl _
  | cons c cs ih =>
    simp only [List.foldr_cons]
    exact Le.seq ((Le.refl _).seq ((le_saveAll h _).seq (Le.refl _))) ih

theorem le_batchSetitems (es : List (Val × Val)) : Le (batchSetitems sv es) (batchSetitems sv' es) := by
  unfold batchSetitems
  induction chunks es with
  | nil => exact Le.refl _
  | cons c cs ih =>
    simp only [List.foldr_cons]
    refine Le.seq ?_ ih
    split
    · exact (h _).seq ((h _).seq (Le.refl _))
    · exact (Le.refl _).seq ((le_saveKVs h _).seq (Le.refl _))

theorem le_saveDict (k es) : Le (saveDict sv k es) (saveDict sv' k es) :=
  (Le.refl _).seq ((Le.refl _).seq (le_batchSetitems h es))

theorem le_saveArgs (as : List Arg) : Le (saveArgs sv as) (saveArgs sv' as) := by
  induction as with
  | nil => exact Le.refl _
  | cons a as ih =>
    refine Le.seq ?_ ih
    cases a with
    | val v => exact h v
    | dict k es => exact le_saveDict h k es

theorem le_anonTuple (as : List Arg) : Le (anonTuple sv as) (anonTuple sv' as) := by
  unfold anonTuple
  split
  · exact Le.refl _
  · split
    · exact (le_saveArgs h as).seq (Le.refl _)
    · exact (Le.refl _).seq ((le_saveArgs h as).seq (Le.refl _))

theorem le_callReduce (f as) : Le (callReduce sv f as) (callReduce sv' f as) :=
  (h f).seq ((le_anonTuple h as).seq (Le.refl _))

theorem le_saveState (st) : Le (saveState sv st) (saveState sv' st) := by
  cases st with
  | none => exact Le.refl _
  | some st => cases st with
    | «opaque» v => simp only [saveState]; exact (h v).seq (Le.refl _)
    | attrs es => simp only [saveState]; exact (le_saveDict h _ es).seq (Le.refl _)

theorem le_saveNode (x con lits dits st) : Le (saveNode sv x con lits dits st) (saveNode sv' x con lits dits st) := by
  unfold saveNode
  have rest := (Le.refl (memoOrGet x)).seq ((le_batchAppends h lits).seq ((le_batchSetitems h dits).seq (le_saveState h st)))
  cases con with
  | list => exact (Le.refl _).seq ((Le.refl _).seq (le_batchAppends h lits))
  | set => exact (Le.refl _).seq ((Le.refl _).seq (le_batchAdds h lits))
  | dict => exact (Le.refl _).seq ((Le.refl _).seq (le_batchSetitems h dits))
  | red f as => exact (le_callReduce h _ _).seq rest
  | newobj c as => exact (h c).seq ((le_anonTuple h _).seq ((Le.refl _).seq rest))

theorem le_saveTuple (x es) : Le (saveTuple sv x es) (saveTuple sv' x es) := by
  unfold saveTuple
  split
  · exact Le.refl _
  · split
    · exact (le_saveAll h es).seq (Le.refl _)
    · exact (Le.refl _).seq ((le_saveAll h es).seq (Le.refl _))

theorem le_saveFset (x es) : Le (saveFset sv x es) (saveFset sv' x es) := by
  unfold saveFset
  exact (Le.refl _).seq ((le_saveAll h es).seq (Le.refl _))

theorem le_runReds (W : World) (rs) : Le (runReds W sv rs) (runReds W sv' rs) := by
  induction rs with
  | nil => exact Le.refl _
  | cons r rs ih =>
    refine Le.seq ?_ ih
    cases r with
    | setCell c v => simp only [runRed]; exact (le_callReduce h _ _).seq (Le.refl _)
    | setQual c v => simp only [runRed]; exact (le_callReduce h _ _).seq (Le.refl _)
    | setItems f copy =>
      simp only [runRed]
      split
      · exact Le.refl _
      · intro p hne
        simp only at hne ⊢
        cases hi : idx p.memo (.globs f) with
        | none => rfl
        | some i =>
          rw [hi] at hne
          exact ((Le.refl (emit [.get i])).seq ((le_batchSetitems h copy).seq (Le.refl (emit [.pop])))) p hne
    | setDead f copy => exact Le.refl _

theorem le_withPost (W : World) (x l0) {b b' : PM} (hb : Le b b') : Le (withPost W sv x l0 b) (withPost W sv' x l0 b') := by
  intro p hne
  unfold withPost at hne ⊢
  by_cases hst : p.onStack x = true
  · rw [if_pos hst, if_pos hst]
  · rw [if_neg hst] at hne ⊢
    rw [if_neg hst]
    have := hb { p with post := p.post ++ [(x, l0)] }
    cases hbd : b { p with post := p.post ++ [(x, l0)] } with
    | error e =>
      rw [hbd] at hne this
      rw [this (by exact hne)]
    | ok r =>
      obtain ⟨p1, o1⟩ := r
      rw [hbd] at hne this
      rw [this (by simp)]
      simp only at hne ⊢
      have hr := le_runReds h W ((p1.post.find? (·.1 = x)).map (·.2) |>.getD []).reverse
        { p1 with post := p1.post.filter (·.1 ≠ x) }
      cases hrr : runReds W sv ((p1.post.find? (·.1 = x)).map (·.2) |>.getD []).reverse
        { p1 with post := p1.post.filter (·.1 ≠ x) } with
      | error e =>
        rw [hrr] at hne hr
        rw [hr (by exact hne)]
      | ok r => rw [hrr] at hr; rw [hr (by simp)]

theorem le_saveCell (W : World) (x c) : Le (saveCell W sv x c) (saveCell W sv' x c) := by
  cases c with
  | none =>
    exact (le_callReduce h _ _).seq ((Le.refl _).seq ((le_callReduce h _ _).seq (Le.refl _)))
  | some v =>
    have mk : ∀ w, Le (callReduce sv W.createCell [.val w] ;; memoOrGet x)
        (callReduce sv' W.createCell [.val w] ;; memoOrGet x) := fun w => (le_callReduce h _ _).seq (Le.refl _)
    intro p hne
    simp only [saveCell] at hne ⊢
    cases hh : cellHost p v with
    | none => rw [hh] at hne; exact mk v p hne
    | some y =>
      rw [hh] at hne
      simp only at hne ⊢
      have := mk (.atom .none) p
      cases hb : (callReduce sv W.createCell [.val (.atom .none)] ;; memoOrGet x) p with
      | error e =>
        rw [hb] at hne this
        rw [this (by exact hne)]
      | ok r => rw [hb] at this; rw [this (by simp)]

theorem le_saveFunc (W : World) (x code g name df cl attrs slots) :
    Le (saveFunc W sv x code g name df cl attrs slots) (saveFunc W sv' x code g name df cl attrs slots) := by
  have hst : Le (saveFuncState sv attrs slots) (saveFuncState sv' attrs slots) := by
    unfold saveFuncState
    split
    · exact (le_saveDict h _ _).seq (Le.refl _)
    · exact (le_saveDict h _ _).seq ((le_saveDict h _ _).seq (Le.refl _))
  have body : ∀ a, Le (callReduce sv W.createFunction a ;; memoOrGet x ;; saveFuncState sv attrs slots)
      (callReduce sv' W.createFunction a ;; memoOrGet x ;; saveFuncState sv' attrs slots) :=
    fun a => (le_callReduce h _ _).seq ((Le.refl _).seq hst)
  intro p hne
  cases g with
  | byRef v => exact le_withPost h W x [] (body _) p hne
  | copied init copy =>
    simp only [saveFunc] at hne ⊢
    cases hfd : p.post.find? (fun e => decide (e.1 ∈ valueAddrs copy)) with
    | none => rw [hfd] at hne; exact le_withPost h W x _ (body _) p hne
    | some e => rw [hfd] at hne; exact le_withPost h W x _ (body _) _ hne

theorem le_saveStep (W : World) (v) : Le (saveStep W sv v) (saveStep W sv' v) := by
  cases v with
  | atom a => exact Le.refl _
  | ref x =>
    intro p hne
    simp only [saveStep] at hne ⊢
    cases hi : idx p.memo (.obj x) with
    | some i => rfl
    | none =>
      rw [hi] at hne
      simp only at hne ⊢
      cases hx : W.H x with
      | leaf a => rfl
      | tuple es => rw [hx] at hne; exact le_saveTuple h x es p hne
      | fset es => rw [hx] at hne; exact le_saveFset h x es p hne
      | node con lits dits st => rw [hx] at hne; exact le_saveNode h x con lits dits st p hne
      | cell c => rw [hx] at hne; exact le_saveCell h W x c p hne
      | func code g name df cl attrs slots => rw [hx] at hne; exact le_saveFunc h W x _ _ _ _ _ _ _ p hne
      | cls mt name bases dict qual =>
        rw [hx] at hne
        exact le_withPost h W x _ ((le_callReduce h _ _).seq (Le.refl _)) p hne
      | bad => rfl

end

theorem save_fuel_mono (W : World) (n : Nat) : ∀ v, Le (save W n v) (save W (n + 1) v) := by
  induction n with
  | zero => intro v p hne; exact absurd rfl (hne p)
  | succ n ih => intro v; exact le_saveStep ih W v

theorem dumps_fuel_mono (W : World) (root : Val) {n : Nat} (h : dumps W n root ≠ .error .fuel) (k : Nat) :
    dumps W (n + k) root = dumps W n root := by
  have key : ∀ k, save W (n + k) root ⟨[], []⟩ = save W n root ⟨[], []⟩ := by
    intro k
    induction k with
    | zero => rfl
    | succ k ih =>
      have := save_fuel_mono W (n + k) root ⟨[], []⟩
      rw [← ih]
      refine this ?_
      rw [ih]
      intro q he
      exact h (by simp only [dumps, he])
  simp only [dumps, key k]

/-! ### C02 -/

/-- If a finite set of objects contains everything reachable from the root, and no cycle consists of
creation-time references only, then dumps gives an answer within `(N+1)²` nested saves, `N` being the number of
objects, and that answer does not depend on how much deeper the recursion limit is. -/
theorem C02_terminates (W : World) (hw : WF W) (dom : List Addr) (hd : Closed W dom) (hc : NoCreationCycle W)
    (root : Val) (hr : ∀ x, root = .ref x → x ∈ dom) :
    dumps W ((dom.length + 1) ^ 2) root ≠ .error .fuel ∧
    ∀ n, (dom.length + 1) ^ 2 ≤ n → dumps W n root = dumps W ((dom.length + 1) ^ 2) root := by
  have h1 : dumps W ((dom.length + 1) ^ 2) root ≠ .error .fuel := by
    have hv : InD dom root := by
      cases root with
      | atom a => trivial
      | ref x => exact hr x rfl
    have hU : U dom ⟨[], []⟩ ≤ dom.length := List.length_filter_le _ _
    have hk : vrank W dom root ≤ dom.length := by
      cases root with
      | atom a => exact Nat.zero_le _
      | ref x => exact rank_le _ _ _
    have := save_t hw hd hc ((dom.length + 1) ^ 2) root ⟨[], []⟩ hv (by intro e he; cases he) (by nlinarith)
    unfold Ok at this
    intro he
    unfold dumps at he
    cases hs : save W ((dom.length + 1) ^ 2) root ⟨[], []⟩ with
    | ok r => rw [hs] at he; cases he
    | error e => rw [hs] at he this; obtain ⟨e, q⟩ := e; cases he; exact this
  refine ⟨h1, ?_⟩
  intro n hn
  obtain ⟨k, rfl⟩ := Nat.exists_eq_add_of_le hn
  exact dumps_fuel_mono W root h1 k

/-- The condition is needed: an object whose constructor argument is the object itself is never pickled, at any
recursion limit. -/
theorem C02_creation_cycle_overflows (W : World) (x : Addr) (f : Val) (lits : List Val) (dits : List (Val × Val))
    (st : Option St) (hf : ∃ a, f = .atom a) (hx : W.H x = .node (.red f [.ref x]) lits dits st) (n : Nat) :
    dumps W n (.ref x) = .error .fuel := by
  obtain ⟨a, rfl⟩ := hf
  have key : ∀ n, ∀ p : P, .obj x ∉ p.memo → ∃ q, save W n (.ref x) p = .error (.fuel, q) := by
    intro n
    induction n with
    | zero => intro p _; exact ⟨p, rfl⟩
    | succ n ih =>
      intro p hn
      have hi : idx p.memo (.obj x) = none := by
        cases h : idx p.memo (.obj x) with
        | none => rfl
        | some i => exact absurd (List.mem_of_getElem? (idx_some h)) hn
      simp only [save, saveStep, hi, hx, saveNode]
      cases n with
      | zero => exact ⟨p, rfl⟩
      | succ n =>
        obtain ⟨q, e⟩ := ih p hn
        refine ⟨q, ?_⟩
        simp [callReduce, andThen, anonTuple, saveArgs, saveArg, save, saveStep, emit] at e ⊢
        rw [e]
  obtain ⟨q, hq⟩ := key n ⟨[], []⟩ (by simp)
  simp only [dumps, hq]

/-- The example graph has no creation cycle (every cycle passes through a list, a dict, the state of an instance,
or a by-value function or class), and its 15 objects are closed under references. -/
theorem Ex.noCreationCycle : NoCreationCycle Ex.W := by
  -- creation references go down in this order
  let r : Addr → Nat := fun x => match x with
    | 1 => 3 | 2 => 1 | 3 => 1 | 10 => 2 | 11 => 1 | 13 => 1 | _ => 0
  have step : ∀ x y, CreationRef Ex.W x y → r y < r x := by
    intro x y h
    unfold CreationRef at h
    match x with
    | 0 => simp [Ex.W, Ex.H, creationRefs] at h
    | 1 => simp [Ex.W, Ex.H, creationRefs] at h; rcases h with rfl | rfl <;> decide
    | 2 => simp [Ex.W, Ex.H, creationRefs] at h; subst h; decide
    | 3 => simp [Ex.W, Ex.H, creationRefs, conRefs] at h; subst h; decide
    | 4 => simp [Ex.W, Ex.H, creationRefs] at h
    | 5 => simp [Ex.W, Ex.H, creationRefs] at h
    | 6 => simp [Ex.W, Ex.H, creationRefs] at h
    | 7 => simp [Ex.W, Ex.H, creationRefs, conRefs] at h
    | 8 => simp [Ex.W, Ex.H, creationRefs, conRefs] at h
    | 9 => simp [Ex.W, Ex.H, creationRefs] at h
    | 10 => simp [Ex.W, Ex.H, creationRefs] at h; subst h; decide
    | 11 => simp [Ex.W, Ex.H, creationRefs] at h; subst h; decide
    | 12 => simp [Ex.W, Ex.H, creationRefs, conRefs] at h
    | 13 => simp [Ex.W, Ex.H, creationRefs] at h; subst h; decide
    | 14 => simp [Ex.W, Ex.H, creationRefs, conRefs] at h
    | _ + 15 => simp [Ex.W, Ex.H, creationRefs] at h
  intro x h
  have : ∀ y, Relation.TransGen (CreationRef Ex.W) x y → r y < r x := by
    intro y h
    induction h with
    | single h => exact step _ _ h
    | tail _ h ih => exact Nat.lt_trans (step _ _ h) ih
  exact absurd (this x h) (Nat.lt_irrefl _)

theorem Ex.closed : Closed Ex.W (List.range 15) := by
  have : ∀ x ∈ List.range 15, ∀ v ∈ refs (Ex.W.H x),
      (match v with | .ref y => decide (y ∈ List.range 15) | .atom _ => true) = true := by decide +kernel
  intro x hx y hy
  simpa using this x hx _ hy

example : dumps Ex.W 256 (.ref 7) ≠ .error .fuel :=
  (C02_terminates Ex.W Ex.wf (List.range 15) Ex.closed Ex.noCreationCycle (.ref 7) (by rintro x h; cases h; decide)).1

end Verif.Core
