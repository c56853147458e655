import Verif.Model.Snapshot
/-! C98: `dump_module` saves a state that the module had, whatever other threads do meanwhile. -/
set_option linter.unusedSimpArgs false
set_option linter.unusedVariables false
namespace Verif.Snapshot

/-! ### Specification -/

/-- the module's namespace: each name at most once -/
def Names (d : PDict) : Prop := ((live d).map (·.1)).Nodup

/-- the namespace when step `t` is made: what the other threads did before it is done -/
def at_ (sched : Nat → List Op) (d : PDict) : Nat → PDict
  | 0 => applyAll d (sched 0)
  | t + 1 => applyAll (at_ sched d t) (sched (t + 1))

/-- a binding that the module had at that moment -/
def Binds (d : PDict) (k : String) (v : Val) : Prop := (k, v) ∈ live d

/-- the module is as in this list of names -/
def StateIs (d : PDict) (saved : List (String × Val)) : Prop :=
  ∀ k v, (k, v) ∈ saved ↔ Binds d k v ∧ k ≠ "__builtins__" ∧ k ≠ "__loader__"

/-! ### Lemmas -/

theorem live_map_some (l : List (String × Val)) : live (l.map some) = l := by
  induction l with
  | nil => rfl
  | cons a l ih => simp [live] at ih ⊢

theorem findFrom_live : ∀ (d : PDict) (n : Nat),
    (findFrom d n = none → live (d.drop n) = []) ∧
    (∀ p e, findFrom d n = some (p, e) → n ≤ p ∧ live (d.drop n) = e :: live (d.drop (p + 1)) ∧ some e ∈ d) := by
  intro d
  induction d with
  | nil => intro n; refine ⟨fun _ => by simp [live], fun p e h => by simp [findFrom] at h⟩
  | cons a d ih =>
    intro n
    cases n with
    | zero =>
      cases a with
      | some e =>
        refine ⟨fun h => by simp [findFrom] at h, ?_⟩
        intro p e' h
        simp [findFrom] at h
        obtain ⟨rfl, rfl⟩ := h
        refine ⟨Nat.le_refl _, ?_, by simp⟩
        simp [live]
      | none =>
        obtain ⟨h1, h2⟩ := ih 0
        simp only [findFrom, Option.map_eq_none_iff]
        refine ⟨?_, ?_⟩
        · intro h; have := h1 h; simpa [live] using this
        · intro p e h
          cases hf : findFrom d 0 with
          | none => rw [hf] at h; cases h
          | some q =>
            rw [hf] at h
            simp at h
            obtain ⟨rfl, rfl⟩ := h
            obtain ⟨-, g2, g3⟩ := h2 q.1 q.2 (by rw [hf])
            refine ⟨Nat.zero_le _, ?_, List.mem_cons_of_mem _ g3⟩
            simpa [live] using g2
    | succ n =>
      obtain ⟨h1, h2⟩ := ih n
      have hff : findFrom (a :: d) (n + 1) = (findFrom d n).map fun p => (p.1 + 1, p.2) := by
        cases a <;> rfl
      rw [hff]
      refine ⟨?_, ?_⟩
      · intro h
        rw [Option.map_eq_none_iff] at h
        simpa using h1 h
      · intro p e h
        cases hf : findFrom d n with
        | none => rw [hf] at h; cases h
        | some q =>
          rw [hf] at h
          simp at h
          obtain ⟨rfl, rfl⟩ := h
          obtain ⟨g1, g2, g3⟩ := h2 q.1 q.2 (by rw [hf])
          refine ⟨by omega, ?_, List.mem_cons_of_mem _ g3⟩
          simpa using g2

theorem applyAll_append (d : PDict) (a b : List Op) : applyAll d (a ++ b) = applyAll (applyAll d a) b := by
  simp [applyAll]

/-- the namespace after the steps from `t` on -/
def from_ (sched : Nat → List Op) (t : Nat) (d : PDict) : Nat → PDict
  | 0 => applyAll d (sched t)
  | n + 1 => from_ sched (t + 1) (applyAll d (sched t)) n

theorem from_at (sched : Nat → List Op) (d : PDict) (n : Nat) : from_ sched 0 d n = at_ sched d n := by
  have gen : ∀ n t d, from_ sched t d (n + 1) = applyAll (from_ sched t d n) (sched (t + n + 1)) := by
    intro n
    induction n with
    | zero => intro t d; rfl
    | succ n ih => intro t d; rw [from_, ih, from_]; congr 2; omega
  induction n with
  | zero => rfl
  | succ n ih => rw [gen, ih, at_]; simp

/-- what the loop gives was there -/
theorem loop_values {sched : Nat → List Op} : ∀ (n t : Nat) (d : PDict) (it : Iter) (es : List (String × Val)) (d' : PDict) (t' : Nat),
    loop sched n t d it = .ok (es, d', t') →
    (∀ e ∈ es, ∃ i, t + i < t' ∧ e ∈ live (from_ sched t d i)) ∧ t < t' ∧ d' = from_ sched t d (t' - t - 1) := by
  intro n
  induction n with
  | zero => intro t d it es d' t' h; cases h
  | succ n ih =>
    intro t d it es d' t' h
    rw [loop] at h
    cases hn : next (applyAll d (sched t)) it with
    | runtimeError => rw [hn] at h; cases h
    | stop =>
      rw [hn] at h
      obtain ⟨h1, h2, h3⟩ := Prod.mk.inj (Except.ok.inj h) |>.imp id (Prod.mk.inj ·)
      subst h1 h2 h3
      refine ⟨fun e he => absurd he (by simp), by omega, ?_⟩
      have : t + 1 - t - 1 = 0 := by omega
      rw [this]; rfl
    | item e it' =>
      rw [hn] at h
      simp only at h
      cases hl : loop sched n (t + 1) (applyAll d (sched t)) it' with
      | error x => rw [hl] at h; cases h
      | ok r =>
        obtain ⟨es', d1, t1⟩ := r
        rw [hl] at h
        simp only [Except.ok.injEq, Prod.mk.injEq] at h
        obtain ⟨rfl, rfl, rfl⟩ := h
        obtain ⟨h1, h2, h3⟩ := ih _ _ _ _ _ _ hl
        refine ⟨?_, by omega, ?_⟩
        · intro e' he'
          rcases List.mem_cons.1 he' with rfl | he'
          · refine ⟨0, by omega, ?_⟩
            unfold next at hn
            split at hn
            · cases hn
            · cases hf : findFrom (applyAll d (sched t)) it.pos with
              | none => rw [hf] at hn; cases hn
              | some q =>
                rw [hf] at hn
                obtain ⟨p, e⟩ := q
                simp only at hn
                split at hn
                · cases hn
                · cases hn
                  have := ((findFrom_live _ _).2 p e' hf).2.2
                  exact List.mem_filterMap.2 ⟨some e', this, rfl⟩
          · obtain ⟨i, hi, he⟩ := h1 e' he'
            exact ⟨i + 1, by omega, he⟩
        · rw [h3]
          have : t1 - t - 1 = (t1 - (t + 1) - 1) + 1 := by omega
          rw [this]; rfl

/-- without other threads the loop gives the entries -/
theorem loop_quiet : ∀ (n t : Nat) (d : PDict) (it : Iter), it.used = (live d).length → it.len = (live (d.drop it.pos)).length → it.len < n →
    ∃ t', loop (fun _ => []) n t d it = .ok (live (d.drop it.pos), d, t') := by
  intro n
  induction n with
  | zero => intro t d it _ _ h; omega
  | succ n ih =>
    intro t d it hu hl hn
    rw [loop]
    simp only [applyAll, List.foldl_nil, next, hu, ne_eq, not_true, if_false]
    cases hf : findFrom d it.pos with
    | none =>
      have := (findFrom_live d it.pos).1 hf
      rw [this]
      exact ⟨t + 1, rfl⟩
    | some q =>
      obtain ⟨p, e⟩ := q
      obtain ⟨h1, h2, -⟩ := (findFrom_live d it.pos).2 p e hf
      rw [h2] at hl
      have hne : ¬ it.len = 0 := by simp at hl; omega
      simp only [if_neg hne]
      obtain ⟨t', ht'⟩ := ih (t + 1) d ⟨p + 1, it.used, it.len - 1⟩ hu (by simp at hl ⊢; omega) (by simp; omega)
      simp only [hu] at ht'
      rw [ht', h2]
      exact ⟨t', rfl⟩

theorem loop_quiet_iter (d : PDict) : ∃ t', loop (fun _ => []) ((live d).length + 1) 0 d (iter d) = .ok (live d, d, t') := by
  obtain ⟨t', h⟩ := loop_quiet ((live d).length + 1) 0 d (iter d) rfl (by simp [iter]) (by simp [iter])
  exact ⟨t', by simpa [iter] using h⟩

theorem savePlain_eq (sched : Nat → List Op) (t : Nat) (d : PDict) :
    savePlain sched t d = .ok ((live (applyAll d (sched t))).filter kept) := by
  unfold savePlain
  simp only
  obtain ⟨t', h⟩ := loop_quiet_iter ((live (applyAll d (sched t))).map some)
  rw [live_map_some] at h ⊢
  rw [h]

theorem kept_iff (e : String × Val) : kept e = true ↔ e.1 ≠ "__builtins__" ∧ e.1 ≠ "__loader__" := by
  simp [kept]

/-! ### C98 -/

/-- C98 for `dump_module(module)`: whatever other threads do before the copy is made and while it is pickled, what is saved is the state
of the module at one moment during the call (that of the copy), and nothing raises. -/
theorem C98_snapshot_partial (sched : Nat → List Op) (d : PDict) :
    ∃ saved, savePlain sched 0 d = .ok saved ∧ StateIs (at_ sched d 0) saved := by
  refine ⟨_, savePlain_eq sched 0 d, ?_⟩
  intro k v
  rw [List.mem_filter, kept_iff]
  rfl

/-- C98 for `refimported=True`, what holds in every case: every name that is saved had that object at some moment during the call. -/
theorem C98_ref_values_partial (imported : String → Val → Bool) (sched : Nat → List Op) (d : PDict) (saved : List (String × Val))
    (h : saveRef imported sched d = .ok saved) (k : String) (v : Val) (hk : (k, v) ∈ saved) : ∃ t, Binds (at_ sched d t) k v := by
  unfold saveRef at h
  cases hl : loop sched ((live d).length + 1) 0 d (iter d) with
  | error x => rw [hl] at h; cases h
  | ok r =>
    obtain ⟨es, d', t⟩ := r
    rw [hl] at h
    simp only at h
    obtain ⟨h1, h2, h3⟩ := loop_values _ _ _ _ _ _ _ hl
    split at h
    · cases h
      obtain ⟨i, -, hi⟩ := h1 (k, v) (List.mem_filter.1 hk).1
      exact ⟨i, by rw [← from_at]; exact hi⟩
    · rw [savePlain_eq] at h
      cases h
      have := (List.mem_filter.1 hk).1
      refine ⟨t + 1, ?_⟩
      unfold Binds
      rw [at_]
      have e1 : at_ sched d t = applyAll d' (sched t) := by
        rw [h3, from_at]
        have : t = (t - 0 - 1) + 1 := by omega
        rw [this, at_]
        simp
      rw [e1]
      exact this

/-- C98 for `refimported=True` when no other thread touches the module during the call. -/
theorem C98_ref_quiet_partial (imported : String → Val → Bool) (d : PDict) :
    ∃ saved, saveRef imported (fun _ => []) d = .ok saved ∧ StateIs d saved := by
  unfold saveRef
  obtain ⟨t', h⟩ := loop_quiet_iter d
  rw [h]
  simp only [applyAll, List.foldl_nil]
  refine ⟨(live d).filter kept, ?_, ?_⟩
  · have hp : savePlain (fun _ => []) (t' + 1) d = .ok ((live d).filter kept) := by rw [savePlain_eq]; rfl
    rw [hp]
    exact ite_self _
  · intro k v
    rw [List.mem_filter, kept_iff]
    rfl

/-! reassigning only -/

/-- the operation gives another object to a name that is there -/
def Reassigns (d : PDict) : Op → Prop
  | .assign k _ _ => k ∈ (live d).map (·.1)
  | .delete _ => False

/-- same names at the same places -/
def SameShape (d d' : PDict) : Prop := d.map (Option.map (·.1)) = d'.map (Option.map (·.1))

theorem live_names (d : PDict) : (live d).map (·.1) = (d.map (Option.map (·.1))).filterMap id := by
  induction d with
  | nil => rfl
  | cons a d ih =>
    cases a with
    | none => simpa [live] using ih
    | some e => simp [live] at ih ⊢; exact ih

theorem SameShape.names {d d' : PDict} (h : SameShape d d') : (live d).map (·.1) = (live d').map (·.1) := by
  rw [live_names, live_names, h]

theorem SameShape.length {d d' : PDict} (h : SameShape d d') : (live d).length = (live d').length := by
  have := congrArg List.length h.names
  simpa using this

theorem SameShape.drop {d d' : PDict} (h : SameShape d d') (n : Nat) : SameShape (d.drop n) (d'.drop n) := by
  unfold SameShape at h ⊢
  rw [List.map_drop, List.map_drop, h]

theorem apply_shape (d : PDict) (op : Op) (h : Reassigns d op) : SameShape (op.apply d) d := by
  cases op with
  | delete k => cases h
  | assign k v r =>
    simp only [Reassigns] at h
    simp only [Op.apply, if_pos h, SameShape, List.map_map]
    apply List.map_congr_left
    intro e _
    cases e with
    | none => rfl
    | some e =>
      obtain ⟨k', v'⟩ := e
      simp only [Function.comp]
      split
      · next e => subst e; rfl
      · rfl

/-- only reassignments of the names of `d` -/
def OnlyReassigned (d : PDict) (ops : List Op) : Prop := ∀ op ∈ ops, ∃ k v r, op = .assign k v r ∧ k ∈ (live d).map (·.1)

theorem applyAll_shape (d0 : PDict) : ∀ (ops : List Op) (d : PDict), SameShape d d0 → OnlyReassigned d0 ops → SameShape (applyAll d ops) d0 := by
  intro ops
  induction ops with
  | nil => intro d h _; exact h
  | cons op ops ih =>
    intro d h ho
    simp only [applyAll, List.foldl_cons]
    refine ih _ ?_ (fun o hm => ho o (List.mem_cons_of_mem _ hm))
    obtain ⟨k, v, r, rfl, hk⟩ := ho op (by simp)
    exact (apply_shape d (.assign k v r) (by simp only [Reassigns]; rw [h.names]; exact hk)).trans h

theorem shape_findFrom {d d' : PDict} (h : SameShape d d') (n : Nat) :
    (findFrom d n = none ↔ findFrom d' n = none) := by
  obtain ⟨h1, h2⟩ := findFrom_live d n
  obtain ⟨g1, g2⟩ := findFrom_live d' n
  have hl := (h.drop n).length
  constructor
  · intro e
    cases hf : findFrom d' n with
    | none => rfl
    | some q =>
      have := (g2 q.1 q.2 (by rw [hf])).2.1
      rw [h1 e, this] at hl; simp at hl
  · intro e
    cases hf : findFrom d n with
    | none => rfl
    | some q =>
      have := (h2 q.1 q.2 (by rw [hf])).2.1
      rw [g1 e, this] at hl; simp at hl

theorem loop_reassigned (sched : Nat → List Op) (d0 : PDict) (hs : ∀ t, OnlyReassigned d0 (sched t)) : ∀ (n t : Nat) (d : PDict) (it : Iter),
    SameShape d d0 → it.used = (live d0).length → it.len = (live (d0.drop it.pos)).length → it.len < n →
    ∃ es d' t', loop sched n t d it = .ok (es, d', t') ∧ es.map (·.1) = (live (d0.drop it.pos)).map (·.1) ∧ SameShape d' d0 := by
  intro n
  induction n with
  | zero => intro t d it _ _ _ h; omega
  | succ n ih =>
    intro t d it hd hu hl hn
    have hd' := applyAll_shape d0 (sched t) d hd (hs t)
    rw [loop]
    simp only [next]
    rw [if_neg (by rw [hu, hd'.length]; simp)]
    cases hf : findFrom (applyAll d (sched t)) it.pos with
    | none =>
      simp only
      refine ⟨_, _, _, rfl, ?_, hd'⟩
      have := (findFrom_live d0 it.pos).1 ((shape_findFrom hd' it.pos).1 hf)
      rw [this]
    | some q =>
      obtain ⟨p, e⟩ := q
      obtain ⟨h1, h2, -⟩ := (findFrom_live _ it.pos).2 p e hf
      have hlen := (hd'.drop it.pos).length
      have hname := (hd'.drop it.pos).names
      have hname' := (hd'.drop (p + 1)).names
      have hlen' := (hd'.drop (p + 1)).length
      rw [h2] at hlen hname
      have hne : ¬ it.len = 0 := by rw [hl, ← hlen]; simp
      simp only [if_neg hne]
      obtain ⟨es, d', t', e1, e2, e3⟩ := ih (t + 1) _ ⟨p + 1, it.used, it.len - 1⟩ hd' hu (by
        simp only; rw [hl, ← hlen, ← hlen']; simp) (by simp only; omega)
      rw [e1]
      refine ⟨_, _, _, rfl, ?_, e3⟩
      rw [← hname]
      simp only [List.map_cons]
      rw [e2, hname']

/-- C98 for `refimported=True` when other threads give new objects to names that are there, but add and delete none: nothing raises, every
name is saved exactly once, with an object it had at some moment during the call (not all at the same moment: `C98_ref_torn`). -/
theorem C98_ref_reassigned_partial (imported : String → Val → Bool) (sched : Nat → List Op) (d : PDict) (hs : ∀ t, OnlyReassigned d (sched t)) :
    ∃ saved, saveRef imported sched d = .ok saved ∧
      saved.map (·.1) = ((live d).map (·.1)).filter (fun k => k != "__builtins__" && k != "__loader__") ∧
      ∀ k v, (k, v) ∈ saved → ∃ t, Binds (at_ sched d t) k v := by
  have fm : ∀ es : List (String × Val), (es.filter kept).map (·.1) = (es.map (·.1)).filter (fun k => k != "__builtins__" && k != "__loader__") := by
    intro es
    induction es with
    | nil => rfl
    | cons e es ih =>
      have hk' : (e.1 != "__builtins__" && e.1 != "__loader__") = kept e := rfl
      cases hk : kept e with
      | true => rw [List.filter_cons_of_pos hk, List.map_cons, List.map_cons, List.filter_cons_of_pos (by rw [hk', hk]), ih]
      | false => rw [List.filter_cons_of_neg (by rw [hk]; simp), List.map_cons, List.filter_cons_of_neg (by rw [hk', hk]; simp), ih]
  obtain ⟨es, d', t', h1, h2, h3⟩ := loop_reassigned sched d hs ((live d).length + 1) 0 d (iter d) rfl rfl (by simp [iter]) (by simp [iter])
  have main : ∃ saved, saveRef imported sched d = .ok saved ∧
      saved.map (·.1) = ((live d).map (·.1)).filter (fun k => k != "__builtins__" && k != "__loader__") := by
    unfold saveRef
    rw [h1]
    simp only
    have h4 := applyAll_shape d (sched t') d' h3 (hs t')
    split
    · exact ⟨_, rfl, by rw [fm, h2]; simp [iter]⟩
    · have h5 := applyAll_shape d (sched (t' + 1)) _ h4 (hs (t' + 1))
      exact ⟨_, savePlain_eq .., by rw [fm, h5.names]⟩
  obtain ⟨saved, e1, e2⟩ := main
  exact ⟨saved, e1, e2, fun k v hk => C98_ref_values_partial imported sched d saved e1 k v hk⟩

theorem at_shape (sched : Nat → List Op) (d : PDict) (hs : ∀ t, OnlyReassigned d (sched t)) : ∀ t, SameShape (at_ sched d t) d
  | 0 => applyAll_shape d (sched 0) d rfl (hs 0)
  | t + 1 => applyAll_shape d (sched (t + 1)) _ (at_shape sched d hs t) (hs (t + 1))

/-- C98 for `refimported=True` when no object of the module comes from another module, and other threads only rebind: the module itself is
saved after the loop, so this is a state it had at one moment. -/
theorem C98_ref_nothing_imported_partial (sched : Nat → List Op) (d : PDict) (hs : ∀ t, OnlyReassigned d (sched t)) :
    ∃ saved t, saveRef (fun _ _ => false) sched d = .ok saved ∧ StateIs (at_ sched d t) saved := by
  obtain ⟨es, d', t', h1, h2, h3⟩ := loop_reassigned sched d hs ((live d).length + 1) 0 d (iter d) rfl rfl (by simp [iter]) (by simp [iter])
  have h4 := applyAll_shape d (sched t') d' h3 (hs t')
  obtain ⟨-, h5, h6⟩ := loop_values _ _ _ _ _ _ _ h1
  have hlen : es.length = (live (applyAll d' (sched t'))).length := by
    have := congrArg List.length h2
    rw [h4.length]
    simpa [iter] using this
  have hf : es.filter (fun e => !(fun (_ : String) (_ : Val) => false) e.1 e.2) = es := by
    rw [List.filter_eq_self]
    intro _ _; rfl
  have e1 : at_ sched d t' = applyAll d' (sched t') := by
    rw [h6, from_at]
    have : t' = (t' - 0 - 1) + 1 := by omega
    rw [this, at_]
    simp
  refine ⟨(live (applyAll (applyAll d' (sched t')) (sched (t' + 1)))).filter kept, t' + 1, ?_, ?_⟩
  · unfold saveRef
    rw [h1]
    simp only
    rw [hf, if_neg (by omega), savePlain_eq]
  · intro k v
    rw [List.mem_filter, kept_iff, at_, e1]
    rfl

local instance {α : Type} [DecidableEq α] : DecidableEq (Except Exc α) := fun a b =>
  match a, b with
  | .ok x, .ok y => if h : x = y then isTrue (by rw [h]) else isFalse (by intro e; cases e; exact h rfl)
  | .error x, .error y => if h : x = y then isTrue (by rw [h]) else isFalse (by intro e; cases e; exact h rfl)
  | .ok _, .error _ => isFalse (by intro e; cases e)
  | .error _, .ok _ => isFalse (by intro e; cases e)

/-! ### C98 is false with refimported=True -/

/-- a module with an imported function and two variables -/
def main3 : PDict := [some ("sqrt", 50), some ("a", 1), some ("b", 1)]

def isSqrt (_ : String) (v : Val) : Bool := v == 50

/-- another thread increments `a`, then `b`, between two steps of the loop: what is saved (a = 1, b = 2) is no state the module ever had. -/
def incr (t : Nat) : List Op := if t = 2 then [.assign "a" 2 false, .assign "b" 2 false] else []

theorem C98_ref_torn : saveRef isSqrt incr main3 = .ok [("sqrt", 50), ("a", 1), ("b", 2)] ∧
    (∀ n, ¬ (Binds (applyAll main3 (([Op.assign "a" 2 false, .assign "b" 2 false]).take n)) "a" 1 ∧
      Binds (applyAll main3 (([Op.assign "a" 2 false, .assign "b" 2 false]).take n)) "b" 2)) := by
  refine ⟨by decide +kernel, ?_⟩
  intro n
  match n with
  | 0 => unfold Binds; decide +kernel
  | 1 => unfold Binds; decide +kernel
  | n + 2 =>
    simp only [List.take_succ_cons, List.take_nil]
    unfold Binds; decide +kernel

/-- a name is added by another thread during the loop: RuntimeError, nothing is saved. -/
theorem C98_ref_raises : saveRef isSqrt (fun t => if t = 1 then [.assign "c" 3 false] else []) main3 = .error .runtimeError := by decide +kernel

/-- a name is deleted and another added, and the table is resized: `b` is silently not saved although it was there all the time. -/
theorem C98_ref_name_lost : saveRef isSqrt (fun t => if t = 2 then [.delete "sqrt", .assign "c" 3 true] else []) main3 =
      .ok [("sqrt", 50), ("a", 1), ("c", 3)] ∧
    Binds main3 "b" 1 ∧ Binds (applyAll main3 [.delete "sqrt"]) "b" 1 ∧ Binds (applyAll main3 [.delete "sqrt", .assign "c" 3 true]) "b" 1 := by
  unfold Binds; decide +kernel

/-! ### concrete cases -/

/-- the same schedules do not disturb `dump_module` without `refimported` -/
example : savePlain incr 2 main3 = .ok [("sqrt", 50), ("a", 2), ("b", 2)] := by decide +kernel
example : ∀ t, OnlyReassigned main3 (incr t) := by
  intro t op h
  unfold incr at h
  split at h
  · simp at h
    rcases h with rfl | rfl
    · exact ⟨_, _, _, rfl, by decide⟩
    · exact ⟨_, _, _, rfl, by decide⟩
  · cases h
/-- a dictionary with a hole -/
example : saveRef isSqrt (fun _ => []) [some ("sqrt", 50), none, some ("__builtins__", 9), some ("b", 1)] = .ok [("sqrt", 50), ("b", 1)] := by decide +kernel

end Verif.Snapshot
