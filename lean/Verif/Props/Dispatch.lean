import Verif.Model.Dispatch
set_option linter.unusedSimpArgs false
set_option linter.unusedVariables false
namespace Verif.Dispatch

/-! ### specification -/

/-- the function most recently registered for `t` in a history, if any. -/
def lastRegistered (t : Ty) : List Op → Option Fn
  | [] => none
  | op :: ops => match lastRegistered t ops with
    | some f => some f
    | none => match op with
      | .register t' f => if t' = t then some f else none
      | .extend _ => none

/-- all functions registered in the history are dill's own. -/
def OnlyOwn (own : Fn → Bool) (ops : List Op) : Prop := ∀ t f, Op.register t f ∈ ops → own f = true

/-- the two tables give the same answer for every type. -/
def Same (a b : Table) : Prop := ∀ t, a.get t = b.get t

/-! ### lemmas -/

theorem foldl_set_get : ∀ (e d : Table), e.WF → ∀ t,
    (e.foldl (fun d p => d.set p.1 p.2) d).get t = match e.get t with
      | some f => some f
      | none => d.get t
  | [], d, _, t => rfl
  | (k, v) :: e, d, hw, t => by
    simp only [Dict.WF, Dict.keys_cons, List.nodup_cons] at hw
    simp only [List.foldl_cons]
    rw [foldl_set_get e _ hw.2 t]
    simp only [Dict.get]
    by_cases h : k = t
    · subst h
      have : Dict.get e k = none := (Dict.get_eq_none_iff _ _).2 hw.1
      simp [this]
    · simp only [h, if_false]
      cases Dict.get e t with
      | some f => rfl
      | none => simp only; exact Dict.get_set_ne _ _ (Ne.symm h)

theorem revertStep_get (own : Fn → Bool) (copy stock : Table) (p : Ty × Fn) (t : Ty) :
    (revertStep own copy stock p).get t = if p.1 = t ∧ own p.2 = true then copy.get t else stock.get t := by
  unfold revertStep
  cases ho : own p.2 with
  | false => simp
  | true =>
    simp only [if_true, and_true]
    by_cases h : p.1 = t
    · subst h
      simp only [if_true]
      cases hc : copy.get p.1 with
      | none => simp
      | some f => simp
    · simp only [h, if_false]
      cases hc : copy.get p.1 with
      | none => simp only; exact Dict.get_del_ne _ (Ne.symm h)
      | some f => simp only; rw [Dict.get_set_ne _ _ (Ne.symm h), Dict.get_del_ne _ (Ne.symm h)]

theorem foldl_revert_get (own : Fn → Bool) (copy : Table) : ∀ (items stock : Table), items.WF → ∀ t,
    (items.foldl (revertStep own copy) stock).get t = match items.get t with
      | some f => if own f then copy.get t else stock.get t
      | none => stock.get t
  | [], stock, _, t => rfl
  | (k, v) :: items, stock, hw, t => by
    simp only [Dict.WF, Dict.keys_cons, List.nodup_cons] at hw
    simp only [List.foldl_cons]
    rw [foldl_revert_get own copy items _ hw.2 t]
    simp only [revertStep_get, Dict.get]
    by_cases h : k = t
    · subst h
      have : Dict.get items k = none := (Dict.get_eq_none_iff _ _).2 hw.1
      simp [this]
    · simp only [h, if_false, false_and]

theorem wf_revertStep (own : Fn → Bool) (copy : Table) {stock : Table} (h : stock.WF) (p : Ty × Fn) :
    (revertStep own copy stock p).WF := by
  unfold revertStep
  split
  · dsimp only
    split
    · exact Dict.wf_set (Dict.wf_del h _) _ _
    · exact Dict.wf_del h _
  · exact h

theorem wf_foldl {f : Table → Ty × Fn → Table} (hf : ∀ d p, d.WF → (f d p).WF) : ∀ (e d : Table), d.WF →
    (e.foldl f d).WF
  | [], d, h => h
  | p :: e, d, h => wf_foldl hf e _ (hf d p h)

/-- reachable states have proper dictionaries. -/
structure Ok (s0 : Table) (s : St) : Prop where
  wstock : s.stock.WF
  wdill : s.dill.WF
  copy : s.copy = s0

theorem ok_run (own : Fn → Bool) (s0 : Table) : ∀ (ops : List Op) (s : St), Ok s0 s → Ok s0 (run own s ops)
  | [], s, h => h
  | op :: ops, s, h => by
    refine ok_run own s0 ops (step own s op) ?_
    cases op with
    | register t f => exact ⟨h.wstock, Dict.wf_set h.wdill _ _, h.copy⟩
    | extend on =>
      cases on with
      | true => exact ⟨wf_foldl (fun d p hd => Dict.wf_set hd _ _) _ _ h.wstock, h.wdill, h.copy⟩
      | false => exact ⟨wf_foldl (fun d p hd => wf_revertStep _ _ hd _) _ _ h.wstock, h.wdill, h.copy⟩

theorem ok_init {s0 : Table} (h : s0.WF) : Ok s0 (init s0) := ⟨h, h, rfl⟩

theorem run_append (own : Fn → Bool) (s : St) (a b : List Op) : run own s (a ++ b) = run own (run own s a) b := by
  simp [run, List.foldl_append]

theorem lastRegistered_append (t : Ty) : ∀ (a b : List Op),
    lastRegistered t (a ++ b) = match lastRegistered t b with
      | some f => some f
      | none => lastRegistered t a
  | [], b => by cases h : lastRegistered t b <;> simp [lastRegistered, h]
  | op :: a, b => by
    simp only [List.cons_append, lastRegistered, lastRegistered_append t a b]
    cases lastRegistered t b <;> rfl

/-! ### C21 -/

/-- dill's own table after any history: the last registration, else what pickle had at import. -/
theorem C21_last_registration_wins (own : Fn → Bool) (s0 : Table) (ops : List Op) (t : Ty) :
    (run own (init s0) ops).dill.get t = match lastRegistered t ops with
      | some f => some f
      | none => s0.get t := by
  have gen : ∀ (ops : List Op) (s : St), (run own s ops).dill.get t = match lastRegistered t ops with
      | some f => some f
      | none => s.dill.get t := by
    intro ops
    induction ops with
    | nil => intro s; rfl
    | cons op ops ih =>
      intro s
      have := ih (step own s op)
      simp only [run, List.foldl_cons] at this ⊢
      rw [this]
      simp only [lastRegistered]
      cases lastRegistered t ops with
      | some f => rfl
      | none =>
        cases op with
        | register t' f =>
          simp only [step]
          by_cases h : t' = t
          · simp [h]
          · simp only [h, if_false]; exact Dict.get_set_ne _ _ (Ne.symm h)
        | extend on => cases on <;> rfl
  exact gen ops _

/-- What the pickler uses for a type: the last registration, else pickle's, else save_type for a metaclass,
else nothing (and pickle's default reduction applies). -/
theorem C21_lookup (own : Fn → Bool) (isMeta : Ty → Bool) (saveType : Fn) (s0 : Table) (ops : List Op) (t : Ty) :
    lookup isMeta saveType (run own (init s0) ops).dill t =
      match lastRegistered t ops with
      | some f => some f
      | none => match s0.get t with
        | some f => some f
        | none => if isMeta t then some saveType else none := by
  simp only [lookup, C21_last_registration_wins]
  cases lastRegistered t ops with
  | some f => rfl
  | none => cases s0.get t <;> rfl

/-- A registration changes nothing for any other type, and never touches pickle's own table. -/
theorem C21_register_local (own : Fn → Bool) (isMeta : Ty → Bool) (saveType : Fn) (s0 : Table) (ops : List Op)
    (t : Ty) (f : Fn) :
    let s := run own (init s0) ops
    let s' := run own (init s0) (ops ++ [.register t f])
    s'.stock = s.stock ∧ lookup isMeta saveType s'.dill t = some f ∧
      ∀ u, u ≠ t → lookup isMeta saveType s'.dill u = lookup isMeta saveType s.dill u := by
  intro s s'
  have e : s' = { s with dill := s.dill.set t f } := by simp [s', s, run, step]
  refine ⟨by rw [e], by rw [e]; simp [lookup], ?_⟩
  intro u hu
  rw [e]; simp only [lookup, Dict.get_set_ne _ _ hu]

/-! ### C20 -/

/-- C20: extend(True) makes every type in dill's table available to pickle, under dill's function, and changes
nothing else. -/
theorem C20_extend_publishes (own : Fn → Bool) (s0 : Table) (h0 : s0.WF) (ops : List Op) (t : Ty) :
    let s := run own (init s0) ops
    let s' := run own (init s0) (ops ++ [.extend true])
    s'.stock.get t = match s.dill.get t with
      | some f => some f
      | none => s.stock.get t := by
  intro s s'
  have e : s' = extendOn s := by simp [s', s, run, step]
  rw [e]
  exact foldl_set_get _ _ (ok_run own s0 ops _ (ok_init h0)).wdill t

/-- what pickle's table can contain for a type at any time. -/
theorem stock_inv (own : Fn → Bool) (s0 : Table) (h0 : s0.WF) (t : Ty) (ops : List Op) :
    (run own (init s0) ops).stock.get t = s0.get t ∨
      ∃ f, (run own (init s0) ops).stock.get t = some f ∧ Op.register t f ∈ ops := by
  have gen : ∀ n (ops : List Op), ops.length = n → (run own (init s0) ops).stock.get t = s0.get t ∨
      ∃ f, (run own (init s0) ops).stock.get t = some f ∧ Op.register t f ∈ ops := by
    intro n
    induction n with
    | zero => intro ops h; rw [List.length_eq_zero_iff.1 h]; exact .inl rfl
    | succ n ih =>
      intro ops h
      obtain ⟨pre, op, rfl⟩ : ∃ pre op, ops = pre ++ [op] := by
        have : ops ≠ [] := by intro e; simp [e] at h
        exact ⟨ops.dropLast, ops.getLast this, (List.dropLast_concat_getLast this).symm⟩
      have ih := ih pre (by simp at h; exact h)
      have ok := ok_run own s0 pre _ (ok_init h0)
      rw [run_append]
      generalize hs : run own (init s0) pre = s at ih ok
      have lift : (s.stock.get t = s0.get t ∨ ∃ f, s.stock.get t = some f ∧ Op.register t f ∈ pre) →
          (s.stock.get t = s0.get t ∨ ∃ f, s.stock.get t = some f ∧ Op.register t f ∈ pre ++ [op]) := by
        rintro (h | ⟨f, h1, h2⟩)
        · exact .inl h
        · exact .inr ⟨f, h1, List.mem_append_left _ h2⟩
      cases op with
      | register t' f => exact lift ih
      | extend on =>
        cases on with
        | true =>
          simp only [run, List.foldl_cons, List.foldl_nil, step, extendOn, foldl_set_get _ _ ok.wdill]
          cases hd : s.dill.get t with
          | none => exact lift ih
          | some f =>
            simp only
            have hl := C21_last_registration_wins own s0 pre t
            rw [hs, hd] at hl
            cases hlr : lastRegistered t pre with
            | none => rw [hlr] at hl; exact .inl (by rw [hl])
            | some g =>
              rw [hlr] at hl
              simp only [Option.some.injEq] at hl
              subst hl
              refine .inr ⟨f, rfl, List.mem_append_left _ ?_⟩
              clear hs ih ok lift hd h
              induction pre with
              | nil => simp [lastRegistered] at hlr
              | cons op ops ih =>
                simp only [lastRegistered] at hlr
                cases hr : lastRegistered t ops with
                | some g =>
                  rw [hr] at hlr; cases hlr
                  exact List.mem_cons_of_mem _ (ih hr)
                | none =>
                  rw [hr] at hlr
                  cases op with
                  | register t' f' =>
                    simp only at hlr
                    by_cases h : t' = t
                    · simp only [h, if_true, Option.some.injEq] at hlr; subst h; subst hlr; simp
                    · simp [h] at hlr
                  | extend on => simp at hlr
        | false =>
          simp only [run, List.foldl_cons, List.foldl_nil, step, revert, foldl_revert_get _ _ _ _ ok.wstock]
          cases hd : s.stock.get t with
          | none => simp only; rw [hd] at lift ih; exact lift ih
          | some f =>
            simp only
            rw [hd] at lift ih
            cases own f with
            | true => simp only [if_true, ok.copy]; exact .inl trivial
            | false => simp only [Bool.false_eq_true, if_false]; exact lift ih
  exact gen _ ops rfl

/-- C20 (every history): after extend(False), pickle's entry for a type is what it was when dill was imported,
or a function registered for that type that is not dill's own. -/
theorem C20_revert_exact (own : Fn → Bool) (s0 : Table) (h0 : s0.WF) (ops : List Op) (t : Ty) :
    let s' := run own (init s0) (ops ++ [.extend false])
    s'.stock.get t = s0.get t ∨ ∃ f, s'.stock.get t = some f ∧ own f = false ∧ Op.register t f ∈ ops := by
  intro s'
  have e : s' = revert own (run own (init s0) ops) := by simp [s', run, step]
  have ok := ok_run own s0 ops _ (ok_init h0)
  have inv := stock_inv own s0 h0 t ops
  rw [e]
  generalize run own (init s0) ops = s at ok inv
  simp only [revert, foldl_revert_get _ _ _ _ ok.wstock]
  cases hd : s.stock.get t with
  | none => rw [hd] at inv; simp only; rcases inv with h | ⟨f, h, _⟩
            · exact .inl h
            · cases h
  | some f =>
    simp only
    cases ho : own f with
    | true => simp only [if_true, ok.copy]; exact .inl trivial
    | false =>
      simp only [Bool.false_eq_true, if_false]
      rw [hd] at inv
      rcases inv with h | ⟨g, h1, h2⟩
      · exact .inl (by rw [← h])
      · cases h1; exact .inr ⟨f, rfl, ho, h2⟩

/-- C20, as claimed, for histories in which only dill's own functions are registered: after any sequence of
calls, extend(False) restores pickle's table. Missing: functions registered by the user (next theorem). -/
theorem C20_revert_restores_partial (own : Fn → Bool) (s0 : Table) (h0 : s0.WF) (ops : List Op)
    (ho : OnlyOwn own ops) : Same (run own (init s0) (ops ++ [.extend false])).stock s0 := by
  intro t
  rcases C20_revert_exact own s0 h0 ops t with h | ⟨f, h1, h2, h3⟩
  · exact h
  · rw [ho t f h3] at h2; cases h2

/-- C20 fails otherwise: a function the user registers with dill is copied into pickle's table by extend(True)
and stays there after extend(False). -/
theorem C20_user_function_leaks : ∃ (own : Fn → Bool) (s0 : Table) (ops : List Op), s0.WF ∧
    ¬ Same (run own (init s0) (ops ++ [.extend false])).stock s0 :=
  ⟨fun f => f = 5, [(1, 10), (2, 11)], [.register 7 99, .extend true], by decide,
    fun h => absurd (h 7) (by decide)⟩

/-- extend(True) twice is extend(True) once. -/
theorem C20_extend_idempotent (own : Fn → Bool) (s0 : Table) (h0 : s0.WF) (ops : List Op) :
    Same (run own (init s0) (ops ++ [.extend true, .extend true])).stock
      (run own (init s0) (ops ++ [.extend true])).stock := by
  intro t
  have := C20_extend_publishes own s0 h0 (ops ++ [.extend true]) t
  simp only [List.append_assoc, List.cons_append, List.nil_append] at this
  rw [this]
  have h2 := C20_extend_publishes own s0 h0 ops t
  simp only at h2
  rw [h2]
  have hd : (run own (init s0) (ops ++ [.extend true])).dill = (run own (init s0) ops).dill := by
    simp [run, step, extendOn]
  rw [hd]
  cases (run own (init s0) ops).dill.get t <;> rfl

/-- extend(False) twice is extend(False) once, provided pickle itself had none of dill's functions at import. -/
theorem C20_revert_idempotent (own : Fn → Bool) (s0 : Table) (h0 : s0.WF)
    (hs : ∀ t f, s0.get t = some f → own f = false) (ops : List Op) :
    Same (run own (init s0) (ops ++ [.extend false, .extend false])).stock
      (run own (init s0) (ops ++ [.extend false])).stock := by
  intro t
  have e : run own (init s0) (ops ++ [.extend false, .extend false]) =
      revert own (run own (init s0) (ops ++ [.extend false])) := by simp [run, step]
  have ok := ok_run own s0 (ops ++ [.extend false]) _ (ok_init h0)
  have ex := C20_revert_exact own s0 h0 ops t
  simp only at ex
  rw [e]
  generalize run own (init s0) (ops ++ [.extend false]) = s at ok ex
  simp only [revert, foldl_revert_get _ _ _ _ ok.wstock]
  cases hd : s.stock.get t with
  | none => rfl
  | some f =>
    simp only
    rw [hd] at ex
    rcases ex with h | ⟨g, h1, h2, _⟩
    · rw [hs t f h.symm]; simp
    · cases h1; rw [h2]; simp

/-- extend(True) after extend(False) puts all of dill's functions back. -/
theorem C20_extend_after_revert (own : Fn → Bool) (s0 : Table) (h0 : s0.WF) (ops : List Op) (t : Ty) (f : Fn)
    (h : (run own (init s0) ops).dill.get t = some f) :
    (run own (init s0) (ops ++ [.extend false, .extend true])).stock.get t = some f := by
  have := C20_extend_publishes own s0 h0 (ops ++ [.extend false]) t
  simp only [List.append_assoc, List.cons_append, List.nil_append] at this
  have hd : (run own (init s0) (ops ++ [.extend false])).dill = (run own (init s0) ops).dill := by
    simp [run, step, revert]
  rw [this, hd, h]

example : (run (fun f => f < 10) (init [(1, 100), (2, 101)])
    [.register 1 5, .register 3 6, .extend true, .register 3 7, .extend true]).stock = [(1, 5), (2, 101), (3, 7)] ∧
  Same (run (fun f => f < 10) (init [(1, 100), (2, 101)])
    [.register 1 5, .register 3 6, .extend true, .register 3 7, .extend true, .extend false]).stock
      [(1, 100), (2, 101)] := by
  refine ⟨by decide, ?_⟩
  have := C20_revert_restores_partial (fun f => f < 10) [(1, 100), (2, 101)] (by decide)
    [.register 1 5, .register 3 6, .extend true, .register 3 7, .extend true]
    (by intro t f h; simp at h; rcases h with ⟨_, rfl⟩ | ⟨_, rfl⟩ | ⟨_, rfl⟩ <;> rfl)
  exact this

end Verif.Dispatch
