import Verif.Model.Wrap
/-! C95: a wrapped function calls the function it wraps, whatever other threads call at the same time. -/
set_option linter.unusedSimpArgs false
namespace Verif.Wrap

/-! ### Specification -/

/-- the text is right: what it leaves in `_` is the function (C63, C65, C82, C91 are about that) -/
def Right (w : Wrapped) : Prop := ∀ as, w.text = some as → Dict.get (Dict.update ([] : Dict String Val) as) "_" = some w.fn

/-- a history: the steps `es` of all threads lead, from the import of dill, to a state in which thread `t` has executed the text of `i` and
is about to call; `log` are the executions so far, oldest first -/
inductive History (ws : Nat → Wrapped) (g : Dict String Val) : St → List (Nat × Nat) → Prop where
  | start : History ws g ⟨g, fun _ => .idle⟩ []
  | exec {s log t i as} : History ws g s log → s.pc t = .idle → (ws i).text = some as →
      History ws g ⟨Dict.update s.globals as, fun u => if u = t then .executed i else s.pc u⟩ (log ++ [(t, i)])
  | fail {s log t i} : History ws g s log → s.pc t = .idle → (ws i).text = none → History ws g s log
  | call {s log t i} : History ws g s log → s.pc t = .executed i →
      History ws g ⟨s.globals, fun u => if u = t then .idle else s.pc u⟩ log

/-! ### Lemmas -/

theorem update_get (d : Dict String Val) (as : List (String × Val)) (k : String) :
    (Dict.update d as).get k = ((Dict.update ([] : Dict String Val) as).get k).or (d.get k) := by
  have gen : ∀ (as : List (String × Val)) (d e : Dict String Val), (∀ k, d.get k = (e.get k).or (d.get k)) →
      ∀ d0 : Dict String Val, (∀ k, d.get k = (e.get k).or (d0.get k)) →
      ∀ k, (Dict.update d as).get k = ((Dict.update e as).get k).or (d0.get k) := by
    intro as
    induction as with
    | nil => intro d e _ d0 h k; exact h k
    | cons a as ih =>
      intro d e _ d0 h k
      simp only [Dict.update_cons]
      have h' : ∀ k, (Dict.set d a.1 a.2).get k = ((Dict.set e a.1 a.2).get k).or (d0.get k) := by
        intro k
        rw [Dict.get_set, Dict.get_set]
        split
        · rfl
        · exact h k
      have h'' : ∀ k, (Dict.set d a.1 a.2).get k = ((Dict.set e a.1 a.2).get k).or ((Dict.set d a.1 a.2).get k) := by
        intro k
        rw [h' k]
        cases (Dict.set e a.1 a.2).get k <;> simp
      exact ih _ _ h'' d0 h' k
  exact gen as d [] (by intro k; simp [Dict.get]) d (by intro k; simp [Dict.get]) k

theorem history_underscore {ws : Nat → Wrapped} {g : Dict String Val} {s : St} {log : List (Nat × Nat)} (hr : ∀ i, Right (ws i))
    (h : History ws g s log) : ∀ p, log.getLast? = some p → s.globals.get "_" = some (ws p.2).fn := by
  induction h with
  | start => intro p hp; cases hp
  | exec _ _ ht _ =>
    intro p hp
    simp only [List.getLast?_concat, Option.some.injEq] at hp
    subst hp
    simp only
    rw [update_get, hr _ _ ht]; rfl
  | fail _ _ _ ih => exact ih
  | call _ _ ih => exact ih

theorem history_pc {ws : Nat → Wrapped} {g : Dict String Val} {s : St} {log : List (Nat × Nat)} (h : History ws g s log) :
    ∀ t i, s.pc t = .executed i → (t, i) ∈ log := by
  induction h with
  | start => intro t i h; cases h
  | exec _ _ _ ih =>
    intro t i hp
    simp only at hp
    split at hp
    · next e => cases hp; subst e; simp
    · exact List.mem_append_left _ (ih t i hp)
  | fail _ _ _ ih => exact ih
  | call _ _ ih =>
    intro t i hp
    simp only at hp
    split at hp
    · cases hp
    · exact ih t i hp

/-- every run of the model is a history, and every reported call was made in one -/
theorem run_history (ws : Nat → Wrapped) (g : Dict String Val) (es : List Ev) : ∀ s log, History ws g s log →
    (∃ log', History ws g (run ws s es).1 log') ∧
    ∀ t i o, (t, i, o) ∈ (run ws s es).2 →
      (o = .importError ∧ (ws i).text = none) ∨
      ∃ s' log', History ws g s' log' ∧ s'.pc t = .executed i ∧ o = (match s'.globals.get "_" with | some f => .calls f | none => .nameError) := by
  induction es with
  | nil => intro s log h; exact ⟨⟨log, h⟩, by intro t i o ho; cases ho⟩
  | cons e es ih =>
    intro s log h
    have hstep : (∃ log', History ws g (step ws s e).1 log') ∧ ∀ t i o, (t, i, o) ∈ (step ws s e).2 →
        (o = .importError ∧ (ws i).text = none) ∨
        ∃ s' log', History ws g s' log' ∧ s'.pc t = .executed i ∧ o = (match s'.globals.get "_" with | some f => .calls f | none => .nameError) := by
      cases e with
      | exec t i =>
        simp only [step]
        cases hp : s.pc t with
        | executed j => exact ⟨⟨log, h⟩, by intro t i o ho; cases ho⟩
        | idle =>
          cases ht : (ws i).text with
          | none =>
            refine ⟨⟨log, h⟩, ?_⟩
            intro t' i' o ho
            simp only [List.mem_singleton, Prod.mk.injEq] at ho
            obtain ⟨-, rfl, rfl⟩ := ho
            exact .inl ⟨rfl, ht⟩
          | some as => exact ⟨⟨_, .exec h hp ht⟩, by intro t i o ho; cases ho⟩
      | go t =>
        simp only [step]
        cases hp : s.pc t with
        | idle => exact ⟨⟨log, h⟩, by intro t i o ho; cases ho⟩
        | executed i =>
          refine ⟨⟨_, .call h hp⟩, ?_⟩
          intro t' i' o ho
          simp only [List.mem_singleton, Prod.mk.injEq] at ho
          obtain ⟨rfl, rfl, rfl⟩ := ho
          exact .inr ⟨s, log, h, hp, rfl⟩
    obtain ⟨⟨log1, h1⟩, h2⟩ := hstep
    obtain ⟨h3, h4⟩ := ih _ log1 h1
    simp only [run]
    refine ⟨h3, ?_⟩
    intro t i o ho
    rcases List.mem_append.1 ho with ho | ho
    · exact h2 t i o ho
    · exact h4 t i o ho

/-! ### C95 -/

/-- the call that thread `t` is about to make in that state -/
def aboutToCall (s : St) (f : Val) : Prop := s.globals.get "_" = some f

/-- C95, exactly: in every history of every number of threads, a thread that is about to call calls the function whose text was executed
last - by whatever thread. -/
theorem C95_calls_the_last_partial (ws : Nat → Wrapped) (g : Dict String Val) (s : St) (log : List (Nat × Nat)) (hr : ∀ i, Right (ws i))
    (h : History ws g s log) (t i : Nat) (hp : s.pc t = .executed i) (j u : Nat) (hl : log.getLast? = some (u, j)) (f : Val) :
    aboutToCall s f ↔ f = (ws j).fn := by
  unfold aboutToCall
  rw [history_underscore hr h _ hl]
  simp [eq_comm]

/-- C95 when no other thread has executed since: it calls its own function. -/
theorem C95_own_function_partial (ws : Nat → Wrapped) (g : Dict String Val) (s : St) (log : List (Nat × Nat)) (hr : ∀ i, Right (ws i))
    (h : History ws g s log) (t i : Nat) (hl : log.getLast? = some (t, i)) : s.globals.get "_" = some (ws i).fn :=
  history_underscore hr h _ hl

/-- in a history with one thread, a thread about to call is the one that executed last -/
theorem single_last {ws : Nat → Wrapped} {g : Dict String Val} {s : St} {log : List (Nat × Nat)} (h : History ws g s log)
    (hone : ∀ p ∈ log, p.1 = 0) : ∀ t i, s.pc t = .executed i → t = 0 ∧ log.getLast? = some (0, i) := by
  induction h with
  | start => intro t i h; cases h
  | @exec s log t' i' as h' hidle ht ih =>
    intro t i hp
    have h0 : t' = 0 := hone (t', i') (by simp)
    simp only at hp
    split at hp
    · next e => cases hp; subst e; exact ⟨h0, by simp [h0]⟩
    · next e =>
      have hm := history_pc h' t i hp
      have : t = 0 := hone (t, i) (List.mem_append_left _ hm)
      exact absurd (this.trans h0.symm) e
  | fail _ _ _ ih => exact ih hone
  | call _ _ ih =>
    intro t i hp
    simp only at hp
    split at hp
    · cases hp
    · exact ih hone t i hp

/-- C95 for programs with one thread (which may call wrapped functions within wrapped functions, any number of times): every finished call of a wrapped
function called that function, or raised ImportError because no text could be found. -/
theorem C95_one_thread_partial (ws : Nat → Wrapped) (g : Dict String Val) (hr : ∀ i, Right (ws i)) (es : List Ev)
    (hone : ∀ e ∈ es, match e with | .exec t _ => t = 0 | .go t => t = 0) (t i : Nat) (o : Outcome)
    (ho : (t, i, o) ∈ (run ws ⟨g, fun _ => .idle⟩ es).2) : o = .calls (ws i).fn ∨ (o = .importError ∧ (ws i).text = none) := by
  -- the same statement as `run_history`, for the histories of thread 0
  have key : ∀ (es : List Ev), (∀ e ∈ es, match e with | .exec t _ => t = 0 | .go t => t = 0) → ∀ s log, History ws g s log → (∀ p ∈ log, p.1 = 0) →
      ∀ t i o, (t, i, o) ∈ (run ws s es).2 → o = .calls (ws i).fn ∨ (o = .importError ∧ (ws i).text = none) := by
    intro es
    induction es with
    | nil => intro _ s log _ _ t i o ho; cases ho
    | cons e es ih =>
      intro hes s log h hl t i o ho
      have he := hes e (by simp)
      have hes' : ∀ e ∈ es, match e with | .exec t _ => t = 0 | .go t => t = 0 := fun e h => hes e (by simp [h])
      simp only [run] at ho
      cases e with
      | exec t' i' =>
        simp only at he
        subst he
        simp only [step] at ho
        cases hp : s.pc 0 with
        | executed j =>
          rw [hp] at ho
          simp only [List.nil_append] at ho
          exact ih hes' s log h hl t i o ho
        | idle =>
          rw [hp] at ho
          cases ht : (ws i').text with
          | none =>
            rw [ht] at ho
            simp only [List.singleton_append, List.mem_cons, Prod.mk.injEq] at ho
            rcases ho with ⟨-, rfl, rfl⟩ | ho
            · exact .inr ⟨rfl, ht⟩
            · exact ih hes' s log h hl t i o ho
          | some as =>
            rw [ht] at ho
            simp only [List.nil_append] at ho
            refine ih hes' _ _ (.exec h hp ht) ?_ t i o ho
            intro p hp'
            rcases List.mem_append.1 hp' with hp' | hp'
            · exact hl p hp'
            · simp only [List.mem_singleton] at hp'; subst hp'; rfl
      | go t' =>
        simp only at he
        subst he
        simp only [step] at ho
        cases hp : s.pc 0 with
        | idle =>
          rw [hp] at ho
          simp only [List.nil_append] at ho
          exact ih hes' s log h hl t i o ho
        | executed j =>
          rw [hp] at ho
          simp only [List.singleton_append, List.mem_cons, Prod.mk.injEq] at ho
          rcases ho with ⟨rfl, rfl, rfl⟩ | ho
          · left
            have h1 := (single_last h hl _ _ hp).2
            rw [history_underscore hr h _ h1]
          · exact ih hes' _ _ (.call h hp) hl t i o ho
  exact key es hone _ [] .start (by intro p hp; cases hp) t i o ho

/-- C95 in every program: a finished call called some wrapped function of the program, or raised ImportError; never NameError. -/
theorem C95_some_wrapped_function (ws : Nat → Wrapped) (g : Dict String Val) (hr : ∀ i, Right (ws i)) (es : List Ev) (t i : Nat) (o : Outcome)
    (ho : (t, i, o) ∈ (run ws ⟨g, fun _ => .idle⟩ es).2) : (∃ j, o = .calls (ws j).fn) ∨ (o = .importError ∧ (ws i).text = none) := by
  rcases (run_history ws g es _ [] .start).2 t i o ho with h | ⟨s', log', h, hp, rfl⟩
  · exact .inr h
  · left
    have hm := history_pc h t i hp
    cases hl : log'.getLast? with
    | none =>
      rw [List.getLast?_eq_none_iff] at hl
      subst hl; cases hm
    | some p =>
      exact ⟨p.2, by rw [history_underscore hr h _ hl]⟩

/-- two functions of other modules, 10 and 20: their texts import them as `_` -/
def two (i : Nat) : Wrapped := ⟨10 * (i + 1), some [("_", 10 * (i + 1))]⟩

/-- C95 fails: thread 0 calls the wrapped 10, thread 1 the wrapped 20; both call 20. -/
theorem C95_race : (∀ i, Right (two i)) ∧
    (run two ⟨[], fun _ => .idle⟩ [.exec 0 0, .exec 1 1, .go 0, .go 1]).2 = [(0, 0, .calls 20), (1, 1, .calls 20)] := by
  refine ⟨?_, by decide +kernel⟩
  intro i as h
  cases h
  rfl

/-- What else a call changes: the names that the text defines are replaced in dill.source - a wrapped function of `__main__` whose source is
used and that is called `indent` replaces dill's own `indent` (its text defines it, then assigns `_`). -/
theorem C95_clobbers (ws : Nat → Wrapped) (s : St) (t i : Nat) (as : List (String × Val)) (hp : s.pc t = .idle) (ht : (ws i).text = some as)
    (k : String) : (step ws s (.exec t i)).1.globals.get k = ((Dict.update ([] : Dict String Val) as).get k).or (s.globals.get k) := by
  simp only [step, hp, ht]
  exact update_get _ _ _

/-! ### concrete cases -/

example : (run two ⟨[], fun _ => .idle⟩ [.exec 0 0, .go 0, .exec 0 1, .go 0]).2 = [(0, 0, .calls 10), (0, 1, .calls 20)] := by decide +kernel
/-- a function `indent` (7) of `__main__`: dill's own `indent` (3) is gone -/
example : (step (fun _ => ⟨7, some [("indent", 7), ("_", 7)]⟩) ⟨[("indent", 3)], fun _ => .idle⟩ (.exec 0 0)).1.globals.get "indent" = some 7 := by decide +kernel
example : Right ⟨7, some [("indent", 7), ("_", 7)]⟩ := by intro as h; cases h; rfl

end Verif.Wrap
