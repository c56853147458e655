import Verif.Model.Live

/-!
# C104: a list, set or dict that changes while it is being pickled

`env : Nat → Heap` is the heap at every step of the dump, and is arbitrary: whatever other threads
and reducers do.  `Done` says the dump finished; `s.out x` is what the pickle says container `x`
contains.
-/

set_option linter.unusedSimpArgs false

namespace Verif.Live

/-- The dump of `root` finished within `n` steps, leaving `s`. -/
def Done (B : Nat) (kind : Id → Kind) (env : Nat → Heap) (root : Id) (n : Nat) (s : St) : Prop :=
  after B kind env root n = .ok s ∧ s.work = []

/-! ## The walk -/

theorem walk_length_le : ∀ (l : List (Option Entry)) (n : Nat), (walk l n).1.length ≤ n
  | _, 0 => by simp [walk]
  | [], _ + 1 => by simp [walk]
  | none :: r, n + 1 => by simpa [walk] using walk_length_le r (n + 1)
  | some a :: r, n + 1 => by simpa [walk] using walk_length_le r n

theorem walk_count_le : ∀ (l : List (Option Entry)) (n : Nat), (walk l n).2 ≤ l.length
  | _, 0 => by simp [walk]
  | [], _ + 1 => by simp [walk]
  | none :: r, n + 1 => by simpa [walk] using walk_count_le r (n + 1)
  | some a :: r, n + 1 => by simpa [walk] using walk_count_le r n

/-- What a walk finds is what the slots it passed hold. -/
theorem walk_eq : ∀ (l : List (Option Entry)) (n : Nat), (walk l n).1 = live (l.take (walk l n).2)
  | _, 0 => by simp [walk, live]
  | [], _ + 1 => by simp [walk, live]
  | none :: r, n + 1 => by
      have := walk_eq r (n + 1)
      simpa [walk, live] using this
  | some a :: r, n + 1 => by
      have := walk_eq r n
      simpa [walk, live] using this

/-- A short walk has seen everything. -/
theorem walk_short : ∀ (l : List (Option Entry)) (n : Nat), (walk l n).1.length < n →
    (walk l n).1 = live l
  | _, 0 => by simp [walk]
  | [], _ + 1 => by simp [walk, live]
  | none :: r, n + 1 => by
      have := walk_short r (n + 1)
      simpa [walk, live] using this
  | some a :: r, n + 1 => by
      have := walk_short r n
      simpa [walk, live] using this

/-- A walk passes at least as many slots as it finds entries. -/
theorem walk_len_le_count : ∀ (l : List (Option Entry)) (n : Nat), (walk l n).1.length ≤ (walk l n).2
  | _, 0 => by simp [walk]
  | [], _ + 1 => by simp [walk]
  | none :: r, n + 1 => by
      have := walk_len_le_count r (n + 1)
      simp [walk]; omega
  | some a :: r, n + 1 => by
      have := walk_len_le_count r n
      simp [walk]; omega

theorem live_append (a b : List (Option Entry)) : live (a ++ b) = live a ++ live b := by
  simp [live]

theorem live_length_le (a : List (Option Entry)) : (live a).length ≤ a.length := by
  simpa [live] using List.length_filterMap_le id a

/-! ## Following one container through the dump -/

/-- The containers with an iterator open. -/
def iters : List Task → List Id
  | [] => []
  | .save _ :: w => iters w
  | .openIt x :: w => x :: iters w
  | .batch x _ _ _ :: w => x :: iters w

theorem iters_append (a b : List Task) : iters (a ++ b) = iters a ++ iters b := by
  induction a with
  | nil => rfl
  | cons t a ih => cases t <;> simp [iters, ih]

theorem iters_saves (l : List Id) : iters (l.map .save) = [] := by
  induction l with
  | nil => rfl
  | cons a l ih => simpa [iters] using ih

theorem mem_iters_open {x : Id} {w : List Task} (h : Task.openIt x ∈ w) : x ∈ iters w := by
  induction w with
  | nil => cases h
  | cons t w ih =>
    rcases List.mem_cons.1 h with h1 | h1
    · subst h1; simp [iters]
    · have := ih h1
      cases t <;> simp [iters, this]

theorem mem_iters_batch {x : Id} {p u l : Nat} {w : List Task} (h : Task.batch x p u l ∈ w) :
    x ∈ iters w := by
  induction w with
  | nil => cases h
  | cons t w ih =>
    rcases List.mem_cons.1 h with h1 | h1
    · subst h1; simp [iters]
    · have := ih h1
      cases t <;> simp [iters, this]

/-- Two predicates about one container that the dump cannot break: `It` while its iterator is open,
`Fin` once its loop has ended. -/
structure Follows (B : Nat) (kind : Id → Kind) (env : Nat → Heap) (x : Id)
    (It : Nat → Nat → Nat → Nat → List Entry → Prop) (Fin : Nat → List Entry → Prop) : Prop where
  later : ∀ {n p u l o}, It n p u l o → It (n + 1) p u l o
  finLater : ∀ {n o}, Fin n o → Fin (n + 1) o
  opens : ∀ n, It (n + 1) 0 (live (env n x)).length (live (env n x)).length []
  more : ∀ {n p u l o es c}, It n p u l o → read B (kind x) x (env n x) p u l = .ok (es, c) →
    ¬ es.length < B → It (n + 1) (p + c) u (l - es.length) (o ++ es)
  ends : ∀ {n p u l o es c}, It n p u l o → read B (kind x) x (env n x) p u l = .ok (es, c) →
    es.length < B → Fin (n + 1) (o ++ es)

/-- The invariant of the dump about container `x`. -/
structure Inv (kind : Id → Kind) (x : Id)
    (It : Nat → Nat → Nat → Nat → List Entry → Prop) (Fin : Nat → List Entry → Prop)
    (n : Nat) (s : St) : Prop where
  nodup : (iters s.work).Nodup
  memo : ∀ y ∈ iters s.work, y ∈ s.memo
  fresh : x ∉ s.memo → s.out x = []
  opened : Task.openIt x ∈ s.work → s.out x = []
  batch : ∀ p u l, Task.batch x p u l ∈ s.work → It n p u l (s.out x)
  fin : x ∈ s.memo → kind x ≠ .leaf → x ∉ iters s.work → Fin n (s.out x)

variable {B : Nat} {kind : Id → Kind} {env : Nat → Heap} {root x : Id}
  {It : Nat → Nat → Nat → Nat → List Entry → Prop} {Fin : Nat → List Entry → Prop}

theorem inv_step (hF : Follows B kind env x It Fin) {n : Nat} {s s' : St}
    (hi : Inv kind x It Fin n s) (hs : step B kind (env n) s = .ok s') :
    Inv kind x It Fin (n + 1) s' := by
  obtain ⟨w, memo, out⟩ := s
  obtain ⟨h1, h2, h3, h4, h5, h6⟩ := hi
  dsimp only at h1 h2 h3 h4 h5 h6
  cases w with
  | nil =>
    simp only [step, Except.ok.injEq] at hs
    subst hs
    exact ⟨h1, h2, h3, h4, fun p u l h => hF.later (h5 p u l h), fun a b c => hF.finLater (h6 a b c)⟩
  | cons t w =>
    cases t with
    | save y =>
      simp only [step] at hs
      split at hs
      · cases hs
        exact ⟨h1, h2, h3, fun h => h4 (List.mem_cons_of_mem _ h),
          fun p u l h => hF.later (h5 p u l (List.mem_cons_of_mem _ h)),
          fun a b c => hF.finLater (h6 a b c)⟩
      · rename_i hy
        split at hs
        · rename_i hk
          cases hs
          refine ⟨h1, fun z hz => List.mem_cons_of_mem _ (h2 z hz),
            fun h => h3 (fun h' => h (List.mem_cons_of_mem _ h')),
            fun h => h4 (List.mem_cons_of_mem _ h),
            fun p u l h => hF.later (h5 p u l (List.mem_cons_of_mem _ h)), ?_⟩
          intro a b c
          rcases List.mem_cons.1 a with a | a
          · subst a; exact absurd hk b
          · exact hF.finLater (h6 a b c)
        · cases hs
          have hyw : y ∉ iters w := fun h => hy (h2 y h)
          refine ⟨List.nodup_cons.2 ⟨hyw, h1⟩, ?_, fun h => h3 (fun h' => h (List.mem_cons_of_mem _ h')),
            ?_, ?_, ?_⟩
          · intro z hz
            rcases List.mem_cons.1 hz with hz | hz
            · subst hz; exact List.mem_cons_self ..
            · exact List.mem_cons_of_mem _ (h2 z hz)
          · intro h
            rcases List.mem_cons.1 h with h | h
            · cases h; exact h3 hy
            · exact h4 (List.mem_cons_of_mem _ h)
          · intro p u l h
            rcases List.mem_cons.1 h with h | h
            · cases h
            · exact hF.later (h5 p u l (List.mem_cons_of_mem _ h))
          · intro a b c
            have hne : x ≠ y := fun h => c (by subst h; exact List.mem_cons_self ..)
            rcases List.mem_cons.1 a with a | a
            · exact absurd a hne
            · exact hF.finLater (h6 a b (fun h => c (List.mem_cons_of_mem _ h)))
    | openIt y =>
      simp only [step, Except.ok.injEq] at hs
      subst hs
      refine ⟨h1, h2, h3, fun h => ?_, ?_, fun a b c => hF.finLater (h6 a b c)⟩
      · rcases List.mem_cons.1 h with h | h
        · cases h
        · exact h4 (List.mem_cons_of_mem _ h)
      · intro p u l h
        rcases List.mem_cons.1 h with h | h
        · cases h
          have := h4 (List.mem_cons_self ..)
          rw [show (St.mk _ memo out).out x = [] from this]
          exact hF.opens n
        · exact hF.later (h5 p u l (List.mem_cons_of_mem _ h))
    | batch y pos used left =>
      simp only [step] at hs
      split at hs
      · cases hs
      · rename_i es c hr
        cases hs
        have hyw : y ∉ iters w := (List.nodup_cons.1 h1).1
        have hw := (List.nodup_cons.1 h1).2
        have hym : y ∈ memo := h2 y (List.mem_cons_self ..)
        have hwm : ∀ z ∈ iters w, z ∈ memo := fun z hz => h2 z (List.mem_cons_of_mem _ hz)
        generalize es.flatten = q
        by_cases hlt : es.length < B
        · refine ⟨?_, ?_, ?_, ?_, ?_, ?_⟩
          · simpa [iters_append, iters_saves, hlt] using hw
          · simpa [iters_append, iters_saves, hlt] using hwm
          · intro h
            have hne : x ≠ y := fun h' => h (h' ▸ hym)
            simpa [hne] using h3 h
          · intro h
            have h : Task.openIt x ∈ w := by simpa [hlt] using h
            have hne : x ≠ y := fun h' => hyw (h' ▸ mem_iters_open h)
            simpa [hne] using h4 (List.mem_cons_of_mem _ h)
          · intro p u l h
            have h : Task.batch x p u l ∈ w := by simpa [hlt] using h
            have hne : x ≠ y := fun h' => hyw (h' ▸ mem_iters_batch h)
            simpa [hne] using hF.later (h5 p u l (List.mem_cons_of_mem _ h))
          · intro a b c
            by_cases hne : x = y
            · subst hne
              simpa using hF.ends (h5 _ _ _ (List.mem_cons_self ..)) hr hlt
            · have c : x ∉ iters w := by simpa [iters_append, iters_saves, hlt] using c
              simpa [hne] using hF.finLater (h6 a b (by simp [iters, hne, c]))
        · refine ⟨?_, ?_, ?_, ?_, ?_, ?_⟩
          · simpa [iters_append, iters_saves, hlt, iters] using ⟨hyw, hw⟩
          · simpa [iters_append, iters_saves, hlt, iters] using ⟨hym, hwm⟩
          · intro h
            have hne : x ≠ y := fun h' => h (h' ▸ hym)
            simpa [hne] using h3 h
          · intro h
            have h : Task.openIt x ∈ w := by simpa [hlt] using h
            have hne : x ≠ y := fun h' => hyw (h' ▸ mem_iters_open h)
            simpa [hne] using h4 (List.mem_cons_of_mem _ h)
          · intro p u l h
            by_cases hne : x = y
            · subst hne
              have h : (p = pos + c ∧ u = used ∧ l = left - es.length) ∨ Task.batch x p u l ∈ w := by
                simpa [hlt] using h
              rcases h with ⟨rfl, rfl, rfl⟩ | h
              · simpa using hF.more (h5 _ _ _ (List.mem_cons_self ..)) hr hlt
              · exact absurd (mem_iters_batch h) hyw
            · have h : Task.batch x p u l ∈ w := by simpa [hlt, hne] using h
              simpa [hne] using hF.later (h5 p u l (List.mem_cons_of_mem _ h))
          · intro a b c
            have hne : x ≠ y := by
              intro h; subst h
              simp [iters_append, iters_saves, hlt, iters] at c
            have c : x ∉ iters w := by
              simp [iters_append, iters_saves, hlt, iters] at c; exact c.2
            simpa [hne] using hF.finLater (h6 a b (by simp [iters, hne, c]))

theorem inv_after (hF : Follows B kind env x It Fin) : ∀ (n : Nat) (s : St),
    after B kind env root n = .ok s → Inv kind x It Fin n s
  | 0, s, h => by
      cases h
      exact ⟨List.nodup_nil, by simp [start, iters], fun _ => rfl, by simp [start], by simp [start],
        by simp [start]⟩
  | n + 1, s, h => by
      simp only [after] at h
      split at h
      · cases h
      · rename_i s0 h0
        exact inv_step hF (inv_after hF n s0 h0) h

theorem follow (hF : Follows B kind env x It Fin) {n : Nat} {s : St} (hd : Done B kind env root n s)
    (hx : x ∈ s.memo) (hk : kind x ≠ .leaf) : Fin n (s.out x) :=
  (inv_after hF n s hd.1).fin hx hk (by rw [hd.2]; simp [iters])

/-- If the reads of `x` cannot fail while `It` holds, the dump never fails because of `x`. -/
theorem no_error (hF : Follows B kind env x It Fin)
    (hr : ∀ n p u l o e, It n p u l o → read B (kind x) x (env n x) p u l ≠ .error e) :
    ∀ (n : Nat) (e : Err), after B kind env root n = .error e → e.about ≠ x
  | 0, e, h => by cases h
  | n + 1, e, h => by
      simp only [after] at h
      split at h
      · rename_i e' h'
        cases h
        exact no_error hF hr n e h'
      · rename_i s hs
        have hi := inv_after hF n s hs
        obtain ⟨w, memo, out⟩ := s
        cases w with
        | nil => cases h
        | cons t w =>
          cases t with
          | save y => simp only [step] at h; split at h <;> (try split at h) <;> cases h
          | openIt y => cases h
          | batch y p u l =>
            simp only [step] at h
            split at h
            · rename_i e' h'
              cases h
              have hy : e.about = y := by
                simp only [read] at h'
                split at h'
                · cases h'; rfl
                · split at h'
                  · cases h'; rfl
                  · cases h'
              intro hx
              have hxy : y = x := hy.symm.trans hx
              subst hxy
              exact hr n p u l _ e (hi.batch p u l (List.mem_cons_self ..)) h'
            · cases h

/-- What a successful read returns. -/
theorem read_ok {k : Kind} {y : Id} {sl : List (Option Entry)} {p u l : Nat} {r : List Entry × Nat}
    (h : read B k y sl p u l = .ok r) :
    r = walk (sl.drop p) B ∧ (k ≠ .list → (live sl).length = u) := by
  simp only [read] at h
  split at h
  · cases h
  · rename_i h1
    split at h
    · cases h
    · cases h
      refine ⟨rfl, fun hk => ?_⟩
      by_cases h2 : (live sl).length = u
      · exact h2
      · exact absurd ⟨hk, h2⟩ h1

/-! ## Nothing dangling, nothing invented -/

/-- The pickle has no dangling references: every object that the written contents of a container
mention was itself pickled. -/
theorem C104_closed {n : Nat} {s : St} (hd : Done B kind env root n s) :
    root ∈ s.memo ∧ ∀ y, ∀ e ∈ s.out y, ∀ z ∈ e, z ∈ s.memo := by
  have key : ∀ (n : Nat) (s : St), after B kind env root n = .ok s →
      (root ∈ s.memo ∨ Task.save root ∈ s.work) ∧
      ∀ y, ∀ e ∈ s.out y, ∀ z ∈ e, z ∈ s.memo ∨ Task.save z ∈ s.work := by
    intro n
    induction n with
    | zero => intro s h; cases h; simp [start]
    | succ n ih =>
      intro s' h
      simp only [after] at h
      split at h
      · cases h
      · rename_i s hs
        obtain ⟨i1, i2⟩ := ih s hs
        obtain ⟨w, memo, out⟩ := s
        dsimp only at i1 i2
        -- what a step does to "pickled, or about to be"
        have mono : ∀ z, (z ∈ memo ∨ Task.save z ∈ w) → (z ∈ s'.memo ∨ Task.save z ∈ s'.work) := by
          intro z hz
          cases w with
          | nil => cases h; exact hz
          | cons t w =>
            cases t with
            | save y =>
              simp only [step] at h
              split at h
              · cases h; grind
              · split at h <;> cases h <;> grind
            | openIt y => cases h; grind
            | batch y p u l =>
              simp only [step] at h
              split at h
              · cases h
              · cases h
                rcases hz with hz | hz
                · exact Or.inl hz
                · have : Task.save z ∈ w := by simpa using hz
                  right; split <;> simp [this]
        refine ⟨mono root i1, ?_⟩
        intro y e he z hz
        cases w with
        | nil => cases h; exact i2 y e he z hz
        | cons t w =>
          cases t with
          | save y' =>
            refine mono z (i2 y e ?_ z hz)
            simp only [step] at h
            split at h
            · cases h; exact he
            · split at h <;> cases h <;> exact he
          | openIt y' => cases h; exact mono z (i2 y e he z hz)
          | batch y' p u l =>
            have h' := h
            simp only [step] at h'
            split at h'
            · cases h'
            · rename_i es c hr
              cases h'
              dsimp only at he
              split at he
              · rename_i hy
                subst hy
                rcases List.mem_append.1 he with he | he
                · exact mono z (i2 _ e he z hz)
                · right
                  refine List.mem_append.2 (Or.inl (List.mem_map.2 ⟨z, ?_, rfl⟩))
                  exact List.mem_flatten.2 ⟨e, he, hz⟩
              · exact mono z (i2 y e he z hz)
  obtain ⟨k1, k2⟩ := key n s hd.1
  rw [hd.2] at k1 k2
  exact ⟨k1.resolve_right (by simp), fun y e he z hz => (k2 y e he z hz).resolve_right (by simp)⟩

theorem mem_live_of_walk {sl : List (Option Entry)} {p : Nat} {e : Entry}
    (h : e ∈ (walk (sl.drop p) B).1) : e ∈ live sl := by
  rw [walk_eq] at h
  simp only [live, List.mem_filterMap, id] at h ⊢
  obtain ⟨a, ha, rfl⟩ := h
  exact ⟨_, List.mem_of_mem_drop (List.mem_of_mem_take ha), rfl⟩

/-- Nothing invented: every entry written as part of a container was in it at some moment of the
dump, and a value is written under a key only if the two were together at that moment. -/
theorem C104_values {n : Nat} {s : St} (hd : Done B kind env root n s) {e : Entry}
    (hx : x ∈ s.memo) (hk : kind x ≠ .leaf) (he : e ∈ s.out x) :
    ∃ t < n, e ∈ live (env t x) := by
  have hF : Follows B kind env x (fun n _ _ _ o => ∀ e ∈ o, ∃ t < n, e ∈ live (env t x))
      (fun n o => ∀ e ∈ o, ∃ t < n, e ∈ live (env t x)) := by
    have step : ∀ {n p u l o es c}, (∀ e ∈ o, ∃ t < n, e ∈ live (env t x)) →
        read B (kind x) x (env n x) p u l = .ok (es, c) →
        ∀ e ∈ o ++ es, ∃ t < n + 1, e ∈ live (env t x) := by
      intro n p u l o es c h hr e he
      rcases List.mem_append.1 he with he | he
      · obtain ⟨t, ht, h'⟩ := h e he; exact ⟨t, by omega, h'⟩
      · have hr := (read_ok hr).1
        have : es = (walk ((env n x).drop p) B).1 := by rw [← hr]
        rw [this] at he
        exact ⟨n, by omega, mem_live_of_walk he⟩
    refine ⟨?_, ?_, fun n e he => by simp at he, fun h hr _ => step h hr, fun h hr _ => step h hr⟩
    · intro n p u l o h e he; obtain ⟨t, ht, h'⟩ := h e he; exact ⟨t, by omega, h'⟩
    · intro n o h e he; obtain ⟨t, ht, h'⟩ := h e he; exact ⟨t, by omega, h'⟩
  exact follow hF hd hx hk e he

/-! ## Snapshots -/

/-- A container that never has as many as `B` (1000) entries during the dump is pickled exactly as it
was at one moment of the dump, whatever is done to it. -/
theorem C104_snapshot_partial {n : Nat} {s : St} (hd : Done B kind env root n s)
    (hx : x ∈ s.memo) (hk : kind x ≠ .leaf) (hsmall : ∀ t < n, (live (env t x)).length < B) :
    ∃ t < n, s.out x = live (env t x) := by
  have hF : Follows B kind env x
      (fun n p _ _ o => (p = 0 ∧ o = []) ∨ ∃ t < n, B ≤ (live (env t x)).length)
      (fun n o => (∃ t < n, o = live (env t x)) ∨ ∃ t < n, B ≤ (live (env t x)).length) := by
    refine ⟨?_, ?_, fun n => Or.inl ⟨rfl, rfl⟩, ?_, ?_⟩
    · rintro n p u l o (h | ⟨t, ht, h⟩)
      · exact Or.inl h
      · exact Or.inr ⟨t, by omega, h⟩
    · rintro n o (⟨t, ht, h⟩ | ⟨t, ht, h⟩)
      · exact Or.inl ⟨t, by omega, h⟩
      · exact Or.inr ⟨t, by omega, h⟩
    · rintro n p u l o es c (⟨rfl, rfl⟩ | ⟨t, ht, h⟩) hr hlt
      · right
        refine ⟨n, by omega, ?_⟩
        have hr := (read_ok hr).1
        have h1 : es = (walk (env n x) B).1 := by simpa using congrArg Prod.fst hr
        rw [h1, walk_eq] at hlt
        have := congrArg List.length (congrArg live (List.take_append_drop (walk (env n x) B).2 (env n x)))
        rw [live_append, List.length_append] at this
        omega
      · exact Or.inr ⟨t, by omega, h⟩
    · rintro n p u l o es c (⟨rfl, rfl⟩ | ⟨t, ht, h⟩) hr hlt
      · left
        refine ⟨n, by omega, ?_⟩
        have hr := (read_ok hr).1
        have h1 : es = (walk (env n x) B).1 := by simpa using congrArg Prod.fst hr
        rw [List.nil_append, h1]
        exact walk_short _ _ (by rw [← h1]; exact hlt)
      · exact Or.inr ⟨t, by omega, h⟩
  rcases follow hF hd hx hk with h | ⟨t, ht, h⟩
  · exact h
  · have := hsmall t ht; omega

/-- A list that is only ever appended to is pickled exactly as it was at one moment of the dump,
however long it is. -/
theorem C104_append_only_partial {n : Nat} {s : St} (hd : Done B kind env root n s)
    (hx : x ∈ s.memo) (hk : kind x = .list)
    (hgrow : ∀ t, env t x <+: env (t + 1) x) :
    ∃ t < n, s.out x = live (env t x) := by
  have hF : Follows B kind env x
      (fun n p _ _ o => (∃ t, t < n ∧ p ≤ (env t x).length ∧ o = live ((env t x).take p)))
      (fun n o => ∃ t < n, o = live (env t x)) := by
    have mono : ∀ d t, env t x <+: env (t + d) x := by
      intro d
      induction d with
      | zero => intro t; exact List.prefix_refl _
      | succ d ih => intro t; exact (ih t).trans (hgrow (t + d))
    have mono' : ∀ {t n}, t < n → env t x <+: env n x := by
      intro t n h
      obtain ⟨d, rfl⟩ := Nat.exists_eq_add_of_lt h
      exact mono (d + 1) t
    have same : ∀ {t n p}, t < n → p ≤ (env t x).length →
        (env t x).take p = (env n x).take p ∧ p ≤ (env n x).length := by
      intro t n p h hp
      obtain ⟨r, hr⟩ := mono' h
      rw [← hr]
      refine ⟨(List.take_append_of_le_length hp).symm, ?_⟩
      simp; omega
    refine ⟨?_, ?_, ?_, ?_, ?_⟩
    · rintro n p u l o ⟨t, ht, h⟩; exact ⟨t, by omega, h⟩
    · rintro n o ⟨t, ht, h⟩; exact ⟨t, by omega, h⟩
    · intro n; exact ⟨n, by omega, by omega, by simp [live]⟩
    · rintro n p u l o es c ⟨t, ht, hp, ho⟩ hr hlt
      have hr := (read_ok hr).1
      obtain ⟨hs1, hs2⟩ := same ht hp
      refine ⟨n, by omega, ?_, ?_⟩
      · have := walk_count_le ((env n x).drop p) B
        have hc : c = (walk ((env n x).drop p) B).2 := congrArg Prod.snd hr
        rw [← hc] at this
        simp at this
        omega
      · have hc : c = (walk ((env n x).drop p) B).2 := congrArg Prod.snd hr
        have he : es = (walk ((env n x).drop p) B).1 := congrArg Prod.fst hr
        rw [ho, hs1, he, walk_eq, ← live_append, ← hc, List.take_add]
    · rintro n p u l o es c ⟨t, ht, hp, ho⟩ hr hlt
      have hr := (read_ok hr).1
      obtain ⟨hs1, hs2⟩ := same ht hp
      have he : es = (walk ((env n x).drop p) B).1 := congrArg Prod.fst hr
      refine ⟨n, by omega, ?_⟩
      rw [ho, hs1, he, walk_short _ _ (by rw [← he]; exact hlt), ← live_append, List.take_append_drop]
  exact follow hF hd hx (by rw [hk]; decide)

/-- A set or dict that only ever gains entries is either pickled exactly as it was at one moment of
the dump, or the dump fails; it is never pickled half-changed. -/
theorem C104_only_grows_partial {n : Nat} {s : St} (hd : Done B kind env root n s)
    (hx : x ∈ s.memo) (hk : kind x = .dict ∨ kind x = .set)
    (hgrow : ∀ t, env (t + 1) x = env t x ∨ (live (env t x)).length < (live (env (t + 1) x)).length) :
    ∃ t < n, s.out x = live (env t x) := by
  have hnl : kind x ≠ .list := by rcases hk with h | h <;> rw [h] <;> decide
  have hnf : kind x ≠ .leaf := by rcases hk with h | h <;> rw [h] <;> decide
  have mono : ∀ d t, env (t + d) x = env t x ∨
      (live (env t x)).length < (live (env (t + d) x)).length := by
    intro d
    induction d with
    | zero => intro t; exact Or.inl rfl
    | succ d ih =>
      intro t
      rcases ih t with h | h <;> rcases hgrow (t + d) with h' | h'
      · exact Or.inl (by rw [← h, ← h']; rfl)
      · right; rw [← h]; exact h'
      · right
        rw [show t + (d + 1) = t + d + 1 from rfl, h']; exact h
      · right
        rw [show t + (d + 1) = t + d + 1 from rfl]; omega
  have same : ∀ {t n u}, t < n → (live (env t x)).length = u → (live (env n x)).length = u →
      env n x = env t x := by
    intro t n u h h1 h2
    obtain ⟨d, rfl⟩ := Nat.exists_eq_add_of_lt h
    rcases mono (d + 1) t with h' | h'
    · exact h'
    · rw [show t + (d + 1) = t + d + 1 from rfl] at h'; omega
  have hF : Follows B kind env x
      (fun n p u _ o => (∃ t, t < n ∧ (live (env t x)).length = u ∧ p ≤ (env t x).length ∧
        o = live ((env t x).take p)))
      (fun n o => ∃ t < n, o = live (env t x)) := by
    refine ⟨?_, ?_, ?_, ?_, ?_⟩
    · rintro n p u l o ⟨t, ht, h⟩; exact ⟨t, by omega, h⟩
    · rintro n o ⟨t, ht, h⟩; exact ⟨t, by omega, h⟩
    · intro n; exact ⟨n, by omega, rfl, by omega, by simp [live]⟩
    · rintro n p u l o es c ⟨t, ht, hu, hp, ho⟩ hr hlt
      obtain ⟨hr, hu'⟩ := read_ok hr
      have hs := same ht hu (hu' hnl)
      rw [← hs] at hp ho
      refine ⟨n, by omega, hu' hnl, ?_, ?_⟩
      · have := walk_count_le ((env n x).drop p) B
        have hc : c = (walk ((env n x).drop p) B).2 := congrArg Prod.snd hr
        rw [← hc] at this
        simp at this
        omega
      · have hc : c = (walk ((env n x).drop p) B).2 := congrArg Prod.snd hr
        have he : es = (walk ((env n x).drop p) B).1 := congrArg Prod.fst hr
        rw [ho, he, walk_eq, ← live_append, ← hc, List.take_add]
    · rintro n p u l o es c ⟨t, ht, hu, hp, ho⟩ hr hlt
      obtain ⟨hr, hu'⟩ := read_ok hr
      have hs := same ht hu (hu' hnl)
      rw [← hs] at hp ho
      have he : es = (walk ((env n x).drop p) B).1 := congrArg Prod.fst hr
      refine ⟨n, by omega, ?_⟩
      rw [ho, he, walk_short _ _ (by rw [← he]; exact hlt), ← live_append, List.take_append_drop]
  exact follow hF hd hx hnf

/-- A dict whose keys stay put while its values are rebound: the dump never fails because of it, and
the pickle has exactly its keys, in order, each with a value it had at some moment. -/
theorem C104_rebind_only
    (hkeys : ∀ t, (env t x).map (Option.map List.head?) = (env 0 x).map (Option.map List.head?)) :
    (∀ n e, after B kind env root n = .error e → e.about ≠ x) ∧
    ∀ n s, Done B kind env root n s → x ∈ s.memo → kind x ≠ .leaf →
      (s.out x).map List.head? = (live (env 0 x)).map List.head? := by
  have hlive : ∀ sl : List (Option Entry),
      (live sl).map List.head? = (sl.map (Option.map List.head?)).filterMap id := by
    intro sl
    induction sl with
    | nil => rfl
    | cons a r ih => cases a <;> simpa [live] using ih
  have hlen : ∀ t, (live (env t x)).length = (live (env 0 x)).length := by
    intro t
    have := congrArg List.length (hlive (env t x))
    rw [hkeys t, ← hlive, List.length_map, List.length_map] at this
    exact this
  have hpos : ∀ t, (env t x).length = (env 0 x).length := by
    intro t
    simpa using congrArg List.length (hkeys t)
  have htake : ∀ t p, (live ((env t x).take p)).map List.head? =
      (live ((env 0 x).take p)).map List.head? := by
    intro t p
    rw [hlive, hlive, List.map_take, List.map_take, hkeys t]
  -- one read moves the cut
  have hstep : ∀ {n p : Nat} {o es : List Entry} {c : Nat}, p ≤ (env 0 x).length →
      o.map List.head? = (live ((env 0 x).take p)).map List.head? →
      (es, c) = walk ((env n x).drop p) B →
      p + c ≤ (env 0 x).length ∧
      (o ++ es).map List.head? = (live ((env 0 x).take (p + c))).map List.head? := by
    intro n p o es c hp ho hr
    have hc : c = (walk ((env n x).drop p) B).2 := congrArg Prod.snd hr
    have he : es = (walk ((env n x).drop p) B).1 := congrArg Prod.fst hr
    constructor
    · have := walk_count_le ((env n x).drop p) B
      rw [← hc, List.length_drop, hpos n] at this
      omega
    · rw [← htake n (p + c), List.take_add, live_append, List.map_append, List.map_append, ho, he,
        walk_eq, ← hc, htake n p]
  have hF : Follows B kind env x
      (fun _ p u l o => p ≤ (env 0 x).length ∧
        o.map List.head? = (live ((env 0 x).take p)).map List.head? ∧
        u = (live (env 0 x)).length ∧ o.length + l = u)
      (fun _ o => o.map List.head? = (live (env 0 x)).map List.head?) := by
    refine ⟨fun h => h, fun h => h, ?_, ?_, ?_⟩
    · intro n
      exact ⟨by omega, by simp [live], hlen n, by simp [hlen n]⟩
    · rintro n p u l o es c ⟨h1, h2, h3, h4⟩ hr hlt
      have hr := (read_ok hr).1
      obtain ⟨a, b⟩ := hstep h1 h2 hr
      refine ⟨a, b, h3, ?_⟩
      have hb := congrArg List.length b
      simp only [List.length_map] at hb
      have hsub : (live ((env 0 x).take (p + c))).length ≤ (live (env 0 x)).length := by
        have := congrArg List.length
          (congrArg live (List.take_append_drop (p + c) (env 0 x)))
        rw [live_append, List.length_append] at this
        omega
      rw [List.length_append] at hb ⊢
      omega
    · rintro n p u l o es c ⟨h1, h2, h3, h4⟩ hr hlt
      have hr := (read_ok hr).1
      have he : es = (walk ((env n x).drop p) B).1 := congrArg Prod.fst hr
      rw [List.map_append, h2, he, walk_short _ _ (by rw [← he]; exact hlt), ← htake n p,
        ← List.map_append, ← live_append, List.take_append_drop, hlive, hlive, hkeys n]
  constructor
  · refine no_error hF ?_
    rintro n p u l o e ⟨h1, h2, h3, h4⟩ hr
    simp only [read] at hr
    split at hr
    · rename_i h
      exact h.2 (by rw [hlen n, h3])
    · split at hr
      · rename_i h
        obtain ⟨a, b⟩ := hstep (n := n) (es := (walk ((env n x).drop p) B).1)
          (c := (walk ((env n x).drop p) B).2) h1 h2 rfl
        have hb := congrArg List.length b
        simp only [List.length_map, List.length_append] at hb
        have hsub : (live ((env 0 x).take (p + (walk ((env n x).drop p) B).2))).length ≤
            (live (env 0 x)).length := by
          have := congrArg List.length
            (congrArg live (List.take_append_drop (p + (walk ((env n x).drop p) B).2) (env 0 x)))
          rw [live_append, List.length_append] at this
          omega
        have := h.2
        omega
      · cases hr
  · intro n s hd hx hk
    exact follow hF hd hx hk

/-- A list never makes the dump fail, whatever is done to it. -/
theorem C104_list_no_error (hk : kind x = .list) {n : Nat} {e : Err}
    (h : after B kind env root n = .error e) : e.about ≠ x := by
  have hF : Follows B kind env x (fun _ _ _ _ _ => True) (fun _ _ => True) :=
    ⟨fun _ => trivial, fun _ => trivial, fun _ => trivial, fun _ _ _ => trivial,
      fun _ _ _ => trivial⟩
  refine no_error hF ?_ n e h
  intro n p u l o e _ hr
  simp [read, hk] at hr

/-- If every object stays as it is during the dump, the dump does not fail and every container is
written exactly as it is: the batches and the iterators' checks are invisible. -/
theorem C104_still (h : Heap) (hstill : ∀ t, env t = h) :
    (∀ n e, after B kind env root n ≠ .error e) ∧
    ∀ n s, Done B kind env root n s → ∀ x ∈ s.memo, kind x ≠ .leaf → s.out x = live (h x) := by
  constructor
  · intro n e he
    exact (C104_rebind_only (x := e.about) (fun t => by rw [hstill t, hstill 0])).1 n e he rfl
  · intro n s hd x hx hk
    have henv : ∀ t, env t x = h x := fun t => by rw [hstill t]
    have key : ∃ t < n, s.out x = live (env t x) := by
      cases hkx : kind x with
      | leaf => exact absurd hkx hk
      | list =>
        exact C104_append_only_partial hd hx hkx (fun t => by rw [henv, henv]; exact List.prefix_refl _)
      | set =>
        exact C104_only_grows_partial hd hx (Or.inr hkx) (fun t => Or.inl (by rw [henv, henv]))
      | dict =>
        exact C104_only_grows_partial hd hx (Or.inl hkx) (fun t => Or.inl (by rw [henv, henv]))
    obtain ⟨t, _, ht⟩ := key
    rw [ht, henv]

/-! ## Finishing -/

/-- What is left to do, as a number, when every container has at most `L` slots of at most `E`
objects: the measure of `C104_finishes`. -/
def cost (L E : Nat) : Task → Nat
  | .save _ => 1
  | .openIt _ => 2 + L * (E + 1)
  | .batch _ p _ _ => 1 + (L - p) * (E + 1)

/-- Cost of all pending tasks. -/
def costs (L E : Nat) (w : List Task) : Nat := (w.map (cost L E)).sum

theorem costs_append (L E : Nat) (a b : List Task) : costs L E (a ++ b) = costs L E a + costs L E b := by
  simp [costs]

theorem costs_saves (L E : Nat) (l : List Id) : costs L E (l.map .save) = l.length := by
  induction l with
  | nil => rfl
  | cons a l ih =>
    have : costs L E ((a :: l).map .save) = 1 + costs L E (l.map .save) := rfl
    rw [this, ih, List.length_cons]; omega

theorem flatten_length_le {E : Nat} : ∀ (es : List Entry), (∀ e ∈ es, e.length ≤ E) →
    es.flatten.length ≤ es.length * E
  | [], _ => by simp
  | e :: es, h => by
      have h1 := h e (List.mem_cons_self ..)
      have h2 := flatten_length_le es (fun e he => h e (List.mem_cons_of_mem _ he))
      rw [List.flatten_cons, List.length_append, List.length_cons, Nat.add_mul]
      omega

theorem unseen_lt {U memo : List Id} {y : Id} (hy : y ∈ U) (hn : y ∉ memo) :
    (U.filter (· ∉ y :: memo)).length < (U.filter (· ∉ memo)).length := by
  induction U with
  | nil => cases hy
  | cons a U ih =>
    by_cases ha : a = y
    · subst ha
      have hle : (U.filter (· ∉ a :: memo)).length ≤ (U.filter (· ∉ memo)).length := by
        rw [← List.countP_eq_length_filter, ← List.countP_eq_length_filter]
        refine List.countP_mono_left ?_
        intro z _ hz
        simp at hz ⊢
        exact hz.2
      simp [List.filter_cons, hn] at hle ⊢
      omega
    · have hy : y ∈ U := by
        rcases List.mem_cons.1 hy with h | h
        · exact absurd h.symm ha
        · exact h
      have := ih hy
      by_cases hm : a ∈ memo
      · simpa [List.filter_cons, hm, ha] using this
      · simpa [List.filter_cons, hm, ha] using this

/-- Every dump ends, however the program interferes, as long as the objects come from a finite
stock and the containers have a bound: it finishes or fails within some number of steps. -/
theorem C104_finishes (U : List Id) (L E : Nat) (hB : 0 < B) (hroot : root ∈ U)
    (hL : ∀ t y, (env t y).length ≤ L)
    (hE : ∀ t y, ∀ e ∈ live (env t y), e.length ≤ E ∧ ∀ z ∈ e, z ∈ U) :
    ∃ n, (∃ s, Done B kind env root n s) ∨ ∃ e, after B kind env root n = .error e := by
  -- every pending `save` is of an object of the stock
  have hsave : ∀ n s, after B kind env root n = .ok s → ∀ y, Task.save y ∈ s.work → y ∈ U := by
    intro n
    induction n with
    | zero => intro s h y hy; cases h; simp [start] at hy; subst hy; exact hroot
    | succ n ih =>
      intro s' h y hy
      simp only [after] at h
      split at h
      · cases h
      · rename_i s hs
        have ih := ih s hs
        obtain ⟨w, memo, out⟩ := s
        cases w with
        | nil => cases h; exact ih y hy
        | cons t w =>
          have ihw : ∀ y, Task.save y ∈ w → y ∈ U := fun y hy => ih y (List.mem_cons_of_mem _ hy)
          cases t with
          | save z =>
            simp only [step] at h
            split at h
            · cases h; exact ihw y hy
            · split at h
              · cases h; exact ihw y hy
              · cases h; exact ihw y (by simpa using hy)
          | openIt z => cases h; exact ihw y (by simpa using hy)
          | batch z p u l =>
            simp only [step] at h
            split at h
            · cases h
            · rename_i es c hr
              cases h
              rcases List.mem_append.1 hy with hy | hy
              · obtain ⟨z', hz, hz'⟩ := List.mem_map.1 hy
                cases hz'
                obtain ⟨e, he, hye⟩ := List.mem_flatten.1 hz
                have he' : es = (walk ((env n z).drop p) B).1 := congrArg Prod.fst (read_ok hr).1
                rw [he'] at he
                exact (hE n z e (mem_live_of_walk he)).2 y hye
              · split at hy
                · exact ihw y hy
                · exact ihw y (by simpa using hy)
  let M : St → Nat := fun s =>
    costs L E s.work + (U.filter (· ∉ s.memo)).length * (2 + L * (E + 1))
  have hdec : ∀ n s s', after B kind env root n = .ok s → s.work ≠ [] →
      step B kind (env n) s = .ok s' → M s' < M s := by
    intro n s s' hs hw h
    have hU := hsave n s hs
    obtain ⟨w, memo, out⟩ := s
    cases w with
    | nil => exact absurd rfl hw
    | cons t w =>
      cases t with
      | save y =>
        have hyU := hU y (List.mem_cons_self ..)
        have hc : costs L E (Task.save y :: w) = 1 + costs L E w := rfl
        simp only [step] at h
        split at h
        · cases h
          show costs L E w + (U.filter (· ∉ memo)).length * (2 + L * (E + 1)) <
            costs L E (Task.save y :: w) + (U.filter (· ∉ memo)).length * (2 + L * (E + 1))
          rw [hc]; omega
        · rename_i hy
          have hlt := unseen_lt hyU hy
          have hmul : (U.filter (· ∉ y :: memo)).length * (2 + L * (E + 1)) + (2 + L * (E + 1)) ≤
              (U.filter (· ∉ memo)).length * (2 + L * (E + 1)) := by
            rw [← Nat.succ_mul]
            exact Nat.mul_le_mul_right _ hlt
          split at h
          · cases h
            show costs L E w + (U.filter (· ∉ y :: memo)).length * (2 + L * (E + 1)) <
              costs L E (Task.save y :: w) + (U.filter (· ∉ memo)).length * (2 + L * (E + 1))
            rw [hc]; omega
          · cases h
            have ho : costs L E (Task.openIt y :: w) = 2 + L * (E + 1) + costs L E w := rfl
            show costs L E (Task.openIt y :: w) +
                (U.filter (· ∉ y :: memo)).length * (2 + L * (E + 1)) <
              costs L E (Task.save y :: w) + (U.filter (· ∉ memo)).length * (2 + L * (E + 1))
            rw [hc, ho]; omega
      | openIt y =>
        cases h
        have ho : costs L E (Task.openIt y :: w) = 2 + L * (E + 1) + costs L E w := rfl
        have hb : costs L E (Task.batch y 0 (live (env n y)).length (live (env n y)).length :: w) =
          1 + (L - 0) * (E + 1) + costs L E w := rfl
        show costs L E (Task.batch y 0 _ _ :: w) +
            (U.filter (· ∉ memo)).length * (2 + L * (E + 1)) <
          costs L E (Task.openIt y :: w) + (U.filter (· ∉ memo)).length * (2 + L * (E + 1))
        rw [ho, hb, Nat.sub_zero]; omega
      | batch y p u l =>
        simp only [step] at h
        split at h
        · cases h
        · rename_i es c hr
          have hr := (read_ok hr).1
          have hc : c = (walk ((env n y).drop p) B).2 := congrArg Prod.snd hr
          have he : es = (walk ((env n y).drop p) B).1 := congrArg Prod.fst hr
          have hes : ∀ e ∈ es, e.length ≤ E := by
            intro e hh
            rw [he] at hh
            exact (hE n y e (mem_live_of_walk hh)).1
          have hfl := flatten_length_le es hes
          have hlen : es.length ≤ c := by rw [he, hc]; exact walk_len_le_count _ _
          have hcl : c ≤ L - p := by
            have := walk_count_le ((env n y).drop p) B
            rw [← hc, List.length_drop] at this
            have := hL n y
            omega
          have hmul : es.length * E ≤ c * E := Nat.mul_le_mul_right _ hlen
          have hb : costs L E (Task.batch y p u l :: w) = 1 + (L - p) * (E + 1) + costs L E w := rfl
          cases h
          show costs L E (es.flatten.map .save ++ _) +
              (U.filter (· ∉ memo)).length * (2 + L * (E + 1)) <
            costs L E (Task.batch y p u l :: w) + (U.filter (· ∉ memo)).length * (2 + L * (E + 1))
          rw [costs_append, costs_saves, hb]
          by_cases hlt : es.length < B
          · rw [if_pos hlt]
            have h1 : c * E ≤ (L - p) * (E + 1) := Nat.mul_le_mul hcl (by omega)
            omega
          · rw [if_neg hlt]
            have hb' : costs L E (Task.batch y (p + c) u (l - es.length) :: w) =
              1 + (L - (p + c)) * (E + 1) + costs L E w := rfl
            rw [hb']
            have h1 : (L - (p + c)) * (E + 1) + c * (E + 1) = (L - p) * (E + 1) := by
              rw [← Nat.add_mul]; congr 1; omega
            have h2 : c * (E + 1) = c * E + c := Nat.mul_succ c E
            have h3 : 0 < c := by omega
            omega
  -- so the dump cannot go on for ever
  have main : ∀ m n s, after B kind env root n = .ok s → M s ≤ m →
      ∃ n, (∃ s, Done B kind env root n s) ∨ ∃ e, after B kind env root n = .error e := by
    intro m
    induction m with
    | zero =>
      intro n s hs hm
      by_cases hw : s.work = []
      · exact ⟨n, Or.inl ⟨s, hs, hw⟩⟩
      · cases hst : step B kind (env n) s with
        | error e => exact ⟨n + 1, Or.inr ⟨e, by simp only [after, hs]; exact hst⟩⟩
        | ok s' => have := hdec n s s' hs hw hst; omega
    | succ m ih =>
      intro n s hs hm
      by_cases hw : s.work = []
      · exact ⟨n, Or.inl ⟨s, hs, hw⟩⟩
      · cases hst : step B kind (env n) s with
        | error e => exact ⟨n + 1, Or.inr ⟨e, by simp only [after, hs]; exact hst⟩⟩
        | ok s' =>
          have := hdec n s s' hs hw hst
          exact ih (n + 1) s' (by simp only [after, hs]; exact hst) (by omega)
  exact main _ 0 _ rfl (Nat.le_refl _)

/-! ## What goes wrong -/

/-- Object 0 is the container, everything else is a leaf. -/
def oneOf (k : Kind) : Id → Kind := fun y => if y = 0 then k else .leaf

/-- A list of `B + 1` items whose first item is removed just after the first batch is read. -/
def shiftEnv (B : Nat) : Nat → Heap := fun t y =>
  if y = 0 then
    if t ≤ 2 then List.replicate B (some [1]) ++ [some [2]] else List.replicate (B - 1) (some [1]) ++ [some [2]]
  else []

theorem walk_replicate (a : Entry) : ∀ (B m : Nat) (r : List (Option Entry)), B ≤ m →
    walk (List.replicate m (some a) ++ r) B = (List.replicate B a, B)
  | 0, m, r, _ => by cases m <;> cases r <;> simp [walk]
  | B + 1, m + 1, r, h => by
      have := walk_replicate a B m r (by omega)
      simp [List.replicate_succ, walk, this]

theorem flatten_singles (m : Nat) : (List.replicate m ([1] : Entry)).flatten = List.replicate m 1 := by
  induction m with
  | zero => rfl
  | succ m ih => simp [List.replicate_succ, ih]

/-- The full property fails: for every batch size there is a list, pickled while its first item is
removed, in which item 2 is present from beginning to end, and the dump finishes without complaint
and without item 2: no moment had the contents that are written. -/
theorem C104_list_torn (hB : 0 < B) :
    (∀ t, [2] ∈ live (shiftEnv B t 0)) ∧
    ∃ n s, Done B (oneOf .list) (shiftEnv B) 0 n s ∧ 0 ∈ s.memo ∧ [2] ∉ s.out 0 ∧
      ∀ t, s.out 0 ≠ live (shiftEnv B t 0) := by
  have hall : ∀ t, [2] ∈ live (shiftEnv B t 0) := by
    intro t
    simp only [shiftEnv, if_true]
    split <;> simp [live]
  refine ⟨hall, ?_⟩
  have hsecond : ∀ t, 3 ≤ t → (shiftEnv B t 0).drop B = [] := by
    intro t ht
    simp only [shiftEnv, if_true]
    rw [if_neg (by omega)]
    refine List.drop_eq_nil_of_le ?_
    simp; omega
  let o : Id → List Entry := fun y => if y = 0 then [] ++ List.replicate B [1] else []
  have h3 : ∃ u l, after B (oneOf .list) (shiftEnv B) 0 3 =
      .ok ⟨(List.replicate B 1).map .save ++ [.batch 0 B u l], [0], o⟩ := by
    refine ⟨(live (shiftEnv B 1 0)).length, (live (shiftEnv B 1 0)).length - B, ?_⟩
    have h2 : after B (oneOf .list) (shiftEnv B) 0 2 =
      .ok ⟨[.batch 0 0 (live (shiftEnv B 1 0)).length (live (shiftEnv B 1 0)).length], [0],
        fun _ => []⟩ := by
      simp [after, start, step, oneOf]
    have hr : walk (shiftEnv B 2 0) B = (List.replicate B [1], B) := by
      simp only [shiftEnv, if_true]
      rw [if_pos (by omega)]
      exact walk_replicate [1] B B _ (Nat.le_refl _)
    rw [after, h2]
    simp [step, oneOf, read, hr, flatten_singles, o]
  obtain ⟨u, l, h3⟩ := h3
  -- the saves of the first batch
  have hk : ∀ k, k ≤ B → ∃ m, (∀ y ∈ m, y = 0 ∨ y = 1) ∧ 0 ∈ m ∧
      after B (oneOf .list) (shiftEnv B) 0 (3 + k) =
      .ok ⟨(List.replicate (B - k) 1).map .save ++ [.batch 0 B u l], m, o⟩ := by
    intro k
    induction k with
    | zero => intro _; exact ⟨[0], by simp, by simp, h3⟩
    | succ k ih =>
      intro hk
      obtain ⟨m, hm, hm0, ih⟩ := ih (by omega)
      have hrep : List.replicate (B - k) (1 : Id) = 1 :: List.replicate (B - (k + 1)) 1 := by
        rw [show B - k = (B - (k + 1)) + 1 by omega]; rfl
      by_cases h1 : (1 : Id) ∈ m
      · refine ⟨m, hm, hm0, ?_⟩
        rw [show 3 + (k + 1) = (3 + k) + 1 from rfl, after, ih, hrep]
        simp [step, h1]
      · refine ⟨1 :: m, by simpa using hm, by simp [hm0], ?_⟩
        rw [show 3 + (k + 1) = (3 + k) + 1 from rfl, after, ih, hrep]
        simp [step, h1, oneOf]
  obtain ⟨m, _, hm0, hB'⟩ := hk B (Nat.le_refl _)
  have hlast : after B (oneOf .list) (shiftEnv B) 0 (3 + B + 1) =
      .ok ⟨[], m, fun y => if y = 0 then o 0 ++ [] else o y⟩ := by
    have hd := hsecond (3 + B) (by omega)
    obtain ⟨b, hb⟩ : ∃ b, B = b + 1 := ⟨B - 1, by omega⟩
    have hw : walk [] B = ([], 0) := by rw [hb]; rfl
    rw [after, hB']
    simp [step, oneOf, read, hd, hw, hB]
  have hout : [2] ∉ (fun y => if y = 0 then o 0 ++ [] else o y) 0 := by
    simp [o]
  refine ⟨_, _, ⟨hlast, rfl⟩, hm0, hout, ?_⟩
  intro t h
  have h : (fun y => if y = 0 then o 0 ++ [] else o y) 0 = live (shiftEnv B t 0) := h
  rw [h] at hout
  exact hout (hall t)

/-- A dict of two keys, 1 and 2; once the first is read, key 1 is deleted, key 3 is added and the
table is compacted. -/
def swapEnv : Nat → Heap := fun t y =>
  if y = 0 then (if t ≤ 2 then [some [1, 11], some [2, 12]] else [some [2, 12], some [3, 13]]) else []

/-- Neither complaint of the dict iterator notices a key deleted and another added (protocol 0,
where a batch is one entry): key 2, present from beginning to end, is lost without an error. -/
theorem C104_dict_torn :
    (∀ t, [2, 12] ∈ live (swapEnv t 0)) ∧
    ∃ n s, Done 1 (oneOf .dict) swapEnv 0 n s ∧ s.out 0 = [[1, 11], [3, 13]] := by
  constructor
  · intro t
    simp only [swapEnv, if_true]
    split <;> simp [live]
  · refine ⟨9, _, ⟨rfl, rfl⟩, ?_⟩
    decide

/-- Two lists 1 and 2 in a list 0; object 5 is moved from list 2 to list 1 after list 1 is read. -/
def moveEnv : Nat → Heap := fun t y =>
  if y = 0 then [some [1], some [2]]
  else if y = 1 then (if t ≤ 5 then [] else [some [5]])
  else if y = 2 then (if t ≤ 5 then [some [5]] else [])
  else []

/-- Small containers are each pickled as of one moment, but not all of the same moment: object 5 is
always in exactly one of the two lists, and the pickle has it in neither. -/
theorem C104_moment_differs :
    (∀ t, [5] ∈ live (moveEnv t 1) ∨ [5] ∈ live (moveEnv t 2)) ∧
    ∃ n s, Done 1000 (fun y => if y < 3 then .list else .leaf) moveEnv 0 n s ∧
      1 ∈ s.memo ∧ 2 ∈ s.memo ∧ s.out 1 = [] ∧ s.out 2 = [] := by
  constructor
  · intro t
    simp only [moveEnv]
    by_cases h : t ≤ 5 <;> simp [h, live]
  · exact ⟨9, _, ⟨rfl, rfl⟩, by decide, by decide, by decide, by decide⟩

/-- A list that keeps growing. -/
def growEnv (B : Nat) : Nat → Heap := fun t y =>
  if y = 0 then List.replicate ((t + 1) * B) (some [1]) else []

/-- The dump of a list that another thread keeps appending to need never end: without a bound on the
containers `C104_finishes` fails. -/
theorem C104_endless (hB : 0 < B) (n : Nat) :
    (∀ s, ¬ Done B (oneOf .list) (growEnv B) 0 n s) ∧
    ∀ e, after B (oneOf .list) (growEnv B) 0 n ≠ .error e := by
  have key : ∀ n, ∃ (k p u l : Nat) (m : List Id) (o : Id → List Entry),
      after B (oneOf .list) (growEnv B) 0 (n + 2) =
        .ok ⟨(List.replicate k 1).map .save ++ [.batch 0 p u l], m, o⟩ ∧ p ≤ n * B := by
    intro n
    induction n with
    | zero =>
      exact ⟨0, 0, (live (growEnv B 1 0)).length, (live (growEnv B 1 0)).length, [0], fun _ => [],
        by simp [after, start, step, oneOf], by omega⟩
    | succ n ih =>
      obtain ⟨k, p, u, l, m, o, h, hp⟩ := ih
      have hle : n * B ≤ (n + 1) * B := Nat.mul_le_mul_right _ (by omega)
      cases k with
      | succ k =>
        by_cases h1 : (1 : Id) ∈ m
        · refine ⟨k, p, u, l, m, o, ?_, by omega⟩
          rw [show n + 1 + 2 = (n + 2) + 1 from rfl, after, h]
          simp [step, List.replicate_succ, h1]
        · refine ⟨k, p, u, l, 1 :: m, o, ?_, by omega⟩
          rw [show n + 1 + 2 = (n + 2) + 1 from rfl, after, h]
          simp [step, List.replicate_succ, h1, oneOf]
      | zero =>
        have hlen : (n + 2 + 1) * B = n * B + B + B + B := by
          rw [Nat.add_mul, Nat.add_mul]; omega
        have hr : walk ((growEnv B (n + 2) 0).drop p) B = (List.replicate B [1], B) := by
          have := walk_replicate [1] B ((n + 2 + 1) * B - p) [] (by omega)
          simpa [growEnv] using this
        refine ⟨B, p + B, u, l - B, m,
          fun y => if y = 0 then o 0 ++ List.replicate B [1] else o y, ?_, ?_⟩
        · rw [show n + 1 + 2 = (n + 2) + 1 from rfl, after, h]
          simp [step, oneOf, read, hr, flatten_singles]
        · rw [Nat.add_mul]; omega
  match n with
  | 0 =>
    refine ⟨fun s h => ?_, fun e h => ?_⟩
    · have := h.1
      cases this
      cases h.2
    · cases h
  | 1 =>
    have h1 : after B (oneOf .list) (growEnv B) 0 1 = .ok ⟨[.openIt 0], [0], fun _ => []⟩ := by
      simp [after, start, step, oneOf]
    refine ⟨fun s h => ?_, fun e h => ?_⟩
    · have := h.1
      rw [h1] at this
      cases this
      cases h.2
    · rw [h1] at h; cases h
  | n + 2 =>
    obtain ⟨k, p, u, l, m, o, h, _⟩ := key n
    refine ⟨fun s hd => ?_, fun e he => ?_⟩
    · have := hd.1
      rw [h] at this
      cases this
      have := hd.2
      simp at this
    · rw [h] at he; cases he

/-! ## Reachability of the hypotheses -/

/-- A dict 0 with a list 1 and a set 2 in it; the list is appended to and the dict's value is
rebound while it is being pickled. -/
def demoEnv : Nat → Heap := fun t y =>
  if y = 0 then [some [7, 1], none, some [8, if t ≤ 4 then 2 else 3]]
  else if y = 1 then (if t ≤ 5 then [some [4]] else [some [4], some [5]])
  else if y = 2 then [some [6], none]
  else []

/-- Its kinds. -/
def demoKind : Id → Kind := fun y =>
  if y = 0 then .dict else if y = 1 then .list else if y = 2 then .set else .leaf

/-- The demo finishes, with all three containers pickled: the hypotheses of `C104_closed`,
`C104_values`, `C104_snapshot_partial`, `C104_append_only_partial`, `C104_only_grows_partial` and
`C104_rebind_only` are met together. -/
example : ∃ n s, Done 1000 demoKind demoEnv 0 n s ∧ 0 ∈ s.memo ∧ 1 ∈ s.memo ∧ 2 ∈ s.memo ∧
    s.out 0 = [[7, 1], [8, 2]] ∧ s.out 1 = [[4], [5]] ∧ s.out 2 = [[6]] := by
  refine ⟨20, _, ⟨rfl, rfl⟩, ?_⟩
  decide

example : ∀ t, demoEnv t 1 <+: demoEnv (t + 1) 1 := by
  intro t
  simp only [demoEnv]
  by_cases h : t ≤ 5 <;> by_cases h' : t + 1 ≤ 5
  · simp [h, h']
  · simp only [h, h']; exact ⟨[some [5]], rfl⟩
  · omega
  · simp [h, h']

example : ∀ t, (demoEnv t 0).map (Option.map List.head?) = (demoEnv 0 0).map (Option.map List.head?) := by
  intro t
  rfl

/-- A dict that gains a key between two of its batches does make the dump fail. -/
example : after 1 (oneOf .dict)
    (fun t y => if y = 0 then (if t ≤ 2 then [some [1, 2]] else [some [1, 2], some [3, 4]]) else []) 0 6 =
    .error (.changedSize 0) := by
  rfl

/-- And so does one that keeps its size but moves its keys behind the iterator's back. -/
example : after 1 (oneOf .dict)
    (fun t y => if y = 0 then (if t ≤ 2 then [some [1, 2]] else [none, some [3, 4]]) else []) 0 6 =
    .error (.keysChanged 0) := by
  rfl

end Verif.Live
