import Verif.Core.Sim2
/-! Tuples, lists, dicts and reduce-style objects in the simulation (used for C01-C05). -/
set_option linter.unusedSimpArgs false
namespace Verif.Core
open Spec

/-! ### helpers -/

theorem idx_some {pm : List Key} {k i} (h : idx pm k = some i) : pm[i]? = some k := by
  unfold idx at h
  rw [List.findIdx?_eq_some_iff_getElem] at h
  obtain ⟨h1, h2, _⟩ := h
  rw [List.getElem?_eq_getElem h1]
  simpa using h2

theorem idx_none {pm : List Key} {k} (h : idx pm k = none) : k ∉ pm := by
  unfold idx at h
  rw [List.findIdx?_eq_none_iff] at h
  intro hm
  simpa using h k hm

theorem idx_isSome {pm : List Key} {k} (h : k ∈ pm) : ∃ i, idx pm k = some i := by
  cases e : idx pm k with
  | none => exact absurd h (idx_none e)
  | some i => exact ⟨i, rfl⟩

theorem Inv.value {W opn p mm heap} (hi : Inv W opn p mm heap) {i : Nat} {k} (h : p.memo[i]? = some k) :
    ∃ tv, mm[i]? = some tv := by
  have := (List.getElem?_eq_some_iff.1 h).1
  rw [hi.len] at this
  exact ⟨_, List.getElem?_eq_getElem this⟩

/-- a memoised object is a reference unless it is a leaf -/
theorem Inv.vrel {W opn p mm heap} (hi : Inv W opn p mm heap) {i : Nat} {x tv} (h : p.memo[i]? = some (.obj x))
    (h' : mm[i]? = some tv) : VRel W p.memo mm (.ref x) tv := by
  have hs := hi.shape i _ _ h h'
  rcases hs with hs | hs
  · have hf := hs.1
    simp only [VRel, res]
    cases hx : W.H x with
    | leaf a => rw [hx] at hf; exact hf.elim
    | _ => exact ⟨i, h, h', .inr hs⟩
  simp only [ShapeObj] at hs
  simp only [VRel, res]
  cases hx : W.H x with
  | leaf a => rw [hx] at hs; exact hs
  | cell c => rw [hx] at hs; obtain ⟨t, _, e, _⟩ := hs; subst e; exact ⟨i, h, h', .inl ⟨t, rfl⟩⟩
  | cls _ _ _ _ _ => rw [hx] at hs; obtain ⟨t, _, _, _, _, _, e, _⟩ := hs; subst e; exact ⟨i, h, h', .inl ⟨t, rfl⟩⟩
  | _ => rw [hx] at hs; exact ⟨i, h, h', .inl hs⟩

theorem fresh_of_new {W opn but ex p mm heap p1 mm1 heap1} (hi : Inv W opn p mm heap)
    (h : ExtBut but ex p mm heap p1 mm1 heap1) {i : Nat} {k t} (hk : k ∉ p.memo)
    (h1 : p1.memo[i]? = some k) (h2 : mm1[i]? = some (.ref t)) : heap.length ≤ t := by
  by_cases hl : i < mm.length
  · rw [prefix_get_lt h.pmPre (by rw [hi.len]; exact hl)] at h1
    exact absurd (List.mem_of_getElem? h1) hk
  · exact h.fresh i t (Nat.le_of_not_lt hl) h2

theorem Inv.notStack {W opn p mm heap} (hi : Inv W opn p mm heap) {x} (h : ¬ isFC (W.H x)) :
    ¬ OnStack p.post x := by
  rintro ⟨e, he, rfl⟩
  exact h (hi.kind e he)

/-- closing an object that has become complete -/
theorem Inv.close {W opn p mm heap} {x} (hi : Inv W (fun k => opn k ∨ k = .obj x) p mm heap)
    {i t : Nat} {o} (h1 : p.memo[i]? = some (.obj x)) (h2 : mm[i]? = some (.ref t))
    (h3 : heap[t]? = some o) (h4 : ObjRel W p.memo mm x (W.H x) o) : Inv W opn p mm heap := by
  refine hi.reopen opn ?_ (fun y hy => hi.opnOK y (.inl hy))
  intro j k tv g1 g2 g3 g4 _
  rcases g4 with g4 | rfl
  · exact absurd g4 g3
  · have := hi.nodup i j _ h1 g1 (by simp)
    subst this
    rw [h2] at g2; cases g2
    exact .inr ⟨t, o, rfl, h3, h4⟩

theorem Inv.opening {W opn p mm heap} (hi : Inv W opn p mm heap) {x} (h : .obj x ∈ p.memo ∨ OnStack p.post x) :
    Inv W (fun k => opn k ∨ k = .obj x) p mm heap := by
  refine hi.reopen _ (fun j k tv _ _ g3 g4 _ => absurd (.inl g4) g3) ?_
  intro y hy
  rcases hy with hy | hy
  · exact hi.opnOK y hy
  · cases hy; exact h

/-- memoising an object that is still being built -/
theorem Inv.memoOpen {W opn p mm heap} (hi : Inv W opn p mm heap) {x} {t : Nat} (hnew : .obj x ∉ p.memo)
    (ht : t < heap.length) (hn : ∀ i : Nat, mm[i]? ≠ some (.ref t))
    (hsh : Shape W (p.memo ++ [.obj x]) (mm ++ [.ref t]) heap (.obj x) (.ref t)) :
    Inv W (fun k => opn k ∨ k = .obj x) { p with memo := p.memo ++ [.obj x] } (mm ++ [.ref t]) heap := by
  refine ⟨?_, ?_, ?_, ?_, ?_, ?_, hi.reds, hi.kind, ?_, ?_, ?_, hi.names⟩
  rotate_right 3
  · intro y hy
    rcases hy with hy | hy
    · exact (hi.opnOK y hy).imp (fun h => by simp [h]) id
    · cases hy; exact .inl (by simp)
  · intro f hf
    simp only [List.mem_append, List.mem_singleton, reduceCtorEq, or_false] at hf
    exact (hi.globsOK f hf).imp (fun h => by simp [h]) id
  rotate_left
  · simp [hi.len]
  all_goals
    have getp : ∀ (i : Nat) k', (p.memo ++ [Key.obj x])[i]? = some k' →
        (p.memo[i]? = some k') ∨ (i = p.memo.length ∧ k' = .obj x) := by
      intro i k' hi
      by_cases hlt : i < p.memo.length
      · rw [List.getElem?_append_left hlt] at hi; exact .inl hi
      · rw [List.getElem?_append_right (Nat.le_of_not_lt hlt)] at hi
        cases e : i - p.memo.length with
        | zero => rw [e] at hi; simp at hi; exact .inr ⟨by omega, hi.symm⟩
        | succ n => rw [e] at hi; simp at hi
    have getm : ∀ (i : Nat) v, (mm ++ [TVal.ref t])[i]? = some v →
        (mm[i]? = some v) ∨ (i = mm.length ∧ v = .ref t) := by
      intro i k' hi
      by_cases hlt : i < mm.length
      · rw [List.getElem?_append_left hlt] at hi; exact .inl hi
      · rw [List.getElem?_append_right (Nat.le_of_not_lt hlt)] at hi
        cases e : i - mm.length with
        | zero => rw [e] at hi; simp at hi; exact .inr ⟨by omega, hi.symm⟩
        | succ n => rw [e] at hi; simp at hi
    have hp : p.memo <+: p.memo ++ [Key.obj x] := prefix_append_one _ _
    have hm : mm <+: mm ++ [TVal.ref t] := prefix_append_one _ _
    have old : ∀ (i : Nat) k' v, (p.memo ++ [Key.obj x])[i]? = some k' → (mm ++ [TVal.ref t])[i]? = some v →
        (p.memo[i]? = some k' ∧ mm[i]? = some v) ∨ (k' = .obj x ∧ v = .ref t) := by
      intro i k' v h1 h2
      rcases getp i k' h1 with a | ⟨a, a'⟩ <;> rcases getm i v h2 with b | ⟨b, b'⟩
      · exact .inl ⟨a, b⟩
      · have := (List.getElem?_eq_some_iff.1 a).1; have := hi.len; omega
      · have := (List.getElem?_eq_some_iff.1 b).1; have := hi.len; omega
      · exact .inr ⟨a', b'⟩
  · intro i j k' h1 h2 hne
    rcases getp i k' h1 with a | ⟨a, a'⟩ <;> rcases getp j k' h2 with b | ⟨b, b'⟩
    · exact hi.nodup i j k' a b hne
    · subst b'; exact absurd (List.mem_of_getElem? a) hnew
    · subst a'; exact absurd (List.mem_of_getElem? b) hnew
    · omega
  · intro i j t h1 h2
    rcases getm i _ h1 with a | ⟨a, a'⟩ <;> rcases getm j _ h2 with b | ⟨b, b'⟩
    · exact hi.inj i j t a b
    · cases b'; exact absurd a (hn i)
    · cases a'; exact absurd b (hn j)
    · omega
  · intro i t h1
    rcases getm i _ h1 with a | ⟨a, a'⟩
    · exact hi.bound i t a
    · cases a'; exact ht
  · intro i k' v h1 h2
    rcases old i k' v h1 h2 with ⟨a, b⟩ | ⟨rfl, rfl⟩
    · exact (hi.shape i k' v a b).mono hp hm (fun _ _ => rfl)
    · exact hsh
  · intro i k' v h1 h2 h3 h4
    rcases old i k' v h1 h2 with ⟨a, b⟩ | ⟨rfl, rfl⟩
    · exact (hi.good i k' v a b (fun h => h3 (.inl h)) h4).mono hp hm (fun _ _ => rfl)
    · exact absurd (.inr rfl) h3
  · intro i y a h1 h2 h3
    rcases old i _ _ h1 h2 with ⟨a1, b1⟩ | ⟨_, b1⟩
    · exact hi.named i y a a1 b1 h3
    · cases b1

theorem memoOrGet_run {p : P} {m : M} {t : Nat} {s x} {Q : P → M → Prop} (hst : m.stack = .ref t :: s)
    (hlen : p.memo.length = m.memo.length)
    (h1 : .obj x ∉ p.memo → Q { p with memo := p.memo ++ [.obj x] } { m with memo := m.memo ++ [.ref t] })
    (h2 : ∀ (i : Nat) tv, p.memo[i]? = some (.obj x) → m.memo[i]? = some tv → Q p { m with stack := tv :: s }) :
    Run (memoOrGet x) p m Q := by
  intro p' ops he
  unfold memoOrGet at he
  cases hx : idx p.memo (.obj x) with
  | none =>
    rw [hx] at he; cases he
    exact ⟨_, by simp [exec, step, hst], h1 (idx_none hx)⟩
  | some i =>
    rw [hx] at he; cases he
    have hi := idx_some hx
    have hl := (List.getElem?_eq_some_iff.1 hi).1
    rw [hlen] at hl
    have hv := List.getElem?_eq_getElem hl
    exact ⟨_, by simp [exec, step, hst, hv], h2 i _ hi hv⟩

/-! ### leaves and tuples -/

theorem leaf_run {W opn p} {m : M} {x a} (hi : Inv W opn p m.memo m.heap) (hx : W.H x = .leaf a)
    (hn : .obj x ∉ p.memo) :
    Run (emit [.push a] ;; memoize (.obj x)) p m (Saved W opn (.ref x) p m) := by
  refine Run.emitThen (m' := { m with stack := .atom a :: m.stack }) rfl ?_
  refine Run.memoize (v := .atom a) (s := m.stack) rfl ?_
  refine ⟨.atom a, rfl, rfl, ?_, ?_, ?_⟩
  · refine ExtBut.memo m.heap (Nat.le_refl _) (fun _ _ _ => rfl) (by simp) ?_
    intro y hy hk
    rcases hk with e | e <;> cases e
    exact absurd hy (hi.notStack (by rw [hx]; exact fun h => h))
  · refine hi.memo _ _ (fun _ => hn) (by simp) (by simp [Shape, ShapeObj, hx]) ?_ (by simp) ?_
    · exact .inr (.inr (.inl (.inr ⟨a, hx, rfl⟩)))
    · rintro y b ⟨⟩ _ hf; rw [hx] at hf; exact hf.elim
  · simp [VRel, res, hx]

theorem exec_pops (n : Nat) (m : M) (ts s : List TVal) (hl : ts.length = n) (h : m.stack = ts ++ s) (ops) :
    exec (List.replicate n .pop ++ ops) m = exec ops { m with stack := s } := by
  induction n generalizing m ts with
  | zero =>
    have : ts = [] := by cases ts with | nil => rfl | cons _ _ => simp at hl
    subst this
    obtain ⟨a, b, c, d⟩ := m
    simp at h; subst h; rfl
  | succ n ih =>
    cases ts with
    | nil => simp at hl
    | cons t ts =>
      simp only [List.replicate_succ, List.cons_append, exec]
      simp only [step, h, List.cons_append, Option.bind_some]
      exact ih _ ts (by simpa using hl) rfl

/-- allocating and memoising a complete object -/
theorem newObj {W opn p} {mm heap x o} (hi : Inv W opn p mm heap) (hn : .obj x ∉ p.memo)
    (hns : ¬ OnStack p.post x)
    (ho : ObjRel W p.memo mm x (W.H x) o)
    (hsh : Shape W (p.memo ++ [.obj x]) (mm ++ [.ref heap.length]) (heap ++ [o]) (.obj x) (.ref heap.length)) :
    ExtBut NoB NoX p mm heap { p with memo := p.memo ++ [.obj x] } (mm ++ [.ref heap.length]) (heap ++ [o]) ∧
    Inv W opn { p with memo := p.memo ++ [.obj x] } (mm ++ [.ref heap.length]) (heap ++ [o]) := by
  refine ⟨?_, ?_⟩
  · refine ExtBut.memo heap (by simp) (fun i hi _ => by rw [List.getElem?_append_left hi]) ?_ ?_
    · rintro t e; cases e; exact Nat.le_refl _
    · intro y hy hk
      rcases hk with e | e <;> cases e
      exact absurd hy hns
  · refine (hi.alloc o).memo _ _ (fun _ => hn) ?_ hsh ?_ (by simp)
    · rintro t e; cases e
      exact ⟨by simp, fun i => hi.notin (Nat.le_refl _) i⟩
    · refine .inr (.inr (.inr ⟨_, o, rfl, by simp, ho.mono (prefix_append_one _ _) (prefix_append_one _ _)⟩))

theorem saveTuple_run {W sv} (hs : SaveOK W sv) {x es opn p} {m : M} (hi : Inv W opn p m.memo m.heap)
    (hx : W.H x = .tuple es) (hne : es ≠ []) (hn : .obj x ∉ p.memo) :
    Run (saveTuple sv x es) p m (Saved W opn (.ref x) p m) := by
  unfold saveTuple
  have hfc : ∀ {p mm heap}, Inv W opn p mm heap → ¬ OnStack p.post x := fun h =>
    h.notStack (by rw [hx]; exact fun h => h)
  have fin : ∀ p1 (m1 : M) tvs, ExtBut NoB NoX p m.memo m.heap p1 m1.memo m1.heap →
      Inv W opn p1 m1.memo m1.heap → All2 (VRel W p1.memo m1.memo) es tvs →
      .obj x ∉ p1.memo → m1.metas = m.metas →
      Run (memoize (.obj x)) p1 (m1.alloc (.tuple tvs) m.stack) (Saved W opn (.ref x) p m) := by
    intro p1 m1 tvs h3 h4 h5 h6 h7
    refine Run.memoize (v := .ref m1.heap.length) (s := m.stack) rfl ?_
    obtain ⟨k1, k2⟩ := newObj (o := .tuple tvs) h4 h6 (hfc h4) (by rw [hx]; exact h5)
      (by simp [Shape, ShapeObj, hx])
    refine ⟨.ref m1.heap.length, rfl, h7, h3.trans k1, k2, ?_⟩
    exact k2.vrel (i := p1.memo.length) (by simp) (by simp [h4.len])
  split
  · rename_i h; simp at h; exact absurd h hne
  · split
    · refine Run.seq (saveAll_run hs es opn p m hi) ?_
      rintro p1 m1 ⟨tvs, h1, h2, h3, h4, h5⟩
      intro p' ops he
      have hl := h5.length
      cases hix : idx p1.memo (.obj x) with
      | some i =>
        simp only [hix] at he; cases he
        have hg := idx_some hix
        obtain ⟨tv, htv⟩ := h4.value hg
        refine ⟨{ m1 with stack := tv :: m.stack }, ?_, tv, rfl, h2, h3, h4, h4.vrel hg htv⟩
        rw [exec_pops es.length m1 tvs.reverse m.stack (by simp [hl]) h1]
        simp [exec, step, htv]
      | none =>
        simp only [hix] at he
        refine Run.emitThen (m' := m1.alloc (.tuple tvs) m.stack) ?_ (fin p1 m1 tvs h3 h4 h5 (idx_none hix) h2)
          p' ops he
        simp only [step, h1]
        rw [if_pos (by simp [hl])]
        have e1 : (tvs.reverse ++ m.stack).take es.length = tvs.reverse := by
          rw [List.take_append_of_le_length (by simp [hl]), List.take_of_length_le (by simp [hl])]
        have e2 : (tvs.reverse ++ m.stack).drop es.length = m.stack := by
          rw [List.drop_append_of_le_length (by simp [hl]), List.drop_of_length_le (by simp [hl])]
          rfl
        rw [e1, e2, List.reverse_reverse]
    · refine Run.emitThen (m' := { m with stack := [], metas := m.stack :: m.metas }) rfl ?_
      refine Run.seq (saveAll_run hs es opn p _ hi) ?_
      rintro p1 m1 ⟨tvs, h1, h2, h3, h4, h5⟩
      simp only [List.append_nil] at h1 h2
      intro p' ops he
      cases hix : idx p1.memo (.obj x) with
      | some i =>
        simp only [hix] at he; cases he
        have hg := idx_some hix
        obtain ⟨tv, htv⟩ := h4.value hg
        refine ⟨{ m1 with stack := tv :: m.stack, metas := m.metas }, ?_, tv, rfl, rfl, h3, h4, h4.vrel hg htv⟩
        simp [exec, step, h2, htv]
      | none =>
        simp only [hix] at he
        exact Run.emitThen (m' := ({ m1 with metas := m.metas } : M).alloc (.tuple tvs) m.stack)
          (by simp [step, h1, h2]) (fin p1 { m1 with metas := m.metas } tvs h3 h4 h5 (idx_none hix) rfl) p' ops he

theorem saveFset_run {W sv} (hs : SaveOK W sv) {x es opn p} {m : M} (hi : Inv W opn p m.memo m.heap)
    (hx : W.H x = .fset es) (hn : .obj x ∉ p.memo) :
    Run (saveFset sv x es) p m (Saved W opn (.ref x) p m) := by
  unfold saveFset
  have hfc : ∀ {p mm heap}, Inv W opn p mm heap → ¬ OnStack p.post x := fun h =>
    h.notStack (by rw [hx]; exact fun h => h)
  have fin : ∀ p1 (m1 : M) tvs, ExtBut NoB NoX p m.memo m.heap p1 m1.memo m1.heap →
      Inv W opn p1 m1.memo m1.heap → All2 (VRel W p1.memo m1.memo) es tvs →
      .obj x ∉ p1.memo → m1.metas = m.metas →
      Run (memoize (.obj x)) p1 (m1.alloc (.fset tvs) m.stack) (Saved W opn (.ref x) p m) := by
    intro p1 m1 tvs h3 h4 h5 h6 h7
    refine Run.memoize (v := .ref m1.heap.length) (s := m.stack) rfl ?_
    obtain ⟨k1, k2⟩ := newObj (o := .fset tvs) h4 h6 (hfc h4) (by rw [hx]; exact h5)
      (by simp [Shape, ShapeObj, hx])
    refine ⟨.ref m1.heap.length, rfl, h7, h3.trans k1, k2, ?_⟩
    exact k2.vrel (i := p1.memo.length) (by simp) (by simp [h4.len])
  refine Run.emitThen (m' := { m with stack := [], metas := m.stack :: m.metas }) rfl ?_
  refine Run.seq (saveAll_run hs es opn p _ hi) ?_
  rintro p1 m1 ⟨tvs, h1, h2, h3, h4, h5⟩
  simp only [List.append_nil] at h1 h2
  intro p' ops he
  cases hix : idx p1.memo (.obj x) with
  | some i =>
    simp only [hix] at he; cases he
    have hg := idx_some hix
    obtain ⟨tv, htv⟩ := h4.value hg
    refine ⟨{ m1 with stack := tv :: m.stack, metas := m.metas }, ?_, tv, rfl, rfl, h3, h4, h4.vrel hg htv⟩
    simp [exec, step, h2, htv]
  | none =>
    simp only [hix] at he
    exact Run.emitThen (m' := ({ m1 with metas := m.metas } : M).alloc (.fset tvs) m.stack)
      (by simp [step, h1, h2]) (fin p1 { m1 with metas := m.metas } tvs h3 h4 h5 (idx_none hix) rfl) p' ops he

/-! ### containers -/

theorem stay_node {W opn p mm heap x} (hi : Inv W opn p mm heap) (h : isNode (W.H x)) : ¬ OnStack p.post x :=
  hi.notStack (by cases e : W.H x <;> rw [e] at h <;> simp_all [isNode, isFC])

theorem notPending {W opn p mm heap x} (hi : Inv W opn p mm heap) (h : ∀ c, W.H x ≠ .cell c)
    (h' : ¬ isFC (W.H x)) : ¬ Pending p.post (.obj x) := by
  rintro ⟨e, he, r, hr, ht⟩
  have := hi.reds e he r hr
  cases r with
  | setCell c v => cases ht; exact h _ this
  | setQual c v => cases ht; obtain ⟨_, _, _, _, e⟩ := this; rw [e] at h'; exact h' trivial
  | setItems f c => cases ht
  | setDead f c => cases ht; exact h' this.2

/-- the common start of saving a list or dict: an empty object, memoised -/
theorem openNew {W opn p} {mm heap x o} (hi : Inv W opn p mm heap) (hx : isNode (W.H x))
    (hn : .obj x ∉ p.memo) :
    ExtBut NoB NoX p mm heap { p with memo := p.memo ++ [.obj x] } (mm ++ [.ref heap.length]) (heap ++ [o]) ∧
    Inv W (fun k => opn k ∨ k = .obj x) { p with memo := p.memo ++ [.obj x] } (mm ++ [.ref heap.length])
      (heap ++ [o]) := by
  refine ⟨?_, ?_⟩
  · refine ExtBut.memo heap (by simp) (fun i hi _ => by rw [List.getElem?_append_left hi]) ?_ ?_
    · rintro t e; cases e; exact Nat.le_refl _
    · intro y hy hk
      rcases hk with e | e <;> cases e
      exact absurd hy (stay_node hi hx)
  · exact (hi.alloc o).memoOpen hn (by simp) (fun i => hi.notin (Nat.le_refl _) i) (shape_node hx)

theorem owner_obj {W} {opn : Key → Prop} {p mm heap x} {t : Nat} (hi : Inv W (fun k => opn k ∨ k = .obj x) p mm heap)
    (hx : isNode (W.H x)) {i : Nat} (h1 : p.memo[i]? = some (.obj x)) (h2 : mm[i]? = some (.ref t)) :
    OwnerL W (fun k => opn k ∨ k = .obj x) p.memo mm t := by
  intro j k g1 g2
  have := hi.inj i j _ h2 g1
  subst this
  rw [h1] at g2; cases g2
  exact .inr ⟨.inr rfl, x, rfl, hx⟩

theorem OwnerL.toD {W opn pm mm t} (h : OwnerL W opn pm mm t) (es) : OwnerD W opn pm mm t es := by
  intro i k h1 h2
  rcases h i k h1 h2 with h | ⟨h, h'⟩
  · exact .inl h
  · exact .inr ⟨h, .inl h'⟩

/-- dropping modifications of objects created since the start -/
theorem ExtBut.strict {but ex p mm heap p1 mm1 heap1 p2 mm2 heap2} (h : ExtBut NoB ex p mm heap p1 mm1 heap1)
    (h' : ExtBut but ex p1 mm1 heap1 p2 mm2 heap2) (hb : ∀ i, but i → heap.length ≤ i) :
    ExtBut NoB ex p mm heap p2 mm2 heap2 :=
  ((h.weaken (but' := but) (fun _ _ h => h.elim) (fun _ _ _ _ h => h)).trans h').weaken
    (fun i hi hi' => by have := hb i hi'; omega) (fun _ _ _ _ h => h)

theorem saveList_run {W sv} (hs : SaveOK W sv) {x lits dits st opn p} {m : M}
    (hi : Inv W opn p m.memo m.heap) (hx : W.H x = .node .list lits dits st) (hw : dits = [] ∧ st = none)
    (hn : .obj x ∉ p.memo) :
    Run (emit [.emptyList] ;; memoize (.obj x) ;; batchAppends sv lits) p m (Saved W opn (.ref x) p m) := by
  have hnode : isNode (W.H x) := by rw [hx]; trivial
  refine Run.emitThen (m' := m.alloc (.node .list [] [] [] none) m.stack) rfl ?_
  refine Run.memoThen (v := .ref m.heap.length) (s := m.stack) rfl ?_
  obtain ⟨k1, k2⟩ := openNew (o := .node .list [] [] [] none) hi hnode hn
  have e1 : (p.memo ++ [Key.obj x])[p.memo.length]? = some (.obj x) := by simp
  have e2 : (m.memo ++ [TVal.ref m.heap.length])[p.memo.length]? = some (.ref m.heap.length) := by simp [hi.len]
  refine (batchAppends_run hs lits _ _ _ (t := m.heap.length) (s := m.stack) (c := .list) (l := []) (d := [])
    (a := []) (st := none) k2 rfl (by simp [M.alloc]) (owner_obj k2 hnode e1 e2)).conseq ?_
  rintro p2 m2 ⟨tvs, g1, g2, g3, g4, g5, g6⟩
  have f1 := prefix_get g3.pmPre e1
  have f2 : m2.memo[p.memo.length]? = some (.ref m.heap.length) := prefix_get g3.mmPre e2
  refine ⟨.ref m.heap.length, g1, g2, k1.strict g3 (fun i h => by omega), ?_, g4.vrel f1 f2⟩
  refine g4.close f1 f2 g6 ?_
  rw [hx]
  obtain ⟨rfl, rfl⟩ := hw
  exact ⟨trivial, .once (by simpa using g5), .nil, rfl, rfl⟩

theorem saveSet_run {W sv} (hs : SaveOK W sv) {x lits dits st opn p} {m : M}
    (hi : Inv W opn p m.memo m.heap) (hx : W.H x = .node .set lits dits st) (hw : dits = [] ∧ st = none)
    (hn : .obj x ∉ p.memo) :
    Run (emit [.emptySet] ;; memoize (.obj x) ;; batchAdds sv lits) p m (Saved W opn (.ref x) p m) := by
  have hnode : isNode (W.H x) := by rw [hx]; trivial
  refine Run.emitThen (m' := m.alloc (.node .set [] [] [] none) m.stack) rfl ?_
  refine Run.memoThen (v := .ref m.heap.length) (s := m.stack) rfl ?_
  obtain ⟨k1, k2⟩ := openNew (o := .node .set [] [] [] none) hi hnode hn
  have e1 : (p.memo ++ [Key.obj x])[p.memo.length]? = some (.obj x) := by simp
  have e2 : (m.memo ++ [TVal.ref m.heap.length])[p.memo.length]? = some (.ref m.heap.length) := by simp [hi.len]
  refine (batchAdds_run hs lits _ _ _ (t := m.heap.length) (s := m.stack) (c := .set) (l := []) (d := [])
    (a := []) (st := none) k2 rfl (by simp [M.alloc]) (owner_obj k2 hnode e1 e2)).conseq ?_
  rintro p2 m2 ⟨tvs, g1, g2, g3, g4, g5, g6⟩
  have f1 := prefix_get g3.pmPre e1
  have f2 : m2.memo[p.memo.length]? = some (.ref m.heap.length) := prefix_get g3.mmPre e2
  refine ⟨.ref m.heap.length, g1, g2, k1.strict g3 (fun i h => by omega), ?_, g4.vrel f1 f2⟩
  refine g4.close f1 f2 g6 ?_
  rw [hx]
  obtain ⟨rfl, rfl⟩ := hw
  exact ⟨trivial, .once (by simpa using g5), .nil, rfl, rfl⟩

theorem saveDictObj_run {W sv} (hs : SaveOK W sv) {x lits dits st opn p} {m : M}
    (hi : Inv W opn p m.memo m.heap) (hx : W.H x = .node .dict lits dits st)
    (hw : lits = [] ∧ st = none ∧ KNodup W dits)
    (hn : .obj x ∉ p.memo) :
    Run (emit [.emptyDict] ;; memoize (.obj x) ;; batchSetitems sv dits) p m (Saved W opn (.ref x) p m) := by
  have hnode : isNode (W.H x) := by rw [hx]; trivial
  have hkok : KOK W dits := ⟨hw.2.2, x, fun v hv => by rw [hx]; simp [Spec.refs, hv]⟩
  refine Run.emitThen (m' := m.alloc (.node .dict [] [] [] none) m.stack) rfl ?_
  refine Run.memoThen (v := .ref m.heap.length) (s := m.stack) rfl ?_
  obtain ⟨k1, k2⟩ := openNew (o := .node .dict [] [] [] none) hi hnode hn
  have e1 : (p.memo ++ [Key.obj x])[p.memo.length]? = some (.obj x) := by simp
  have e2 : (m.memo ++ [TVal.ref m.heap.length])[p.memo.length]? = some (.ref m.heap.length) := by simp [hi.len]
  refine (batchSetitems_run hs dits _ _ _ (t := m.heap.length) (s := m.stack) (c := .dict) (l := []) (d := [])
    (a := []) (st := none) k2 rfl (by simp [M.alloc]) ((owner_obj k2 hnode e1 e2).toD _)).conseq ?_
  rintro p2 m2 ⟨kvs, g1, g2, g3, g4, g5, g6⟩
  have f1 := prefix_get g3.pmPre e1
  have f2 : m2.memo[p.memo.length]? = some (.ref m.heap.length) := prefix_get g3.mmPre e2
  refine ⟨.ref m.heap.length, g1, g2, k1.strict g3 (fun i h => by omega), ?_, g4.vrel f1 f2⟩
  refine g4.close f1 f2 g6 ?_
  rw [hx]
  obtain ⟨rfl, rfl, hkn⟩ := hw
  exact ⟨trivial, .once .nil, by rw [upserts_nil (hkok.keys g4 g5)]; exact g5, rfl, rfl⟩

/-- memoising an object created since the start -/
theorem ExtBut.thenMemo {but ex p0 mm0 heap0 p mm heap} (h : ExtBut but ex p0 mm0 heap0 p mm heap)
    {k : Key} {tv : TVal} (hf : ∀ t, tv = .ref t → heap0.length ≤ t)
    (hk : ∀ y, OnStack p0.post y → OfAddr k y → ex k) :
    ExtBut but ex p0 mm0 heap0 { p with memo := p.memo ++ [k] } (mm ++ [tv]) heap := by
  refine ⟨h.hlen, h.heapEq, h.mmPre.trans (prefix_append_one _ _), h.pmPre.trans (prefix_append_one _ _), ?_,
    ?_, ?_⟩
  · intro i t h1 h2
    by_cases hlt : i < mm.length
    · rw [List.getElem?_append_left hlt] at h2; exact h.fresh i t h1 h2
    · rw [List.getElem?_append_right (Nat.le_of_not_lt hlt)] at h2
      refine hf t ?_
      cases e : i - mm.length with
      | zero => rw [e] at h2; simpa using h2
      | succ n => rw [e] at h2; simp at h2
  · refine All2.mono ?_ h.post
    rintro a b ⟨h1, n, h2, h3⟩
    exact ⟨h1, n, h2, fun r hr => ⟨by simp [(h3 r hr).1], (h3 r hr).2⟩⟩
  · intro y k' hy hk' hx hm
    simp only [List.mem_append, List.mem_singleton] at hm
    rcases hm with hm | hm
    · rcases h.stay y k' hy hk' hx hm with g | ⟨g, i, a, g1, g2⟩
      · exact .inl g
      · exact .inr ⟨g, i, a, prefix_get (prefix_append_one _ _) g1, prefix_get (prefix_append_one _ _) g2⟩
    · subst hm; exact absurd (hk y hy hk') hx

theorem times_snoc {α : Type} (n : Nat) (l : List α) : times n l ++ l = times (n + 1) l := by
  induction n with
  | zero => simp [times]
  | succ n ih => rw [times, List.append_assoc, ih]; rfl

theorem times_nil {α : Type} (n : Nat) : times n ([] : List α) = [] := by
  induction n with
  | zero => rfl
  | succ n ih => rw [times, ih]; rfl

/-- state while a reduce-style object is being completed -/
structure NodeSt (W : World) (opn : Key → Prop) (x : Addr) (con : Con) (p0 : P) (m0 : M) (s : List TVal)
    (p : P) (m : M) (i t : Nat) (l : List TVal) (d a : List (TVal × TVal)) (so : Option TVal) : Prop where
  stack : m.stack = .ref t :: s
  metas : m.metas = m0.metas
  ext : ExtBut NoB NoX p0 m0.memo m0.heap p m.memo m.heap
  inv : Inv W (fun k => opn k ∨ k = .obj x) p m.memo m.heap
  key : p.memo[i]? = some (.obj x)
  val : m.memo[i]? = some (.ref t)
  new : m0.heap.length ≤ t
  obj : ∃ tcon, m.heap[t]? = some (.node tcon l d a so) ∧ ConRel W p.memo m.memo con tcon

theorem state_run {W sv} (hs : SaveOK W sv) {x con lits dits st opn p0 p l d a so i t s} {m0 m : M}
    (hx : W.H x = .node con lits dits st) (hw : WFSt W st)
    (hN : NodeSt W opn x con p0 m0 s p m i t l d a so)
    (hl : LitsRel W p.memo m.memo x lits l)
    (hd : All2 (KVRel W p.memo m.memo) dits d)
    (hs' : (a = [] ∧ so = none) ∨ StRel W p.memo m.memo st a so) :
    Run (saveState sv st) p m (fun p' m' => m'.stack = .ref t :: s ∧ m'.metas = m0.metas ∧
      ExtBut NoB NoX p0 m0.memo m0.heap p' m'.memo m'.heap ∧ Inv W opn p' m'.memo m'.heap ∧
      VRel W p'.memo m'.memo (.ref x) (.ref t)) := by
  have hnode : isNode (W.H x) := by rw [hx]; trivial
  obtain ⟨tcon, ho, hc⟩ := hN.obj
  have hlt := (List.getElem?_eq_some_iff.1 ho).1
  have hown := owner_obj hN.inv hnode hN.key hN.val
  have fin : ∀ p1 (m1 : M) a1 so1 o1, ExtBut NoB NoX p m.memo m.heap p1 m1.memo m1.heap →
      Inv W (fun k => opn k ∨ k = .obj x) p1 m1.memo m1.heap → StRel W p1.memo m1.memo st a1 so1 →
      o1 = TObj.node tcon l d a1 so1 →
      ExtBut NoB NoX p0 m0.memo m0.heap p1 m1.memo (m1.heap.set t o1) ∧
      Inv W opn p1 m1.memo (m1.heap.set t o1) ∧ VRel W p1.memo m1.memo (.ref x) (.ref t) := by
    rintro p1 m1 a1 so1 o1 h1 h2 h3 rfl
    have f1 := prefix_get h1.pmPre hN.key
    have f2 := prefix_get h1.mmPre hN.val
    have hi2 := h2.fillL (owner_obj h2 hnode f1 f2) (.node tcon l d a1 so1)
    refine ⟨(hN.ext.trans h1).strict (ExtBut.set (but := (· = t)) _ _ _ _ _ _ (fun _ => rfl))
      (fun i h => by rw [h]; exact hN.new), ?_, hi2.vrel f1 f2⟩
    refine hi2.close f1 f2 (List.getElem?_set_self (Nat.lt_of_lt_of_le hlt h1.hlen)) ?_
    rw [hx]
    exact ⟨hc.mono h1.pmPre h1.mmPre, hl.mono h1.pmPre h1.mmPre, kv_mono_ext h1 hd, h3⟩
  cases st with
  | none =>
    have h3 : StRel W p.memo m.memo none a so := by
      rcases hs' with h | h
      · exact h
      · exact h
    obtain ⟨g1, g2, g3⟩ := fin p m a so _ (ExtBut.refl _ _ _ _ _) hN.inv h3 rfl
    refine Run.emit rfl ⟨hN.stack, hN.metas, ?_, ?_, g3⟩
    · exact hN.ext
    · refine hN.inv.close hN.key hN.val ho ?_
      rw [hx]; exact ⟨hc, hl, hd, h3⟩
  | some st =>
    cases st with
    | «opaque» v =>
      unfold saveState
      refine Run.seq (hs v _ p m hN.inv) ?_
      rintro p1 m1 ⟨tv, h1, h2, h3, h4, h5⟩
      have ht1 := h3.get ho (fun x => x.elim)
      have ha : a = [] := by
        rcases hs' with h | h
        · exact h.1
        · exact h.1
      obtain ⟨g1, g2, g3⟩ := fin p1 m1 a (some tv) _ h3 h4 ⟨ha, tv, rfl, h5⟩ rfl
      refine Run.emit1 (m' := { m1.setObj t (.node tcon l d a (some tv)) with stack := .ref t :: s })
        (by simp [step, h1, hN.stack, ht1, M.setObj]) ?_
      exact ⟨rfl, h2.trans hN.metas, g1, g2, g3⟩
    | attrs es =>
      unfold saveState
      have hw : KOK W es := ⟨hw, x, fun v hv => by rw [hx]; simp [Spec.refs, Spec.stRefs, hv]⟩
      refine Run.seq (saveDict_run hs .anon es _ NoX p m hN.inv (.inl rfl) hw) ?_
      rintro p1 m1 ⟨tv, h1, h2, h3, h4, td, kvs, rfl, h6, h7, _⟩
      have ht1 := h3.get ho (fun x => x.elim)
      have hs'' : so = none ∧ upserts a kvs = kvs := by
        have hnd := KOK.keys h4 (hw : KOK W es) h7
        rcases hs' with h | h
        · exact ⟨h.2, by rw [h.1, upserts_nil hnd]⟩
        · refine ⟨h.2, ?_⟩
          have : a = kvs := all2_fun h4 (kv_mono_ext h3 h.1) h7
          rw [this]
          exact upserts_same hnd (fun e he => he)
      obtain ⟨g1, g2, g3⟩ := fin p1 m1 kvs none _ h3 h4 ⟨h7, rfl⟩ rfl
      refine Run.emit1 (m' := { m1.setObj t (.node tcon l d kvs none) with stack := .ref t :: s }) ?_ ?_
      · simp [step, h1, hN.stack, ht1, M.setObj, M.stateOf, M.tupleOf, M.dictOf, h6, hs''.1, hs''.2]
      · exact ⟨rfl, h2.trans hN.metas, g1, g2, g3⟩

/-- memoising, filling and giving state to a freshly created object -/
theorem finishNode_run {W sv} (hs : SaveOK W sv) {x con lits dits st opn p0 p t s tcon} {m0 m : M}
    (hx : W.H x = .node con lits dits st) (hkn : KNodup W dits) (hw : WFSt W st)
    (hi0 : Inv W opn p0 m0.memo m0.heap) (hn0 : .obj x ∉ p0.memo)
    (hst : m.stack = .ref t :: s) (hmet : m.metas = m0.metas)
    (hext : ExtBut NoB NoX p0 m0.memo m0.heap p m.memo m.heap) (hi : Inv W opn p m.memo m.heap)
    (ht : m.heap[t]? = some (.node tcon [] [] [] none)) (hnew : m0.heap.length ≤ t)
    (hno : ∀ i : Nat, m.memo[i]? ≠ some (.ref t)) (hc : ConRel W p.memo m.memo con tcon)
    (hlx : .obj x ∈ p.memo → lits ≠ [] → SelfMade W x) :
    Run (memoOrGet x ;; batchAppends sv lits ;; batchSetitems sv dits ;; saveState sv st) p m (fun p' m' => ∃ t, 
      m'.stack = .ref t :: s ∧ m'.metas = m0.metas ∧
      ExtBut NoB NoX p0 m0.memo m0.heap p' m'.memo m'.heap ∧ Inv W opn p' m'.memo m'.heap ∧
      VRel W p'.memo m'.memo (.ref x) (.ref t)) := by
  have hnode : isNode (W.H x) := by rw [hx]; trivial
  have hkok : KOK W dits := ⟨hkn, x, fun v hv => by rw [hx]; simp [Spec.refs, hv]⟩
  refine Run.seq (Q1 := fun p1 m1 => ∃ i t l d a so, NodeSt W opn x con p0 m0 s p1 m1 i t l d a so ∧ (∃ n, All2 (VRel W p1.memo m1.memo) (times n lits) l ∧ (¬ SelfMade W x → n = 0 ∨ lits = [])) ∧
    ((d = [] ∧ a = [] ∧ so = none) ∨
      (All2 (KVRel W p1.memo m1.memo) dits d ∧ StRel W p1.memo m1.memo st a so))) ?_ ?_
  · refine memoOrGet_run hst hi.len ?_ ?_
    · intro hn
      have hlt := (List.getElem?_eq_some_iff.1 ht).1
      refine ⟨p.memo.length, t, [], [], [], none, ⟨hst, hmet, ?_, ?_, by simp, by simp [hi.len], hnew, tcon, ht, ?_⟩,
        ⟨0, .nil, fun _ => .inl rfl⟩, .inl ⟨rfl, rfl, rfl⟩⟩
      · refine hext.thenMemo (by rintro t' e; cases e; exact hnew) ?_
        intro y hy hk
        rcases hk with e | e <;> cases e
        exact absurd hy (stay_node hi0 hnode)
      · exact hi.memoOpen hn hlt hno (shape_node hnode)
      · exact hc.mono (prefix_append_one _ _) (prefix_append_one _ _)
    · intro i tv hk hv
      have hno : ¬ opn (.obj x) := by
        intro h
        rcases hi0.opnOK x h with h | h
        · exact hn0 h
        · exact stay_node hi0 hnode h
      have hnp : ¬ Pending p.post (.obj x) := notPending hi (by rw [hx]; simp) (by rw [hx]; exact fun h => h)
      rcases hi.good i _ _ hk hv hno hnp with (h | ⟨a, h, _⟩) | ⟨t', o, rfl, h2, h3⟩
      · have := h.1; rw [hx] at this; exact this.elim
      · rw [hx] at h; cases h
      · rw [hx] at h3
        cases o with
        | node tcon' l d a so =>
          obtain ⟨g1, g2, g3, g4⟩ := h3
          obtain ⟨n, g2, _⟩ := g2
          have hnl : ¬ SelfMade W x → lits = [] := fun h => Classical.byContradiction fun h' => h (hlx (List.mem_of_getElem? hk) h')
          exact ⟨i, t', l, d, a, so, ⟨rfl, hmet, hext, hi.opening (.inl (List.mem_of_getElem? hk)), hk, hv,
            fresh_of_new hi0 hext hn0 hk hv, tcon', h2, g1⟩, ⟨n + 1, g2, fun h => .inr (hnl h)⟩, .inr ⟨g3, g4⟩⟩
        | _ => exact h3.elim
  · rintro p1 m1 ⟨i, t, l, d, a, so, hN, ⟨nl, hl1, hl2⟩, hcase⟩
    obtain ⟨tcon, ho, hc⟩ := hN.obj
    refine Run.seq (batchAppends_run hs lits _ p1 m1 (t := t) (s := s) hN.inv hN.stack ho
      (owner_obj hN.inv hnode hN.key hN.val)) ?_
    rintro q1 n1 ⟨tvs, b1, b2, b3, b4, b5, b6⟩
    have hlits : LitsRel W q1.memo n1.memo x lits (l ++ tvs) := by
      have hap : All2 (VRel W q1.memo n1.memo) (times (nl + 1) lits) (l ++ tvs) := by
        rw [← times_snoc]; exact (all2_mono_ext b3 hl1).append b5
      by_cases hsm : SelfMade W x
      · exact ⟨nl, hap, fun h => absurd hsm h⟩
      · rcases hl2 hsm with rfl | rfl
        · exact ⟨0, hap, fun _ => rfl⟩
        · rw [times_nil] at hap; exact .once hap
    have hN : NodeSt W opn x con p0 m0 s q1 n1 i t (l ++ tvs) d a so := ⟨b1.trans hN.stack, b2.trans hN.metas,
      hN.ext.strict b3 (fun i h => by rw [h]; exact hN.new), b4, prefix_get b3.pmPre hN.key,
      prefix_get b3.mmPre hN.val, hN.new, tcon, b6, hc.mono b3.pmPre b3.mmPre⟩
    have hcase : (d = [] ∧ a = [] ∧ so = none) ∨
      (All2 (KVRel W q1.memo n1.memo) dits d ∧ StRel W q1.memo n1.memo st a so) :=
      hcase.imp id (fun h => ⟨kv_mono_ext b3 h.1, h.2.mono b3.pmPre b3.mmPre⟩)
    have hc := hc.mono b3.pmPre b3.mmPre
    refine Run.seq (batchSetitems_run hs dits _ q1 n1 (t := t) (s := s) hN.inv hN.stack b6
      ((owner_obj hN.inv hnode hN.key hN.val).toD _)) ?_
    rintro p2 m2 ⟨kvs, g1, g2, g3, g4, g5, g6⟩
    have hd : upserts d kvs = kvs := by
      have hnd := hkok.keys g4 g5
      rcases hcase with h | h
      · rw [h.1, upserts_nil hnd]
      · have : d = kvs := all2_fun g4 (kv_mono_ext g3 h.1) g5
        rw [this]; exact upserts_same hnd (fun e he => he)
    rw [hd] at g6
    refine (state_run hs (l := l ++ tvs) (d := kvs) (a := a) (so := so) hx hw (p0 := p0) (m0 := m0) (p := p2) (m := m2) (i := i) (t := t) (s := s)
      ⟨g1.trans hN.stack, g2.trans hN.metas, hN.ext.strict g3 (fun i h => by rw [h]; exact hN.new), g4,
        prefix_get g3.pmPre hN.key, prefix_get g3.mmPre hN.val, hN.new, tcon, g6,
        hc.mono g3.pmPre g3.mmPre⟩ (hlits.mono g3.pmPre g3.mmPre) g5 ?_).conseq ?_
    · rcases hcase with h | h
      · exact .inl h.2
      · exact .inr (h.2.mono g3.pmPre g3.mmPre)
    · rintro p3 m3 h
      exact ⟨t, h⟩

end Verif.Core
