import Verif.Core.Sim
/-! Temporary dicts, argument tuples and calls in the simulation (used for C01-C05). -/
set_option linter.unusedSimpArgs false
namespace Verif.Core

/-! ### copies of equal values are equal -/

theorem VRel.fun {W opn p mm heap} (hi : Inv W opn p mm heap) {v v' tv tv'} (h : VRel W p.memo mm v tv)
    (h' : VRel W p.memo mm v' tv') (e : res W v = res W v') : tv = tv' := by
  unfold VRel at h h'
  rw [← e] at h'
  cases hr : res W v with
  | inl a => rw [hr] at h h'; rw [h, h']
  | inr x =>
    rw [hr] at h h'
    obtain ⟨i, h1, h2, h3⟩ := h
    obtain ⟨j, k1, k2, k3⟩ := h'
    have := hi.nodup i j _ h1 k1 (by simp)
    subst this
    rw [h2] at k2; cases k2
    rfl

theorem VRel.inj {W opn p mm heap} (hi : Inv W opn p mm heap) {v v' tv y y'} (hv : v ∈ Spec.refs (W.H y))
    (hv' : v' ∈ Spec.refs (W.H y')) (h : VRel W p.memo mm v tv) (h' : VRel W p.memo mm v' tv) : res W v = res W v' := by
  unfold VRel at h h'
  cases hr : res W v with
  | inl a =>
    rw [hr] at h
    cases hr' : res W v' with
    | inl b => rw [hr'] at h'; simp only at h h'; rw [h] at h'; cases h'; rfl
    | inr y =>
      rw [hr'] at h'
      obtain ⟨j, k1, k2, ⟨t', k3⟩ | ⟨_, b, kb, k3⟩⟩ := h'
      · simp only at h; rw [h] at k3; cases k3
      · simp only at h; rw [h] at k3; cases k3; exact absurd hr (hi.names.plain kb hv)
  | inr x =>
    rw [hr] at h
    cases hr' : res W v' with
    | inl b =>
      rw [hr'] at h'; simp only at h'
      obtain ⟨i, h1, h2, ⟨t, h3⟩ | ⟨_, a, ha, h3⟩⟩ := h
      · rw [h3] at h'; cases h'
      · rw [h3] at h'; cases h'; exact absurd hr' (hi.names.plain ha hv')
    | inr y =>
      rw [hr'] at h'
      obtain ⟨i, h1, h2, h3⟩ := h
      obtain ⟨j, k1, k2, k3⟩ := h'
      rcases h3 with ⟨t, h3⟩ | ⟨_, a, ha, h3⟩
      · rcases k3 with ⟨t', k3⟩ | ⟨_, b, hb, k3⟩
        · rw [h3] at h2 k2
          have := hi.inj i j _ h2 k2
          subst this
          rw [h1] at k1; cases k1; rfl
        · rw [h3] at k3; cases k3
      · rcases k3 with ⟨t', k3⟩ | ⟨_, b, hb, k3⟩
        · rw [h3] at k3; cases k3
        · rw [h3] at k3; cases k3; rw [hi.names.2 x y a ha hb]


theorem KOK.keys {W opn p mm heap} (hi : Inv W opn p mm heap) {es kvs} (h : KOK W es)
    (hr : All2 (KVRel W p.memo mm) es kvs) : (kvs.map (·.1)).Nodup := by
  obtain ⟨h, y, hy0⟩ := h
  have hy : ∀ e ∈ es, e.1 ∈ Spec.refs (W.H y) := fun e he => hy0 _ (List.mem_flatMap.2 ⟨e, he, by simp⟩)
  clear hy0
  unfold KNodup at h
  induction hr with
  | nil => simp
  | @cons a b as bs r hr ih =>
    simp only [List.map_cons, List.nodup_cons] at h ⊢
    refine ⟨?_, ih h.2 fun e he => hy e (by simp [he])⟩
    intro hm
    obtain ⟨e, he, e'⟩ := List.mem_map.1 hm
    obtain ⟨s, hs, hk⟩ := hr.mem_right he
    refine h.1 (List.mem_map.2 ⟨s, hs, ?_⟩)
    exact VRel.inj hi (hy s (by simp [hs])) (hy a (by simp)) (e' ▸ hk.1) r.1

theorem upsert_new {d : List (TVal × TVal)} {k v} (h : k ∉ d.map (·.1)) : upsert d k v = d ++ [(k, v)] := by
  induction d with
  | nil => rfl
  | cons e d ih =>
    obtain ⟨k', v'⟩ := e
    simp only [List.map_cons, List.mem_cons, not_or] at h
    simp only [upsert, List.cons_append]
    rw [if_neg (fun e => h.1 e.symm), ih h.2]

theorem upserts_new {d kvs : List (TVal × TVal)} (h : (kvs.map (·.1)).Nodup)
    (hd : ∀ k ∈ kvs.map (·.1), k ∉ d.map (·.1)) : upserts d kvs = d ++ kvs := by
  induction kvs generalizing d with
  | nil => simp [upserts]
  | cons e kvs ih =>
    obtain ⟨k, v⟩ := e
    simp only [List.map_cons, List.nodup_cons] at h
    simp only [upserts]
    rw [upsert_new (hd k (by simp)), ih h.2]
    · simp
    · intro k' hk'
      simp only [List.map_append, List.map_cons, List.map_nil, List.mem_append, List.mem_singleton, not_or]
      refine ⟨hd k' (by simp [hk']), ?_⟩
      rintro rfl; exact h.1 hk'

theorem upserts_nil {kvs : List (TVal × TVal)} (h : (kvs.map (·.1)).Nodup) : upserts [] kvs = kvs := by
  simpa using upserts_new (d := []) h (by simp)

theorem upsert_same {d : List (TVal × TVal)} {k v} (hn : (d.map (·.1)).Nodup) (h : (k, v) ∈ d) :
    upsert d k v = d := by
  induction d with
  | nil => cases h
  | cons e d ih =>
    obtain ⟨k', v'⟩ := e
    simp only [List.map_cons, List.nodup_cons] at hn
    simp only [upsert]
    rcases List.mem_cons.1 h with h | h
    · cases h; simp
    · rw [if_neg, ih hn.2 h]
      rintro rfl
      exact hn.1 (List.mem_map.2 ⟨_, h, rfl⟩)

theorem upserts_same {d kvs : List (TVal × TVal)} (hn : (d.map (·.1)).Nodup) (h : ∀ e ∈ kvs, e ∈ d) :
    upserts d kvs = d := by
  induction kvs with
  | nil => rfl
  | cons e kvs ih =>
    obtain ⟨k, v⟩ := e
    simp only [upserts]
    rw [upsert_same hn (h _ (by simp))]
    exact ih fun e he => h e (by simp [he])

theorem all2_fun {W opn p mm heap} (hi : Inv W opn p mm heap) {es a b}
    (h : All2 (KVRel W p.memo mm) es a) (h' : All2 (KVRel W p.memo mm) es b) : a = b := by
  induction h generalizing b with
  | nil => cases h'; rfl
  | cons r _ ih => cases h' with
    | cons r' h' =>
      rw [ih h']
      congr 1
      exact Prod.ext (VRel.fun hi r.1 r'.1 rfl) (VRel.fun hi r.2 r'.2 rfl)

/-! ### temporary dicts -/

theorem Inv.notin {W opn p mm heap} (hi : Inv W opn p mm heap) {t : Nat} (h : heap.length ≤ t) (i : Nat) :
    mm[i]? ≠ some (.ref t) := fun e => by have := hi.bound i t e; omega

/-- the new memo entry is the last one -/
theorem entry_last {W opn p mm heap} (hi : Inv W opn p mm heap) {k : Key} {tv : TVal} {i : Nat} {k' t}
    (hn : ∀ i : Nat, mm[i]? ≠ some (.ref t)) (h1 : (mm ++ [tv])[i]? = some (.ref t))
    (h2 : (p.memo ++ [k])[i]? = some k') : k' = k ∧ tv = .ref t := by
  by_cases hl : i < mm.length
  · rw [List.getElem?_append_left hl] at h1; exact absurd h1 (hn i)
  · rw [List.getElem?_append_right (Nat.le_of_not_lt hl)] at h1
    rw [List.getElem?_append_right (by rw [hi.len]; exact Nat.le_of_not_lt hl)] at h2
    rw [hi.len] at h2
    cases e : i - mm.length with
    | zero => rw [e] at h1 h2; simp at h1 h2; exact ⟨h2.symm, h1⟩
    | succ n => rw [e] at h1; simp at h1

/-- which keys a temporary dict may be memoised under -/
def DictKey (W : World) (opn : Key → Prop) (ex : Key → Prop) (p : P) (k : Key) (es : List (Val × Val)) : Prop :=
  k = .anon ∨ ∃ f, k = .globs f ∧ ex k ∧ opn k ∧ OnStack p.post f ∧ k ∉ p.memo ∧ ∀ e ∈ es, e ∈ globSrc W f

/-- the copy of an argument -/
def ArgRel (W : World) (pm : List Key) (mm : List TVal) (heap : List TObj) (a : Arg) (tv : TVal) : Prop :=
  match a with
  | .val v => VRel W pm mm v tv
  | .dict k es => ∃ t kvs, tv = .ref t ∧ heap[t]? = some (.node .dict [] kvs [] none) ∧
      All2 (KVRel W pm mm) es kvs ∧ ∃ i : Nat, pm[i]? = some k ∧ mm[i]? = some (.ref t)

theorem ArgRel.ext {W ex p mm heap p1 mm1 heap1} (h : ExtBut NoB ex p mm heap p1 mm1 heap1) {a b}
    (x : ArgRel W p.memo mm heap a b) : ArgRel W p1.memo mm1 heap1 a b := by
  cases a with
  | val v => exact VRel.ext h x
  | dict k es =>
    obtain ⟨t, kvs, h1, h2, h3, i, h4, h5⟩ := x
    exact ⟨t, kvs, h1, h.get h2 (fun x => x), kv_mono_ext h h3, i, prefix_get h.pmPre h4,
      prefix_get h.mmPre h5⟩

theorem saveDict_run {W sv} (hs : SaveOK W sv) (k : Key) (es : List (Val × Val)) (opn ex p m)
    (hi : Inv W opn p m.memo m.heap) (hk : DictKey W opn ex p k es) (hn : KOK W es) :
    Run (saveDict sv k es) p m (fun p' m' => ∃ tv, m'.stack = tv :: m.stack ∧ m'.metas = m.metas ∧
      ExtBut NoB ex p m.memo m.heap p' m'.memo m'.heap ∧ Inv W opn p' m'.memo m'.heap ∧
      ArgRel W p'.memo m'.memo m'.heap (.dict k es) tv) := by
  unfold saveDict
  refine Run.emitThen (m' := m.alloc (.node .dict [] [] [] none) m.stack) rfl ?_
  refine Run.memoThen (v := .ref m.heap.length) (s := m.stack) rfl ?_
  have hnot := fun i => hi.notin (Nat.le_refl m.heap.length) i
  have hheap : (m.heap ++ [TObj.node .dict [] [] [] none])[m.heap.length]? =
      some (.node .dict [] [] [] none) := by simp
  have hi1 : Inv W opn { p with memo := p.memo ++ [k] } (m.memo ++ [.ref m.heap.length])
      (m.heap ++ [.node .dict [] [] [] none]) := by
    refine (hi.alloc _).memo k (.ref m.heap.length) ?_ ?_ ?_ ?_ ?_
    · rcases hk with rfl | ⟨f, rfl, _, _, _, h5, _⟩
      · simp
      · exact fun _ => h5
    · rintro t e; cases e
      exact ⟨by simp, hnot⟩
    · rcases hk with rfl | ⟨f, rfl, _, _, _, _, _⟩
      · trivial
      · exact ⟨_, [], rfl, hheap, by simp⟩
    · rcases hk with rfl | ⟨f, rfl, _, h3, _, _, _⟩
      · exact .inr (.inr trivial)
      · exact .inl h3
    · rintro f rfl
      rcases hk with h | ⟨f', h, _, _, h4, _, _⟩
      · cases h
      · cases h; exact .inr h4
  have hx : ExtBut NoB ex p m.memo m.heap { p with memo := p.memo ++ [k] } (m.memo ++ [.ref m.heap.length])
      (m.heap ++ [.node .dict [] [] [] none]) := by
    refine ExtBut.memo m.heap (by simp) (fun i hi _ => by rw [List.getElem?_append_left hi]) ?_ ?_
    · rintro t e; cases e; exact Nat.le_refl _
    · intro y hy hx
      rcases hk with rfl | ⟨f, rfl, h2, _, _, _, _⟩
      · simp [OfAddr] at hx
      · exact .inl h2
  refine (batchSetitems_run hs es opn _ _ (t := m.heap.length) (s := m.stack) hi1 rfl
    (by simp only [M.alloc]; exact hheap) ?_).conseq ?_
  · intro i k' h1 h2
    obtain ⟨rfl, _⟩ := entry_last hi hnot h1 h2
    rcases hk with rfl | ⟨f, rfl, _, h3, _, _, h6⟩
    · exact .inl rfl
    · exact .inr ⟨h3, .inr ⟨f, rfl, h6⟩⟩
  · rintro p2 m2 ⟨kvs, g1, g2, g3, g4, g5, g6⟩
    have hx2 : ExtBut NoB ex p m.memo m.heap p2 m2.memo m2.heap := by
      have g3' : ExtBut (m.heap.length ≤ ·) ex _ _ _ p2 m2.memo m2.heap :=
        g3.weaken (fun i _ e => by subst e; exact Nat.le_refl _) (fun _ _ _ _ h => h.elim)
      exact ((hx.weaken (but' := (m.heap.length ≤ ·)) (fun _ _ h => h.elim) (fun _ _ _ _ h => h)).trans g3').weaken
        (fun i hi h => by omega) (fun _ _ _ _ h => h)
    refine ⟨.ref m.heap.length, g1, g2, hx2, g4, m.heap.length, kvs, rfl, ?_, g5, p.memo.length, ?_, ?_⟩
    · rw [g6, upserts_nil (hn.keys g4 g5)]
    · exact prefix_get g3.pmPre (by simp)
    · exact prefix_get g3.mmPre (by simp [M.alloc, hi.len])

/-! ### argument tuples -/

/-- requirements on the arguments of a call -/
def ArgsOK (W : World) (opn : Key → Prop) (ex : Key → Prop) (p : P) : List Arg → Prop
  | [] => True
  | .val _ :: as => ArgsOK W opn ex p as
  | .dict k es :: as => KOK W es ∧ DictKey W opn ex p k es ∧ ArgsOK W opn ex p as ∧
      (k ≠ .anon → ∀ a ∈ as, ∃ v, a = .val v)

theorem ArgsOK.vals (W opn ex p) (as : List Val) : ArgsOK W opn ex p (as.map .val) := by
  induction as with
  | nil => trivial
  | cons a as ih => exact ih

theorem ArgsOK.vals' (W opn ex p) {as : List Arg} (h : ∀ a ∈ as, ∃ v, a = .val v) : ArgsOK W opn ex p as := by
  induction as with
  | nil => trivial
  | cons a as ih =>
    obtain ⟨v, rfl⟩ := h a (by simp)
    exact ih fun a ha => h a (by simp [ha])

theorem ArgsOK.ext {W opn ex p mm heap p1 mm1 heap1} (h : ExtBut NoB NoX p mm heap p1 mm1 heap1) {as}
    (x : ArgsOK W opn ex p as) : ArgsOK W opn ex p1 as := by
  induction as with
  | nil => trivial
  | cons a as ih =>
    cases a with
    | val v => exact ih x
    | dict k es =>
      obtain ⟨h1, h2, h3, h4⟩ := x
      refine ⟨h1, ?_, ih h3, h4⟩
      rcases h2 with rfl | ⟨f, rfl, g2, g3, g4, g5, g6⟩
      · exact .inl rfl
      · exact .inr ⟨f, rfl, g2, g3, (h.post.onStack f).1 g4,
          fun hm => (h.stay f _ g4 (.inr rfl) (fun x => x) hm).elim g5 (fun e => by cases e.1), g6⟩

theorem saveArgs_run {W sv} (hs : SaveOK W sv) (as : List Arg) (opn ex p m)
    (hi : Inv W opn p m.memo m.heap) (ha : ArgsOK W opn ex p as) :
    Run (saveArgs sv as) p m (fun p' m' => ∃ tvs, m'.stack = tvs.reverse ++ m.stack ∧ m'.metas = m.metas ∧
      ExtBut NoB ex p m.memo m.heap p' m'.memo m'.heap ∧ Inv W opn p' m'.memo m'.heap ∧
      All2 (ArgRel W p'.memo m'.memo m'.heap) as tvs) := by
  induction as generalizing p m with
  | nil => exact Run.emit rfl ⟨[], rfl, rfl, ExtBut.refl _ _ _ _ _, hi, .nil⟩
  | cons a as ih =>
    cases a with
    | val v =>
      refine Run.seq (hs v opn p m hi) ?_
      rintro p1 m1 ⟨tv, h1, h2, h3, h4, h5⟩
      refine (ih p1 m1 h4 (ArgsOK.ext (as := as) h3 ha)).conseq ?_
      rintro p2 m2 ⟨tvs, g1, g2, g3, g4, g5⟩
      exact ⟨tv :: tvs, by simp [g1, h1], g2.trans h2, h3.le.trans g3, g4, .cons (h5.ext g3) g5⟩
    | dict k es =>
      obtain ⟨a1, a2, a3, a4⟩ := ha
      by_cases hk : k = .anon
      · subst hk
        refine Run.seq (saveDict_run hs .anon es opn NoX p m hi (.inl rfl) a1) ?_
        rintro p1 m1 ⟨tv, h1, h2, h3, h4, h5⟩
        refine (ih p1 m1 h4 (ArgsOK.ext (as := as) h3 a3)).conseq ?_
        rintro p2 m2 ⟨tvs, g1, g2, g3, g4, g5⟩
        exact ⟨tv :: tvs, by simp [g1, h1], g2.trans h2, h3.le.trans g3, g4, .cons (h5.ext g3) g5⟩
      · refine Run.seq (saveDict_run hs k es opn ex p m hi a2 a1) ?_
        rintro p1 m1 ⟨tv, h1, h2, h3, h4, h5⟩
        refine (ih p1 m1 h4 (ArgsOK.vals' _ _ _ _ (a4 hk))).conseq ?_
        rintro p2 m2 ⟨tvs, g1, g2, g3, g4, g5⟩
        exact ⟨tv :: tvs, by simp [g1, h1], g2.trans h2, h3.trans g3, g4, .cons (h5.ext g3) g5⟩

/-- memoising a temporary -/
theorem Inv.memoAnon {W opn p mm heap} (hi : Inv W opn p mm heap) {t : Nat} (ht : t < heap.length)
    (hn : ∀ i : Nat, mm[i]? ≠ some (.ref t)) :
    Inv W opn { p with memo := p.memo ++ [.anon] } (mm ++ [.ref t]) heap := by
  refine hi.memo .anon (.ref t) (by simp) ?_ trivial (.inr (.inr trivial)) (by rintro _ h; cases h)
  rintro t' e; cases e; exact ⟨ht, hn⟩

/-- allocating an object and memoising it under no name -/
theorem ExtBut.allocAnon (but ex) (p : P) (mm : List TVal) (heap : List TObj) (o : TObj) :
    ExtBut but ex p mm heap { p with memo := p.memo ++ [.anon] } (mm ++ [.ref heap.length]) (heap ++ [o]) := by
  refine ExtBut.memo heap (by simp) (fun i hi _ => by rw [List.getElem?_append_left hi]) ?_ ?_
  · rintro t e; cases e; exact Nat.le_refl _
  · intro y _ h; simp [OfAddr] at h

theorem anonTuple_run {W sv} (hs : SaveOK W sv) (as : List Arg) (opn ex p m)
    (hi : Inv W opn p m.memo m.heap) (ha : ArgsOK W opn ex p as) :
    Run (anonTuple sv as) p m (fun p' m' => ∃ tv tvs, m'.stack = tv :: m.stack ∧ m'.metas = m.metas ∧
      ExtBut NoB ex p m.memo m.heap p' m'.memo m'.heap ∧ Inv W opn p' m'.memo m'.heap ∧
      m'.tupleOf tv = some tvs ∧ All2 (ArgRel W p'.memo m'.memo m'.heap) as tvs) := by
  unfold anonTuple
  split
  · rename_i h
    cases as with
    | cons a as => simp at h
    | nil => exact Run.emit1 rfl ⟨_, [], rfl, rfl, ExtBut.refl _ _ _ _ _, hi, rfl, .nil⟩
  · have fin : ∀ p1 (m1 : M) s ms tvs, ExtBut NoB ex p m.memo m.heap p1 m1.memo m1.heap →
        Inv W opn p1 m1.memo m1.heap → All2 (ArgRel W p1.memo m1.memo m1.heap) as tvs → s = m.stack →
        ms = m.metas →
        Run (memoize .anon) p1 (({ m1 with metas := ms } : M).alloc (.tuple tvs) s)
          (fun p' m' => ∃ tv tvs, m'.stack = tv :: m.stack ∧ m'.metas = m.metas ∧
          ExtBut NoB ex p m.memo m.heap p' m'.memo m'.heap ∧ Inv W opn p' m'.memo m'.heap ∧
          m'.tupleOf tv = some tvs ∧ All2 (ArgRel W p'.memo m'.memo m'.heap) as tvs) := by
      intro p1 m1 s ms tvs h3 h4 h5 hs1 hms
      refine Run.memoize (v := .ref m1.heap.length) (s := s) rfl ?_
      have hx := ExtBut.allocAnon NoB ex p1 m1.memo m1.heap (.tuple tvs)
      refine ⟨.ref m1.heap.length, tvs, by simp [M.alloc, hs1], by simp [M.alloc, hms], h3.trans hx, ?_, ?_, ?_⟩
      · exact (h4.alloc _).memoAnon (by simp) (fun i => h4.notin (Nat.le_refl _) i)
      · simp [M.tupleOf, M.alloc]
      · exact h5.mono fun _ _ r => r.ext hx
    split
    · refine Run.seq (saveArgs_run hs as opn ex p m hi ha) ?_
      rintro p1 m1 ⟨tvs, h1, h2, h3, h4, h5⟩
      have hl := h5.length
      refine Run.emitThen (m' := ({ m1 with metas := m1.metas } : M).alloc (.tuple tvs) m.stack) ?_ ?_
      · simp only [step, h1]
        rw [if_pos (by simp [hl])]
        have e1 : (tvs.reverse ++ m.stack).take as.length = tvs.reverse := by
          rw [List.take_append_of_le_length (by simp [hl]), List.take_of_length_le (by simp [hl])]
        have e2 : (tvs.reverse ++ m.stack).drop as.length = m.stack := by
          rw [List.drop_append_of_le_length (by simp [hl]), List.drop_of_length_le (by simp [hl])]
          rfl
        rw [e1, e2, List.reverse_reverse]
      · exact fin p1 m1 _ _ tvs h3 h4 h5 rfl h2
    · refine Run.emitThen (m' := { m with stack := [], metas := m.stack :: m.metas }) rfl ?_
      refine Run.seq (saveArgs_run hs as opn ex p _ hi ha) ?_
      rintro p1 m1 ⟨tvs, h1, h2, h3, h4, h5⟩
      simp only [List.append_nil] at h1 h2
      refine Run.emitThen (m' := ({ m1 with metas := m.metas } : M).alloc (.tuple tvs) m.stack)
        (by simp [step, h1, h2]) ?_
      exact fin p1 m1 _ _ tvs h3 h4 h5 rfl rfl

/-- function and argument tuple on the stack -/
structure Ready (W : World) (opn : Key → Prop) (ex : Key → Prop) (p : P) (m : M) (f : Val) (as : List Arg)
    (p' : P) (m' : M) (tf ta : TVal) (tas : List TVal) : Prop where
  stack : m'.stack = ta :: tf :: m.stack
  metas : m'.metas = m.metas
  ext : ExtBut NoB ex p m.memo m.heap p' m'.memo m'.heap
  inv : Inv W opn p' m'.memo m'.heap
  tup : m'.tupleOf ta = some tas
  fn : VRel W p'.memo m'.memo f tf
  args : All2 (ArgRel W p'.memo m'.memo m'.heap) as tas

theorem ready_run {W sv} (hs : SaveOK W sv) (f : Val) (as : List Arg) (opn ex p m)
    (hi : Inv W opn p m.memo m.heap) (ha : ArgsOK W opn ex p as) (g : PM) (Q : P → M → Prop)
    (hg : ∀ p' m' tf ta tas, Ready W opn ex p m f as p' m' tf ta tas → Run g p' m' Q) :
    Run (sv f ;; anonTuple sv as ;; g) p m Q := by
  refine Run.seq (hs f opn p m hi) ?_
  rintro p1 m1 ⟨tf, h1, h2, h3, h4, h5⟩
  refine Run.seq (anonTuple_run hs as opn ex p1 m1 h4 (ha.ext h3)) ?_
  rintro p2 m2 ⟨ta, tas, g1, g2, g3, g4, g5, g6⟩
  exact hg p2 m2 tf ta tas ⟨by rw [g1, h1], g2.trans h2, h3.le.trans g3, g4, g5, h5.ext g3, g6⟩

theorem callReduce_run {W sv} (hs : SaveOK W sv) (f : Val) (as : List Arg) (opn ex p m)
    (hi : Inv W opn p m.memo m.heap) (ha : ArgsOK W opn ex p as) (Q : P → M → Prop)
    (hg : ∀ p' m' tf ta tas, Ready W opn ex p m f as p' m' tf ta tas →
      ∃ m'', call m' tf tas m.stack = some m'' ∧ Q p' m'') :
    Run (callReduce sv f as) p m Q := by
  refine ready_run hs f as opn ex p m hi ha _ _ ?_
  intro p' m' tf ta tas h
  obtain ⟨m'', h1, h2⟩ := hg p' m' tf ta tas h
  refine Run.emit1 (m' := m'') ?_ h2
  simp [step, h.stack, h.tup, h1]

end Verif.Core
