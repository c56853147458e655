import Verif.Core.Grow
/-! The simulation: executing what the pickler writes keeps the invariant (used for C01-C05). -/
set_option linter.unusedSimpArgs false
namespace Verif.Core

/-! ### running -/

theorem exec_append (a b : List Op) (m : M) : exec (a ++ b) m = (exec a m).bind (exec b) := by
  induction a generalizing m with
  | nil => rfl
  | cons op a ih =>
    simp only [List.cons_append, exec]
    cases step op m with
    | none => rfl
    | some m' => simp [ih]

/-- if the pickler action succeeds, its opcodes run without failure and lead to `Q` -/
def Run (f : PM) (p : P) (m : M) (Q : P → M → Prop) : Prop :=
  ∀ p' ops, f p = .ok (p', ops) → ∃ m', exec ops m = some m' ∧ Q p' m'

theorem Run.conseq {f p m Q Q'} (h : Run f p m Q) (hq : ∀ p' m', Q p' m' → Q' p' m') : Run f p m Q' := by
  intro p' ops he
  obtain ⟨m', h1, h2⟩ := h p' ops he
  exact ⟨m', h1, hq _ _ h2⟩

theorem Run.seq {f g p m Q Q1} (h : Run f p m Q1) (hg : ∀ p1 m1, Q1 p1 m1 → Run g p1 m1 Q) :
    Run (f ;; g) p m Q := by
  intro p' ops he
  unfold andThen at he
  split at he
  · cases he
  · rename_i p1 o1 hf
    split at he
    · cases he
    · rename_i p2 o2 hg'
      cases he
      obtain ⟨m1, h1, h2⟩ := h _ _ hf
      obtain ⟨m2, h3, h4⟩ := hg _ _ h2 _ _ hg'
      exact ⟨m2, by rw [exec_append, h1]; exact h3, h4⟩

theorem Run.emit {ops p m m'} {Q : P → M → Prop} (h : exec ops m = some m') (hq : Q p m') :
    Run (emit ops) p m Q := by
  intro p' o he
  cases he
  exact ⟨m', h, hq⟩

theorem Run.emit1 {op p m m'} {Q : P → M → Prop} (h : step op m = some m') (hq : Q p m') :
    Run (Core.emit [op]) p m Q := Run.emit (by simp [exec, h]) hq

theorem Run.memoize {k p m v s} {Q : P → M → Prop} (h : m.stack = v :: s)
    (hq : Q { p with memo := p.memo ++ [k] } { m with memo := m.memo ++ [v] }) : Run (memoize k) p m Q := by
  intro p' o he
  cases he
  exact ⟨_, by simp [exec, step, h], hq⟩

theorem Run.emitThen {op p m m' g} {Q : P → M → Prop} (h : step op m = some m') (hq : Run g p m' Q) :
    Run (Core.emit [op] ;; g) p m Q :=
  Run.seq (Q1 := fun p1 m1 => p1 = p ∧ m1 = m') (Run.emit1 h ⟨rfl, rfl⟩) (by rintro _ _ ⟨h1, h2⟩; rw [h1, h2]; exact hq)

theorem Run.memoThen {k p m v s g} {Q : P → M → Prop} (h : m.stack = v :: s)
    (hq : Run g { p with memo := p.memo ++ [k] } { m with memo := m.memo ++ [v] } Q) :
    Run (Core.memoize k ;; g) p m Q :=
  Run.seq (Q1 := fun p1 m1 => p1 = { p with memo := p.memo ++ [k] } ∧ m1 = { m with memo := m.memo ++ [v] })
    (Run.memoize h ⟨rfl, rfl⟩) (by rintro _ _ ⟨h1, h2⟩; rw [h1, h2]; exact hq)

def NoB : Nat → Prop := fun _ => False
def NoX : Key → Prop := fun _ => False

/-- what saving a value does -/
def Saved (W : World) (opn : Key → Prop) (v : Val) (p : P) (m : M) (p' : P) (m' : M) : Prop :=
  ∃ tv, m'.stack = tv :: m.stack ∧ m'.metas = m.metas ∧
    ExtBut NoB NoX p m.memo m.heap p' m'.memo m'.heap ∧ Inv W opn p' m'.memo m'.heap ∧
    VRel W p'.memo m'.memo v tv

def SaveOK (W : World) (sv : Val → PM) : Prop :=
  ∀ v opn p m, Inv W opn p m.memo m.heap → Run (sv v) p m (Saved W opn v p m)

/-! ### Ext helpers -/

theorem ExtBut.le {but ex p mm heap p1 mm1 heap1} (h : ExtBut NoB NoX p mm heap p1 mm1 heap1) :
    ExtBut but ex p mm heap p1 mm1 heap1 :=
  h.weaken (fun _ _ h => h.elim) (fun _ _ _ _ h => h.elim)

theorem ExtBut.get {but ex p mm heap p1 mm1 heap1} (h : ExtBut but ex p mm heap p1 mm1 heap1) {t : Nat} {o}
    (ht : heap[t]? = some o) (hb : ¬ but t) : heap1[t]? = some o := by
  rw [h.heapEq t (List.getElem?_eq_some_iff.1 ht).1 hb]; exact ht

theorem all2_mono_ext {W but ex p mm heap p1 mm1 heap1} (h : ExtBut but ex p mm heap p1 mm1 heap1) {a b}
    (x : All2 (VRel W p.memo mm) a b) : All2 (VRel W p1.memo mm1) a b :=
  x.mono fun _ _ r => r.mono h.pmPre h.mmPre

theorem kv_mono_ext {W but ex p mm heap p1 mm1 heap1} (h : ExtBut but ex p mm heap p1 mm1 heap1) {a b}
    (x : All2 (KVRel W p.memo mm) a b) : All2 (KVRel W p1.memo mm1) a b :=
  x.mono fun _ _ r => r.mono h.pmPre h.mmPre

theorem VRel.ext {W but ex p mm heap p1 mm1 heap1} (h : ExtBut but ex p mm heap p1 mm1 heap1) {a b}
    (x : VRel W p.memo mm a b) : VRel W p1.memo mm1 a b := x.mono h.pmPre h.mmPre

/-! ### sequences -/

theorem saveAll_run {W sv} (hs : SaveOK W sv) (vs : List Val) (opn p m) (hi : Inv W opn p m.memo m.heap) :
    Run (saveAll sv vs) p m (fun p' m' => ∃ tvs, m'.stack = tvs.reverse ++ m.stack ∧ m'.metas = m.metas ∧
      ExtBut NoB NoX p m.memo m.heap p' m'.memo m'.heap ∧ Inv W opn p' m'.memo m'.heap ∧
      All2 (VRel W p'.memo m'.memo) vs tvs) := by
  induction vs generalizing p m with
  | nil => exact Run.emit rfl ⟨[], rfl, rfl, ExtBut.refl _ _ _ _ _, hi, .nil⟩
  | cons v vs ih =>
    refine Run.seq (hs v opn p m hi) ?_
    rintro p1 m1 ⟨tv, h1, h2, h3, h4, h5⟩
    refine (ih p1 m1 h4).conseq ?_
    rintro p2 m2 ⟨tvs, g1, g2, g3, g4, g5⟩
    exact ⟨tv :: tvs, by simp [g1, h1], g2.trans h2, h3.trans g3, g4, .cons (h5.ext g3) g5⟩

def flat : List (TVal × TVal) → List TVal
  | [] => []
  | (k, v) :: l => k :: v :: flat l

theorem pairUp_flat (l : List (TVal × TVal)) : pairUp (flat l) = some l := by
  induction l with
  | nil => rfl
  | cons e l ih => obtain ⟨k, v⟩ := e; simp [flat, pairUp, ih]

theorem saveKVs_run {W sv} (hs : SaveOK W sv) (es : List (Val × Val)) (opn p m)
    (hi : Inv W opn p m.memo m.heap) :
    Run (saveKVs sv es) p m (fun p' m' => ∃ kvs, m'.stack = (flat kvs).reverse ++ m.stack ∧
      m'.metas = m.metas ∧
      ExtBut NoB NoX p m.memo m.heap p' m'.memo m'.heap ∧ Inv W opn p' m'.memo m'.heap ∧
      All2 (KVRel W p'.memo m'.memo) es kvs) := by
  induction es generalizing p m with
  | nil => exact Run.emit rfl ⟨[], rfl, rfl, ExtBut.refl _ _ _ _ _, hi, .nil⟩
  | cons e es ih =>
    obtain ⟨k, v⟩ := e
    refine Run.seq (hs k opn p m hi) ?_
    rintro p1 m1 ⟨tk, h1, h2, h3, h4, h5⟩
    refine Run.seq (hs v opn p1 m1 h4) ?_
    rintro p2 m2 ⟨tv, k1, k2, k3, k4, k5⟩
    refine (ih p2 m2 k4).conseq ?_
    rintro p3 m3 ⟨kvs, g1, g2, g3, g4, g5⟩
    exact ⟨(tk, tv) :: kvs, by simp [g1, h1, k1, flat], g2.trans (k2.trans h2), h3.trans (k3.trans g3), g4,
      .cons ⟨h5.ext (k3.trans g3), k5.ext g3⟩ g5⟩

/-! ### filling containers -/

def isNode : SObj → Prop
  | .node .. => True
  | _ => False

/-- the object at `t` may be filled: it is a temporary or an open container -/
def OwnerL (W : World) (opn : Key → Prop) (pm : List Key) (mm : List TVal) (t : Nat) : Prop :=
  ∀ (i : Nat) k, mm[i]? = some (.ref t) → pm[i]? = some k →
    k = .anon ∨ (opn k ∧ ∃ x, k = .obj x ∧ isNode (W.H x))

def OwnerD (W : World) (opn : Key → Prop) (pm : List Key) (mm : List TVal) (t : Nat) (es : List (Val × Val)) :
    Prop :=
  ∀ (i : Nat) k, mm[i]? = some (.ref t) → pm[i]? = some k →
    k = .anon ∨ (opn k ∧ ((∃ x, k = .obj x ∧ isNode (W.H x)) ∨
      ∃ f, k = .globs f ∧ ∀ e ∈ es, e ∈ globSrc W f))

theorem shape_node {W pm mm heap x t} (h : isNode (W.H x)) : Shape W pm mm heap (.obj x) (.ref t) := by
  refine .inr ?_
  simp only [ShapeObj]
  split
  · rename_i e; rw [e] at h; exact h.elim
  · rename_i e; rw [e] at h; exact h.elim
  · rename_i e; rw [e] at h; exact h.elim
  · exact ⟨t, rfl⟩

/-- memo entries of an old object stay the same -/
theorem old_entry {W opn but ex p mm heap p1 mm1 heap1} (hi : Inv W opn p mm heap)
    (h : ExtBut but ex p mm heap p1 mm1 heap1)
    {t : Nat} (ht : t < heap.length) {i : Nat} {k} (h1 : mm1[i]? = some (.ref t)) (h2 : p1.memo[i]? = some k) :
    mm[i]? = some (.ref t) ∧ p.memo[i]? = some k := by
  by_cases hl : i < mm.length
  · rw [prefix_get_lt h.mmPre hl] at h1
    rw [prefix_get_lt h.pmPre (by rw [hi.len]; exact hl)] at h2
    exact ⟨h1, h2⟩
  · have := h.fresh i t (Nat.le_of_not_lt hl) h1; omega

theorem OwnerL.ext {W opn but ex p mm heap p1 mm1 heap1} (hi : Inv W opn p mm heap)
    (h : ExtBut but ex p mm heap p1 mm1 heap1)
    {t : Nat} (ht : t < heap.length) (ho : OwnerL W opn p.memo mm t) : OwnerL W opn p1.memo mm1 t := by
  intro i k h1 h2
  obtain ⟨a, b⟩ := old_entry hi h ht h1 h2
  exact ho i k a b

theorem OwnerD.ext {W opn but ex p mm heap p1 mm1 heap1} (hi : Inv W opn p mm heap)
    (h : ExtBut but ex p mm heap p1 mm1 heap1) {es}
    {t : Nat} (ht : t < heap.length) (ho : OwnerD W opn p.memo mm t es) : OwnerD W opn p1.memo mm1 t es := by
  intro i k h1 h2
  obtain ⟨a, b⟩ := old_entry hi h ht h1 h2
  exact ho i k a b

theorem OwnerD.sub {W opn pm mm t es es'} (ho : OwnerD W opn pm mm t es) (h : ∀ e ∈ es', e ∈ es) :
    OwnerD W opn pm mm t es' := by
  intro i k h1 h2
  rcases ho i k h1 h2 with h' | ⟨h', h'' | ⟨f, h3, h4⟩⟩
  · exact .inl h'
  · exact .inr ⟨h', .inl h''⟩
  · exact .inr ⟨h', .inr ⟨f, h3, fun e he => h4 e (h e he)⟩⟩

theorem mem_upsert {d : List (TVal × TVal)} {k v e} (h : e ∈ upsert d k v) : e ∈ d ∨ e = (k, v) := by
  induction d with
  | nil => simp [upsert] at h; exact .inr h
  | cons a d ih =>
    obtain ⟨k', v'⟩ := a
    unfold upsert at h
    split at h
    · rcases List.mem_cons.1 h with h | h
      · exact .inr h
      · exact .inl (by simp [h])
    · rcases List.mem_cons.1 h with h | h
      · exact .inl (by simp [h])
      · rcases ih h with h | h
        · exact .inl (by simp [h])
        · exact .inr h

theorem mem_upserts {d kvs : List (TVal × TVal)} {e} (h : e ∈ upserts d kvs) : e ∈ d ∨ e ∈ kvs := by
  induction kvs generalizing d with
  | nil => exact .inl h
  | cons a kvs ih =>
    obtain ⟨k, v⟩ := a
    unfold upserts at h
    rcases ih h with h | h
    · rcases mem_upsert h with h | h
      · exact .inl h
      · exact .inr (by simp [h])
    · exact .inr (by simp [h])

/-- appending to an open container keeps the invariant -/
theorem Inv.fillL {W opn p mm heap} (h : Inv W opn p mm heap) {t : Nat} (ho : OwnerL W opn p.memo mm t)
    (o : TObj) : Inv W opn p mm (heap.set t o) := by
  refine h.set t o ?_
  intro i k h1 h2
  rcases ho i k h1 h2 with rfl | ⟨h3, x, rfl, h4⟩
  · exact ⟨trivial, .inr (.inr trivial)⟩
  · exact ⟨shape_node h4, .inl h3⟩

theorem Inv.fillD {W opn p mm heap} (h : Inv W opn p mm heap) {t : Nat} {es} (ho : OwnerD W opn p.memo mm t es)
    {c l d a st} (ht : heap[t]? = some (.node c l d a st)) {kvs} (hkv : All2 (KVRel W p.memo mm) es kvs) :
    Inv W opn p mm (heap.set t (.node c l (upserts d kvs) a st)) := by
  refine h.set t _ ?_
  intro i k h1 h2
  rcases ho i k h1 h2 with rfl | ⟨h3, ⟨x, rfl, h4⟩ | ⟨f, rfl, h4⟩⟩
  · exact ⟨trivial, .inr (.inr trivial)⟩
  · exact ⟨shape_node h4, .inl h3⟩
  · refine ⟨?_, .inl h3⟩
    obtain ⟨t', es', e1, e2, e3⟩ := h.shape i _ _ h2 h1
    cases e1
    rw [ht] at e2; cases e2
    refine ⟨t, upserts d kvs, rfl, ?_, ?_⟩
    · rw [List.getElem?_set_self (List.getElem?_eq_some_iff.1 ht).1]
    · intro e he
      rcases mem_upserts he with he | he
      · exact e3 e he
      · obtain ⟨s, hs, hr⟩ := hkv.mem_right he
        exact .inr ⟨s, h4 s hs, hr⟩

theorem batchAppends_run {W sv} (hs : SaveOK W sv) (vs : List Val) (opn p m) {t s c l d a st}
    (hi : Inv W opn p m.memo m.heap) (hst : m.stack = .ref t :: s)
    (ht : m.heap[t]? = some (.node c l d a st)) (ho : OwnerL W opn p.memo m.memo t) :
    Run (batchAppends sv vs) p m (fun p' m' => ∃ tvs, m'.stack = m.stack ∧ m'.metas = m.metas ∧
      ExtBut (· = t) NoX p m.memo m.heap p' m'.memo m'.heap ∧ Inv W opn p' m'.memo m'.heap ∧
      All2 (VRel W p'.memo m'.memo) vs tvs ∧ m'.heap[t]? = some (.node c (l ++ tvs) d a st)) := by
  unfold batchAppends
  suffices H : ∀ (cs : List (List Val)) p m l, Inv W opn p m.memo m.heap → m.stack = .ref t :: s →
      m.heap[t]? = some (.node c l d a st) → OwnerL W opn p.memo m.memo t →
      Run (cs.foldr (fun c rest => (match c with
        | [v] => sv v ;; emit [.append]
        | c => emit [.mark] ;; saveAll sv c ;; emit [.appends]) ;; rest) (emit [])) p m
      (fun p' m' => ∃ tvs, m'.stack = m.stack ∧ m'.metas = m.metas ∧
      ExtBut (· = t) NoX p m.memo m.heap p' m'.memo m'.heap ∧ Inv W opn p' m'.memo m'.heap ∧
      All2 (VRel W p'.memo m'.memo) cs.flatten tvs ∧ m'.heap[t]? = some (.node c (l ++ tvs) d a st)) by
    have := H (chunks vs) p m l hi hst ht ho
    rw [chunks_flatten] at this; exact this
  intro cs
  induction cs with
  | nil =>
    intro p m l hi hst ht ho
    exact Run.emit rfl ⟨[], rfl, rfl, ExtBut.refl _ _ _ _ _, hi, .nil, by simpa using ht⟩
  | cons ch cs ih =>
    intro p m l hi hst ht ho
    have hlt : t < m.heap.length := (List.getElem?_eq_some_iff.1 ht).1
    simp only [List.foldr_cons]
    refine Run.seq (Q1 := fun p' m' => ∃ tvs, m'.stack = m.stack ∧ m'.metas = m.metas ∧
      ExtBut (· = t) NoX p m.memo m.heap p' m'.memo m'.heap ∧ Inv W opn p' m'.memo m'.heap ∧
      All2 (VRel W p'.memo m'.memo) ch tvs ∧ m'.heap[t]? = some (.node c (l ++ tvs) d a st)) ?_ ?_
    · split
      · rename_i v
        refine Run.seq (hs v opn p m hi) ?_
        rintro p1 m1 ⟨tv, h1, h2, h3, h4, h5⟩
        have ht1 := h3.get ht (fun x => x.elim)
        refine Run.emit1 (m' := { m1.setObj t (.node c (l ++ [tv]) d a st) with stack := .ref t :: s })
          (by simp [step, h1, hst, ht1, M.setObj]) ?_
        refine ⟨[tv], hst.symm, h2, h3.le.trans (ExtBut.set _ _ _ _ _ _ (fun _ => rfl)),
          h4.fillL (ho.ext hi h3 hlt) _, .cons h5 .nil, ?_⟩
        simp only [M.setObj]
        rw [List.getElem?_set_self (Nat.lt_of_lt_of_le hlt h3.hlen)]
      · refine Run.seq (Run.emit1 (m' := { m with stack := [], metas := m.stack :: m.metas }) rfl
          (Q := fun p1 m1 => p1 = p ∧ m1 = { m with stack := [], metas := m.stack :: m.metas }) ⟨rfl, rfl⟩) ?_
        rintro p0 m0 ⟨rfl, rfl⟩
        refine Run.seq (saveAll_run hs ch opn _ _ hi) ?_
        rintro p1 m1 ⟨tvs, h1, h2, h3, h4, h5⟩
        have ht1 := h3.get ht (fun x => x.elim)
        simp only [List.append_nil] at h1 h2
        refine Run.emit1 (m' := { m1.setObj t (.node c (l ++ tvs) d a st) with stack := .ref t :: s, metas := m.metas })
          (by simp [step, h1, h2, hst, ht1, M.setObj]) ?_
        refine ⟨tvs, hst.symm, rfl, h3.le.trans (ExtBut.set _ _ _ _ _ _ (fun _ => rfl)),
          h4.fillL (ho.ext hi h3 hlt) _, h5, ?_⟩
        simp only [M.setObj]
        rw [List.getElem?_set_self (Nat.lt_of_lt_of_le hlt h3.hlen)]
    · rintro p1 m1 ⟨tvs, h1, h2, h3, h4, h5, h6⟩
      refine (ih p1 m1 (l ++ tvs) h4 (h1.trans hst) h6 (ho.ext hi h3 hlt)).conseq ?_
      rintro p2 m2 ⟨tvs2, g1, g2, g3, g4, g5, g6⟩
      exact ⟨tvs ++ tvs2, g1.trans h1, g2.trans h2, h3.trans g3, g4,
        by simpa using (all2_mono_ext g3 h5).append g5, by simpa using g6⟩

theorem batchAdds_run {W sv} (hs : SaveOK W sv) (vs : List Val) (opn p m) {t s c l d a st}
    (hi : Inv W opn p m.memo m.heap) (hst : m.stack = .ref t :: s)
    (ht : m.heap[t]? = some (.node c l d a st)) (ho : OwnerL W opn p.memo m.memo t) :
    Run (batchAdds sv vs) p m (fun p' m' => ∃ tvs, m'.stack = m.stack ∧ m'.metas = m.metas ∧
      ExtBut (· = t) NoX p m.memo m.heap p' m'.memo m'.heap ∧ Inv W opn p' m'.memo m'.heap ∧
      All2 (VRel W p'.memo m'.memo) vs tvs ∧ m'.heap[t]? = some (.node c (l ++ tvs) d a st)) := by
  unfold batchAdds
  suffices H : ∀ (cs : List (List Val)) p m l, Inv W opn p m.memo m.heap → m.stack = .ref t :: s →
      m.heap[t]? = some (.node c l d a st) → OwnerL W opn p.memo m.memo t →
      Run (cs.foldr (fun c rest => (emit [.mark] ;; saveAll sv c ;; emit [.additems]) ;; rest) (emit [])) p m
      (fun p' m' => ∃ tvs, m'.stack = m.stack ∧ m'.metas = m.metas ∧
      ExtBut (· = t) NoX p m.memo m.heap p' m'.memo m'.heap ∧ Inv W opn p' m'.memo m'.heap ∧
      All2 (VRel W p'.memo m'.memo) cs.flatten tvs ∧ m'.heap[t]? = some (.node c (l ++ tvs) d a st)) by
    have := H (chunks vs) p m l hi hst ht ho
    rw [chunks_flatten] at this; exact this
  intro cs
  induction cs with
  | nil =>
    intro p m l hi hst ht ho
    exact Run.emit rfl ⟨[], rfl, rfl, ExtBut.refl _ _ _ _ _, hi, .nil, by simpa using ht⟩
  | cons ch cs ih =>
    intro p m l hi hst ht ho
    have hlt : t < m.heap.length := (List.getElem?_eq_some_iff.1 ht).1
    simp only [List.foldr_cons]
    refine Run.seq (Q1 := fun p' m' => ∃ tvs, m'.stack = m.stack ∧ m'.metas = m.metas ∧
      ExtBut (· = t) NoX p m.memo m.heap p' m'.memo m'.heap ∧ Inv W opn p' m'.memo m'.heap ∧
      All2 (VRel W p'.memo m'.memo) ch tvs ∧ m'.heap[t]? = some (.node c (l ++ tvs) d a st)) ?_ ?_
    · refine Run.seq (Run.emit1 (m' := { m with stack := [], metas := m.stack :: m.metas }) rfl
        (Q := fun p1 m1 => p1 = p ∧ m1 = { m with stack := [], metas := m.stack :: m.metas }) ⟨rfl, rfl⟩) ?_
      rintro p0 m0 ⟨rfl, rfl⟩
      refine Run.seq (saveAll_run hs ch opn _ _ hi) ?_
      rintro p1 m1 ⟨tvs, h1, h2, h3, h4, h5⟩
      have ht1 := h3.get ht (fun x => x.elim)
      simp only [List.append_nil] at h1 h2
      refine Run.emit1 (m' := { m1.setObj t (.node c (l ++ tvs) d a st) with stack := .ref t :: s, metas := m.metas })
        (by simp [step, h1, h2, hst, ht1, M.setObj]) ?_
      refine ⟨tvs, hst.symm, rfl, h3.le.trans (ExtBut.set _ _ _ _ _ _ (fun _ => rfl)),
        h4.fillL (ho.ext hi h3 hlt) _, h5, ?_⟩
      simp only [M.setObj]
      rw [List.getElem?_set_self (Nat.lt_of_lt_of_le hlt h3.hlen)]
    · rintro p1 m1 ⟨tvs, h1, h2, h3, h4, h5, h6⟩
      refine (ih p1 m1 (l ++ tvs) h4 (h1.trans hst) h6 (ho.ext hi h3 hlt)).conseq ?_
      rintro p2 m2 ⟨tvs2, g1, g2, g3, g4, g5, g6⟩
      exact ⟨tvs ++ tvs2, g1.trans h1, g2.trans h2, h3.trans g3, g4,
        by simpa using (all2_mono_ext g3 h5).append g5, by simpa using g6⟩

theorem upserts_append (d a b : List (TVal × TVal)) : upserts d (a ++ b) = upserts (upserts d a) b := by
  induction a generalizing d with
  | nil => rfl
  | cons e a ih => obtain ⟨k, v⟩ := e; simp [upserts, ih]

theorem batchSetitems_run {W sv} (hs : SaveOK W sv) (es : List (Val × Val)) (opn p m) {t s c l d a st}
    (hi : Inv W opn p m.memo m.heap) (hst : m.stack = .ref t :: s)
    (ht : m.heap[t]? = some (.node c l d a st)) (ho : OwnerD W opn p.memo m.memo t es) :
    Run (batchSetitems sv es) p m (fun p' m' => ∃ kvs, m'.stack = m.stack ∧ m'.metas = m.metas ∧
      ExtBut (· = t) NoX p m.memo m.heap p' m'.memo m'.heap ∧ Inv W opn p' m'.memo m'.heap ∧
      All2 (KVRel W p'.memo m'.memo) es kvs ∧ m'.heap[t]? = some (.node c l (upserts d kvs) a st)) := by
  unfold batchSetitems
  suffices H : ∀ (cs : List (List (Val × Val))) p m d, Inv W opn p m.memo m.heap → m.stack = .ref t :: s →
      m.heap[t]? = some (.node c l d a st) → OwnerD W opn p.memo m.memo t cs.flatten →
      Run (cs.foldr (fun c rest => (match c with
        | [(k, v)] => sv k ;; sv v ;; emit [.setitem]
        | c => emit [.mark] ;; saveKVs sv c ;; emit [.setitems]) ;; rest) (emit [])) p m
      (fun p' m' => ∃ kvs, m'.stack = m.stack ∧ m'.metas = m.metas ∧
      ExtBut (· = t) NoX p m.memo m.heap p' m'.memo m'.heap ∧ Inv W opn p' m'.memo m'.heap ∧
      All2 (KVRel W p'.memo m'.memo) cs.flatten kvs ∧
      m'.heap[t]? = some (.node c l (upserts d kvs) a st)) by
    have := H (chunks es) p m d hi hst ht (by rw [chunks_flatten]; exact ho)
    rw [chunks_flatten] at this; exact this
  intro cs
  induction cs with
  | nil =>
    intro p m d hi hst ht ho
    exact Run.emit rfl ⟨[], rfl, rfl, ExtBut.refl _ _ _ _ _, hi, .nil, by simpa [upserts] using ht⟩
  | cons ch cs ih =>
    intro p m d hi hst ht ho
    have hlt : t < m.heap.length := (List.getElem?_eq_some_iff.1 ht).1
    have ho1 : OwnerD W opn p.memo m.memo t ch := ho.sub (by simp; intro a b h; exact .inl h)
    have ho2 : OwnerD W opn p.memo m.memo t cs.flatten :=
      ho.sub (by intro e he; simp only [List.flatten_cons, List.mem_append]; exact .inr he)
    simp only [List.foldr_cons]
    refine Run.seq (Q1 := fun p' m' => ∃ kvs, m'.stack = m.stack ∧ m'.metas = m.metas ∧
      ExtBut (· = t) NoX p m.memo m.heap p' m'.memo m'.heap ∧ Inv W opn p' m'.memo m'.heap ∧
      All2 (KVRel W p'.memo m'.memo) ch kvs ∧ m'.heap[t]? = some (.node c l (upserts d kvs) a st)) ?_ ?_
    · split
      · rename_i k v
        refine Run.seq (hs k opn p m hi) ?_
        rintro p0 m0 ⟨tk, k1, k2, k3, k4, k5⟩
        refine Run.seq (hs v opn p0 m0 k4) ?_
        rintro p1 m1 ⟨tv, h1, h2, h3', h4, h5⟩
        have h3 := k3.trans h3'
        have ht1 := h3.get ht (fun x => x.elim)
        have hkv : All2 (KVRel W p1.memo m1.memo) [(k, v)] [(tk, tv)] := .cons ⟨k5.ext h3', h5⟩ .nil
        refine Run.emit1 (m' := { m1.setObj t (.node c l (upserts d [(tk, tv)]) a st) with stack := .ref t :: s })
          (by simp [step, h1, k1, hst, ht1, M.setObj, upserts]) ?_
        refine ⟨[(tk, tv)], hst.symm, h2.trans k2, h3.le.trans (ExtBut.set _ _ _ _ _ _ (fun _ => rfl)),
          h4.fillD (ho1.ext hi h3 hlt) ht1 hkv, hkv, ?_⟩
        simp only [M.setObj]
        rw [List.getElem?_set_self (Nat.lt_of_lt_of_le hlt h3.hlen)]
      · refine Run.seq (Run.emit1 (m' := { m with stack := [], metas := m.stack :: m.metas }) rfl
          (Q := fun p1 m1 => p1 = p ∧ m1 = { m with stack := [], metas := m.stack :: m.metas }) ⟨rfl, rfl⟩) ?_
        rintro p0 m0 ⟨rfl, rfl⟩
        refine Run.seq (saveKVs_run hs ch opn _ _ hi) ?_
        rintro p1 m1 ⟨kvs, h1, h2, h3, h4, h5⟩
        have ht1 := h3.get ht (fun x => x.elim)
        simp only [List.append_nil] at h1 h2
        refine Run.emit1 (m' := { m1.setObj t (.node c l (upserts d kvs) a st) with stack := .ref t :: s, metas := m.metas })
          (by simp [step, h1, h2, hst, ht1, M.setObj, pairUp_flat]) ?_
        refine ⟨kvs, hst.symm, rfl, h3.le.trans (ExtBut.set _ _ _ _ _ _ (fun _ => rfl)),
          h4.fillD (ho1.ext hi h3 hlt) ht1 h5, h5, ?_⟩
        simp only [M.setObj]
        rw [List.getElem?_set_self (Nat.lt_of_lt_of_le hlt h3.hlen)]
    · rintro p1 m1 ⟨kvs, h1, h2, h3, h4, h5, h6⟩
      refine (ih p1 m1 (upserts d kvs) h4 (h1.trans hst) h6 (ho2.ext hi h3 hlt)).conseq ?_
      rintro p2 m2 ⟨kvs2, g1, g2, g3, g4, g5, g6⟩
      exact ⟨kvs ++ kvs2, g1.trans h1, g2.trans h2, h3.trans g3, g4,
        by simpa using (kv_mono_ext g3 h5).append g5, by rw [upserts_append]; exact g6⟩

end Verif.Core
