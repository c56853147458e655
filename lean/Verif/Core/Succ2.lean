import Verif.Core.Succ
import Verif.Core.Term2
/-! The invariant behind C86: what is still to be saved does not lead back, eagerly, to a function or class that is being
created. -/
set_option linter.unusedSimpArgs false
namespace Verif.Core
open Spec

abbrev keysOf (l : List (Addr × List Red)) : List Addr := l.map (·.1)

/-- a function or class that pickling by name does not help: it is not found under its name, or it has a copy of its globals -/
def NotNamed (W : World) (x : Addr) : Prop := W.byName x = none ∨ hasCopy (W.H x)

/-- `v` can be saved while the objects `xs` are being created -/
def Clear (W : World) (memo : List Key) (xs : List Addr) (v : Val) : Prop :=
  ∀ x ∈ xs, NotNamed W x → .obj x ∉ memo → ¬ Eager W x v x

/-- a value that is found by name, or an object of the set that is clear of `xs` -/
def CV (W : World) (R : Addr → Prop) (memo : List Key) (xs : List Addr) (v : Val) : Prop :=
  isAtomV W v ∨ ∃ x, v = .ref x ∧ R x ∧ Clear W memo xs v

/-- a deferred step can be run when the objects `ys` are finished and `xs` are still being created -/
structure RedOK (W : World) (R : Addr → Prop) (memo : List Key) (xs ys : List Addr) (r : Red) : Prop where
  vals : ∀ v ∈ redVals r, CV W R memo xs v
  items : ∀ f copy, r = .setItems f copy → .globs f ∈ memo ∨ (f ∈ ys ∧ hasCopy (W.H f))
  alive : ∀ f copy, r ≠ .setDead f copy

structure SI (W : World) (R : Addr → Prop) (p : P) : Prop where
  nodup : (keysOf p.post).Nodup
  key : ∀ l1 y rs l2, p.post = l1 ++ (y, rs) :: l2 → Clear W p.memo (keysOf l1) (.ref y)
  reds : ∀ l1 y rs l2, p.post = l1 ++ (y, rs) :: l2 → ∀ r ∈ rs, RedOK W R p.memo (keysOf l1) (y :: keysOf l2) r

section
variable {W : World} {R : Addr → Prop}

theorem Clear.grow {memo memo' : List Key} {xs v} (h : Clear W memo xs v) (hm : ∀ k ∈ memo, k ∈ memo') : Clear W memo' xs v :=
  fun x hx hd hn => h x hx hd fun h' => hn (hm _ h')

theorem CV.grow {memo memo' : List Key} {xs v} (h : CV W R memo xs v) (hm : ∀ k ∈ memo, k ∈ memo') : CV W R memo' xs v :=
  h.imp_right fun ⟨x, e, hr, hc⟩ => ⟨x, e, hr, hc.grow hm⟩

theorem RedOK.grow {memo memo' : List Key} {xs ys r} (h : RedOK W R memo xs ys r) (hm : ∀ k ∈ memo, k ∈ memo') :
    RedOK W R memo' xs ys r :=
  ⟨fun v hv => (h.vals v hv).grow hm, fun f c e => (h.items f c e).imp_left (hm _), h.alive⟩

theorem SI.stable : Stable (SI W R) := by
  intro p k h
  have hm : ∀ j ∈ p.memo, j ∈ p.memo ++ [k] := fun j hj => by simp [hj]
  exact ⟨h.nodup, fun l1 y rs l2 e => (h.key l1 y rs l2 e).grow hm, fun l1 y rs l2 e r hr => (h.reds l1 y rs l2 e r hr).grow hm⟩

/-- decomposition of a list with a step added -/
theorem addRed_split {y r post l1 z rs l2} (h : addRed y r post = l1 ++ (z, rs) :: l2) :
    ∃ l1' rs' l2', post = l1' ++ (z, rs') :: l2' ∧ keysOf l1' = keysOf l1 ∧ keysOf l2' = keysOf l2 ∧
      ∀ r' ∈ rs, r' ∈ rs' ∨ (r' = r ∧ z = y) := by
  unfold addRed at h
  obtain ⟨l1', t, rfl, h1, h2⟩ := List.map_eq_append_iff.1 h
  obtain ⟨e, l2', rfl, h3, h4⟩ := List.map_eq_cons_iff.1 h2
  have kk : ∀ l : List (Addr × List Red), keysOf (l.map fun (z, l) => if z = y then (z, l ++ [r]) else (z, l)) = keysOf l := by
    intro l; exact keys_addRed y r l
  obtain ⟨z', rs'⟩ := e
  refine ⟨l1', rs', l2', ?_, by rw [← h1, kk], by rw [← h4, kk], ?_⟩
  · dsimp only at h3
    split at h3 <;> cases h3 <;> rfl
  · dsimp only at h3
    intro r' hr'
    split at h3
    · cases h3
      rename_i hz
      rcases List.mem_append.1 hr' with h | h
      · exact .inl h
      · exact .inr ⟨by simpa using h, hz⟩
    · cases h3; exact .inl hr'

theorem SI.addRed {p : P} (h : SI W R p) {y r}
    (hr : ∀ l1 rs l2, p.post = l1 ++ (y, rs) :: l2 → RedOK W R p.memo (keysOf l1) (y :: keysOf l2) r) :
    SI W R { p with post := addRed y r p.post } := by
  refine ⟨?_, ?_, ?_⟩
  · show (keysOf (Core.addRed y r p.post)).Nodup
    rw [show keysOf (Core.addRed y r p.post) = keysOf p.post from keys_addRed y r p.post]; exact h.nodup
  · intro l1 z rs l2 e
    obtain ⟨l1', rs', l2', e', k1, k2, _⟩ := addRed_split e
    rw [← k1]; exact h.key _ _ _ _ e'
  · intro l1 z rs l2 e r' hr'
    obtain ⟨l1', rs', l2', e', k1, k2, hm⟩ := addRed_split e
    rw [← k1, ← k2]
    rcases hm r' hr' with h' | ⟨rfl, rfl⟩
    · exact h.reds _ _ _ _ e' r' h'
    · exact hr _ _ _ e'

/-- what may be saved now -/
def Now (W : World) (R : Addr → Prop) (v : Val) (p : P) : Prop := CV W R p.memo (keysOf p.post) v

theorem Now.mono {v p p'} (h : Now W R v p) (hk : Keep (SI W R) p p') : Now W R v p' := by
  unfold Now at *
  rw [show keysOf p'.post = keysOf p.post from hk.keys]
  exact h.grow hk.memo

theorem now_atom {v p} (h : isAtomV W v) : Now W R v p := .inl h

/-- what an object refers to is clear if the object is -/
theorem Clear.ref {memo xs y v} (h : Clear W memo xs (.ref y)) (hv : ∀ x ∈ xs, .obj x ∉ memo → v ∈ eagerRefs x (W.H y)) :
    Clear W memo xs v := by
  intro x hx hd hn he
  have hv := hv x hx hn
  have key : ∀ z, Eager W x v z → Eager W x (.ref y) z := by
    intro z hz
    induction hz with
    | here e => subst e; exact .step (.here rfl) hv
    | step _ h2 ih => exact .step ih h2
  exact h x hx hd hn (key x he)

/-- references that never wait -/
theorem partRefs_eager {o v} (h : v ∈ partRefs o) (x : Addr) : v ∈ eagerRefs x o := by
  cases o with
  | func co g nm d cl a s =>
    cases g with
    | byRef w => exact h
    | copied init copy =>
      simp only [partRefs, eagerRefs, List.mem_append] at h ⊢
      rcases h with ((h | h) | h) | h <;> simp [h]
  | cell c => cases h
  | _ => exact h

/-- the set is closed under references and has no unpicklable and no circular objects -/
structure Nice (W : World) (R : Addr → Prop) : Prop where
  closed : ∀ x y, R x → .ref y ∈ refs (W.H x) → R y
  bad : ∀ x, R x → W.H x ≠ .bad
  circ : ∀ x, R x → NotNamed W x → ¬ Circular W x

theorem cv_ref {memo xs x v} (hn : Nice W R) (hr : R x) (hv : v ∈ refs (W.H x)) (hc : Clear W memo xs v) : CV W R memo xs v := by
  cases v with
  | atom a => exact .inl ⟨a, rfl⟩
  | ref y => exact .inr ⟨y, rfl, hn.closed x y hr hv, hc⟩

theorem cv_part {memo xs x v} (hn : Nice W R) (hr : R x) (hc : Clear W memo xs (.ref x)) (hv : v ∈ partRefs (W.H x)) : CV W R memo xs v :=
  cv_ref hn hr (partRefs_refs hv) (hc.ref fun y _ _ => partRefs_eager hv y)


/-! ### one object -/

variable {sv : Val → PM}

theorem saveTuple_f (hs : Sav (SI W R) (Now W R) sv) (x es) (p) (hp : SI W R p)
    (h : ∀ v ∈ es, Now W R v p) : Fine (saveTuple sv x es) p (Keep (SI W R) p) := by
  unfold saveTuple
  split
  · exact Fine.emit (Keep.refl hp)
  · split
    · refine Fine.seq (saveAll_f hs es p hp h) ?_
      intro p1 h1
      unfold Fine
      cases hi : idx p1.memo (.obj x) with
      | some i => simp only [hi]; exact h1
      | none =>
        simp only [hi]
        exact (show Fine (emit [.tupleN es.length] ;; memoize (.obj x)) p1 (Keep (SI W R) p) from
          Fine.seq (Q1 := fun q => p1 = q) (Fine.emit rfl) (by rintro _ rfl; exact Fine.memoize (h1.memoized SI.stable)))
    · refine Fine.seq (Q1 := fun q => p = q) (Fine.emit rfl) ?_
      rintro _ rfl
      refine Fine.seq (saveAll_f hs es p hp h) ?_
      intro p1 h1
      unfold Fine
      cases hi : idx p1.memo (.obj x) with
      | some i => simp only [hi]; exact h1
      | none =>
        simp only [hi]
        exact (show Fine (emit [.tuple] ;; memoize (.obj x)) p1 (Keep (SI W R) p) from
          Fine.seq (Q1 := fun q => p1 = q) (Fine.emit rfl) (by rintro _ rfl; exact Fine.memoize (h1.memoized SI.stable)))

theorem saveFset_f (hs : Sav (SI W R) (Now W R) sv) (x es) (p) (hp : SI W R p)
    (h : ∀ v ∈ es, Now W R v p) : Fine (saveFset sv x es) p (Keep (SI W R) p) := by
  unfold saveFset
  refine Fine.seq (Q1 := fun q => p = q) (Fine.emit rfl) ?_
  rintro _ rfl
  refine Fine.seq (saveAll_f hs es p hp h) ?_
  intro p1 h1
  unfold Fine
  cases hi : idx p1.memo (.obj x) with
  | some i => simp only [hi]; exact h1
  | none =>
    simp only [hi]
    exact (show Fine (emit [.frozenset] ;; memoize (.obj x)) p1 (Keep (SI W R) p) from
      Fine.seq (Q1 := fun q => p1 = q) (Fine.emit rfl) (by rintro _ rfl; exact Fine.memoize (h1.memoized SI.stable)))

theorem saveNode_f (hs : Sav (SI W R) (Now W R) sv) (x con lits dits st) (p) (hp : SI W R p)
    (h : ∀ v ∈ refs (.node con lits dits st), Now W R v p) :
    Fine (saveNode sv x con lits dits st) p (Keep (SI W R) p) := by
  have h1 : ∀ v ∈ lits, Now W R v p := fun v hv => h v (by simp [refs, hv])
  have h2 : ∀ v ∈ kvVals dits, Now W R v p := fun v hv => h v (by simp [refs, hv])
  have h3 : ∀ v ∈ stRefs st, Now W R v p := fun v hv => h v (by simp [refs, hv])
  have h4 : ∀ v ∈ conRefs con, Now W R v p := fun v hv => h v (by simp [refs, hv])
  have rest : ∀ {p1}, Keep (SI W R) p p1 → Fine (memoOrGet x ;; batchAppends sv lits ;; batchSetitems sv dits ;;
      saveState sv st) p1 (Keep (SI W R) p) := by
    intro p1 k1
    refine Fine.seq (memoOrGet_f SI.stable x p1 k1.inv) ?_
    rintro p2 ⟨k2, hm⟩
    have k12 := k1.trans k2
    refine Fine.seq (batchAppends_f hs lits p2 k2.inv fun v hv => (h1 v hv).mono k12) ?_
    intro p3 k3
    have k13 := k12.trans k3
    refine Fine.seq (batchSetitems_f hs dits p3 k3.inv fun v hv => (h2 v hv).mono k13) ?_
    intro p4 k4
    have k14 := k13.trans k4
    refine (saveState_f hs st p4 k4.inv fun v hv => (h3 v hv).mono k14).conseq ?_
    intro p5 h5
    exact k14.trans h5
  have empty : ∀ (op : Op) (f : PM), (∀ p1, Keep (SI W R) p p1 → Fine f p1 (Keep (SI W R) p1)) →
      Fine (emit [op] ;; memoize (.obj x) ;; f) p (Keep (SI W R) p) := by
    intro op f hf
    refine Fine.seq (Q1 := fun q => p = q) (Fine.emit rfl) ?_
    rintro _ rfl
    refine Fine.seq (Q1 := Keep (SI W R) p) (Fine.memoize ((Keep.refl hp).memoized SI.stable)) ?_
    intro p1 k1
    exact (hf p1 k1).conseq fun p2 k2 => k1.trans k2
  unfold saveNode
  cases con with
  | list => exact empty _ _ fun p1 k1 => batchAppends_f hs lits p1 k1.inv fun v hv => (h1 v hv).mono k1
  | set => exact empty _ _ fun p1 k1 => batchAdds_f hs lits p1 k1.inv fun v hv => (h1 v hv).mono k1
  | dict => exact empty _ _ fun p1 k1 => batchSetitems_f hs dits p1 k1.inv fun v hv => (h2 v hv).mono k1
  | red f as =>
    simp only
    refine Fine.seq (callReduce_f hs f _ p hp (h4 f (by simp [conRefs])) ?_) (fun p1 h1 => rest h1)
    intro a ha v hv
    obtain ⟨w, hw, rfl⟩ := List.mem_map.1 ha
    simp [argVals] at hv; subst hv
    exact h4 _ (by simp [conRefs, hw])
  | newobj c as =>
    simp only
    refine Fine.seq (hs.ok c p hp (h4 c (by simp [conRefs]))) ?_
    intro p1 h1
    refine Fine.seq (anonTuple_f hs _ p1 h1.inv ?_) ?_
    · intro a ha v hv
      obtain ⟨w, hw, rfl⟩ := List.mem_map.1 ha
      simp [argVals] at hv; subst hv
      exact (h4 _ (by simp [conRefs, hw])).mono h1
    · intro p2 h2
      refine Fine.seq (Q1 := fun q => p2 = q) (Fine.emit rfl) ?_
      rintro _ rfl
      exact rest (h1.trans h2)

/-- with distinct keys a position is determined by its key -/
theorem split_unique {post : List (Addr × List Red)} (hn : (keysOf post).Nodup) {l1 l2 l1' l2' y rs rs'}
    (h : post = l1 ++ (y, rs) :: l2) (h' : post = l1' ++ (y, rs') :: l2') : l1 = l1' ∧ rs = rs' ∧ l2 = l2' := by
  subst h
  induction l1 generalizing l1' with
  | nil =>
    cases l1' with
    | nil => simp at h'; exact ⟨rfl, h'.1, h'.2⟩
    | cons e l =>
      simp only [List.nil_append, List.cons_append, List.cons.injEq] at h'
      obtain ⟨rfl, rfl⟩ := h'
      simp at hn
  | cons e l ih =>
    cases l1' with
    | nil =>
      simp only [List.nil_append, List.cons_append, List.cons.injEq] at h'
      obtain ⟨rfl, rfl⟩ := h'
      simp at hn
    | cons e' l' =>
      simp only [List.cons_append, List.cons.injEq] at h'
      obtain ⟨rfl, h'⟩ := h'
      simp only [List.cons_append, keysOf, List.map_cons, List.nodup_cons] at hn
      obtain ⟨rfl, h1, h2⟩ := ih hn.2 h'
      exact ⟨rfl, h1, h2⟩

theorem saveCell_f (hw : WF W) (hnice : Nice W R) (hs : Sav (SI W R) (Now W R) sv) (x c) (p) (hX : W.H x = .cell c) (hp : SI W R p)
    (hr : R x) (hcl : Clear W p.memo (keysOf p.post) (.ref x)) : Fine (saveCell W sv x c) p (Keep (SI W R) p) := by
  cases c with
  | none =>
    simp only [saveCell]
    refine Fine.seq (callReduce_f hs _ _ p hp (.inl ⟨_, hw.createCell⟩) ?_) ?_
    · intro a ha v hv
      simp at ha; subst ha
      simp [argVals] at hv; subst hv
      exact .inl ⟨_, hw.cellEmpty⟩
    · intro p1 h1
      refine Fine.seq (memoOrGet_f SI.stable x p1 h1.inv) ?_
      rintro p2 ⟨h2, hm⟩
      have h12 := h1.trans h2
      refine Fine.seq (callReduce_f hs _ _ p2 h2.inv (.inl ⟨_, hw.delattr⟩) ?_) ?_
      · intro a ha v hv
        simp at ha
        rcases ha with rfl | rfl <;> simp [argVals] at hv <;> subst hv
        · exact Now.mono (.inr ⟨x, rfl, hr, hcl⟩) h12
        · exact .inl ⟨_, hw.contents⟩
      · intro p3 h3
        exact Fine.emit (h12.trans h3)
  | some v =>
    have mk : ∀ w, Now W R w p →
        Fine (callReduce sv W.createCell [.val w] ;; memoOrGet x) p (Keep (SI W R) p) := by
      intro w hw'
      refine Fine.seq (callReduce_f hs _ _ p hp (.inl ⟨_, hw.createCell⟩) ?_) ?_
      · intro a ha v hv
        simp at ha; subst ha
        simp [argVals] at hv; subst hv
        exact hw'
      · intro p1 h1
        refine (memoOrGet_f SI.stable x p1 h1.inv).conseq ?_
        rintro p2 ⟨h2, _⟩; exact h1.trans h2
    have hvr : v ∈ refs (W.H x) := by rw [hX]; simp [refs]
    unfold Fine
    simp only [saveCell]
    cases hh : cellHost p v with
    | none =>
      simp only
      refine mk v (cv_ref hnice hr hvr ?_)
      have : p.post = [] := by
        cases hpp : p.post with
        | nil => rfl
        | cons e es =>
          cases v with
          | atom a => simp [cellHost, hpp] at hh
          | ref y =>
            simp only [cellHost, hpp] at hh
            split at hh <;> simp at hh
      rw [this]
      intro y hy; cases hy
    | some y =>
      simp only
      have := mk (.atom .none) (.inl ⟨_, rfl⟩)
      unfold Fine at this
      cases hb : (callReduce sv W.createCell [.val (.atom .none)] ;; memoOrGet x) p with
      | error e => rw [hb] at this; exact this
      | ok r =>
        obtain ⟨p1, o1⟩ := r
        rw [hb] at this
        simp only at this ⊢
        refine ⟨this.memo, (keys_addRed _ _ _).trans this.keys, this.inv.addRed ?_⟩
        intro l1 rs l2 e
        have hk : keysOf p.post = keysOf l1 ++ y :: keysOf l2 := by
          rw [← show keysOf p1.post = keysOf p.post from this.keys, e]; simp [keysOf]
        refine ⟨?_, (by intro f c h; cases h), (by intro f c h; cases h)⟩
        intro w hw'
        simp only [redVals, List.mem_cons, List.not_mem_nil, or_false] at hw'
        rcases hw' with rfl | rfl
        · refine .inr ⟨x, rfl, hr, ?_⟩
          intro z hz hd hn
          exact (hcl.grow this.memo) z (by rw [hk]; exact List.mem_append_left _ hz) hd hn
        · refine cv_ref hnice hr hvr ?_
          -- the host is the contents itself, or nothing is below it
          have hhead : w = .ref y ∨ p.post.head?.map (·.1) = some y := by
            cases w with
            | atom a => exact .inr hh
            | ref z =>
              simp only [cellHost] at hh
              split at hh
              · cases hh; exact .inl rfl
              · exact .inr hh
          rcases hhead with rfl | hhead
          · exact this.inv.key l1 y rs l2 e
          · have hl : keysOf l1 = [] := by
              cases hpp : p.post with
              | nil => rw [hpp] at hhead; cases hhead
              | cons e0 es =>
                rw [hpp] at hhead hk
                simp only [List.head?_cons, Option.map_some, Option.some.injEq] at hhead
                cases hl1 : keysOf l1 with
                | nil => rfl
                | cons a l =>
                  have hnd := this.inv.nodup
                  rw [show keysOf p1.post = keysOf p.post from this.keys, hpp, hk, hl1] at hnd
                  rw [hl1] at hk
                  simp only [keysOf, List.map_cons, List.cons_append, List.cons.injEq] at hk
                  rw [← hk.1, hhead] at hnd
                  simp at hnd
            rw [hl]
            intro z hz; cases hz

theorem runRed_f (hw : WF W) (hs : Sav (SI W R) (Now W R) sv) (r : Red) (p) (hp : SI W R p)
    (hr : RedOK W R p.memo (keysOf p.post) [] r) : Fine (runRed W sv r) p (Keep (SI W R) p) := by
  have hset : Now W R W.setattr p := .inl ⟨_, hw.setattr⟩
  have hc : Now W R W.contents p := .inl ⟨_, hw.contents⟩
  have hq : Now W R W.qualname p := .inl ⟨_, hw.qualname⟩
  have h : ∀ v ∈ redVals r, Now W R v p := hr.vals
  cases r with
  | setCell c v =>
    simp only [runRed]
    refine Fine.seq (callReduce_f hs _ _ p hp hset ?_) ?_
    · intro a ha w hw
      simp at ha
      rcases ha with rfl | rfl | rfl <;> simp [argVals] at hw <;> subst hw
      · exact h _ (by simp [redVals])
      · exact hc
      · exact h _ (by simp [redVals])
    · intro p1 h1; exact Fine.emit h1
  | setQual c v =>
    simp only [runRed]
    refine Fine.seq (callReduce_f hs _ _ p hp hset ?_) ?_
    · intro a ha w hw
      simp at ha
      rcases ha with rfl | rfl | rfl <;> simp [argVals] at hw <;> subst hw
      · exact h _ (by simp [redVals])
      · exact hq
      · exact h _ (by simp [redVals])
    · intro p1 h1; exact Fine.emit h1
  | setItems f copy =>
    simp only [runRed]
    split
    · exact Fine.emit (Keep.refl hp)
    · have : ∀ i, Fine (emit [.get i] ;; batchSetitems sv copy ;; emit [.pop]) p (Keep (SI W R) p) := by
        intro i
        refine Fine.seq (Q1 := fun q => p = q) (Fine.emit rfl) ?_
        rintro _ rfl
        refine Fine.seq (batchSetitems_f hs copy _ hp h) ?_
        intro p1 h1; exact Fine.emit h1
      unfold Fine
      cases hi : idx p.memo (.globs f) with
      | none =>
        rcases hr.items f copy rfl with hm | hm
        · obtain ⟨i, hi'⟩ := idx_isSome hm
          rw [hi] at hi'; cases hi'
        · cases hm.1
      | some i => simp only [hi]; exact this i
  | setDead f copy => exact absurd rfl (hr.alive f copy)

theorem runReds_f (hw : WF W) (hs : Sav (SI W R) (Now W R) sv) (rs : List Red) (p) (hp : SI W R p)
    (hr : ∀ r ∈ rs, RedOK W R p.memo (keysOf p.post) [] r) : Fine (runReds W sv rs) p (Keep (SI W R) p) := by
  induction rs generalizing p with
  | nil => exact Fine.emit (Keep.refl hp)
  | cons r rs ih =>
    refine Fine.seq (runRed_f hw hs r p hp (hr r (by simp))) ?_
    intro p1 h1
    refine (ih p1 h1.inv ?_).conseq ?_
    · intro r' hr'
      rw [show keysOf p1.post = keysOf p.post from h1.keys]
      exact (hr r' (by simp [hr'])).grow h1.memo
    · intro p2 h2; exact h1.trans h2


/-! ### the memo has the dicts among the arguments -/

theorem saveArgs_k (hs : Sav (SI W R) (Now W R) sv) (as : List Arg) (p) (hp : SI W R p)
    (h : ∀ a ∈ as, ∀ v ∈ argVals a, Now W R v p) :
    Fine (saveArgs sv as) p (fun q => Keep (SI W R) p q ∧ ∀ k es, .dict k es ∈ as → k ∈ q.memo) := by
  induction as generalizing p with
  | nil => exact Fine.emit ⟨Keep.refl hp, by intro k es h; cases h⟩
  | cons a as ih =>
    refine Fine.seq (Q1 := fun q => Keep (SI W R) p q ∧ ∀ k es, .dict k es = a → k ∈ q.memo) ?_ ?_
    · cases a with
      | val v => exact (hs.ok v p hp (h (.val v) (by simp) v (by simp [argVals]))).conseq fun q hq => ⟨hq, by intro k es e; cases e⟩
      | dict k es =>
        have hv : ∀ v ∈ kvVals es, Now W R v p := fun v hv => h (.dict k es) (by simp) v hv
        show Fine (saveDict sv k es) p _
        unfold saveDict
        refine Fine.seq (Q1 := fun q => p = q) (Fine.emit rfl) ?_
        rintro _ rfl
        refine Fine.seq (Q1 := fun q => Keep (SI W R) p q ∧ k ∈ q.memo)
          (Fine.memoize ⟨(Keep.refl hp).memoized SI.stable, by simp⟩) ?_
        rintro p1 ⟨k1, hm⟩
        refine (batchSetitems_f hs es p1 k1.inv fun w hw => (hv w hw).mono k1).conseq ?_
        intro p2 k2
        refine ⟨k1.trans k2, ?_⟩
        intro k' es' e
        cases e
        exact k2.memo _ hm
    · rintro p1 ⟨h1, hk⟩
      refine (ih p1 h1.inv fun b hb v hv => (h b (by simp [hb]) v hv).mono h1).conseq ?_
      rintro p2 ⟨h2, hk2⟩
      refine ⟨h1.trans h2, ?_⟩
      intro k es hm
      rcases List.mem_cons.1 hm with e | hm
      · exact h2.memo _ (hk k es e)
      · exact hk2 k es hm

theorem callReduce_k (hs : Sav (SI W R) (Now W R) sv) (f : Val) (as : List Arg) (p) (hp : SI W R p) (hf : Now W R f p)
    (h : ∀ a ∈ as, ∀ v ∈ argVals a, Now W R v p) :
    Fine (callReduce sv f as) p (fun q => Keep (SI W R) p q ∧ ∀ k es, .dict k es ∈ as → k ∈ q.memo) := by
  unfold callReduce
  refine Fine.seq (hs.ok f p hp hf) ?_
  intro p1 h1
  have hA := saveArgs_k hs as p1 h1.inv fun a ha v hv => (h a ha v hv).mono h1
  refine Fine.seq (Q1 := fun q => Keep (SI W R) p q ∧ ∀ k es, .dict k es ∈ as → k ∈ q.memo) ?_ (fun p2 h2 => Fine.emit h2)
  have fin : ∀ op : Op, Fine (saveArgs sv as ;; emit [op] ;; memoize .anon) p1
      (fun q => Keep (SI W R) p q ∧ ∀ k es, .dict k es ∈ as → k ∈ q.memo) := by
    intro op
    refine Fine.seq hA ?_
    rintro p2 ⟨h2, hk⟩
    refine Fine.seq (Q1 := fun q => p2 = q) (Fine.emit rfl) ?_
    rintro _ rfl
    exact Fine.memoize ⟨(h1.trans h2).memoized SI.stable, fun k es hm => by simp [hk k es hm]⟩
  unfold anonTuple
  split
  · rename_i he
    refine Fine.emit ⟨h1, ?_⟩
    intro k es hm
    rw [List.isEmpty_iff.1 he] at hm; cases hm
  · split
    · exact fin _
    · refine Fine.seq (Q1 := fun q => p1 = q) (Fine.emit rfl) ?_
      rintro _ rfl
      exact fin _

/-! ### functions and classes -/

theorem RedOK.more {memo xs ys ys' r} (h : RedOK W R memo xs ys r) (hy : ∀ y ∈ ys, y ∈ ys') : RedOK W R memo xs ys' r :=
  ⟨h.vals, fun f c e => (h.items f c e).imp_right fun h => ⟨hy _ h.1, h.2⟩, h.alive⟩

/-- an object that is done -/
theorem RedOK.done {memo xs ys ys' x r} (h : RedOK W R memo xs ys r) (hy : ∀ y ∈ ys, y ∈ ys' ∨ y = x)
    (hx : hasCopy (W.H x) → .globs x ∈ memo) : RedOK W R memo xs ys' r := by
  refine ⟨h.vals, ?_, h.alive⟩
  intro f c e
  rcases h.items f c e with h | ⟨h, hc⟩
  · exact .inl h
  · rcases hy f h with h | rfl
    · exact .inr ⟨h, hc⟩
    · exact .inl (hx hc)

theorem onStack_false {p : P} {x : Addr} (h : p.onStack x = false) : x ∉ keysOf p.post := by
  intro hm
  obtain ⟨e, he, rfl⟩ := List.mem_map.1 hm
  have : p.onStack e.1 = true := by
    simp only [P.onStack, List.any_eq_true, decide_eq_true_eq]; exact ⟨e, he, rfl⟩
  rw [h] at this; cases this

/-- a state with one more object being created -/
theorem SI.push {p : P} (hp : SI W R p) {x l0} (hns : p.onStack x = false) (hc : Clear W p.memo (keysOf p.post) (.ref x))
    (hl : ∀ r ∈ l0, RedOK W R p.memo (keysOf p.post) [x] r) : SI W R { p with post := p.post ++ [(x, l0)] } := by
  have split : ∀ {l1 y rs l2}, p.post ++ [(x, l0)] = l1 ++ (y, rs) :: l2 →
      (∃ l2', p.post = l1 ++ (y, rs) :: l2' ∧ l2 = l2' ++ [(x, l0)]) ∨ (p.post = l1 ∧ (y, rs) = (x, l0) ∧ l2 = []) := by
    intro l1 y rs l2 e
    rcases List.append_eq_append_iff.1 e with ⟨a, h1, h2⟩ | ⟨a, h1, h2⟩
    · cases a with
      | nil =>
        simp only [List.nil_append, List.cons.injEq] at h2
        simp only [List.append_nil] at h1
        exact .inr ⟨h1.symm, h2.1.symm, h2.2.symm⟩
      | cons b t =>
        simp only [List.cons_append, List.cons.injEq] at h2
        have := congrArg List.length h2.2
        simp at this
    · cases a with
      | nil =>
        simp only [List.nil_append, List.cons.injEq] at h2
        simp only [List.append_nil] at h1
        exact .inr ⟨h1, h2.1, h2.2⟩
      | cons b t =>
        simp only [List.cons_append, List.cons.injEq] at h2
        obtain ⟨rfl, h2⟩ := h2
        exact .inl ⟨t, h1, h2⟩
  refine ⟨?_, ?_, ?_⟩
  · simp only [keysOf, List.map_append, List.map_cons, List.map_nil]
    rw [List.nodup_append]
    refine ⟨hp.nodup, by simp, ?_⟩
    intro a ha b hb
    simp only [List.mem_singleton] at hb
    subst hb
    rintro rfl
    exact onStack_false hns ha
  · intro l1 y rs l2 e
    rcases split e with ⟨l2', e', _⟩ | ⟨rfl, e2, _⟩
    · exact hp.key l1 y rs l2' e'
    · cases e2; exact hc
  · intro l1 y rs l2 e r hr
    rcases split e with ⟨l2', e', rfl⟩ | ⟨rfl, e2, rfl⟩
    · refine (hp.reds l1 y rs l2' e' r hr).more ?_
      intro z hz
      simp only [keysOf, List.map_append, List.mem_cons, List.mem_append] at hz ⊢
      rcases hz with h | h
      · exact .inl h
      · exact .inr (.inl h)
    · cases e2; exact hl r hr

theorem withPost_f (hw : WF W) (hs : Sav (SI W R) (Now W R) sv) (x l0) (body : PM) (p) (hns : p.onStack x = false)
    (hp : SI W R { p with post := p.post ++ [(x, l0)] })
    (hb : Fine body { p with post := p.post ++ [(x, l0)] } (fun q => Keep (SI W R) { p with post := p.post ++ [(x, l0)] } q ∧
      (hasCopy (W.H x) → .globs x ∈ q.memo))) :
    Fine (withPost W sv x l0 body) p (Keep (SI W R) p) := by
  unfold Fine withPost
  rw [if_neg (by rw [hns]; simp)]
  unfold Fine at hb
  cases hbd : body { p with post := p.post ++ [(x, l0)] } with
  | error e => rw [hbd] at hb; exact hb
  | ok r =>
    obtain ⟨p1, o1⟩ := r
    rw [hbd] at hb
    obtain ⟨k1, hg⟩ := hb
    simp only
    have keys1 : keysOf p1.post = keysOf p.post ++ [x] := by
      rw [show keysOf p1.post = _ from k1.keys]; simp [keysOf]
    obtain ⟨l1, t, e1, hl1, ht⟩ := List.map_eq_append_iff.1 keys1
    obtain ⟨⟨x', l⟩, t', rfl, hx', ht'⟩ := List.map_eq_cons_iff.1 ht
    simp only at hx'
    subst hx'
    have : t' = [] := by simpa using ht'
    subst this
    have hnl : ∀ e ∈ l1, e.1 ≠ x' := by
      intro e he hex
      exact onStack_false hns (by rw [← hl1]; exact List.mem_map.2 ⟨e, he, hex⟩)
    have hfil : p1.post.filter (·.1 ≠ x') = l1 := by
      rw [e1, List.filter_append, List.filter_eq_self.2 (by intro e he; simpa using hnl e he)]
      simp
    have hfind : p1.post.find? (·.1 = x') = some (x', l) := by
      rw [e1, List.find?_append, List.find?_eq_none.2 (by intro e he; simpa using hnl e he)]
      simp
    rw [hfil, hfind]
    simp only [Option.map_some, Option.getD_some]
    have hsi : SI W R { p1 with post := l1 } := by
      refine ⟨?_, ?_, ?_⟩
      · have := k1.inv.nodup
        rw [e1] at this
        simp only [keysOf, List.map_append] at this
        exact (List.nodup_append.1 this).1
      · intro a y rs b e
        exact k1.inv.key a y rs (b ++ [(x', l)]) (by rw [e1, show l1 = _ from e]; simp)
      · intro a y rs b e r hr
        refine (k1.inv.reds a y rs (b ++ [(x', l)]) (by rw [e1, show l1 = _ from e]; simp) r hr).done ?_ hg
        intro z hz
        simp only [keysOf, List.map_append, List.map_cons, List.map_nil, List.mem_cons, List.mem_append, List.not_mem_nil, or_false] at hz ⊢
        rcases hz with h | h | h
        · exact .inl (.inl h)
        · exact .inl (.inr h)
        · exact .inr h
    have hR := runReds_f hw hs l.reverse { p1 with post := l1 } hsi (by
      intro r hr
      rw [List.mem_reverse] at hr
      refine (k1.inv.reds l1 x' l [] e1 r hr).done ?_ hg
      intro z hz
      simp only [keysOf, List.map_nil, List.mem_singleton] at hz
      exact .inr hz)
    unfold Fine at hR
    cases hrr : runReds W sv l.reverse { p1 with post := l1 } with
    | error e => rw [hrr] at hR; exact hR
    | ok r =>
      rw [hrr] at hR
      exact ⟨fun k hk => hR.memo k (k1.memo k hk), hR.keys.trans hl1, hR.inv⟩

theorem saveCls_f (hw : WF W) (hnice : Nice W R) (hs : Sav (SI W R) (Now W R) sv) (x mt name bases dict qual) (p)
    (hX : W.H x = .cls mt name bases dict qual) (hp : SI W R p) (hr : R x) (hcl : Clear W p.memo (keysOf p.post) (.ref x))
    (hns : p.onStack x = false) : Fine (saveCls W sv x mt name bases dict qual) p (Keep (SI W R) p) := by
  have hpart : ∀ v ∈ refs (W.H x), CV W R p.memo (keysOf p.post) v := by
    intro v hv
    exact cv_part hnice hr hcl (by rw [hX] at hv ⊢; exact hv)
  have hmake : ∀ v ∈ makeRefs (W.H x), v ∈ refs (W.H x) ∧ Clear W p.memo (keysOf p.post) v := by
    intro v hv
    have h1 : v ∈ partRefs (W.H x) := by
      rw [hX] at hv ⊢
      simp only [makeRefs, partRefs, refs, List.mem_append, List.mem_cons, List.not_mem_nil, or_false] at hv ⊢
      rcases hv with (h | h | h) | h <;> simp [h]
    exact ⟨partRefs_refs h1, hcl.ref fun y _ _ => partRefs_eager h1 y⟩
  have hsi := hp.push (x := x) (l0 := [.setQual x qual]) hns hcl (by
    intro r hr'
    simp only [List.mem_singleton] at hr'
    subst hr'
    refine ⟨?_, (by intro f c h; cases h), (by intro f c h; cases h)⟩
    intro v hv
    simp only [redVals, List.mem_cons, List.not_mem_nil, or_false] at hv
    rcases hv with rfl | rfl
    · exact .inr ⟨x, rfl, hr, hcl⟩
    · exact hpart _ (by rw [hX]; simp [refs]))
  have now : ∀ v ∈ makeRefs (W.H x), Now W R v { p with post := p.post ++ [(x, [.setQual x qual])] } := by
    intro v hv
    refine cv_ref hnice hr (hmake v hv).1 ?_
    intro y hy hd hn
    simp only [keysOf, List.map_append, List.map_cons, List.map_nil, List.mem_append, List.mem_singleton] at hy
    rcases hy with hy | rfl
    · exact (hmake v hv).2 y hy hd hn
    · exact fun he => hnice.circ y hr hd ⟨v, hv, he⟩
  rw [hX] at now
  simp only [makeRefs, List.mem_append, List.mem_cons, List.not_mem_nil, or_false] at now
  refine withPost_f hw hs x _ _ p hns hsi ?_
  refine Fine.seq (callReduce_f hs _ _ _ hsi (.inl ⟨_, hw.createType⟩) ?_) ?_
  · intro a ha v hv
    simp only [List.mem_cons, List.not_mem_nil, or_false] at ha
    rcases ha with rfl | rfl | rfl | rfl <;> simp only [argVals, List.mem_singleton] at hv
    · subst hv; exact now _ (by simp)
    · subst hv; exact now _ (by simp)
    · subst hv; exact now _ (by simp)
    · exact now _ (.inr hv)
  · intro p2 h2
    refine (memoOrGet_f SI.stable x p2 h2.inv).conseq ?_
    rintro p3 ⟨h3, h4⟩
    exact ⟨h2.trans h3, by rw [hX]; intro h; exact h.elim⟩


/-- the copied globals of a function are clear of every object that is not among them -/
theorem clear_copy {memo xs x co init copy nm d cl a s} (hX : W.H x = .func co (.copied init copy) nm d cl a s)
    (hcl : Clear W memo xs (.ref x)) (hno : ∀ y ∈ xs, y ∉ valueAddrs copy) {v} (hv : v ∈ kvVals copy) : Clear W memo xs v := by
  refine hcl.ref ?_
  intro y hy _
  have : .ref y ∉ copy.map (·.2) := by
    intro h
    obtain ⟨e, he, hex⟩ := List.mem_map.1 h
    refine hno y hy ?_
    simp only [valueAddrs, List.mem_filterMap]
    exact ⟨e, he, by rw [hex]⟩
  rw [hX]
  simp only [eagerRefs, if_neg this]
  simp [hv]

theorem saveFunc_f (hw : WF W) (hnice : Nice W R) (hs : Sav (SI W R) (Now W R) sv) (x co g nm d cl a s) (p)
    (hX : W.H x = .func co g nm d cl a s) (hp : SI W R p) (hr : R x) (hcl : Clear W p.memo (keysOf p.post) (.ref x))
    (hns : p.onStack x = false) : Fine (saveFunc W sv x co g nm d cl a s) p (Keep (SI W R) p) := by
  have hmp : ∀ v ∈ makeRefs (W.H x), v ∈ partRefs (W.H x) := by
    intro v hv
    rw [hX] at hv ⊢
    cases g with
    | byRef w =>
      simp only [makeRefs, partRefs, List.mem_append] at hv ⊢
      exact .inl (.inl hv)
    | copied init copy =>
      simp only [makeRefs, partRefs, List.mem_append] at hv ⊢
      exact .inl (.inl hv)
  -- the state in which the function is created
  have body : ∀ (gArg : Arg) (post : List (Addr × List Red)), (∀ v ∈ argVals gArg, v ∈ makeRefs (W.H x)) →
      (hasCopy (W.H x) → ∃ es, gArg = .dict (.globs x) es) → keysOf post = keysOf p.post ++ [x] → SI W R { p with post := post } →
      Fine (callReduce sv W.createFunction [.val co, gArg, .val nm, .val d, .val cl] ;; memoOrGet x ;; saveFuncState sv a s)
        { p with post := post } (fun q => Keep (SI W R) { p with post := post } q ∧ (hasCopy (W.H x) → .globs x ∈ q.memo)) := by
    intro gArg post hg hgc hk hsi
    have now : ∀ v ∈ makeRefs (W.H x), Now W R v { p with post := post } := by
      intro v hv
      refine cv_ref hnice hr (partRefs_refs (hmp v hv)) ?_
      intro y hy hd hn
      rw [show keysOf ({ p with post := post } : P).post = keysOf p.post ++ [x] from hk] at hy
      rcases List.mem_append.1 hy with hy | hy
      · exact (hcl.ref fun z _ _ => partRefs_eager (hmp v hv) z) y hy hd hn
      · simp only [List.mem_singleton] at hy
        subst hy
        exact fun he => hnice.circ y hr hd ⟨v, hv, he⟩
    have nowR := now
    rw [hX] at now
    refine Fine.seq (callReduce_k hs _ _ _ hsi (.inl ⟨_, hw.createFunction⟩) ?_) ?_
    · intro b hb v hv
      simp only [List.mem_cons, List.not_mem_nil, or_false] at hb
      rcases hb with rfl | rfl | rfl | rfl | rfl
      · simp only [argVals, List.mem_singleton] at hv; subst hv; exact now _ (by simp [makeRefs])
      · exact nowR _ (hg v hv)
      · simp only [argVals, List.mem_singleton] at hv; subst hv; exact now _ (by simp [makeRefs])
      · simp only [argVals, List.mem_singleton] at hv; subst hv; exact now _ (by simp [makeRefs])
      · simp only [argVals, List.mem_singleton] at hv; subst hv; exact now _ (by simp [makeRefs])
    · rintro p2 ⟨h2, hmem⟩
      refine Fine.seq (memoOrGet_f SI.stable x p2 h2.inv) ?_
      rintro p3 ⟨h3, h4⟩
      have h23 := h2.trans h3
      -- the function is memoised: its attributes need only be clear of the others
      have late : ∀ v ∈ kvVals a ++ kvVals s, Now W R v p3 := by
        intro v hv
        have hvp : v ∈ partRefs (W.H x) := by
          rw [hX]
          simp only [partRefs, List.mem_append] at hv ⊢
          rcases hv with hv | hv
          · exact .inl (.inr hv)
          · exact .inr hv
        refine cv_ref hnice hr (partRefs_refs hvp) ?_
        intro y hy hd hn
        rw [show keysOf p3.post = keysOf p.post ++ [x] from h23.keys.trans hk] at hy
        rcases List.mem_append.1 hy with hy | hy
        · exact (hcl.ref fun z _ _ => partRefs_eager hvp z) y hy hd fun h => hn (h23.memo _ h)
        · simp only [List.mem_singleton] at hy
          subst hy
          exact absurd h4 hn
      refine (saveFuncState_f hs a s p3 h3.inv (fun v hv => late v (by simp [hv])) (fun v hv => late v (by simp [hv]))).conseq ?_
      intro p4 h5
      refine ⟨h23.trans h5, ?_⟩
      intro hc
      obtain ⟨es, he⟩ := hgc hc
      exact h5.memo _ (h3.memo _ (hmem (.globs x) es (by rw [← he]; simp)))
  cases g with
  | byRef v =>
    have hsi := hp.push (x := x) (l0 := []) hns hcl (by intro r h; cases h)
    refine withPost_f hw hs x _ _ p hns hsi ?_
    exact body (.val v) _ (by
      intro w hw'
      simp only [argVals, List.mem_singleton] at hw'; subst hw'
      rw [hX]; simp [makeRefs]) (by rw [hX]; intro h; exact h.elim) (by simp [keysOf]) hsi
  | copied init copy =>
    have hinit : ∀ v ∈ argVals (.dict (.globs x) init), v ∈ makeRefs (W.H x) := by
      intro w hw'
      rw [hX]
      simp only [makeRefs, List.mem_append]
      exact .inr hw'
    have hcopyR : ∀ v ∈ kvVals copy, v ∈ refs (W.H x) := by
      intro v hv; rw [hX]; simp [refs, hv]
    have hhc : hasCopy (W.H x) := by rw [hX]; trivial
    unfold Fine
    simp only [saveFunc]
    cases hfd : p.post.find? (fun e => decide (e.1 ∈ valueAddrs copy)) with
    | none =>
      simp only
      have hno : ∀ y ∈ keysOf p.post, y ∉ valueAddrs copy := by
        intro y hy hc
        obtain ⟨e, he, rfl⟩ := List.mem_map.1 hy
        have := List.find?_eq_none.1 hfd e he
        simp [hc] at this
      have hsi := hp.push (x := x) (l0 := [.setItems x copy]) hns hcl (by
        intro r h
        simp only [List.mem_singleton] at h
        subst h
        refine ⟨?_, ?_, (by intro f c h; cases h)⟩
        · intro v hv
          exact cv_ref hnice hr (hcopyR v hv) (clear_copy hX hcl hno hv)
        · intro f c h
          cases h
          exact .inr ⟨by simp, hhc⟩)
      exact withPost_f hw hs x _ _ p hns hsi (body _ _ hinit (fun _ => ⟨_, rfl⟩) (by simp [keysOf]) hsi)
    | some e =>
      obtain ⟨y, l⟩ := e
      simp only [hns, Bool.false_eq_true, if_false]
      obtain ⟨hc, l1, l2, e1, hbefore⟩ := List.find?_eq_some_iff_append.1 hfd
      have hyx : y ≠ x := by
        rintro rfl
        exact onStack_false hns (by rw [e1]; simp [keysOf])
      have hpush := hp.push (x := x) (l0 := []) hns hcl (by intro r h; cases h)
      have hsi : SI W R { p with post := addRed y (.setItems x copy) p.post ++ [(x, [])] } := by
        have := hpush.addRed (y := y) (r := .setItems x copy) (by
          intro m1 rs m2 e
          obtain ⟨rfl, _, rfl⟩ := split_unique hpush.nodup e (l1' := l1) (rs' := l) (l2' := l2 ++ [(x, [])]) (by
            show p.post ++ [(x, [])] = _
            rw [e1]; simp)
          refine ⟨?_, ?_, (by intro f c h; cases h)⟩
          · intro v hv
            refine cv_ref hnice hr (hcopyR v hv) (clear_copy hX ?_ ?_ hv)
            · intro z hz
              exact hcl z (by rw [e1]; simp only [keysOf, List.map_append, List.mem_append]; exact .inl hz)
            · intro z hz hzc
              obtain ⟨e', he', rfl⟩ := List.mem_map.1 hz
              have := hbefore e' he'
              simp [hzc] at this
          · intro f c h
            cases h
            exact .inr ⟨by simp [keysOf], hhc⟩)
        have e2 : addRed y (.setItems x copy) (p.post ++ [(x, [])]) = addRed y (.setItems x copy) p.post ++ [(x, [])] := by
          simp [addRed, Ne.symm hyx]
        rw [show ({ p with post := p.post ++ [(x, [])] } : P).post = p.post ++ [(x, [])] from rfl, e2] at this
        exact this
      have hns' : ({ p with post := addRed y (.setItems x copy) p.post } : P).onStack x = false := by
        rw [onStack_keys (p := p) addRed_keys]; exact hns
      have hk : keysOf (addRed y (.setItems x copy) p.post) = keysOf p.post := keys_addRed _ _ _
      have := withPost_f hw hs x [] _ { p with post := addRed y (.setItems x copy) p.post } hns' hsi
        (body _ _ hinit (fun _ => ⟨_, rfl⟩) (by simp only [keysOf, List.map_append] at hk ⊢; rw [hk]; rfl) hsi)
      exact Fine.conseq this fun q h => ⟨h.memo, h.keys.trans hk, h.inv⟩

/-! ### all objects -/

theorem saveStep_f (hw : WF W) (hnice : Nice W R) (hs : Sav (SI W R) (Now W R) sv) (v) (p) (hp : SI W R p) (h : Now W R v p) :
    Fine (saveStep W sv v) p (Keep (SI W R) p) := by
  cases v with
  | atom a => exact Fine.emit (Keep.refl hp)
  | ref x =>
    unfold Fine
    simp only [saveStep]
    cases hi : idx p.memo (.obj x) with
    | some i => exact Keep.refl hp
    | none =>
      simp only
      have hn := idx_none hi
      by_cases hl : ∃ a, W.H x = .leaf a
      · obtain ⟨a, ha⟩ := hl
        rw [ha]
        exact (Keep.refl hp).memoized SI.stable
      · obtain ⟨hr, hcl⟩ : R x ∧ Clear W p.memo (keysOf p.post) (.ref x) := by
          rcases h with ⟨a, ha⟩ | ⟨y, e, hr, hc⟩
          · simp only [res] at ha
            cases hH : W.H x <;> rw [hH] at ha <;> first | (simp at ha; done) | exact absurd ⟨_, hH⟩ hl
          · cases e; exact ⟨hr, hc⟩
        -- met again while it is being created: it is saved by name
        have again : p.onStack x = true → ¬ NotNamed W x := by
          intro ho hd
          simp only [P.onStack, List.any_eq_true, decide_eq_true_eq] at ho
          obtain ⟨e, he, rfl⟩ := ho
          exact absurd (.here rfl) (hcl e.1 (List.mem_map.2 ⟨e, he, rfl⟩) hd hn)
        have byname : ¬ NotNamed W x → Fine (saveGlobal W x) p (Keep (SI W R) p) := by
          intro hd
          unfold saveGlobal
          cases hb : W.byName x with
          | none => exact absurd (.inl hb) hd
          | some a =>
            refine Fine.seq (Q1 := fun q => p = q) (Fine.emit rfl) ?_
            rintro _ rfl
            exact Fine.memoize ((Keep.refl hp).memoized SI.stable)
        have part : ∀ v ∈ partRefs (W.H x), Now W R v p := fun v hv => cv_part hnice hr hcl hv
        cases hX : W.H x with
        | leaf a => exact absurd ⟨a, hX⟩ hl
        | tuple es => rw [hX] at part; exact saveTuple_f hs x es p hp part
        | fset es => rw [hX] at part; exact saveFset_f hs x es p hp part
        | node con lits dits st => rw [hX] at part; exact saveNode_f hs x con lits dits st p hp part
        | cell c => exact saveCell_f hw hnice hs x c p hX hp hr hcl
        | func co g nm d cl a s =>
          by_cases hns : p.onStack x = true
          · have hd := again hns
            have hby := byname hd
            cases g with
            | byRef v => simp only [saveFunc, withPost, hns, if_true]; exact hby
            | copied init copy => exact absurd (.inr (by rw [hX]; trivial)) hd
          · exact saveFunc_f hw hnice hs x co g nm d cl a s p hX hp hr hcl (by simpa using hns)
        | cls mt nm b d q =>
          by_cases hns : p.onStack x = true
          · have hby := byname (again hns)
            simp only [saveCls, withPost, hns, if_true]; exact hby
          · exact saveCls_f hw hnice hs x mt nm b d q p hX hp hr hcl (by simpa using hns)
        | bad => exact absurd hX (hnice.bad x hr)

theorem save_f (hw : WF W) (hnice : Nice W R) (n : Nat) : Sav (SI W R) (Now W R) (save W n) := by
  induction n with
  | zero => exact ⟨fun v p _ _ => rfl, fun v p p' h hk => h.mono hk, SI.stable⟩
  | succ n ih => exact ⟨fun v p hp h => saveStep_f hw hnice ih v p hp h, fun v p p' h hk => h.mono hk, SI.stable⟩

/-- nothing but RecursionError -/
theorem dumps_fine (hw : WF W) (root : Val) (hbad : ∀ x, Reaches W root x → W.H x ≠ .bad)
    (hcirc : ∀ x, Reaches W root x → NotNamed W x → ¬ Circular W x) (n : Nat) (e : Err) (h : dumps W n root = .error e) : e = .fuel := by
  have hnice : Nice W (Reaches W root) := ⟨fun x y hx hy => .step hx hy, hbad, hcirc⟩
  have hsi : SI W (Reaches W root) ⟨[], []⟩ := by
    refine ⟨List.nodup_nil, ?_, ?_⟩
    · intro l1 y rs l2 h; simp at h
    · intro l1 y rs l2 h; simp at h
  have hnow : Now W (Reaches W root) root ⟨[], []⟩ := by
    cases root with
    | atom a => exact .inl ⟨a, rfl⟩
    | ref x => exact .inr ⟨x, rfl, .here rfl, by intro y hy; cases hy⟩
  have := (save_f hw hnice n).ok root ⟨[], []⟩ hsi hnow
  unfold Fine at this
  unfold dumps at h
  cases hs : save W n root ⟨[], []⟩ with
  | ok r => rw [hs] at h; cases h
  | error e' =>
    obtain ⟨e', q⟩ := e'
    rw [hs] at h this
    cases h
    exact this

end

end Verif.Core
