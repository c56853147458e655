import Verif.Core.Sim4
/-! Deferred steps, functions and classes in the simulation (used for C01-C05). -/
set_option linter.unusedSimpArgs false
namespace Verif.Core
open Spec

theorem lookup_upsert_self (d : List (TVal × TVal)) (k v) : lookupD (upsert d k v) k = some v := by
  induction d with
  | nil => simp [upsert, lookupD]
  | cons e d ih =>
    obtain ⟨k', v'⟩ := e
    unfold upsert
    split
    · simp [lookupD]
    · rename_i h; simp [lookupD, h, ih]

theorem lookup_upsert_ne (d : List (TVal × TVal)) {k k' v} (h : k ≠ k') :
    lookupD (upsert d k v) k' = lookupD d k' := by
  induction d with
  | nil => simp [upsert, lookupD, h]
  | cons e d ih =>
    obtain ⟨k1, v1⟩ := e
    unfold upsert
    split
    · rename_i h1; subst h1; simp [lookupD, h]
    · simp [lookupD, ih]

theorem lookup_upserts_notin (d kvs : List (TVal × TVal)) {k} (h : k ∉ kvs.map (·.1)) :
    lookupD (upserts d kvs) k = lookupD d k := by
  induction kvs generalizing d with
  | nil => rfl
  | cons e kvs ih =>
    obtain ⟨k1, v1⟩ := e
    simp only [List.map_cons, List.mem_cons, not_or] at h
    simp only [upserts]
    rw [ih _ h.2, lookup_upsert_ne _ (fun e => h.1 e.symm)]

theorem lookup_upserts_mem (d kvs : List (TVal × TVal)) {k v} (hn : (kvs.map (·.1)).Nodup) (h : (k, v) ∈ kvs) :
    lookupD (upserts d kvs) k = some v := by
  induction kvs generalizing d with
  | nil => cases h
  | cons e kvs ih =>
    obtain ⟨k1, v1⟩ := e
    simp only [List.map_cons, List.nodup_cons] at hn
    simp only [upserts]
    rcases List.mem_cons.1 h with h | h
    · cases h
      rw [lookup_upserts_notin _ _ hn.1, lookup_upsert_self]
    · exact ih _ hn.2 h

/-! ### deferred steps -/

/-- `k` is memoised as an object created since `h0`, or as the name of a function or class -/
def Mk (W : World) (h0 : Nat) (p : P) (mm : List TVal) (k : Key) : Prop :=
  ∃ (i : Nat) (tv : TVal), p.memo[i]? = some k ∧ mm[i]? = some tv ∧
    ((∃ t, tv = .ref t ∧ h0 ≤ t) ∨ ∃ x, k = .obj x ∧ NamedV W x tv)

theorem Mk.ext {W h0 but ex p mm heap p1 mm1 heap1 k} (h : ExtBut but ex p mm heap p1 mm1 heap1)
    (x : Mk W h0 p mm k) : Mk W h0 p1 mm1 k := by
  obtain ⟨i, t, h1, h2, h3⟩ := x
  exact ⟨i, t, prefix_get h.pmPre h1, prefix_get h.mmPre h2, h3⟩

theorem call_setNamed (m : M) (a : Atom) (k v : TVal) (s : List TVal) :
    call m (.atom aSetattr) [.atom a, k, v] s = some { m with stack := .atom .none :: s } := by
  unfold call
  rw [if_neg (by decide), if_neg (by decide), if_neg (by decide), if_pos rfl]

theorem Inv.closeKey {W opn opn' p mm heap k0} (hi : Inv W opn p mm heap) (h1 : ∀ k, opn k → opn' k ∨ k = k0)
    (h2 : ∀ k, opn' k → opn k) {i : Nat} {tv} (hk : p.memo[i]? = some k0) (hne : k0 ≠ .anon) (hv : mm[i]? = some tv)
    (hg : Good W p.memo mm heap k0 tv) : Inv W opn' p mm heap := by
  refine hi.reopen opn' ?_ (fun y hy => hi.opnOK y (h2 _ hy))
  intro j k tv' g1 g2 g3 g4 _
  rcases h1 k g4 with h | rfl
  · exact absurd h g3
  · have := hi.nodup i j _ hk g1 hne
    subst this
    rw [hv] at g2; cases g2; exact hg

theorem runRed_run {W sv} (hw : WF W) (hs : SaveOK W sv) {r h0 opn opn' p} {m : M}
    (hi : Inv W opn p m.memo m.heap) (h1 : ∀ k, opn k → opn' k ∨ k = target r) (h2 : ∀ k, opn' k → opn k)
    (hst : RedStatic W r) (hmk : Mk W h0 p m.memo (target r)) :
    Run (runRed W sv r) p m (fun p' m' => m'.stack = m.stack ∧ m'.metas = m.metas ∧
      ExtBut (h0 ≤ ·) NoX p m.memo m.heap p' m'.memo m'.heap ∧ Inv W opn' p' m'.memo m'.heap) := by
  cases r with
  | setCell c v =>
    simp only [RedStatic] at hst
    unfold runRed
    refine Run.seq (Q1 := fun p2 m2 => m2.stack = .atom .none :: m.stack ∧ m2.metas = m.metas ∧
      ExtBut (h0 ≤ ·) NoX p m.memo m.heap p2 m2.memo m2.heap ∧ Inv W opn' p2 m2.memo m2.heap) ?_ ?_
    · refine callReduce_run hs _ _ opn NoX p m hi (ArgsOK.vals W opn NoX p [.ref c, W.contents, v]) _ ?_
      intro p2 m2 tf ta tas h
      obtain ⟨tx, tc, tv, rfl, a1, a2, a3⟩ := args3 h.args
      rw [h.fn.atom hw.setattr, a2.atom hw.contents]
      obtain ⟨i, tx', f1, f2, f3⟩ := hmk.ext h.ext
      rw [VRel.fun h.inv a1 (h.inv.vrel f1 f2) rfl]
      have hsh := h.inv.shape i _ _ f1 f2
      obtain ⟨t, c', rfl, hc⟩ := shape_cell_inv hst hsh
      have f3 : h0 ≤ t := by
        rcases f3 with ⟨t', e, h⟩ | ⟨y, _, _, a, _, e⟩
        · cases e; exact h
        · cases e
      have hlt := (List.getElem?_eq_some_iff.1 hc).1
      have hgood : Good W p2.memo m2.memo (m2.heap.set t (.cell (some tv))) (.obj c) (.ref t) :=
        .inr ⟨t, _, rfl, List.getElem?_set_self hlt, by rw [hst]; exact ⟨tv, rfl, a3⟩⟩
      refine ⟨_, call_setCell _ _ _ _ _ hc, rfl, h.metas,
        h.ext.le.trans (ExtBut.set _ _ _ _ _ _ (fun _ => f3)), ?_⟩
      refine Inv.closeKey (k0 := .obj c) (h.inv.set t _ ?_) h1 h2 f1 (by simp) f2 hgood
      intro j k g1 g2
      have := h.inv.inj i j _ f2 g1
      subst this
      rw [f1] at g2; cases g2
      exact ⟨shape_cell hst (List.getElem?_set_self hlt), .inr (.inr hgood)⟩
    · rintro p2 m2 ⟨g1, g2, g3, g4⟩
      exact Run.emit1 (m' := { m2 with stack := m.stack }) (by simp [step, g1]) ⟨rfl, g2, g3, g4⟩
  | setQual c q =>
    obtain ⟨mt, n, b, d, hst⟩ := hst
    unfold runRed
    refine Run.seq (Q1 := fun p2 m2 => m2.stack = .atom .none :: m.stack ∧ m2.metas = m.metas ∧
      ExtBut (h0 ≤ ·) NoX p m.memo m.heap p2 m2.memo m2.heap ∧ Inv W opn' p2 m2.memo m2.heap) ?_ ?_
    · refine callReduce_run hs _ _ opn NoX p m hi (ArgsOK.vals W opn NoX p [.ref c, W.qualname, q]) _ ?_
      intro p2 m2 tf ta tas h
      obtain ⟨tx, tc, tv, rfl, a1, a2, a3⟩ := args3 h.args
      rw [h.fn.atom hw.setattr, a2.atom hw.qualname]
      obtain ⟨i, tx', f1, f2, f3⟩ := hmk.ext h.ext
      rw [VRel.fun h.inv a1 (h.inv.vrel f1 f2) rfl]
      have hsh := h.inv.shape i _ _ f1 f2
      rcases hsh with hnm | hsh
      · obtain ⟨_, a, _, rfl⟩ := id hnm
        refine ⟨_, call_setNamed _ _ _ _ _, rfl, h.metas, h.ext.le, ?_⟩
        exact Inv.closeKey (k0 := .obj c) h.inv h1 h2 f1 (by simp) f2 (.inl (.inl hnm))
      simp only [ShapeObj, hst] at hsh
      obtain ⟨t, mt', n', b', d', q', rfl, hc, e1, e2, e3, e4⟩ := hsh
      have f3 : h0 ≤ t := by
        rcases f3 with ⟨t', e, h⟩ | ⟨y, _, _, a, _, e⟩
        · cases e; exact h
        · cases e
      have hlt := (List.getElem?_eq_some_iff.1 hc).1
      have hgood : Good W p2.memo m2.memo (m2.heap.set t (.cls mt' n' b' d' (some tv))) (.obj c) (.ref t) :=
        .inr ⟨t, _, rfl, List.getElem?_set_self hlt, by rw [hst]; exact ⟨e1, e2, e3, e4, tv, rfl, a3⟩⟩
      refine ⟨_, call_setQual _ _ _ _ hc, rfl, h.metas,
        h.ext.le.trans (ExtBut.set _ _ _ _ _ _ (fun _ => f3)), ?_⟩
      refine Inv.closeKey (k0 := .obj c) (h.inv.set t _ ?_) h1 h2 f1 (by simp) f2 hgood
      intro j k g1 g2
      have := h.inv.inj i j _ f2 g1
      subst this
      rw [f1] at g2; cases g2
      refine ⟨.inr ?_, .inr (.inr hgood)⟩
      unfold ShapeObj
      rw [hst]
      exact ⟨t, mt', n', b', d', some tv, rfl, List.getElem?_set_self hlt, e1, e2, e3, e4⟩
    · rintro p2 m2 ⟨g1, g2, g3, g4⟩
      exact Run.emit1 (m' := { m2 with stack := m.stack }) (by simp [step, g1]) ⟨rfl, g2, g3, g4⟩
  | setItems f copy =>
    obtain ⟨co, init, n, df, cl, a, s, hst⟩ := hst
    have hcopy : globCopy W f = copy := by simp [globCopy, hst]
    have hsrc : ∀ e ∈ copy, e ∈ globSrc W f := by intro e he; simp [globSrc, hst, he]
    have hkn : KOK W copy := by
      have := hw.obj f; rw [hst] at this
      exact ⟨this.1.2.2, f, fun v hv => by rw [hst]; simp [Spec.refs, hv]⟩
    obtain ⟨i, tx', f1, f2, f3⟩ := hmk
    have hsh := hi.shape i _ _ f1 f2
    simp only [Shape, target] at hsh
    obtain ⟨t, es, rfl, hc, _⟩ := hsh
    have f3 : h0 ≤ t := by
      rcases f3 with ⟨t', e, h⟩ | ⟨y, e, _⟩
      · cases e; exact h
      · cases e
    simp only [runRed]
    split
    · rename_i hem
      simp at hem
      refine Run.emit rfl ⟨rfl, rfl, ExtBut.refl _ _ _ _ _, ?_⟩
      refine hi.closeKey h1 h2 f1 (by simp [target]) f2 ?_
      exact ⟨t, es, rfl, hc, by rw [hcopy, hem]; simp⟩
    · intro p' ops he
      simp only [target] at f1
      obtain ⟨i', hix⟩ := idx_isSome (List.mem_of_getElem? f1)
      have := hi.nodup i i' _ f1 (idx_some hix) (by simp)
      subst this
      simp only [hix] at he
      revert he
      revert p' ops
      refine Run.emitThen (m := m) (m' := { m with stack := .ref t :: m.stack }) (by simp [step, f2]) ?_
      have hiY : Inv W (fun k => opn k ∨ k = .globs f) p m.memo m.heap :=
        hi.reopen _ (fun j k tv _ _ g3 g4 _ => absurd (.inl g4) g3)
          (fun y hy => hi.opnOK y (hy.elim id (fun h => by cases h)))
      refine Run.seq (batchSetitems_run hs copy (fun k => opn k ∨ k = .globs f) p
        { m with stack := .ref t :: m.stack } (t := t) (s := m.stack) hiY rfl hc ?_) ?_
      · intro j k g1 g2
        have := hi.inj i j _ f2 g1
        subst this
        rw [f1] at g2; cases g2
        exact .inr ⟨.inr rfl, .inr ⟨f, rfl, hsrc⟩⟩
      · rintro p2 m2 ⟨kvs, k1, k2, k3, k4, k5, k6⟩
        refine Run.emit1 (m' := { m2 with stack := m.stack }) (by simp [step, k1]) ⟨rfl, k2, ?_, ?_⟩
        · exact k3.weaken (fun j _ hj => by rw [hj]; exact f3) (fun _ _ _ _ h => h)
        · refine k4.closeKey (k0 := .globs f) (i := i) (tv := .ref t) ?_ (fun k hk => .inl (h2 k hk))
            (prefix_get k3.pmPre f1) (by simp) (prefix_get k3.mmPre f2) ?_
          · rintro k (hk | hk)
            · exact h1 k hk
            · exact .inr hk
          · refine ⟨t, _, rfl, k6, ?_⟩
            rw [hcopy]
            intro sv' hsv
            obtain ⟨e, he, hr⟩ := k5.mem_left hsv
            exact ⟨e.1, e.2, hr.1, hr.2, lookup_upserts_mem _ _ (hkn.keys k4 k5) he⟩

  | setDead f copy =>
    obtain ⟨hne, _⟩ := hst
    intro p' ops he
    simp only [runRed] at he
    rw [if_neg (by simpa using hne)] at he
    cases he

def opnL (opn : Key → Prop) (l : List Red) : Key → Prop := fun k => opn k ∨ ∃ r ∈ l, target r = k

theorem runReds_run {W sv} (hw : WF W) (hs : SaveOK W sv) {h0 opn} (l : List Red) {p} {m : M}
    (hi : Inv W (opnL opn l) p m.memo m.heap)
    (hst : ∀ r ∈ l, RedStatic W r) (hmk : ∀ r ∈ l, Mk W h0 p m.memo (target r)) :
    Run (runReds W sv l) p m (fun p' m' => m'.stack = m.stack ∧ m'.metas = m.metas ∧
      ExtBut (h0 ≤ ·) NoX p m.memo m.heap p' m'.memo m'.heap ∧ Inv W opn p' m'.memo m'.heap) := by
  induction l generalizing p m with
  | nil =>
    refine Run.emit rfl ⟨rfl, rfl, ExtBut.refl _ _ _ _ _, ?_⟩
    have : opnL opn [] = opn := by funext k; simp [opnL]
    rwa [this] at hi
  | cons r l ih =>
    refine Run.seq (runRed_run hw hs (opn' := opnL opn l) hi ?_ ?_ (hst r (by simp)) (hmk r (by simp))) ?_
    · rintro k (h | ⟨r', hr, h⟩)
      · exact .inl (.inl h)
      · rcases List.mem_cons.1 hr with rfl | hr
        · exact .inr h.symm
        · exact .inl (.inr ⟨r', hr, h⟩)
    · rintro k (h | ⟨r', hr, h⟩)
      · exact .inl h
      · exact .inr ⟨r', by simp [hr], h⟩
    · rintro p1 m1 ⟨h1, h2, h3, h4⟩
      refine (ih h4 (fun r hr => hst r (by simp [hr])) (fun r hr => (hmk r (by simp [hr])).ext h3)).conseq ?_
      rintro p2 m2 ⟨g1, g2, g3, g4⟩
      exact ⟨g1.trans h1, g2.trans h2, h3.trans g3, g4⟩

theorem All2.snoc_left {α β : Type} {R : α → β → Prop} {as : List α} {a : α} {cs : List β} (h : All2 R (as ++ [a]) cs) :
    ∃ bs b, cs = bs ++ [b] ∧ All2 R as bs ∧ R a b := by
  induction as generalizing cs with
  | nil =>
    cases h with
    | cons r h => cases h; exact ⟨[], _, rfl, .nil, r⟩
  | cons a' as ih =>
    cases h with
    | cons r h =>
      obtain ⟨bs, b, rfl, h1, h2⟩ := ih h
      exact ⟨_ :: bs, b, rfl, .cons r h1, h2⟩

/-- what the body of a `_save_with_postproc` call achieves -/
structure BodyOK (W : World) (opn1 : Key → Prop) (x : Addr) (ks : List Key) (p : P) (m : M) (p' : P) (m' : M) :
    Prop where
  value : ∃ tv, m'.stack = tv :: m.stack ∧ VRel W p'.memo m'.memo (.ref x) tv
  metas : m'.metas = m.metas
  ext : ExtBut NoB (fun k => OfAddr k x) p m.memo m.heap p' m'.memo m'.heap
  inv : Inv W opn1 p' m'.memo m'.heap
  keys : ∀ k ∈ ks, k ∈ p'.memo
  done : ∀ (i : Nat) k tv, OfAddr k x → p'.memo[i]? = some k → m'.memo[i]? = some tv →
    Pending p'.post k ∨ Good W p'.memo m'.memo m'.heap k tv
  circ : ∀ (i : Nat) a, p'.memo[i]? = some (.obj x) → m'.memo[i]? = some (.atom a) → Circular W x

/-- saving a function or class on the stack by name -/
theorem saveGlobal_run {W x opn p} {m : M} (hi : Inv W opn p m.memo m.heap) (hn : .obj x ∉ p.memo) (hfc : isFC (W.H x))
    (hon : OnStack p.post x) :
    Run (saveGlobal W x) p m (fun p' m' => Saved W opn (.ref x) p m p' m' ∧ .obj x ∈ p'.memo) := by
  unfold saveGlobal
  split
  · rename_i a ha
    have hnm : NamedV W x (.atom a) := ⟨hfc, a, ha, rfl⟩
    refine Run.emitThen (m' := { m with stack := .atom a :: m.stack }) rfl ?_
    refine Run.memoize (v := .atom a) (s := m.stack) rfl ?_
    have hinv := hi.memo (.obj x) (.atom a) (fun _ => hn) (by intro _ h; cases h) (.inl hnm)
      (.inr (.inr (.inl (.inl hnm)))) (by simp) (by rintro y b ⟨⟩ _ _; exact .inl hon)
    refine ⟨⟨.atom a, rfl, rfl, ?_, hinv, ?_⟩, by simp⟩
    · refine ExtBut.memo _ (Nat.le_refl _) (fun _ _ _ => rfl) (by intro _ h; cases h) ?_
      rintro y _ (h | h)
      · exact .inr ⟨h, hi.len, a, rfl⟩
      · cases h
    · exact hinv.vrel (i := p.memo.length) (by simp) (by simp [hi.len])
  · intro p' ops he; cases he

theorem withPost_run {W sv} (hw : WF W) (hs : SaveOK W sv) {x l0 body ks opn p} {m : M}
    (hi : Inv W opn p m.memo m.heap) (hn : .obj x ∉ p.memo) (hfc : isFC (W.H x))
    (hl0 : ∀ r ∈ l0, RedStatic W r ∧ OfAddr (target r) x ∧ target r ∈ ks) (hx : .obj x ∈ ks)
    (hbody : ¬ OnStack p.post x → .globs x ∉ p.memo →
      Inv W (fun k => opn k ∨ OfAddr k x) { p with post := p.post ++ [(x, l0)] } m.memo m.heap →
      Run body { p with post := p.post ++ [(x, l0)] } m
        (BodyOK W (fun k => opn k ∨ OfAddr k x) x ks { p with post := p.post ++ [(x, l0)] } m)) :
    Run (withPost W sv x l0 body) p m (fun p' m' => Saved W opn (.ref x) p m p' m' ∧ .obj x ∈ p'.memo ∧
      (¬ OnStack p.post x → ∀ k ∈ ks, k ∈ p'.memo)) := by
  intro p' ops he
  unfold withPost at he
  by_cases hon : p.onStack x = true
  · rw [if_pos hon] at he
    have hon' := (onStack_iff _ _).1 hon
    obtain ⟨m', h1, h2, h3⟩ := saveGlobal_run hi hn hfc hon' p' ops he
    exact ⟨m', h1, h2, h3, fun h => absurd hon' h⟩
  · rw [if_neg hon] at he
    have hns : ¬ OnStack p.post x := fun h => hon ((onStack_iff _ _).2 h)
    have hgl : .globs x ∉ p.memo := fun h => (hi.globsOK x h).elim hn hns
    have hi1 : Inv W (fun k => opn k ∨ OfAddr k x) { p with post := p.post ++ [(x, l0)] } m.memo m.heap := by
      have a : Inv W opn { p with post := p.post ++ [(x, l0)] } m.memo m.heap := by
        refine hi.repost _ ?_ ?_ ?_ ?_
        · rintro i k tv _ _ ⟨e, he, r, hr, ht⟩
          exact .inl ⟨e, by simp [he], r, hr, ht⟩
        · intro e he r hr
          rcases List.mem_append.1 he with he | he
          · exact hi.reds e he r hr
          · simp at he; subst he; exact (hl0 r hr).1
        · intro e he
          rcases List.mem_append.1 he with he | he
          · exact hi.kind e he
          · simp at he; subst he; exact hfc
        · rintro y ⟨e, he, rfl⟩; exact ⟨e, by simp [he], rfl⟩
      refine a.reopen _ (fun j k tv _ _ g3 g4 _ => absurd (.inl g4) g3) ?_
      intro y hy
      rcases hy with hy | hy | hy
      · exact a.opnOK y hy
      · cases hy; exact .inr ⟨(x, l0), by simp, rfl⟩
      · cases hy
    cases hb : body { p with post := p.post ++ [(x, l0)] } with
    | error e => rw [hb] at he; cases he
    | ok q =>
      obtain ⟨p1, o1⟩ := q
      simp only [hb] at he
      obtain ⟨m1, hm1, hB⟩ := hbody hns hgl hi1 p1 o1 hb
      obtain ⟨pre, e, hpost, hpre, hee⟩ := All2.snoc_left hB.ext.post
      obtain ⟨x', l⟩ := e
      obtain ⟨hxe, new, hnew, hnewt⟩ := hee
      simp only at hxe hnew
      subst hxe
      have hprens : ∀ e ∈ pre, e.1 ≠ x := by
        intro e he hex
        obtain ⟨e0, he0, h1, _⟩ := hpre.mem_right he
        exact hns ⟨e0, he0, h1.trans hex⟩
      have hfind : p1.post.find? (·.1 = x) = some (x, l) := by
        rw [hpost, List.find?_append, List.find?_eq_none.2]
        · simp
        · intro e he; simpa using hprens e he
      have hfilter : p1.post.filter (·.1 ≠ x) = pre := by
        rw [hpost, List.filter_append, List.filter_eq_self.2]
        · simp
        · intro e he; simpa using hprens e he
      rw [hfind, hfilter] at he
      simp only [Option.map_some, Option.getD_some] at he
      have hxm : .obj x ∈ p1.memo := hB.keys _ hx
      -- the state after the entry has been popped
      have hext : ExtBut NoB NoX p m.memo m.heap { p1 with post := pre } m1.memo m1.heap := by
        refine ⟨hB.ext.hlen, hB.ext.heapEq, hB.ext.mmPre, hB.ext.pmPre, hB.ext.fresh, hpre, ?_⟩
        intro y k hy hk _ hm
        refine hB.ext.stay y k ?_ hk ?_ hm
        · obtain ⟨e, he, rfl⟩ := hy; exact ⟨e, by simp [he], rfl⟩
        · intro hk'
          have : y = x := by
            rcases hk with rfl | rfl <;> rcases hk' with h | h <;> cases h <;> rfl
          subst this; exact hns hy
      have htgt : ∀ r ∈ l, target r ∈ p1.memo ∧ target r ∉ p.memo := by
        intro r hr
        rw [hnew] at hr
        rcases List.mem_append.1 hr with hr | hr
        · obtain ⟨_, h2, h3⟩ := hl0 r hr
          refine ⟨hB.keys _ h3, ?_⟩
          rcases h2 with h | h <;> rw [h]
          · exact hn
          · exact hgl
        · exact hnewt r hr
      have hstat : ∀ r ∈ l, RedStatic W r := by
        intro r hr
        exact hB.inv.reds (x, l) (by rw [hpost]; simp) r hr
      have hi3 : Inv W (opnL opn l) { p1 with post := pre } m1.memo m1.heap := by
        refine ⟨hB.inv.len, hB.inv.nodup, hB.inv.inj, hB.inv.bound, hB.inv.shape, ?_, ?_, ?_, ?_, ?_, ?_, hB.inv.names⟩
        · intro i k tv g1 g2 g3 g4
          have hnp : ¬ Pending p1.post k := by
            rintro ⟨e, he, r, hr, ht⟩
            rw [hpost] at he
            rcases List.mem_append.1 he with he | he
            · exact g4 ⟨e, he, r, hr, ht⟩
            · simp at he; subst he; exact g3 (.inr ⟨r, hr, ht⟩)
          by_cases hof : OfAddr k x
          · rcases hB.done i k tv hof g1 g2 with h | h
            · exact absurd h hnp
            · exact h
          · exact hB.inv.good i k tv g1 g2 (fun h => h.elim (fun h => g3 (.inl h)) hof) hnp
        · intro e he; exact hB.inv.reds e (by rw [hpost]; simp [he])
        · intro e he; exact hB.inv.kind e (by rw [hpost]; simp [he])
        · have h1 : ∀ y, OnStack p1.post y → .obj y ∈ p1.memo ∨ OnStack pre y := by
            rintro y ⟨e, he, rfl⟩
            rw [hpost] at he
            rcases List.mem_append.1 he with he | he
            · exact .inr ⟨e, he, rfl⟩
            · simp at he; subst he; exact .inl hxm
          rintro y (hy | ⟨r, hr, hy⟩)
          · exact (hB.inv.opnOK y (.inl hy)).elim .inl (h1 y)
          · exact .inl (hy ▸ (htgt r hr).1)
        · intro f hf
          rcases hB.inv.globsOK f hf with h | ⟨e, he, rfl⟩
          · exact .inl h
          · rw [hpost] at he
            rcases List.mem_append.1 he with he | he
            · exact .inr ⟨e, he, rfl⟩
            · simp at he; subst he; exact .inl hxm
        · intro i y a g1 g2 g3
          rcases hB.inv.named i y a g1 g2 g3 with ⟨e, he, rfl⟩ | h
          · rw [hpost] at he
            rcases List.mem_append.1 he with he | he
            · exact .inl ⟨e, he, rfl⟩
            · simp at he; subst he; exact .inr (hB.circ i a g1 g2)
          · exact .inr h
      have hmk : ∀ r ∈ l.reverse, Mk W m.heap.length { p1 with post := pre } m1.memo (target r) := by
        intro r hr
        obtain ⟨h1, h2⟩ := htgt r (by simpa using hr)
        obtain ⟨i, hi'⟩ := List.getElem?_of_mem h1
        obtain ⟨tv, htv⟩ := hB.inv.value hi'
        have hsh := hB.inv.shape i _ _ hi' htv
        have hst := hstat r (by simpa using hr)
        have : (∃ t, tv = .ref t) ∨ ∃ x, target r = .obj x ∧ NamedV W x tv := by
          cases r with
          | setCell c v =>
            obtain ⟨t, _, h, _⟩ := shape_cell_inv hst hsh; exact .inl ⟨t, h⟩
          | setQual c v =>
            obtain ⟨_, _, _, _, hst⟩ := hst
            rcases hsh with h | hsh
            · exact .inr ⟨c, rfl, h⟩
            simp only [ShapeObj, hst] at hsh
            obtain ⟨t, _, _, _, _, _, h, _⟩ := hsh; exact .inl ⟨t, h⟩
          | setItems f c =>
            obtain ⟨t, _, h, _⟩ := hsh; exact .inl ⟨t, h⟩
          | setDead f c =>
            rcases hsh with h | hsh
            · exact .inr ⟨f, rfl, h⟩
            have hfc := hst.2
            cases hH : W.H f with
            | func => simp only [ShapeObj, hH] at hsh; exact .inl hsh
            | cls => simp only [ShapeObj, hH] at hsh; obtain ⟨t, _, _, _, _, _, h, _⟩ := hsh; exact .inl ⟨t, h⟩
            | _ => rw [hH] at hfc; exact hfc.elim
        refine ⟨i, tv, hi', htv, ?_⟩
        rcases this with ⟨t, rfl⟩ | h
        · exact .inl ⟨t, rfl, fresh_of_new hi hext h2 hi' htv⟩
        · exact .inr h
      have hrev : opnL opn l = opnL opn l.reverse := by
        funext k; simp [opnL]
      rw [hrev] at hi3
      cases hr : runReds W sv l.reverse { p1 with post := pre } with
      | error e => rw [hr] at he; cases he
      | ok q =>
        obtain ⟨p2, o2⟩ := q
        rw [hr] at he
        cases he
        obtain ⟨m2, hm2, g1, g2, g3, g4⟩ := runReds_run hw hs l.reverse hi3
          (fun r hr => hstat r (by simpa using hr)) hmk p' o2 hr
        obtain ⟨t, hst, hv⟩ := hB.value
        refine ⟨m2, by rw [exec_append, hm1]; exact hm2, ⟨t, g1.trans hst, g2.trans hB.metas,
          hext.strict g3 (fun i h => h), g4, hv.mono g3.pmPre g3.mmPre⟩, prefix_mem g3.pmPre hxm, ?_⟩
        intro _ k hk
        exact prefix_mem g3.pmPre (hB.keys k hk)

end Verif.Core
