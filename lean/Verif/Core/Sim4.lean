import Verif.Core.Sim3
/-! Reduce-style objects, cells and deferred steps in the simulation (used for C01-C05). -/
set_option linter.unusedSimpArgs false
namespace Verif.Core
open Spec

theorem all2_vals {W pm mm heap} {as : List Val} {ts} (h : All2 (ArgRel W pm mm heap) (as.map .val) ts) :
    All2 (VRel W pm mm) as ts := by
  induction as generalizing ts with
  | nil => cases h; exact .nil
  | cons a as ih => cases h with
    | cons r h => exact .cons r (ih h)

theorem VRel.atom {W pm mm v tv a} (h : VRel W pm mm v tv) (e : res W v = .inl a) : tv = .atom a := by
  unfold VRel at h; rw [e] at h; exact h

theorem VRel.of_atom {W pm mm v a} (hn : ∀ x, W.byName x ≠ some a) (h : VRel W pm mm v (.atom a)) : res W v = .inl a := by
  unfold VRel at h
  cases e : res W v with
  | inl b => rw [e] at h; cases h; rfl
  | inr x =>
    rw [e] at h
    obtain ⟨_, _, _, ⟨_, h⟩ | ⟨_, b, hb, h⟩⟩ := h
    · cases h
    · cases h; exact absurd hb (hn x)

/-- the name of a function or class that is saved by value is not the name of one of dill's own functions -/
theorem WF.notSpecial {W} (hw : WF W) {a} (h : special a) (x) : W.byName x ≠ some a := by
  intro e
  obtain ⟨m, n, ha, h1, h2, _⟩ := hw.nameOwn x a e
  rcases h with rfl | rfl | rfl | rfl | rfl <;> cases ha <;> first | exact h1 rfl | exact h2 rfl

theorem WF.notEmpty {W} (hw : WF W) (x) : W.byName x ≠ some aCellEmpty := by
  intro e
  obtain ⟨m, n, ha, h1, _⟩ := hw.nameOwn x _ e
  cases ha; exact h1 rfl

/-! ### reduce-style objects -/

theorem Run.and {f p m Q} {R : P → Prop} (h : Run f p m Q) (hr : ∀ p' ops, f p = .ok (p', ops) → R p') :
    Run f p m (fun p' m' => Q p' m' ∧ R p') := by
  intro p' ops he
  obtain ⟨m', h1, h2⟩ := h p' ops he
  exact ⟨m', h1, h2, hr p' ops he⟩

theorem readyNew_run {W sv} (hs : SaveOK W sv) (hl : GrowOK W sv) (x : Addr) (lits : List Val) (f : Val)
    (as : List Val) (opn p m) (hi : Inv W opn p m.memo m.heap)
    {con dits st} (hx : W.H x = .node con lits dits st) (hc : conRefs con = f :: as) (hn : .obj x ∉ p.memo) (g : PM) (Q : P → M → Prop)
    (hg : ∀ p' m' tf ta tas, Ready W opn NoX p m f (as.map .val) p' m' tf ta tas →
      (.obj x ∈ p'.memo → lits ≠ [] → SelfMade W x) → Run g p' m' Q) :
    Run (sv f ;; anonTuple sv (as.map .val) ;; g) p m Q := by
  have ha := ArgsOK.vals W opn NoX p as
  have hA : ∀ v ∈ f :: as, AV W (fun x => ∃ v ∈ f :: as, Reaches W v x) v := by
    intro v hv
    cases v with
    | atom a => exact .inl ⟨a, rfl⟩
    | ref y => exact .inr ⟨y, rfl, _, hv, .here rfl⟩
  have hsm : ∀ q, G W (fun x => ∃ v ∈ f :: as, Reaches W v x) (p.post.map (·.1)) p q → .obj x ∈ q.memo → lits ≠ [] → SelfMade W x := by
    intro q hq hm hne
    rcases hq.memo x hm with h | ⟨v, hv, h⟩ | h
    · exact absurd h hn
    · exact ⟨con, lits, dits, st, hx, hne, v, by rw [hc]; exact hv, h⟩
    · rw [hx] at h; exact h.elim
  refine Run.seq ((hs f opn p m hi).and (R := fun p' => G W (fun x => ∃ v ∈ f :: as, Reaches W v x) (p.post.map (·.1)) p p') ?_) ?_
  · intro p' ops h
    exact hl _ _ (parts_reaches (f :: as) _) f (hA f (by simp)) _ _ _ (.self p) h
  rintro p1 m1 ⟨⟨tf, h1, h2, h3, h4, h5⟩, hn1⟩
  refine Run.seq ((anonTuple_run hs _ opn NoX p1 m1 h4 (ha.ext h3)).and
    (R := fun p' => G W (fun x => ∃ v ∈ f :: as, Reaches W v x) (p.post.map (·.1)) p p') ?_) ?_
  · intro p' ops h
    exact hn1.trans (gr_anonTuple (hl _ _ (parts_reaches (f :: as) _)) _ (argA_vals fun v hv => hA v (by simp [hv])) _ _ _ ((Stk.self p).next hn1) h)
  rintro p2 m2 ⟨⟨ta, tas, g1, g2, g3, g4, g5, g6⟩, hn2⟩
  exact hg p2 m2 tf ta tas ⟨by rw [g1, h1], g2.trans h2, h3.le.trans g3, g4, g5, h5.ext g3, g6⟩ (hsm p2 hn2)

theorem andThen_assoc (f g h : PM) : ((f ;; g) ;; h) = (f ;; g ;; h) := by
  funext p
  unfold andThen
  cases f p with
  | error e => rfl
  | ok r =>
    obtain ⟨p1, o1⟩ := r
    simp only
    cases g p1 with
    | error e => rfl
    | ok r =>
      obtain ⟨p2, o2⟩ := r
      simp only
      cases h p2 with
      | error e => rfl
      | ok r => simp

theorem saveRed_run {W sv} (hwf : WF W) (hs : SaveOK W sv) (hl : GrowOK W sv) {x f as lits dits st opn p} {m : M}
    (hi : Inv W opn p m.memo m.heap) (hx : W.H x = .node (.red f as) lits dits st)
    (hw : KNodup W dits ∧ WFSt W st ∧ ∀ a, special a → res W f ≠ .inl a)
    (hn : .obj x ∉ p.memo) :
    Run (callReduce sv f (as.map .val) ;; memoOrGet x ;; batchAppends sv lits ;; batchSetitems sv dits ;;
      saveState sv st) p m (Saved W opn (.ref x) p m) := by
  obtain ⟨h2, h3, h4⟩ := hw
  unfold callReduce
  rw [andThen_assoc, andThen_assoc]
  refine readyNew_run hs hl x lits f as opn p m hi hx rfl hn _ _ ?_
  intro p1 m1 tf ta tas h hlx
  have hne : ∀ a, special a → tf ≠ .atom a := by
    rintro a ha rfl
    exact h4 a ha (h.fn.of_atom (hwf.notSpecial ha))
  refine Run.emitThen (m' := m1.alloc (.node (.red tf tas) [] [] [] none) m.stack) ?_ ?_
  · simp only [step, h.stack, h.tup]
    unfold call
    rw [if_neg (hne _ (by simp [special])), if_neg (hne _ (by simp [special])),
      if_neg (hne _ (by simp [special])), if_neg (hne _ (by simp [special])),
      if_neg (hne _ (by simp [special]))]
  refine (finishNode_run hs (m := m1.alloc (.node (.red tf tas) [] [] [] none) m.stack) (t := m1.heap.length) (s := m.stack) (tcon := .red tf tas) hx h2 h3 hi hn rfl h.metas
      (h.ext.trans (ExtBut.alloc _ _ _ _ _ _)) (h.inv.alloc _) (by simp [M.alloc]) h.ext.hlen
      (fun i => h.inv.notin (Nat.le_refl _) i) ⟨h.fn, all2_vals h.args⟩ hlx).conseq ?_
  rintro p2 m2 ⟨t, k1, k2, k3, k4, k5⟩
  exact ⟨_, k1, k2, k3, k4, k5⟩

theorem saveNew_run {W sv} (hs : SaveOK W sv) (hl : GrowOK W sv) {x c as lits dits st opn p} {m : M}
    (hi : Inv W opn p m.memo m.heap) (hx : W.H x = .node (.newobj c as) lits dits st)
    (hw : KNodup W dits ∧ WFSt W st)
    (hn : .obj x ∉ p.memo) :
    Run (sv c ;; anonTuple sv (as.map .val) ;; emit [.newobj] ;; memoOrGet x ;; batchAppends sv lits ;;
      batchSetitems sv dits ;; saveState sv st) p m (Saved W opn (.ref x) p m) := by
  obtain ⟨h2, h3⟩ := hw
  refine readyNew_run hs hl x lits c as opn p m hi hx rfl hn _ _ ?_
  intro p1 m1 tf ta tas h hlx
  refine Run.emitThen (m' := m1.alloc (.node (.newobj tf tas) [] [] [] none) m.stack)
    (by simp [step, h.stack, h.tup]) ?_
  refine (finishNode_run hs (m := m1.alloc (.node (.newobj tf tas) [] [] [] none) m.stack) (t := m1.heap.length) (s := m.stack) (tcon := .newobj tf tas) hx h2 h3 hi hn rfl h.metas
      (h.ext.trans (ExtBut.alloc _ _ _ _ _ _)) (h.inv.alloc _) (by simp [M.alloc]) h.ext.hlen
      (fun i => h.inv.notin (Nat.le_refl _) i) ⟨h.fn, all2_vals h.args⟩ hlx).conseq ?_
  rintro p2 m2 ⟨t, k1, k2, k3, k4, k5⟩
  exact ⟨_, k1, k2, k3, k4, k5⟩

theorem saveNode_run {W sv} (hwf : WF W) (hs : SaveOK W sv) (hl : GrowOK W sv) {x con lits dits st opn p} {m : M}
    (hi : Inv W opn p m.memo m.heap) (hx : W.H x = .node con lits dits st)
    (hw : WFObj W (.node con lits dits st)) (hn : .obj x ∉ p.memo) :
    Run (saveNode sv x con lits dits st) p m (Saved W opn (.ref x) p m) := by
  cases con with
  | list => exact saveList_run hs hi hx hw hn
  | set => exact saveSet_run hs hi hx hw hn
  | dict => exact saveDictObj_run hs hi hx hw hn
  | red f as => exact saveRed_run hwf hs hl hi hx hw hn
  | newobj c as => exact saveNew_run hs hl hi hx hw hn

/-! ### cells -/

theorem call_createCell (m : M) (v : TVal) (s : List TVal) :
    call m (.atom aCreateCell) [v] s = some (m.alloc (.cell (if v = .atom aCellEmpty then none else some v)) s) := by
  unfold call
  rw [if_neg (by decide), if_pos rfl]

theorem call_delattr (m : M) (t : Nat) (c) (s : List TVal) (h : m.heap[t]? = some (.cell c)) :
    call m (.atom aDelattr) [.ref t, .atom aContents] s =
      some { m.setObj t (.cell none) with stack := .atom .none :: s } := by
  unfold call
  rw [if_neg (by decide), if_neg (by decide), if_neg (by decide), if_neg (by decide), if_pos rfl]
  simp [h]

theorem call_setCell (m : M) (t : Nat) (c) (v : TVal) (s : List TVal) (h : m.heap[t]? = some (.cell c)) :
    call m (.atom aSetattr) [.ref t, .atom aContents, v] s =
      some { m.setObj t (.cell (some v)) with stack := .atom .none :: s } := by
  unfold call
  rw [if_neg (by decide), if_neg (by decide), if_neg (by decide), if_pos rfl]
  simp [h]

theorem call_setQual (m : M) (t : Nat) (v : TVal) (s : List TVal) {mt n b d q}
    (h : m.heap[t]? = some (.cls mt n b d q)) :
    call m (.atom aSetattr) [.ref t, .atom aQualname, v] s =
      some { m.setObj t (.cls mt n b d (some v)) with stack := .atom .none :: s } := by
  unfold call
  rw [if_neg (by decide), if_neg (by decide), if_neg (by decide), if_pos rfl]
  simp [h]

theorem call_createType (m : M) (mt n b d : TVal) (es) (s : List TVal) (h : m.dictOf d = some es) :
    call m (.atom aCreateType) [mt, n, b, d] s = some (m.alloc (.cls mt n b es none) s) := by
  unfold call
  rw [if_neg (by decide), if_neg (by decide), if_pos rfl]
  simp [h]

/-- one argument -/
theorem args1 {W pm mm heap a ts} (h : All2 (ArgRel W pm mm heap) [.val a] ts) :
    ∃ ta, ts = [ta] ∧ VRel W pm mm a ta := by
  cases h with
  | cons r h => cases h; exact ⟨_, rfl, r⟩

theorem args2 {W pm mm heap a b ts} (h : All2 (ArgRel W pm mm heap) [.val a, .val b] ts) :
    ∃ ta tb, ts = [ta, tb] ∧ VRel W pm mm a ta ∧ VRel W pm mm b tb := by
  cases h with
  | cons r h => cases h with
    | cons r' h => cases h; exact ⟨_, _, rfl, r, r'⟩

theorem args3 {W pm mm heap a b c ts} (h : All2 (ArgRel W pm mm heap) [.val a, .val b, .val c] ts) :
    ∃ ta tb tc, ts = [ta, tb, tc] ∧ VRel W pm mm a ta ∧ VRel W pm mm b tb ∧ VRel W pm mm c tc := by
  cases h with
  | cons r h => cases h with
    | cons r' h => cases h with
      | cons r'' h => cases h; exact ⟨_, _, _, rfl, r, r', r''⟩

theorem notStack_cell {W opn p mm heap x c} (hi : Inv W opn p mm heap) (h : W.H x = .cell c) :
    ¬ OnStack p.post x := hi.notStack (by rw [h]; exact fun h => h)

/-- creating a cell and memoising it: the memo has the cell, and (if it was not there before) the new one -/
structure CellSt (W : World) (opn : Key → Prop) (x : Addr) (p0 : P) (m0 : M) (p : P) (m : M) (i t : Nat) :
    Prop where
  stack : m.stack = .ref t :: m0.stack
  metas : m.metas = m0.metas
  ext : ExtBut NoB NoX p0 m0.memo m0.heap p m.memo m.heap
  inv : Inv W opn p m.memo m.heap
  key : p.memo[i]? = some (.obj x)
  val : m.memo[i]? = some (.ref t)
  new : m0.heap.length ≤ t

theorem shape_cell {W pm mm heap x t c c'} (h : W.H x = .cell c) (h' : heap[t]? = some (.cell c')) :
    Shape W pm mm heap (.obj x) (.ref t) := by
  refine .inr ?_; simp only [ShapeObj, h]; exact ⟨t, c', rfl, h'⟩

theorem shape_cell_inv {W pm mm heap x tv c} (h : W.H x = .cell c) (hs : Shape W pm mm heap (.obj x) tv) :
    ∃ t c, tv = .ref t ∧ heap[t]? = some (.cell c) := by
  rcases hs with hs | hs
  · have := hs.1; rw [h] at this; exact this.elim
  · simp only [ShapeObj, h] at hs; exact hs

/-- the contents is right straight away -/
theorem mkCell_good {W sv} (hw : WF W) (hs : SaveOK W sv) {x c arg opn p} {m : M} (hi : Inv W opn p m.memo m.heap)
    (hx : W.H x = .cell c) (hn : .obj x ∉ p.memo)
    (hg : ∀ pm mm tv, VRel W pm mm arg tv →
      ObjRel W pm mm x (.cell c) (.cell (if tv = .atom aCellEmpty then none else some tv))) :
    Run (callReduce sv W.createCell [.val arg] ;; memoOrGet x) p m
      (fun p' m' => ∃ i t, CellSt W opn x p m p' m' i t) := by
  refine Run.seq (Q1 := fun p1 m1 => ∃ (mx : M) (tv : TVal), m1 = mx.alloc (.cell (if tv = .atom aCellEmpty then none else some tv)) m.stack ∧
    VRel W p1.memo mx.memo arg tv ∧ mx.metas = m.metas ∧
    ExtBut NoB NoX p m.memo m.heap p1 mx.memo mx.heap ∧ Inv W opn p1 mx.memo mx.heap) ?_ ?_
  · refine callReduce_run hs _ _ opn NoX p m hi (ArgsOK.vals W opn NoX p [arg]) _ ?_
    intro p1 m1 tf ta tas h
    obtain ⟨tv, rfl, h1⟩ := args1 h.args
    rw [h.fn.atom hw.createCell]
    exact ⟨_, call_createCell _ _ _, m1, tv, rfl, h1, h.metas, h.ext, h.inv⟩
  · rintro p1 _ ⟨m1, tv, rfl, h1, h2, h3, h4⟩
    refine memoOrGet_run (t := m1.heap.length) (s := m.stack) rfl h4.len ?_ ?_
    · intro hnew
      obtain ⟨k1, k2⟩ := newObj (o := .cell (if tv = .atom aCellEmpty then none else some tv)) h4 hnew
        (notStack_cell h4 hx) (by rw [hx]; exact hg _ _ _ h1) (shape_cell hx List.getElem?_concat_length)
      exact ⟨p1.memo.length, m1.heap.length, rfl, h2, h3.trans k1, k2, by simp, by simp [M.alloc, h4.len], h3.hlen⟩
    · intro i tv' hk hv
      have hv' : m1.memo[i]? = some tv' := hv
      have hsh := h4.shape i _ _ hk hv'
      obtain ⟨t, _, rfl, _⟩ := shape_cell_inv hx hsh
      exact ⟨i, t, rfl, h2, h3.trans (ExtBut.alloc _ _ _ _ _ _), h4.alloc _, hk, hv,
        fresh_of_new hi h3 hn hk hv'⟩

/-- the contents follows later -/
theorem mkCell_open {W sv} (hw : WF W) (hs : SaveOK W sv) {x c arg opn p} {m : M} (hi : Inv W opn p m.memo m.heap)
    (hx : W.H x = .cell c) (hn : .obj x ∉ p.memo) :
    Run (callReduce sv W.createCell [.val arg] ;; memoOrGet x) p m
      (fun p' m' => ∃ i t, CellSt W (fun k => opn k ∨ k = .obj x) x p m p' m' i t) := by
  refine Run.seq (Q1 := fun p1 m1 => ∃ (mx : M) (tv : TVal), m1 = mx.alloc (.cell (if tv = .atom aCellEmpty then none else some tv)) m.stack ∧
    VRel W p1.memo mx.memo arg tv ∧ mx.metas = m.metas ∧
    ExtBut NoB NoX p m.memo m.heap p1 mx.memo mx.heap ∧ Inv W opn p1 mx.memo mx.heap) ?_ ?_
  · refine callReduce_run hs _ _ opn NoX p m hi (ArgsOK.vals W opn NoX p [arg]) _ ?_
    intro p1 m1 tf ta tas h
    obtain ⟨tv, rfl, h1⟩ := args1 h.args
    rw [h.fn.atom hw.createCell]
    exact ⟨_, call_createCell _ _ _, m1, tv, rfl, h1, h.metas, h.ext, h.inv⟩
  · rintro p1 _ ⟨m1, tv, rfl, h1, h2, h3, h4⟩
    refine memoOrGet_run (t := m1.heap.length) (s := m.stack) rfl h4.len ?_ ?_
    · intro hnew
      refine ⟨p1.memo.length, m1.heap.length, rfl, h2, ?_, ?_, by simp, by simp [M.alloc, h4.len], h3.hlen⟩
      · refine (h3.trans (ExtBut.alloc _ _ _ _ _ _)).thenMemo (by rintro t e; cases e; exact h3.hlen) ?_
        intro y hy hk
        rcases hk with e | e <;> cases e
        exact absurd hy (notStack_cell hi hx)
      · exact (h4.alloc _).memoOpen hnew (by simp) (fun i => h4.notin (Nat.le_refl _) i) (shape_cell hx List.getElem?_concat_length)
    · intro i tv' hk hv
      have hv' : m1.memo[i]? = some tv' := hv
      have hsh := h4.shape i _ _ hk hv'
      obtain ⟨t, _, rfl, _⟩ := shape_cell_inv hx hsh
      exact ⟨i, t, rfl, h2, h3.trans (ExtBut.alloc _ _ _ _ _ _),
        (h4.alloc _).opening (.inl (List.mem_of_getElem? hk)), hk, hv, fresh_of_new hi h3 hn hk hv'⟩

theorem pending_addRed {y r post k} (h : Pending post k) : Pending (addRed y r post) k := by
  obtain ⟨e, he, r', hr, ht⟩ := h
  obtain ⟨z, l⟩ := e
  refine ⟨if z = y then (z, l ++ [r]) else (z, l), List.mem_map.2 ⟨(z, l), he, rfl⟩, r', ?_, ht⟩
  split
  · simp only [List.mem_append]; exact .inl hr
  · exact hr

theorem pending_added {y r post} (h : OnStack post y) : Pending (addRed y r post) (target r) := by
  obtain ⟨e, he, rfl⟩ := h
  exact ⟨(e.1, e.2 ++ [r]), List.mem_map.2 ⟨e, he, by simp⟩, r, by simp, rfl⟩

theorem mem_addRed {y r post e} (h : e ∈ addRed y r post) :
    ∃ e0 ∈ post, e.1 = e0.1 ∧ ∀ r' ∈ e.2, r' ∈ e0.2 ∨ r' = r := by
  obtain ⟨e0, he, rfl⟩ := List.mem_map.1 h
  obtain ⟨z, l⟩ := e0
  refine ⟨(z, l), he, ?_, ?_⟩
  · simp only; split <;> rfl
  · intro r' hr
    simp only at hr
    split at hr
    · simpa using hr
    · exact .inl hr

theorem onStack_addRed {y r post z} : OnStack (addRed y r post) z ↔ OnStack post z := by
  constructor
  · rintro ⟨e, he, rfl⟩
    obtain ⟨e0, h0, h1, _⟩ := mem_addRed he
    exact ⟨e0, h0, h1.symm⟩
  · rintro ⟨e, he, rfl⟩
    obtain ⟨z, l⟩ := e
    exact ⟨_, List.mem_map.2 ⟨(z, l), he, rfl⟩, by simp only; split <;> rfl⟩

theorem PostExt.addRed {pm pm' a b y r} (h : PostExt pm pm' a b) (h1 : target r ∈ pm') (h2 : target r ∉ pm) :
    PostExt pm pm' a (addRed y r b) := by
  unfold PostExt at *
  induction h with
  | nil => exact .nil
  | @cons a b as bs h' _ ih =>
    refine .cons ?_ ih
    obtain ⟨e, n, hn, hm⟩ := h'
    obtain ⟨z, l⟩ := b
    simp only
    split
    · refine ⟨e, n ++ [r], ?_, ?_⟩
      · simp only at hn ⊢; rw [hn, List.append_assoc]
      · intro r' hr
        rcases List.mem_append.1 hr with hr | hr
        · exact hm r' hr
        · simp at hr; subst hr; exact ⟨h1, h2⟩
    · exact ⟨e, n, hn, hm⟩

theorem PostExt.addRed_left {pm pm' a b y r} (h : PostExt pm pm' (Core.addRed y r a) b) (h1 : target r ∈ pm')
    (h2 : target r ∉ pm) : PostExt pm pm' a b := by
  unfold PostExt at *
  induction a generalizing b with
  | nil => cases h; exact .nil
  | cons a as ih =>
    obtain ⟨z, l⟩ := a
    unfold Core.addRed at h
    simp only [List.map_cons] at h
    cases h with
    | @cons _ b _ bs h' h =>
      refine .cons ?_ (ih h)
      obtain ⟨e, n, hn, hm⟩ := h'
      split at e
      · rename_i hz
        rw [if_pos hz] at hn
        refine ⟨e, r :: n, by rw [hn]; simp, ?_⟩
        intro r' hr
        rcases List.mem_cons.1 hr with hr | hr
        · subst hr; exact ⟨h1, h2⟩
        · exact hm r' hr
      · rename_i hz
        rw [if_neg hz] at hn
        exact ⟨e, n, hn, hm⟩

theorem Inv.addRed {W opn p mm heap} (hi : Inv W opn p mm heap) (y : Addr) {r} (hr : RedStatic W r) :
    Inv W opn { p with post := addRed y r p.post } mm heap := by
  refine hi.repost _ (fun _ _ _ _ _ h => .inl (pending_addRed h)) ?_ ?_ (fun x h => onStack_addRed.2 h)
  · intro e he r' hr'
    obtain ⟨e0, h0, _, h2⟩ := mem_addRed he
    rcases h2 r' hr' with h | h
    · exact hi.reds e0 h0 r' h
    · subst h; exact hr
  · intro e he
    obtain ⟨e0, h0, h1, _⟩ := mem_addRed he
    rw [h1]; exact hi.kind e0 h0

theorem cellHost_onStack {p v y} (h : cellHost p v = some y) : OnStack p.post y := by
  have head : ∀ {y}, p.post.head?.map (·.1) = some y → OnStack p.post y := by
    intro y h
    cases hp : p.post with
    | nil => rw [hp] at h; cases h
    | cons e l => rw [hp] at h; simp at h; exact ⟨e, by simp, h⟩
  unfold cellHost at h
  split at h
  · split at h
    · rename_i hs; cases h; exact (onStack_iff _ _).1 hs
    · exact head h
  · exact head h

theorem saveCell_run {W sv} (hw : WF W) (hs : SaveOK W sv) {x c opn p} {m : M} (hi : Inv W opn p m.memo m.heap)
    (hx : W.H x = .cell c) (hn : .obj x ∉ p.memo) :
    Run (saveCell W sv x c) p m (Saved W opn (.ref x) p m) := by
  have hwo := hw.obj x
  rw [hx] at hwo
  cases c with
  | none =>
    unfold saveCell
    have assoc : ∀ (a b c d : PM), Run ((a ;; b) ;; c ;; d) p m (Saved W opn (.ref x) p m) →
        Run (a ;; b ;; c ;; d) p m (Saved W opn (.ref x) p m) := by
      intro a b c d h p' ops he
      refine h p' ops ?_
      unfold andThen at he ⊢
      cases ha : a p with
      | error e => rw [ha] at he; cases he
      | ok q =>
        obtain ⟨p1, o1⟩ := q
        rw [ha] at he
        simp only at he ⊢
        cases hb : b p1 with
        | error e => rw [hb] at he; cases he
        | ok q =>
          obtain ⟨p2, o2⟩ := q
          rw [hb] at he
          simp only at he ⊢
          cases hc : c p2 with
          | error e => rw [hc] at he; cases he
          | ok q =>
            obtain ⟨p3, o3⟩ := q
            rw [hc] at he
            simp only at he ⊢
            cases hd : d p3 with
            | error e => rw [hd] at he; cases he
            | ok q =>
              obtain ⟨p4, o4⟩ := q
              rw [hd] at he
              simp only at he ⊢
              rw [← he]; simp
    refine assoc _ _ _ _ ?_
    refine Run.seq (mkCell_good hw hs hi hx hn ?_) ?_
    · intro pm mm tv h
      rw [h.atom hw.cellEmpty]; simp [ObjRel]
    · rintro p1 m1 ⟨i, t, hC⟩
      refine Run.seq (Q1 := fun p2 m2 => m2.stack = .atom .none :: m1.stack ∧ m2.metas = m.metas ∧
        ExtBut NoB NoX p m.memo m.heap p2 m2.memo m2.heap ∧ Inv W opn p2 m2.memo m2.heap ∧
        VRel W p2.memo m2.memo (.ref x) (.ref t)) ?_ ?_
      · refine callReduce_run hs _ _ opn NoX p1 m1 hC.inv (ArgsOK.vals W opn NoX p1 [.ref x, W.contents]) _ ?_
        intro p2 m2 tf ta tas h
        obtain ⟨tx, tc, rfl, h1, h2⟩ := args2 h.args
        rw [h.fn.atom hw.delattr, h2.atom hw.contents]
        have f1 := prefix_get h.ext.pmPre hC.key
        have f2 := prefix_get h.ext.mmPre hC.val
        have hr := h.inv.vrel f1 f2
        rw [VRel.fun h.inv h1 hr rfl]
        have hsh := h.inv.shape i _ _ f1 f2
        obtain ⟨t', c, e, hc⟩ := shape_cell_inv hx hsh
        cases e
        refine ⟨_, call_delattr _ _ _ _ hc, rfl, h.metas.trans hC.metas,
          (hC.ext.trans h.ext).strict (ExtBut.set (but := (· = t)) _ _ _ _ _ _ (fun _ => rfl))
            (fun j hj => by rw [hj]; exact hC.new), ?_, hr⟩
        refine h.inv.set t _ ?_
        intro j k g1 g2
        have := h.inv.inj i j _ f2 g1
        subst this
        rw [f1] at g2; cases g2
        have hlt := (List.getElem?_eq_some_iff.1 hc).1
        exact ⟨shape_cell hx (List.getElem?_set_self hlt),
          .inr (.inr (.inr ⟨t, _, rfl, List.getElem?_set_self hlt, by rw [hx]; simp [ObjRel]⟩))⟩
      · rintro p2 m2 ⟨h1, h2, h3, h4, h5⟩
        refine Run.emit1 (m' := { m2 with stack := m1.stack }) (by simp [step, h1]) ?_
        exact ⟨.ref t, hC.stack, h2, h3, h4, h5⟩
  | some v =>
    unfold saveCell
    intro p' ops he
    simp only at he
    cases hh : cellHost p v with
    | some y =>
      rw [hh] at he
      simp only at he
      split at he
      · cases he
      · rename_i p1 o1 hb
        cases he
        obtain ⟨m1, h1, i, t, hC⟩ := mkCell_open hw hs (arg := .atom .none) hi hx hn p1 ops hb
        have hy : OnStack p1.post y := (hC.ext.post.onStack y).1 (cellHost_onStack hh)
        have hi1 := hC.inv.addRed y (r := .setCell x v) hx
        refine ⟨m1, h1, .ref t, hC.stack, hC.metas, ?_, ?_, hC.inv.vrel hC.key hC.val⟩
        · refine ⟨hC.ext.hlen, hC.ext.heapEq, hC.ext.mmPre, hC.ext.pmPre, hC.ext.fresh, ?_, hC.ext.stay⟩
          exact hC.ext.post.addRed (List.mem_of_getElem? hC.key) hn
        · refine hi1.reopen opn ?_ (fun z hz => hi1.opnOK z (.inl hz))
          intro j k tv g1 g2 g3 g4 g5
          rcases g4 with g4 | rfl
          · exact absurd g4 g3
          · exact absurd (pending_added (r := .setCell x v) hy) g5
    | none =>
      rw [hh] at he
      simp only at he
      obtain ⟨m1, h1, i, t, hC⟩ := mkCell_good hw hs (arg := v) hi hx hn (fun pm mm tv h => by
        rw [if_neg]
        · exact ⟨tv, rfl, h⟩
        · rintro rfl; exact hwo (h.of_atom hw.notEmpty)) p' ops he
      exact ⟨m1, h1, .ref t, hC.stack, hC.metas, hC.ext, hC.inv, hC.inv.vrel hC.key hC.val⟩

end Verif.Core
