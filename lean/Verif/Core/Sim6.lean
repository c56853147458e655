import Verif.Core.Sim5
/-! Functions and classes, and the simulation theorem (used for C01-C05). -/
set_option linter.unusedSimpArgs false
namespace Verif.Core
open Spec

theorem onStack_push {post : List (Addr × List Red)} {x l} : OnStack (post ++ [(x, l)]) x :=
  ⟨(x, l), by simp, rfl⟩

theorem memoNew_run {p : P} {m : M} {t : Nat} {s x} {Q : P → M → Prop} (hst : m.stack = .ref t :: s)
    (hn : .obj x ∉ p.memo)
    (h1 : Q { p with memo := p.memo ++ [.obj x] } { m with memo := m.memo ++ [.ref t] }) :
    Run (memoOrGet x) p m Q := by
  intro p' ops he
  unfold memoOrGet at he
  cases hx : idx p.memo (.obj x) with
  | none =>
    rw [hx] at he; cases he
    exact ⟨_, by simp [exec, step, hst], h1⟩
  | some i => exact absurd (List.mem_of_getElem? (idx_some hx)) hn

/-- memoOrGet for a function or class on the stack: it has been met again and saved by name, or not -/
theorem memoName_run {W opn but ex p0 mm0 heap0} {p : P} {m : M} {t : Nat} {s x} {Q : P → M → Prop}
    (hst : m.stack = .ref t :: s) (hext : ExtBut but ex p0 mm0 heap0 p m.memo m.heap) (hi : Inv W opn p m.memo m.heap)
    (hn : .obj x ∉ p0.memo) (hon : OnStack p0.post x) (hex : ¬ ex (.obj x))
    (h1 : .obj x ∉ p.memo → Q { p with memo := p.memo ++ [.obj x] } { m with memo := m.memo ++ [.ref t] })
    (h2 : ∀ (i : Nat) (a : Atom), p.memo[i]? = some (.obj x) → m.memo[i]? = some (.atom a) →
      Q p { m with stack := .atom a :: s }) :
    Run (memoOrGet x) p m Q := by
  by_cases hm : .obj x ∈ p.memo
  · rcases hext.stay x _ hon (.inl rfl) hex hm with h | ⟨_, i, a, g1, g2⟩
    · exact absurd h hn
    · intro p' ops he
      unfold memoOrGet at he
      obtain ⟨j, hj⟩ := idx_isSome hm
      have := hi.nodup i j _ g1 (idx_some hj) (by simp)
      subst this
      rw [hj] at he; cases he
      exact ⟨{ m with stack := .atom a :: s }, by simp [exec, step, hst, g2], h2 i a g1 g2⟩
  · exact memoNew_run hst hm (h1 hm)

/-- what is memoised while the parts are saved that are needed to create `x` -/
theorem circ_of_grow {W p x} {q : P} (hfc : isFC (W.H x)) (hn : .obj x ∉ p.memo)
    {pre} (hg : G W (fun y => ∃ v ∈ makeRefs (W.H x), Eager W x v y) pre p q) (hm : .obj x ∈ q.memo) : Circular W x := by
  rcases hg.memo x hm with h | h | h
  · exact absurd h hn
  · exact h
  · cases hx : W.H x <;> rw [hx] at h hfc <;> first | exact h.elim | exact hfc.elim

theorem av_eager {W x} {vs : List Val} {v} (hv : v ∈ vs) : AV W (fun y => ∃ v ∈ vs, Eager W x v y) v := by
  cases v with
  | atom a => exact .inl ⟨a, rfl⟩
  | ref y => exact .inr ⟨y, rfl, _, hv, .here rfl⟩

/-! ### classes -/

theorem saveCls_run {W sv} (hw : WF W) (hs : SaveOK W sv) (hl : GrowOK W sv) {x mt name bases dict qual opn p} {m : M}
    (hi : Inv W opn p m.memo m.heap) (hx : W.H x = .cls mt name bases dict qual) (hn : .obj x ∉ p.memo) :
    Run (saveCls W sv x mt name bases dict qual) p m (Saved W opn (.ref x) p m) := by
  have hkn : KOK W dict := by
    have := hw.obj x; rw [hx] at this
    exact ⟨this, x, fun v hv => by rw [hx]; simp [Spec.refs, hv]⟩
  unfold saveCls
  refine (withPost_run hw hs (ks := [.obj x]) hi hn (by rw [hx]; trivial) ?_ (by simp) ?_).conseq
    (fun _ _ h => h.1)
  · intro r hr
    simp at hr; subst hr
    exact ⟨⟨_, _, _, _, hx⟩, .inl rfl, by simp [target]⟩
  · intro hns hgl hi1
    refine Run.seq (Run.and (R := fun q => G W (fun y => ∃ v ∈ makeRefs (W.H x), Eager W x v y) ((p.post ++ [(x, [Red.setQual x qual])]).map (·.1)) { p with post := p.post ++ [(x, [.setQual x qual])] } q) (Q := fun p1 m1 => ∃ (mx : M) (a b c : TVal) (d : List (TVal × TVal)),
      m1 = mx.alloc (.cls a b c d none) m.stack ∧ mx.metas = m.metas ∧
      ExtBut NoB NoX { p with post := p.post ++ [(x, [.setQual x qual])] } m.memo m.heap p1 mx.memo mx.heap ∧
      Inv W (fun k => opn k ∨ OfAddr k x) p1 mx.memo mx.heap ∧
      VRel W p1.memo mx.memo mt a ∧ VRel W p1.memo mx.memo name b ∧ VRel W p1.memo mx.memo bases c ∧
      All2 (KVRel W p1.memo mx.memo) dict d) ?_ ?_) ?_
    · have hA : ArgsOK W (fun k => opn k ∨ OfAddr k x) NoX { p with post := p.post ++ [(x, [.setQual x qual])] }
          [.val mt, .val name, .val bases, .dict .anon dict] := ⟨hkn, .inl rfl, trivial, by simp⟩
      refine callReduce_run hs _ _ _ NoX _ m hi1 hA _ ?_
      intro p1 m1 tf ta tas h
      have hargs := h.args
      cases hargs with
      | cons r1 hargs => cases hargs with
        | cons r2 hargs => cases hargs with
          | cons r3 hargs => cases hargs with
            | cons r4 hargs =>
              cases hargs
              obtain ⟨t, kvs, rfl, h1, h2, _⟩ := r4
              rw [h.fn.atom hw.createType]
              exact ⟨_, call_createType _ _ _ _ _ _ _ (by simp [M.dictOf, h1]), m1, _, _, _, kvs, rfl, h.metas,
                h.ext, h.inv, r1, r2, r3, h2⟩
    · intro q ops he
      refine gr_call (hl _ _ (parts_eager x (makeRefs (W.H x)) _ (by simp))) _ (.inl ⟨_, hw.createType⟩) _ ?_ _ _ _ (Stk.self { p with post := p.post ++ [(x, [.setQual x qual])] }) he
      intro a ha
      simp only [List.mem_cons, List.not_mem_nil, or_false] at ha
      rcases ha with rfl | rfl | rfl | rfl
      · exact av_eager (by simp [hx, makeRefs])
      · exact av_eager (by simp [hx, makeRefs])
      · exact av_eager (by simp [hx, makeRefs])
      · exact ⟨by simp, fun v hv => av_eager (by simp [hx, makeRefs, hv])⟩
    · rintro p1 _ ⟨⟨m1, a, b, c, d, rfl, h1, h2, h3, r1, r2, r3, r4⟩, hgr⟩
      have hpend : ∀ pm, Pending { p1 with memo := pm }.post (.obj x) := by
        intro pm
        obtain ⟨e, he, hxe, n, hnn, _⟩ := h2.post.mem_left (a := (x, [Red.setQual x qual])) (by simp)
        exact ⟨e, he, .setQual x qual, by rw [hnn]; simp, rfl⟩
      have hglob : .globs x ∉ p1.memo := by
        intro h
        rcases h2.stay x _ onStack_push (.inr rfl) (fun h => h) h with h | ⟨h, _⟩
        · exact hgl h
        · cases h
      refine memoName_run (t := m1.heap.length) (s := m.stack) rfl (h2.trans (ExtBut.alloc _ _ _ _ _ _)) (h3.alloc _) hn
        onStack_push (fun h => h) ?_ ?_
      case refine_2 =>
        intro i a' g1 g2
        refine ⟨⟨.atom a', rfl, h3.vrel g1 g2⟩, h1, h2.le.trans (ExtBut.alloc _ _ _ _ _ _), h3.alloc _, ?_, ?_, ?_⟩
        · simp only [List.mem_singleton]; rintro k rfl; exact List.mem_of_getElem? g1
        · rintro j k tv (rfl | rfl) e1 e2
          · exact .inl (hpend p1.memo)
          · exact absurd (List.mem_of_getElem? e1) hglob
        · intro _ _ _ _
          exact circ_of_grow (p := { p with post := p.post ++ [(x, [.setQual x qual])] }) (by rw [hx]; trivial) hn hgr (List.mem_of_getElem? g1)
      intro hn1
      have hp := prefix_append_one p1.memo (Key.obj x)
      have hm := prefix_append_one m1.memo (TVal.ref m1.heap.length)
      have hshape : Shape W (p1.memo ++ [.obj x]) (m1.memo ++ [.ref m1.heap.length])
          (m1.heap ++ [TObj.cls a b c d none]) (.obj x) (.ref m1.heap.length) := by
        refine .inr ?_
        unfold ShapeObj
        rw [hx]
        exact ⟨_, a, b, c, d, none, rfl, List.getElem?_concat_length, r1.mono hp hm, r2.mono hp hm, r3.mono hp hm,
          r4.mono fun _ _ r => r.mono hp hm⟩
      have hinv : Inv W (fun k => opn k ∨ OfAddr k x) { p1 with memo := p1.memo ++ [.obj x] }
          (m1.memo ++ [.ref m1.heap.length]) (m1.heap ++ [TObj.cls a b c d none]) := by
        refine (h3.alloc _).memo _ _ (fun _ => hn1) ?_ hshape (.inl (.inr (.inl rfl))) (by simp)
        rintro t e; cases e
        exact ⟨by simp, fun i => h3.notin (Nat.le_refl _) i⟩
      have hext : ExtBut NoB (fun k => OfAddr k x) { p with post := p.post ++ [(x, [.setQual x qual])] } m.memo
          m.heap { p1 with memo := p1.memo ++ [.obj x] } (m1.memo ++ [.ref m1.heap.length])
          (m1.heap ++ [TObj.cls a b c d none]) := by
        refine (h2.le.trans (ExtBut.alloc _ _ _ _ _ _)).thenMemo (by rintro t e; cases e; exact h2.hlen) ?_
        intro y hy hk
        exact .inl rfl
      refine ⟨⟨.ref m1.heap.length, rfl, ?_⟩, h1, hext, hinv, by simp, ?_, ?_⟩
      · exact hinv.vrel (i := p1.memo.length) (by simp) (by simp [M.alloc, h3.len])
      · rintro i k tv (rfl | rfl) g1 g2
        · exact .inl (hpend _)
        · exfalso
          have hm' := List.mem_of_getElem? g1
          simp at hm'
          exact hglob hm'
      · intro i a' g1 g2
        exfalso
        have := hinv.nodup i p1.memo.length _ g1 (by simp) (by simp)
        subst this
        simp [M.alloc, h3.len] at g2

/-! ### functions -/

/-- making the function object -/
theorem mkFunction_ref {m : M} {t kvs} (h : m.heap[t]? = some (.node .dict [] kvs [] none)) (hne : kvs ≠ [])
    (code name df cl : TVal) (s : List TVal) :
    ∃ d', (d' = kvs ∨ d' = kvs ++ [(.atom aBuiltins, .atom aBuiltinsVal)]) ∧
      mkFunction m code (.ref t) name df cl s =
        some ((m.setObj t (.node .dict [] d' [] none)).alloc (.func code (.ref t) name df cl [] []) s) := by
  refine ⟨if (lookupD kvs (.atom aBuiltins)).isSome then kvs else kvs ++ [(.atom aBuiltins, .atom aBuiltinsVal)],
    ?_, ?_⟩
  · split
    · exact .inl rfl
    · exact .inr rfl
  · simp [mkFunction, h, hne]

theorem call_createFunction (m : M) (code g name df cl : TVal) (s : List TVal) :
    call m (.atom aCreateFunction) [code, g, name, df, cl] s = mkFunction m code g name df cl s := by
  unfold call
  rw [if_pos rfl]

def funcGlobArg (x : Addr) : Globs → Arg
  | .byRef v => .val v
  | .copied init _ => .dict (.globs x) init

/-- the function has been created, but has no state yet -/
structure FuncSt (W : World) (opn1 : Key → Prop) (x : Addr) (code : Val) (g : Globs) (name df cl : Val)
    (p0 : P) (m0 : M) (p : P) (m : M) (t : Nat) : Prop where
  stack : m.stack = .ref t :: m0.stack
  metas : m.metas = m0.metas
  ext : ExtBut NoB (· = .globs x) p0 m0.memo m0.heap p m.memo m.heap
  inv : Inv W opn1 p m.memo m.heap
  new : m0.heap.length ≤ t
  notin : ∀ i : Nat, m.memo[i]? ≠ some (.ref t)
  obj : ∃ code' g' name' df' cl', m.heap[t]? = some (.func code' g' name' df' cl' [] []) ∧
    VRel W p.memo m.memo code code' ∧ GlobRel W p.memo m.memo x g g' ∧ VRel W p.memo m.memo name name' ∧
    VRel W p.memo m.memo df df' ∧ VRel W p.memo m.memo cl cl'
  globs : ∀ init copy, g = .copied init copy → .globs x ∈ p.memo

theorem makeFunc_run {W sv} (hw : WF W) (hs : SaveOK W sv) {x code g name df cl attrs slots opn1 p} {m : M}
    (hi : Inv W opn1 p m.memo m.heap) (hx : W.H x = .func code g name df cl attrs slots)
    (hon : OnStack p.post x) (hopn : opn1 (.globs x)) (hgl : .globs x ∉ p.memo) :
    Run (callReduce sv W.createFunction [.val code, funcGlobArg x g, .val name, .val df, .val cl]) p m
      (fun p' m' => ∃ t, FuncSt W opn1 x code g name df cl p m p' m' t) := by
  have hwo := hw.obj x
  rw [hx] at hwo
  have hA : ArgsOK W opn1 (· = .globs x) p [.val code, funcGlobArg x g, .val name, .val df, .val cl] := by
    cases g with
    | byRef v => trivial
    | copied init copy =>
      refine ⟨⟨hwo.1.2.1, x, fun v hv => by rw [hx]; simp [Spec.refs, hv]⟩, .inr ⟨x, rfl, rfl, hopn, hon, hgl, ?_⟩, trivial, ?_⟩
      · intro e he; simp [globSrc, hx, he]
      · intro _ a ha
        simp at ha
        rcases ha with rfl | rfl | rfl <;> exact ⟨_, rfl⟩
  refine callReduce_run hs _ _ opn1 (· = .globs x) p m hi hA _ ?_
  intro p1 m1 tf ta tas h
  have hargs := h.args
  cases hargs with
  | cons r1 hargs => cases hargs with
    | cons r2 hargs => cases hargs with
      | cons r3 hargs => cases hargs with
        | cons r4 hargs => cases hargs with
          | cons r5 hargs =>
            cases hargs
            rename_i a1 a2 a3 a4 a5
            rw [h.fn.atom hw.createFunction, call_createFunction]
            cases g with
            | byRef v =>
              obtain ⟨a, ha⟩ := hwo.1
              have e2 := VRel.atom r2 ha
              subst e2
              refine ⟨_, rfl, m1.heap.length, rfl, h.metas, h.ext.trans (ExtBut.alloc _ _ _ _ _ _), h.inv.alloc _,
                h.ext.hlen, fun i => h.inv.notin (Nat.le_refl _) i, ?_, by intro _ _ e; cases e⟩
              exact ⟨a1, .atom a, a3, a4, a5, List.getElem?_concat_length, r1, r2, r3, r4, r5⟩
            | copied init copy =>
              obtain ⟨tg, kvs, rfl, h1, h2, i, h3, h4⟩ := r2
              have hne : kvs ≠ [] := by
                rintro rfl
                cases h2; exact hwo.1.1 rfl
              obtain ⟨d', hd', hmk⟩ := mkFunction_ref h1 hne a1 a3 a4 a5 m.stack
              have hlt := (List.getElem?_eq_some_iff.1 h1).1
              have hfr : m.heap.length ≤ tg := fresh_of_new hi h.ext hgl h3 h4
              have hinv : Inv W opn1 p1 m1.memo (m1.heap.set tg (.node .dict [] d' [] none)) := by
                refine h.inv.set tg _ ?_
                intro j k g1 g2
                have := h.inv.inj i j _ h4 g1
                subst this
                rw [h3] at g2; cases g2
                refine ⟨⟨tg, d', rfl, List.getElem?_set_self hlt, ?_⟩, .inl hopn⟩
                obtain ⟨t', es, e, he, hal⟩ := h.inv.shape i _ _ h3 h4
                cases e
                rw [h1] at he; cases he
                intro e he
                rcases hd' with rfl | rfl
                · exact hal e he
                · rcases List.mem_append.1 he with he | he
                  · exact hal e he
                  · simp at he; subst he; exact .inl rfl
              refine ⟨_, hmk, m1.heap.length, ?_, h.metas, ?_, ?_, h.ext.hlen,
                fun i => h.inv.notin (Nat.le_refl _) i, ?_, fun _ _ _ => List.mem_of_getElem? h3⟩
              · simp [M.alloc, M.setObj]
              · exact (h.ext.strict (ExtBut.set (but := (m.heap.length ≤ ·)) _ _ _ _ tg _ (fun _ => hfr))
                  (fun i h => h)).trans (ExtBut.alloc _ _ _ _ _ _)
              · exact hinv.alloc _
              · refine ⟨a1, .ref tg, a3, a4, a5, ?_, r1, ⟨i, tg, h3, h4, rfl⟩, r3, r4, r5⟩
                simp [M.alloc, M.setObj]

/-- giving the function its attributes -/
theorem saveFuncState_run {W sv} (hs : SaveOK W sv) {x attrs slots opn p t s} {m : M}
    (hi : Inv W opn p m.memo m.heap) (hka : KOK W attrs) (hks : KOK W slots) {i : Nat}
    (hk : p.memo[i]? = some (.obj x)) (hv : m.memo[i]? = some (.ref t)) (hst : m.stack = .ref t :: s)
    {code g name df cl code' g' name' df' cl'}
    (hx : W.H x = .func code g name df cl attrs slots) (ho : opn (.obj x))
    (ht : m.heap[t]? = some (.func code' g' name' df' cl' [] [])) :
    Run (saveFuncState sv attrs slots) p m (fun p' m' => m'.stack = m.stack ∧ m'.metas = m.metas ∧
      ExtBut (· = t) NoX p m.memo m.heap p' m'.memo m'.heap ∧ Inv W opn p' m'.memo m'.heap ∧
      ∃ a' s', All2 (KVRel W p'.memo m'.memo) attrs a' ∧ All2 (KVRel W p'.memo m'.memo) slots s' ∧
        m'.heap[t]? = some (.func code' g' name' df' cl' a' s')) := by
  have hset : ∀ p1 (m1 : M), ExtBut NoB NoX p m.memo m.heap p1 m1.memo m1.heap → Inv W opn p1 m1.memo m1.heap →
      ∀ o, Inv W opn p1 m1.memo (m1.heap.set t o) := by
    intro p1 m1 h1 h2 o
    refine h2.set t o ?_
    intro j k g1 g2
    have := h2.inj i j _ (prefix_get h1.mmPre hv) g1
    subst this
    rw [prefix_get h1.pmPre hk] at g2; cases g2
    refine ⟨.inr ?_, .inl ho⟩
    unfold ShapeObj
    rw [hx]; exact ⟨t, rfl⟩
  have hlt := (List.getElem?_eq_some_iff.1 ht).1
  unfold saveFuncState
  split
  · rename_i hem
    simp at hem
    refine Run.seq (saveDict_run hs .anon attrs opn NoX p m hi (.inl rfl) hka) ?_
    rintro p1 m1 ⟨tv, h1, h2, h3, h4, ta, ka, rfl, h6, h7, _⟩
    have ht1 := h3.get ht (fun x => x.elim)
    refine Run.emit1 (m' := { m1.setObj t (.func code' g' name' df' cl' ka []) with stack := .ref t :: s }) ?_ ?_
    · simp [step, h1, hst, ht1, M.setObj, M.stateOf, M.tupleOf, M.dictOf, h6, upserts, upserts_nil (hka.keys h4 h7)]
    · refine ⟨hst.symm, h2, h3.le.trans (ExtBut.set _ _ _ _ _ _ (fun _ => rfl)), hset p1 m1 h3 h4 _, ka, [], h7,
        by rw [hem]; exact .nil, ?_⟩
      exact List.getElem?_set_self (Nat.lt_of_lt_of_le hlt h3.hlen)
  · refine Run.seq (saveDict_run hs .anon attrs opn NoX p m hi (.inl rfl) hka) ?_
    rintro p1 m1 ⟨_, h1, h2, h3, h4, hA⟩
    refine Run.seq (saveDict_run hs .anon slots opn NoX p1 m1 h4 (.inl rfl) hks) ?_
    rintro p2 m2 ⟨_, k1, k2, k3, k4, hB⟩
    obtain ⟨ta, ka, rfl, a1, a2, _⟩ := hA.ext k3
    obtain ⟨tb, kb, rfl, b1, b2, _⟩ := hB
    refine Run.emitThen (m' := m2.alloc (.tuple [.ref ta, .ref tb]) m.stack) (by simp [step, k1, h1]) ?_
    refine Run.memoThen (v := .ref m2.heap.length) (s := m.stack) rfl ?_
    have hx3 := ExtBut.allocAnon NoB NoX p2 m2.memo m2.heap (.tuple [.ref ta, .ref tb])
    have hi3 := (k4.alloc (.tuple [.ref ta, .ref tb])).memoAnon (t := m2.heap.length) (by simp)
      (fun i => k4.notin (Nat.le_refl _) i)
    have hx4 := (h3.trans k3).trans hx3
    have ht1 := hx4.get ht (fun x => x.elim)
    have a1' := hx3.get a1 (fun x => x.elim)
    have b1' := hx3.get b1 (fun x => x.elim)
    refine Run.emit1 (m' := { M.setObj { m2.alloc (.tuple [.ref ta, .ref tb]) m.stack with memo := m2.memo ++ [.ref m2.heap.length] } t (.func code' g' name' df' cl' ka kb) with stack := .ref t :: s }) ?_ ?_
    · simp only [step, M.alloc, hst, M.stateOf, M.tupleOf, List.getElem?_concat_length, M.dictOf, a1', b1', ht1,
        upserts_nil (hka.keys k4 a2), upserts_nil (hks.keys k4 b2)]
    · refine ⟨hst.symm, k2.trans h2, hx4.le.trans (ExtBut.set _ _ _ _ _ _ (fun _ => rfl)),
        hset _ { m2.alloc (.tuple [.ref ta, .ref tb]) m.stack with memo := m2.memo ++ [.ref m2.heap.length] }
          hx4 hi3 _, ka, kb, kv_mono_ext hx3 a2, kv_mono_ext hx3 b2, ?_⟩
      exact List.getElem?_set_self (Nat.lt_of_lt_of_le hlt hx4.hlen)

/-- the same for a function found by name -/
theorem saveFuncStateNamed_run {W sv} (hs : SaveOK W sv) {attrs slots opn p a s} {m : M}
    (hi : Inv W opn p m.memo m.heap) (hka : KOK W attrs) (hks : KOK W slots) (hst : m.stack = .atom a :: s) :
    Run (saveFuncState sv attrs slots) p m (fun p' m' => m'.stack = m.stack ∧ m'.metas = m.metas ∧
      ExtBut NoB NoX p m.memo m.heap p' m'.memo m'.heap ∧ Inv W opn p' m'.memo m'.heap) := by
  unfold saveFuncState
  split
  · refine Run.seq (saveDict_run hs .anon attrs opn NoX p m hi (.inl rfl) hka) ?_
    rintro p1 m1 ⟨tv, h1, h2, h3, h4, ta, ka, rfl, h6, h7, _⟩
    refine Run.emit1 (m' := { m1 with stack := .atom a :: s }) ?_ ⟨hst.symm, h2, h3, h4⟩
    simp [step, h1, hst, M.stateOf, M.tupleOf, M.dictOf, h6]
  · refine Run.seq (saveDict_run hs .anon attrs opn NoX p m hi (.inl rfl) hka) ?_
    rintro p1 m1 ⟨_, h1, h2, h3, h4, hA⟩
    refine Run.seq (saveDict_run hs .anon slots opn NoX p1 m1 h4 (.inl rfl) hks) ?_
    rintro p2 m2 ⟨_, k1, k2, k3, k4, hB⟩
    obtain ⟨ta, ka, rfl, a1, a2, _⟩ := hA.ext k3
    obtain ⟨tb, kb, rfl, b1, b2, _⟩ := hB
    refine Run.emitThen (m' := m2.alloc (.tuple [.ref ta, .ref tb]) m.stack) (by simp [step, k1, h1]) ?_
    refine Run.memoThen (v := .ref m2.heap.length) (s := m.stack) rfl ?_
    have hx3 := ExtBut.allocAnon NoB NoX p2 m2.memo m2.heap (.tuple [.ref ta, .ref tb])
    have hi3 := (k4.alloc (.tuple [.ref ta, .ref tb])).memoAnon (t := m2.heap.length) (by simp)
      (fun i => k4.notin (Nat.le_refl _) i)
    have hx4 := (h3.trans k3).trans hx3
    have a1' := hx3.get a1 (fun x => x.elim)
    have b1' := hx3.get b1 (fun x => x.elim)
    refine Run.emit1 (m' := { m2.alloc (.tuple [.ref ta, .ref tb]) m.stack with memo := m2.memo ++ [.ref m2.heap.length], stack := .atom a :: s }) ?_ ⟨hst.symm, k2.trans h2, hx4, hi3⟩
    simp only [step, M.alloc, hst, M.stateOf, M.tupleOf, List.getElem?_concat_length, M.dictOf, a1', b1', Option.map_some]

theorem funcBody_run {W sv} (hw : WF W) (hs : SaveOK W sv) (hl : GrowOK W sv) {x code g name df cl attrs slots} {opn : Key → Prop} {p} {m : M}
    (hi : Inv W (fun k => opn k ∨ OfAddr k x) p m.memo m.heap) (hx : W.H x = .func code g name df cl attrs slots)
    (hon : OnStack p.post x) (hn : .obj x ∉ p.memo) (hgl : .globs x ∉ p.memo)
    (hpend : ∀ init copy, g = .copied init copy → Pending p.post (.globs x)) {ks}
    (hks : ∀ k ∈ ks, k = .obj x ∨ (k = .globs x ∧ ∃ init copy, g = .copied init copy)) :
    Run (callReduce sv W.createFunction [.val code, funcGlobArg x g, .val name, .val df, .val cl] ;; memoOrGet x ;;
      saveFuncState sv attrs slots) p m (BodyOK W (fun k => opn k ∨ OfAddr k x) x ks p m) := by
  have hwo := hw.obj x
  rw [hx] at hwo
  refine Run.seq ((makeFunc_run hw hs hi hx hon (.inr (.inr rfl)) hgl).and
    (R := fun q => G W (fun y => ∃ v ∈ makeRefs (W.H x), Eager W x v y) (p.post.map (·.1)) p q) ?_) ?_
  · intro q ops he
    refine gr_call (hl _ _ (parts_eager x (makeRefs (W.H x)) _ (by
      obtain ⟨e, he, hxe⟩ := hon; exact List.mem_map.2 ⟨e, he, hxe⟩))) _ (.inl ⟨_, hw.createFunction⟩) _ ?_ _ _ _ (.self _) he
    intro a ha
    simp only [List.mem_cons, List.not_mem_nil, or_false] at ha
    rcases ha with rfl | rfl | rfl | rfl | rfl
    · exact av_eager (by simp [hx, makeRefs])
    · cases g with
      | byRef v => exact av_eager (by simp [hx, makeRefs])
      | copied init copy => exact ⟨by simp, fun v hv => av_eager (by simp [hx, makeRefs, hv])⟩
    · exact av_eager (by simp [hx, makeRefs])
    · exact av_eager (by simp [hx, makeRefs])
    · exact av_eager (by simp [hx, makeRefs])
  rintro p1 m1 ⟨⟨t, hF⟩, hgr⟩
  obtain ⟨code', g', name', df', cl', ho, r1, r2, r3, r4, r5⟩ := hF.obj
  have hlt := (List.getElem?_eq_some_iff.1 ho).1
  refine Run.seq (Q1 := fun p2 m2 => (.obj x ∉ p1.memo ∧ p2 = { p1 with memo := p1.memo ++ [.obj x] } ∧
    m2 = { m1 with memo := m1.memo ++ [.ref t] }) ∨ ∃ (i : Nat) (a : Atom), p1.memo[i]? = some (.obj x) ∧
      m1.memo[i]? = some (.atom a) ∧ p2 = p1 ∧ m2 = { m1 with stack := .atom a :: m.stack })
    (memoName_run hF.stack hF.ext hF.inv hn hon (by simp) (fun h => .inl ⟨h, rfl, rfl⟩)
      (fun i a g1 g2 => .inr ⟨i, a, g1, g2, rfl, rfl⟩)) ?_
  rintro p2 m2 (⟨hn1, h2⟩ | ⟨i, a, g1, g2, rfl, rfl⟩)
  case inr =>
    refine (saveFuncStateNamed_run hs (opn := fun k => opn k ∨ OfAddr k x) (p := p2) (m := { m1 with stack := .atom a :: m.stack }) (a := a) (s := m.stack) hF.inv ⟨hwo.2.1, x, fun v hv => by rw [hx]; simp [Spec.refs, hv]⟩ ⟨hwo.2.2, x, fun v hv => by rw [hx]; simp [Spec.refs, hv]⟩ rfl).conseq ?_
    rintro p3 m3 ⟨k1, k2, k3, k4⟩
    have f1 := prefix_get k3.pmPre g1
    have f2 := prefix_get k3.mmPre g2
    refine ⟨⟨.atom a, k1, k4.vrel f1 f2⟩, k2.trans hF.metas, ?_, k4, ?_, ?_, ?_⟩
    · exact (hF.ext.weaken (ex' := fun k => OfAddr k x) (fun _ _ h => h) (fun _ k _ _ h => .inr h)).trans k3.le
    · intro k hk'
      rcases hks k hk' with rfl | ⟨rfl, init, copy, hg⟩
      · exact List.mem_of_getElem? f1
      · exact prefix_mem k3.pmPre (hF.globs _ _ hg)
    · rintro j k tv (rfl | rfl) e1 e2
      · right
        have := k4.nodup j _ _ e1 f1 (by simp)
        subst this
        rw [f2] at e2; cases e2
        rcases k4.shape _ _ _ f1 f2 with h | h
        · exact .inl (.inl h)
        · simp only [ShapeObj, hx] at h; obtain ⟨_, h⟩ := h; cases h
      · cases g with
        | copied init copy => exact .inl (k3.post.pending (hF.ext.post.pending (hpend _ _ rfl)))
        | byRef v =>
          right
          obtain ⟨t', es, e, he, _⟩ := k4.shape j _ _ e1 e2
          exact ⟨t', es, e, he, by simp [globCopy, hx]⟩
    · intro _ _ _ _
      exact circ_of_grow (by rw [hx]; trivial) hn hgr (List.mem_of_getElem? g1)
  have hinv : Inv W (fun k => opn k ∨ OfAddr k x) { p1 with memo := p1.memo ++ [.obj x] }
      (m1.memo ++ [.ref t]) m1.heap := by
    refine hF.inv.memo _ _ (fun _ => hn1) ?_ ?_ (.inl (.inr (.inl rfl))) (by simp)
    · rintro t' e; cases e
      exact ⟨hlt, hF.notin⟩
    · refine .inr ?_
      unfold ShapeObj
      rw [hx]; exact ⟨t, rfl⟩
  have hext : ExtBut NoB (fun k => OfAddr k x) p m.memo m.heap { p1 with memo := p1.memo ++ [.obj x] }
      (m1.memo ++ [.ref t]) m1.heap := by
    refine (hF.ext.weaken (ex' := fun k => OfAddr k x) (fun _ _ h => h) (fun _ k _ _ h => .inr h)).thenMemo
      (by rintro t' e; cases e; exact hF.new) ?_
    intro y hy hk
    exact .inl rfl
  have hp := prefix_append_one p1.memo (Key.obj x)
  have hm := prefix_append_one m1.memo (TVal.ref t)
  obtain ⟨e1, e2⟩ := h2
  rw [e1, e2]
  have hk : (p1.memo ++ [Key.obj x])[p1.memo.length]? = some (.obj x) := by simp
  have hv : (m1.memo ++ [TVal.ref t])[p1.memo.length]? = some (.ref t) := by simp [hF.inv.len]
  refine (saveFuncState_run hs (opn := fun k => opn k ∨ OfAddr k x) (p := { p1 with memo := p1.memo ++ [.obj x] }) (m := { m1 with memo := m1.memo ++ [.ref t] }) hinv ⟨hwo.2.1, x, fun v hv => by rw [hx]; simp [Spec.refs, hv]⟩ ⟨hwo.2.2, x, fun v hv => by rw [hx]; simp [Spec.refs, hv]⟩ hk hv hF.stack hx (.inr (.inl rfl)) ho).conseq ?_
  rintro p3 m3 ⟨k1, k2, k3, k4, a', s', k5, k6, k7⟩
  have f1 := prefix_get k3.pmPre hk
  have f2 := prefix_get k3.mmPre hv
  refine ⟨⟨.ref t, k1.trans hF.stack, k4.vrel f1 f2⟩, k2.trans hF.metas, ?_, k4, ?_, ?_, ?_⟩
  · refine hext.strict (k3.weaken (but' := (· = t)) (fun _ _ h => h) (fun _ _ _ _ h => h.elim)) ?_
    intro i h; rw [h]; exact hF.new
  · intro k hk'
    rcases hks k hk' with rfl | ⟨rfl, init, copy, hg⟩
    · exact List.mem_of_getElem? f1
    · exact prefix_mem k3.pmPre (by simp [hF.globs _ _ hg])
  · rintro i k tv (rfl | rfl) g1 g2
    · right
      have := k4.nodup i _ _ g1 f1 (by simp)
      subst this
      rw [f2] at g2; cases g2
      refine .inr ⟨t, _, rfl, k7, ?_⟩
      rw [hx]
      exact ⟨(r1.mono hp hm).mono k3.pmPre k3.mmPre, (r2.mono hp hm).mono k3.pmPre k3.mmPre,
        (r3.mono hp hm).mono k3.pmPre k3.mmPre, (r4.mono hp hm).mono k3.pmPre k3.mmPre,
        (r5.mono hp hm).mono k3.pmPre k3.mmPre, k5, k6⟩
    · cases g with
      | copied init copy => exact .inl (k3.post.pending (hext.post.pending (hpend _ _ rfl)))
      | byRef v =>
        right
        obtain ⟨t', es, e, he, _⟩ := k4.shape i _ _ g1 g2
        exact ⟨t', es, e, he, by simp [globCopy, hx]⟩
  · intro i a g1 g2
    exfalso
    have := k4.nodup i _ _ g1 f1 (by simp)
    subst this
    rw [f2] at g2; cases g2

theorem saveFunc_run {W sv} (hw : WF W) (hs : SaveOK W sv) (hl : GrowOK W sv) {x code g name df cl attrs slots opn p} {m : M}
    (hi : Inv W opn p m.memo m.heap) (hx : W.H x = .func code g name df cl attrs slots) (hn : .obj x ∉ p.memo) :
    Run (saveFunc W sv x code g name df cl attrs slots) p m (Saved W opn (.ref x) p m) := by
  have hfc : isFC (W.H x) := by rw [hx]; trivial
  cases g with
  | byRef v =>
    refine (withPost_run hw hs (l0 := []) (ks := [.obj x]) hi hn hfc (by simp) (by simp) ?_).conseq (fun _ _ h => h.1)
    intro hns hgl hi1
    exact funcBody_run hw hs hl hi1 hx onStack_push hn hgl (by intro _ _ h; cases h) (by simp)
  | copied init copy =>
    have hstat : RedStatic W (.setItems x copy) := ⟨_, _, _, _, _, _, _, hx⟩
    intro p' ops he
    simp only [saveFunc] at he
    split at he
    · rename_i y l hf
      have hy : OnStack p.post y := by
        refine ⟨(y, l), List.mem_of_find?_eq_some hf, rfl⟩
      by_cases hon : p.onStack x = true
      · rw [if_pos hon] at he
        have hos := (onStack_iff _ _).1 hon
        have hne : copy ≠ [] := by
          rintro rfl
          have := List.find?_some hf
          simp [valueAddrs] at this
        have hi' := hi.addRed y (r := .setDead x copy) ⟨hne, hfc⟩
        have honA := onStack_addRed (y := y) (r := .setDead x copy).2 hos
        have he' : saveGlobal W x { p with post := addRed y (.setDead x copy) p.post } = .ok (p', ops) := by
          unfold withPost at he
          rw [if_pos ((onStack_iff _ _).2 honA)] at he
          exact he
        obtain ⟨m', hm', ⟨tv, h1, h2, h3, h4, h5⟩, h6⟩ := saveGlobal_run hi' hn hfc honA p' ops he'
        refine ⟨m', hm', tv, h1, h2, ?_, h4, h5⟩
        refine ⟨h3.hlen, h3.heapEq, h3.mmPre, h3.pmPre, h3.fresh, ?_, ?_⟩
        · exact PostExt.addRed_left (r := .setDead x copy) h3.post h6 hn
        · intro z k hz hk hx' hm
          exact h3.stay z k (onStack_addRed.2 hz) hk hx' hm
      rw [if_neg hon] at he
      have hns : ¬ OnStack p.post x := fun h => hon ((onStack_iff _ _).2 h)
      have hi' := hi.addRed y hstat
      have key := withPost_run hw hs (l0 := []) (ks := [.obj x, .globs x]) (x := x)
        (body := callReduce sv W.createFunction [.val code, funcGlobArg x (.copied init copy), .val name, .val df, .val cl] ;; memoOrGet x ;;
          saveFuncState sv attrs slots) (p := { p with post := addRed y (.setItems x copy) p.post })
        hi' hn hfc (by simp) (by simp) (by
          intro hns hgl hi1
          refine funcBody_run hw hs hl hi1 hx onStack_push hn hgl ?_ ?_
          · intro _ _ _
            obtain ⟨e, he, r, hr, ht⟩ := pending_added (r := .setItems x copy) hy
            exact ⟨e, by simp [he], r, hr, ht⟩
          · intro k hk
            simp at hk
            rcases hk with rfl | rfl
            · exact .inl rfl
            · exact .inr ⟨rfl, _, _, rfl⟩)
      obtain ⟨m', hm', ⟨tv, h1, h2, h3, h4, h5⟩, _, h6⟩ := key p' ops he
      have hgl : .globs x ∉ p.memo := fun h => (hi.globsOK x h).elim hn hns
      refine ⟨m', hm', tv, h1, h2, ?_, h4, h5⟩
      refine ⟨h3.hlen, h3.heapEq, h3.mmPre, h3.pmPre, h3.fresh, ?_, ?_⟩
      · exact PostExt.addRed_left (r := .setItems x copy) h3.post (h6 (fun h => hns (onStack_addRed.1 h)) (.globs x) (by simp)) hgl
      · intro z k hz hk hx' hm
        exact h3.stay z k (onStack_addRed.2 hz) hk hx' hm
    · have key := withPost_run hw hs (l0 := [.setItems x copy]) (ks := [.obj x, .globs x]) (x := x)
        (body := callReduce sv W.createFunction [.val code, funcGlobArg x (.copied init copy), .val name, .val df, .val cl] ;; memoOrGet x ;;
          saveFuncState sv attrs slots)
        hi hn hfc (by simp only [List.mem_singleton]; rintro r rfl; exact ⟨hstat, .inr rfl, by simp [target]⟩) (by simp) (by
          intro hns hgl hi1
          refine funcBody_run hw hs hl hi1 hx onStack_push hn hgl ?_ ?_
          · intro _ _ _
            exact ⟨(x, [.setItems x copy]), by simp, .setItems x copy, by simp, rfl⟩
          · intro k hk
            simp at hk
            rcases hk with rfl | rfl
            · exact .inl rfl
            · exact .inr ⟨rfl, _, _, rfl⟩)
      obtain ⟨m', hm', h1, _⟩ := key p' ops he
      exact ⟨m', hm', h1⟩

/-! ### the simulation -/

theorem saveStep_ok {W sv} (hw : WF W) (hs : SaveOK W sv) (hl : GrowOK W sv) : SaveOK W (saveStep W sv) := by
  intro v opn p m hi
  cases v with
  | atom a => exact Run.emit1 rfl ⟨.atom a, rfl, rfl, ExtBut.refl _ _ _ _ _, hi, by simp [VRel, res]⟩
  | ref x =>
    intro p' ops he
    unfold saveStep at he
    cases hix : idx p.memo (.obj x) with
    | some i =>
      simp only [hix] at he
      cases he
      have hk := idx_some hix
      obtain ⟨tv, hv⟩ := hi.value hk
      exact ⟨{ m with stack := tv :: m.stack }, by simp [exec, step, hv], tv, rfl, rfl, ExtBut.refl _ _ _ _ _, hi, hi.vrel hk hv⟩
    | none =>
      simp only [hix] at he
      have hn := idx_none hix
      have hwo := hw.obj x
      cases hx : W.H x with
      | leaf a => rw [hx] at he; exact leaf_run hi hx hn p' ops he
      | tuple es => rw [hx] at he hwo; exact saveTuple_run hs hi hx hwo hn p' ops he
      | fset es => rw [hx] at he; exact saveFset_run hs hi hx hn p' ops he
      | node con lits dits st => rw [hx] at he hwo; exact saveNode_run hw hs hl hi hx hwo hn p' ops he
      | cell c => rw [hx] at he; exact saveCell_run hw hs hi hx hn p' ops he
      | func => rw [hx] at he; exact saveFunc_run hw hs hl hi hx hn p' ops he
      | cls => rw [hx] at he; exact saveCls_run hw hs hl hi hx hn p' ops he
      | bad => rw [hx] at he; cases he

theorem save_ok {W} (hw : WF W) (n : Nat) : SaveOK W (save W n) := by
  induction n with
  | zero => intro v opn p m _ p' ops he; cases he
  | succ n ih =>
    exact saveStep_ok hw ih (save_grow hw n)

end Verif.Core
