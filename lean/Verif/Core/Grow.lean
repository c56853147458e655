import Verif.Core.Inv
/-! Saving a value memoises only what can be reached from it (used for C01-C05). -/
set_option linter.unusedSimpArgs false
namespace Verif.Core
open Spec

/-! ### chunks -/

theorem chunksAux_flatten {α : Type} (n : Nat) (l : List α) (h : l.length ≤ n) :
    (chunksAux n l).flatten = l := by
  induction n generalizing l with
  | zero => simp at h; subst h; rfl
  | succ n ih =>
    unfold chunksAux
    cases l with
    | nil => simp
    | cons a l =>
      simp only [List.isEmpty_cons, Bool.false_eq_true, if_false, List.flatten_cons]
      rw [ih]
      · exact List.take_append_drop 1000 (a :: l)
      · simp at h ⊢; omega

theorem chunks_flatten {α : Type} (l : List α) : (chunks l).flatten = l := chunksAux_flatten _ _ (Nat.le_refl _)

def isLeaf : SObj → Prop
  | .leaf _ => True
  | _ => False

/-- the values a deferred step saves -/
def redVals : Red → List Val
  | .setCell c v => [.ref c, v]
  | .setQual c q => [.ref c, q]
  | .setItems _ copy => kvVals copy
  | .setDead _ _ => []

theorem andThen_ok {f g : PM} {p p' ops} (h : (f ;; g) p = .ok (p', ops)) :
    ∃ p1 o1 o2, f p = .ok (p1, o1) ∧ g p1 = .ok (p', o2) ∧ ops = o1 ++ o2 := by
  unfold andThen at h
  split at h
  · cases h
  · rename_i p1 o1 hf
    split at h
    · cases h
    · rename_i p2 o2 hg
      cases h
      exact ⟨p1, o1, o2, hf, hg, rfl⟩

/-- the value is found by name or is an object of the set -/
def AV (W : World) (A : Addr → Prop) (v : Val) : Prop := isAtomV W v ∨ ∃ y, v = .ref y ∧ A y

/-- the entries of `pre` are at the bottom of the stack, those above them belong to objects of the set -/
structure Stk (A : Addr → Prop) (pre : List Addr) (p : P) : Prop where
  low : pre <+: p.post.map (·.1)
  inner : ∀ y ∈ p.post.map (·.1), y ∈ pre ∨ A y

/-- new memo entries are objects of the set or found by name, new deferred steps are about objects of the set or wait for
an object of `pre` -/
structure G (W : World) (A : Addr → Prop) (pre : List Addr) (p p' : P) : Prop where
  memo : ∀ x, .obj x ∈ p'.memo → .obj x ∈ p.memo ∨ A x ∨ isLeaf (W.H x)
  keys : p'.post.map (·.1) = p.post.map (·.1)
  post : ∀ e' ∈ p'.post, ∀ r ∈ e'.2, (∀ v ∈ redVals r, AV W A v) ∨ e'.1 ∈ pre ∨ ∃ e ∈ p.post, e.1 = e'.1 ∧ r ∈ e.2

theorem G.refl {W A pre p} : G W A pre p p := ⟨fun _ h => .inl h, rfl, fun e he r hr => .inr (.inr ⟨e, he, rfl, hr⟩)⟩

theorem G.trans {W A pre p q r} (h : G W A pre p q) (h' : G W A pre q r) : G W A pre p r := by
  refine ⟨?_, h'.keys.trans h.keys, ?_⟩
  · intro x hx
    rcases h'.memo x hx with hx | hx
    · exact h.memo x hx
    · exact .inr hx
  · intro e he d hd
    rcases h'.post e he d hd with hd | hd | ⟨e1, he1, h1, hd1⟩
    · exact .inl hd
    · exact .inr (.inl hd)
    · rcases h.post e1 he1 d hd1 with hd | hd | ⟨e2, he2, h2, hd2⟩
      · exact .inl hd
      · exact .inr (.inl (h1 ▸ hd))
      · exact .inr (.inr ⟨e2, he2, h2.trans h1, hd2⟩)

theorem Stk.self {A} (p : P) : Stk A (p.post.map (·.1)) p := ⟨List.prefix_rfl, fun _ h => .inl h⟩

theorem Stk.next {W A pre p q} (h : Stk A pre p) (g : G W A pre p q) : Stk A pre q :=
  ⟨g.keys ▸ h.low, fun y hy => h.inner y (g.keys ▸ hy)⟩

def Gr (W : World) (A : Addr → Prop) (pre : List Addr) (f : PM) : Prop :=
  ∀ p p' o, Stk A pre p → f p = .ok (p', o) → G W A pre p p'

theorem gr_emit {W A pre} (ops : List Op) : Gr W A pre (emit ops) := by
  intro p p' o _ h; cases h; exact G.refl

theorem gr_then {W A pre} {f g : PM} (hf : Gr W A pre f) (hg : Gr W A pre g) : Gr W A pre (f ;; g) := by
  intro p p' o hp h
  obtain ⟨p1, o1, o2, h1, h2, _⟩ := andThen_ok h
  have g1 := hf _ _ _ hp h1
  exact g1.trans (hg _ _ _ (hp.next g1) h2)

theorem gr_memoize {W A pre} (k : Key) (hk : ∀ x, k = .obj x → A x ∨ isLeaf (W.H x)) : Gr W A pre (memoize k) := by
  intro p p' o _ h; cases h
  refine ⟨?_, rfl, (G.refl (W := W) (A := A) (pre := pre)).post⟩
  intro x hx
  simp only [List.mem_append, List.mem_singleton] at hx
  rcases hx with hx | hx
  · exact .inl hx
  · exact .inr (hk x hx.symm)

theorem gr_memoOrGet {W A pre} (x : Addr) (hx : A x) : Gr W A pre (memoOrGet x) := by
  intro p p' o hp h
  unfold memoOrGet at h
  split at h
  · cases h; exact G.refl
  · exact gr_memoize _ (by rintro y ⟨⟩; exact .inl hx) _ _ _ hp h

theorem keys_addRed (y : Addr) (r : Red) (post : List (Addr × List Red)) :
    (addRed y r post).map (·.1) = post.map (·.1) := by
  simp only [addRed, List.map_map]
  apply List.map_congr_left
  intro e _
  by_cases hy : e.1 = y <;> simp [hy]

theorem g_addRed {W A pre p y r} (hr : (∀ v ∈ redVals r, AV W A v) ∨ y ∈ pre) :
    G W A pre p { p with post := addRed y r p.post } := by
  refine ⟨fun _ h => .inl h, keys_addRed y r p.post, ?_⟩
  intro e he d hd
  simp only [addRed, List.mem_map] at he
  obtain ⟨e0, he0, rfl⟩ := he
  by_cases hy : e0.1 = y
  · simp only [hy, if_true, List.mem_append, List.mem_singleton] at hd ⊢
    rcases hd with hd | rfl
    · exact .inr (.inr ⟨e0, he0, hy, hd⟩)
    · exact hr.imp_right .inl
  · simp only [hy, if_false] at hd ⊢
    exact .inr (.inr ⟨e0, he0, rfl, hd⟩)

section
variable {W : World} {A : Addr → Prop} {pre : List Addr} {sv : Val → PM} (hsv : ∀ v, AV W A v → Gr W A pre (sv v))
include hsv

theorem gr_all (vs : List Val) (h : ∀ v ∈ vs, AV W A v) : Gr W A pre (saveAll sv vs) := by
  induction vs with
  | nil => exact gr_emit _
  | cons v vs ih => exact gr_then (hsv v (h v (by simp))) (ih fun w hw => h w (by simp [hw]))

theorem gr_kvs (es : List (Val × Val)) (h : ∀ v ∈ kvVals es, AV W A v) : Gr W A pre (saveKVs sv es) := by
  induction es with
  | nil => exact gr_emit _
  | cons e es ih =>
    exact gr_then (hsv _ (h _ (by simp [kvVals]))) (gr_then (hsv _ (h _ (by simp [kvVals])))
      (ih fun w hw => h w (by simp only [kvVals, List.flatMap_cons, List.mem_append]; exact .inr hw)))

omit hsv in
theorem gr_foldr {α : Type} (g : List α → PM) (cs : List (List α)) (h : ∀ c ∈ cs, Gr W A pre (g c)) :
    Gr W A pre (cs.foldr (fun c rest => g c ;; rest) (emit [])) := by
  induction cs with
  | nil => exact gr_emit _
  | cons c cs ih => exact gr_then (h c (by simp)) (ih fun d hd => h d (by simp [hd]))

theorem gr_appends (vs : List Val) (h : ∀ v ∈ vs, AV W A v) : Gr W A pre (batchAppends sv vs) := by
  refine gr_foldr _ _ ?_
  intro c hc
  have hc' : ∀ v ∈ c, AV W A v := fun v hv => h v (by
    rw [← chunks_flatten vs, List.mem_flatten]; exact ⟨c, hc, hv⟩)
  split
  · exact gr_then (hsv _ (hc' _ (by simp))) (gr_emit _)
  · exact gr_then (gr_emit _) (gr_then (gr_all hsv _ hc') (gr_emit _))

theorem gr_adds (vs : List Val) (h : ∀ v ∈ vs, AV W A v) : Gr W A pre (batchAdds sv vs) := by
  refine gr_foldr _ _ ?_
  intro c hc
  have hc' : ∀ v ∈ c, AV W A v := fun v hv => h v (by
    rw [← chunks_flatten vs, List.mem_flatten]; exact ⟨c, hc, hv⟩)
  exact gr_then (gr_emit _) (gr_then (gr_all hsv _ hc') (gr_emit _))

theorem gr_setitems (es : List (Val × Val)) (h : ∀ v ∈ kvVals es, AV W A v) : Gr W A pre (batchSetitems sv es) := by
  refine gr_foldr _ _ ?_
  intro c hc
  have hc' : ∀ v ∈ kvVals c, AV W A v := fun v hv => h v (by
    simp only [kvVals, List.mem_flatMap] at hv ⊢
    obtain ⟨e, he, hv⟩ := hv
    exact ⟨e, by rw [← chunks_flatten es, List.mem_flatten]; exact ⟨c, hc, he⟩, hv⟩)
  split
  · exact gr_then (hsv _ (hc' _ (by simp [kvVals]))) (gr_then (hsv _ (hc' _ (by simp [kvVals]))) (gr_emit _))
  · exact gr_then (gr_emit _) (gr_then (gr_kvs hsv _ hc') (gr_emit _))

theorem gr_dict (k : Key) (hk : ∀ x, k = .obj x → A x ∨ isLeaf (W.H x)) (es : List (Val × Val)) (h : ∀ v ∈ kvVals es, AV W A v) :
    Gr W A pre (saveDict sv k es) :=
  gr_then (gr_emit _) (gr_then (gr_memoize _ hk) (gr_setitems hsv _ h))

/-- what saving an argument needs -/
def ArgA (W : World) (A : Addr → Prop) : Arg → Prop
  | .val v => AV W A v
  | .dict k es => (∀ x, k ≠ .obj x) ∧ ∀ v ∈ kvVals es, AV W A v

theorem gr_args (as : List Arg) (h : ∀ a ∈ as, ArgA W A a) : Gr W A pre (saveArgs sv as) := by
  induction as with
  | nil => exact gr_emit _
  | cons a as ih =>
    refine gr_then ?_ (ih fun b hb => h b (by simp [hb]))
    have ha := h a (by simp)
    cases a with
    | val v => exact hsv v ha
    | dict k es => exact gr_dict hsv k (fun x e => absurd e (ha.1 x)) es ha.2

theorem gr_anonTuple (as : List Arg) (h : ∀ a ∈ as, ArgA W A a) : Gr W A pre (anonTuple sv as) := by
  have hm : Gr W A pre (memoize .anon) := gr_memoize _ (by rintro x ⟨⟩)
  unfold anonTuple
  split
  · exact gr_emit _
  · split
    · exact gr_then (gr_args hsv _ h) (gr_then (gr_emit _) hm)
    · exact gr_then (gr_emit _) (gr_then (gr_args hsv _ h) (gr_then (gr_emit _) hm))

theorem gr_call (f : Val) (hf : AV W A f) (as : List Arg) (h : ∀ a ∈ as, ArgA W A a) : Gr W A pre (callReduce sv f as) :=
  gr_then (hsv f hf) (gr_then (gr_anonTuple hsv as h) (gr_emit _))

theorem gr_tuple (x : Addr) (hx : A x) (es : List Val) (h : ∀ v ∈ es, AV W A v) : Gr W A pre (saveTuple sv x es) := by
  have hm : Gr W A pre (memoize (.obj x)) := gr_memoize _ (by rintro y ⟨⟩; exact .inl hx)
  unfold saveTuple
  split
  · exact gr_emit _
  · split
    · refine gr_then (gr_all hsv _ h) ?_
      intro p p' o hp h
      dsimp only at h
      split at h
      · cases h; exact G.refl
      · exact gr_then (gr_emit _) hm _ _ _ hp h
    · refine gr_then (gr_emit _) (gr_then (gr_all hsv _ h) ?_)
      intro p p' o hp h
      dsimp only at h
      split at h
      · cases h; exact G.refl
      · exact gr_then (gr_emit _) hm _ _ _ hp h

theorem gr_fset (x : Addr) (hx : A x) (es : List Val) (h : ∀ v ∈ es, AV W A v) : Gr W A pre (saveFset sv x es) := by
  have hm : Gr W A pre (memoize (.obj x)) := gr_memoize _ (by rintro y ⟨⟩; exact .inl hx)
  unfold saveFset
  refine gr_then (gr_emit _) (gr_then (gr_all hsv _ h) ?_)
  intro p p' o hp h
  dsimp only at h
  split at h
  · cases h; exact G.refl
  · exact gr_then (gr_emit _) hm _ _ _ hp h

theorem gr_state (st : Option St) (h : ∀ v ∈ stRefs st, AV W A v) : Gr W A pre (saveState sv st) := by
  cases st with
  | none => exact gr_emit _
  | some st => cases st with
    | «opaque» v => exact gr_then (hsv v (h v (by simp [stRefs]))) (gr_emit _)
    | attrs es => exact gr_then (gr_dict hsv _ (by rintro x ⟨⟩) _ h) (gr_emit _)

omit hsv in
theorem argA_vals {as : List Val} (h : ∀ v ∈ as, AV W A v) : ∀ a ∈ as.map Arg.val, ArgA W A a := by
  intro a ha
  obtain ⟨v, hv, rfl⟩ := List.mem_map.1 ha
  exact h v hv

theorem gr_node (x : Addr) (hx : A x) (con : Con) (lits : List Val) (dits : List (Val × Val)) (st : Option St)
    (h : ∀ v ∈ refs (.node con lits dits st), AV W A v) : Gr W A pre (saveNode sv x con lits dits st) := by
  have hm : Gr W A pre (memoize (.obj x)) := gr_memoize _ (by rintro y ⟨⟩; exact .inl hx)
  have h1 : ∀ v ∈ lits, AV W A v := fun v hv => h v (by simp [refs, hv])
  have h2 : ∀ v ∈ kvVals dits, AV W A v := fun v hv => h v (by simp [refs, hv])
  have h3 : ∀ v ∈ stRefs st, AV W A v := fun v hv => h v (by simp [refs, hv])
  have h4 : ∀ v ∈ conRefs con, AV W A v := fun v hv => h v (by simp [refs, hv])
  have tail : Gr W A pre (memoOrGet x ;; batchAppends sv lits ;; batchSetitems sv dits ;; saveState sv st) :=
    gr_then (gr_memoOrGet x hx) (gr_then (gr_appends hsv _ h1) (gr_then (gr_setitems hsv _ h2) (gr_state hsv st h3)))
  cases con with
  | list => exact gr_then (gr_emit _) (gr_then hm (gr_appends hsv _ h1))
  | set => exact gr_then (gr_emit _) (gr_then hm (gr_adds hsv _ h1))
  | dict => exact gr_then (gr_emit _) (gr_then hm (gr_setitems hsv _ h2))
  | red f as =>
    exact gr_then (gr_call hsv f (h4 f (by simp [conRefs])) _ (argA_vals fun v hv => h4 v (by simp [conRefs, hv]))) tail
  | newobj c as =>
    exact gr_then (hsv c (h4 c (by simp [conRefs]))) (gr_then (gr_anonTuple hsv _ (argA_vals fun v hv => h4 v (by simp [conRefs, hv])))
      (gr_then (gr_emit _) tail))

theorem gr_red (hw : WF W) (r : Red) (h : ∀ v ∈ redVals r, AV W A v) : Gr W A pre (runRed W sv r) := by
  have c1 : AV W A W.setattr := .inl ⟨_, hw.setattr⟩
  have c2 : AV W A W.contents := .inl ⟨_, hw.contents⟩
  have c3 : AV W A W.qualname := .inl ⟨_, hw.qualname⟩
  cases r with
  | setCell c v =>
    refine gr_then (gr_call hsv _ c1 _ ?_) (gr_emit _)
    intro a ha
    simp only [List.mem_cons, List.not_mem_nil, or_false] at ha
    rcases ha with rfl | rfl | rfl
    · exact h _ (by simp [redVals])
    · exact c2
    · exact h _ (by simp [redVals])
  | setQual c q =>
    refine gr_then (gr_call hsv _ c1 _ ?_) (gr_emit _)
    intro a ha
    simp only [List.mem_cons, List.not_mem_nil, or_false] at ha
    rcases ha with rfl | rfl | rfl
    · exact h _ (by simp [redVals])
    · exact c3
    · exact h _ (by simp [redVals])
  | setItems f copy =>
    simp only [runRed]
    split
    · exact gr_emit _
    · intro p p' o hp he
      dsimp only at he
      split at he
      · cases he
      · exact gr_then (gr_emit _) (gr_then (gr_setitems hsv _ h) (gr_emit _)) _ _ _ hp he
  | setDead f copy =>
    simp only [runRed]
    split
    · exact gr_emit _
    · intro p p' o _ he; cases he

omit hsv in
theorem gr_saveGlobal (x : Addr) (hx : A x) : Gr W A pre (saveGlobal W x) := by
  unfold saveGlobal
  split
  · exact gr_then (gr_emit _) (gr_memoize _ (by rintro y ⟨⟩; exact .inl hx))
  · intro p p' o _ he; cases he

theorem gr_reds (hw : WF W) (rs : List Red) (h : ∀ r ∈ rs, ∀ v ∈ redVals r, AV W A v) : Gr W A pre (runReds W sv rs) := by
  induction rs with
  | nil => exact gr_emit _
  | cons r rs ih => exact gr_then (gr_red hsv hw r (h r (by simp))) (ih fun s hs => h s (by simp [hs]))

theorem gr_withPost (hw : WF W) (x : Addr) (hx : A x) (l0 : List Red) (hl : ∀ r ∈ l0, ∀ v ∈ redVals r, AV W A v) (body : PM)
    (hb : Gr W A pre body) : Gr W A pre (withPost W sv x l0 body) := by
  intro p p' o hp h
  unfold withPost at h
  split at h
  · exact gr_saveGlobal x hx _ _ _ hp h
  · rename_i hns
    have hns' : ∀ e ∈ p.post, e.1 ≠ x := by
      intro e he hex
      refine hns ?_
      simp only [P.onStack, List.any_eq_true, decide_eq_true_eq]
      exact ⟨e, he, hex⟩
    have hxp : x ∉ pre := by
      intro hxp
      have := hp.low.subset hxp
      obtain ⟨e, he, hex⟩ := List.mem_map.1 this
      exact hns' e he hex
    have hp1 : Stk A pre { p with post := p.post ++ [(x, l0)] } := by
      refine ⟨?_, ?_⟩
      · simp only [List.map_append]
        exact hp.low.trans (List.prefix_append _ _)
      · intro y hy
        simp only [List.map_append, List.map_cons, List.map_nil, List.mem_append, List.mem_singleton] at hy
        rcases hy with hy | rfl
        · exact hp.inner y hy
        · exact .inr hx
    cases h1 : body { p with post := p.post ++ [(x, l0)] } with
    | error e => rw [h1] at h; cases h
    | ok r =>
      obtain ⟨p1, o1⟩ := r
      rw [h1] at h
      simp only [] at h
      have k1 := hb _ _ _ hp1 h1
      have mine : ∀ e ∈ p1.post, e.1 = x → ∀ r ∈ e.2, ∀ v ∈ redVals r, AV W A v := by
        intro e he hex r hr
        rcases k1.post e he r hr with h | h | ⟨e0, he0, h0, hr0⟩
        · exact h
        · exact absurd (hex ▸ h) hxp
        · simp only [List.mem_append, List.mem_singleton] at he0
          rcases he0 with he0 | rfl
          · exact absurd (h0.trans hex) (hns' e0 he0)
          · exact hl r hr0
      have kfil : (p1.post.filter (·.1 ≠ x)).map (·.1) = p.post.map (·.1) := by
        have e1 : (p1.post.filter (·.1 ≠ x)).map (·.1) = (p1.post.map (·.1)).filter (· ≠ x) := by
          rw [List.filter_map]; rfl
        rw [e1, k1.keys]
        simp only [List.map_append, List.map_cons, List.map_nil, List.filter_append]
        have e2 : ([x].filter (· ≠ x)) = [] := by simp
        rw [e2, List.append_nil, List.filter_eq_self.2]
        intro y hy
        obtain ⟨e, he, rfl⟩ := List.mem_map.1 hy
        simpa using hns' e he
      have hp2 : Stk A pre { p1 with post := p1.post.filter (·.1 ≠ x) } := by
        refine ⟨?_, ?_⟩
        · show pre <+: (p1.post.filter (·.1 ≠ x)).map (·.1)
          rw [kfil]; exact hp.low
        · intro y hy
          refine hp.inner y ?_
          rw [← kfil]; exact hy
      cases h2 : runReds W sv ((((p1.post.find? (·.1 = x)).map (·.2)).getD []).reverse) { p1 with post := p1.post.filter (·.1 ≠ x) } with
      | error e => rw [h2] at h; cases h
      | ok r =>
        obtain ⟨p2, o2⟩ := r
        rw [h2] at h
        simp only [Except.ok.injEq, Prod.mk.injEq] at h
        have hr : ∀ r ∈ (((p1.post.find? (·.1 = x)).map (·.2)).getD []).reverse, ∀ v ∈ redVals r, AV W A v := by
          intro r hr
          rw [List.mem_reverse] at hr
          cases hf : p1.post.find? (·.1 = x) with
          | none => rw [hf] at hr; simp at hr
          | some e =>
            rw [hf] at hr
            simp only [Option.map_some, Option.getD_some] at hr
            have := List.find?_some hf
            exact mine e (List.mem_of_find?_eq_some hf) (by simpa using this) r hr
        have k2 := gr_reds hsv hw _ hr _ _ _ hp2 h2
        rw [← h.1]
        refine ⟨?_, k2.keys.trans kfil, ?_⟩
        · intro y hy
          rcases k2.memo y hy with hy | hy
          · exact k1.memo y hy
          · exact .inr hy
        · intro e he d hd
          rcases k2.post e he d hd with hd | hd | ⟨e1, he1, h1, hd1⟩
          · exact .inl hd
          · exact .inr (.inl hd)
          · simp only [List.mem_filter, decide_eq_true_eq, ne_eq] at he1
            rcases k1.post e1 he1.1 d hd1 with hd | hd | ⟨e2, he2, h2, hd2⟩
            · exact .inl hd
            · exact .inr (.inl (h1 ▸ hd))
            · simp only [List.mem_append, List.mem_singleton] at he2
              rcases he2 with he2 | rfl
              · exact .inr (.inr ⟨e2, he2, h2.trans h1, hd2⟩)
              · exact absurd h2.symm he1.2

omit hsv in
theorem Stk.host {p : P} (hp : Stk A pre p) (hne : pre ≠ []) : ∃ y ∈ pre, p.post.head?.map (·.1) = some y := by
  cases pre with
  | nil => exact absurd rfl hne
  | cons y l =>
    obtain ⟨t, ht⟩ := hp.low
    cases hpp : p.post with
    | nil => rw [hpp] at ht; simp at ht
    | cons e es =>
      rw [hpp] at ht
      simp only [List.cons_append, List.map_cons, List.cons.injEq] at ht
      exact ⟨y, by simp, by simp [ht.1]⟩

omit hsv in
/-- the first stack entry with a property that an entry of `pre` has is an entry of `pre` -/
theorem Stk.first {p : P} (hp : Stk A pre p) {c : Addr → Bool} {x : Addr} (hx : x ∈ pre) (hc : c x = true) :
    ∃ e, p.post.find? (fun e => c e.1) = some e ∧ e.1 ∈ pre := by
  obtain ⟨t, ht⟩ := hp.low
  have key : ∀ (pre : List Addr) (post : List (Addr × List Red)), pre ++ t = post.map (·.1) → x ∈ pre →
      ∃ e, post.find? (fun e => c e.1) = some e ∧ e.1 ∈ pre := by
    intro pre
    induction pre with
    | nil => intro _ _ h; cases h
    | cons y l ih =>
      intro post ht hx
      cases post with
      | nil => simp at ht
      | cons e es =>
        simp only [List.cons_append, List.map_cons, List.cons.injEq] at ht
        by_cases he : c e.1 = true
        · exact ⟨e, by simp [List.find?, he], by simp [ht.1]⟩
        · have hxl : x ∈ l := by
            rcases List.mem_cons.1 hx with rfl | h
            · rw [← ht.1] at he; exact absurd hc he
            · exact h
          obtain ⟨e', h1, h2⟩ := ih es ht.2 hxl
          exact ⟨e', by simp [List.find?, he, h1], by simp [h2]⟩
  exact key pre p.post ht hx

theorem gr_cell (hw : WF W) (x : Addr) (hx : A x) (c : Option Val)
    (h : ∀ v, c = some v → AV W A v ∨ pre ≠ []) : Gr W A pre (saveCell W sv x c) := by
  have c1 : AV W A W.createCell := .inl ⟨_, hw.createCell⟩
  have c2 : AV W A W.contents := .inl ⟨_, hw.contents⟩
  have c3 : AV W A W.cellEmpty := .inl ⟨_, hw.cellEmpty⟩
  have c4 : AV W A W.delattr := .inl ⟨_, hw.delattr⟩
  have hxv : AV W A (.ref x) := .inr ⟨x, rfl, hx⟩
  have one : ∀ v, AV W A v → Gr W A pre (callReduce sv W.createCell [.val v]) := by
    intro v hv
    refine gr_call hsv _ c1 _ ?_
    intro a ha
    simp only [List.mem_singleton] at ha
    subst ha; exact hv
  cases c with
  | none =>
    refine gr_then (one _ c3) (gr_then (gr_memoOrGet x hx) (gr_then (gr_call hsv _ c4 _ ?_) (gr_emit _)))
    intro a ha
    simp only [List.mem_cons, List.not_mem_nil, or_false] at ha
    rcases ha with rfl | rfl
    · exact hxv
    · exact c2
  | some v =>
    have hv := h v rfl
    intro p p' o hp he
    simp only [saveCell] at he
    split at he
    · rename_i y hy
      cases h1 : (callReduce sv W.createCell [.val (.atom .none)] ;; memoOrGet x) p with
      | error e => rw [h1] at he; cases he
      | ok r =>
        obtain ⟨p1, o1⟩ := r
        rw [h1] at he
        simp only [Except.ok.injEq, Prod.mk.injEq] at he
        rw [← he.1]
        refine (gr_then (one _ (.inl ⟨.none, rfl⟩)) (gr_memoOrGet x hx) _ _ _ hp h1).trans (g_addRed ?_)
        have hv' : AV W A v ∨ y ∈ pre := by
          rcases hv with hv | hv
          · exact .inl hv
          · obtain ⟨z, hz, hz'⟩ := hp.host hv
            cases v with
            | atom a =>
              simp only [cellHost] at hy
              rw [hz'] at hy; cases hy; exact .inr hz
            | ref w =>
              simp only [cellHost] at hy
              split at hy
              · rename_i hon
                cases hy
                simp only [P.onStack, List.any_eq_true, decide_eq_true_eq] at hon
                obtain ⟨e, he, hew⟩ := hon
                rcases hp.inner y (List.mem_map.2 ⟨e, he, hew⟩) with h | h
                · exact .inr h
                · exact .inl (.inr ⟨y, rfl, h⟩)
              · rw [hz'] at hy; cases hy; exact .inr hz
        refine hv'.imp_left fun hv => ?_
        intro w hw
        simp only [redVals, List.mem_cons, List.not_mem_nil, or_false] at hw
        rcases hw with rfl | rfl
        · exact hxv
        · exact hv
    · rename_i hy
      have hv' : AV W A v := by
        rcases hv with hv | hv
        · exact hv
        · obtain ⟨z, hz, hz'⟩ := hp.host hv
          cases v with
          | atom a => exact .inl ⟨a, rfl⟩
          | ref w =>
            simp only [cellHost] at hy
            split at hy
            · cases hy
            · rw [hz'] at hy; cases hy
      exact gr_then (one v hv') (gr_memoOrGet x hx) _ _ _ hp he

/-- what an object refers to, other than the contents of a cell and the copy of a function's globals -/
def partRefs : SObj → List Val
  | .cell _ => []
  | .func code g name df cl attrs slots => [code, name, df, cl] ++ (match g with
      | .byRef v => [v]
      | .copied init _ => kvVals init) ++ kvVals attrs ++ kvVals slots
  | o => refs o

theorem gr_func (hw : WF W) (x : Addr) (hx : A x) (co : Val) (g : Globs) (nm d cl : Val) (a s : List (Val × Val))
    (h : ∀ v ∈ partRefs (.func co g nm d cl a s), AV W A v)
    (hc : ∀ init copy, g = .copied init copy → (∀ v ∈ kvVals copy, AV W A v) ∨ ∃ y ∈ pre, y ∈ valueAddrs copy) : Gr W A pre (saveFunc W sv x co g nm d cl a s) := by
  have c1 : AV W A W.createFunction := .inl ⟨_, hw.createFunction⟩
  have h1 : ∀ v ∈ kvVals a, AV W A v := fun v hv => h v (by simp [partRefs, hv])
  have h2 : ∀ v ∈ kvVals s, AV W A v := fun v hv => h v (by simp [partRefs, hv])
  have hst : Gr W A pre (saveFuncState sv a s) := by
    unfold saveFuncState
    split
    · exact gr_then (gr_dict hsv _ (by rintro x ⟨⟩) _ h1) (gr_emit _)
    · exact gr_then (gr_dict hsv _ (by rintro x ⟨⟩) _ h1) (gr_then (gr_dict hsv _ (by rintro x ⟨⟩) _ h2) (gr_then (gr_emit _)
        (gr_then (gr_memoize _ (by rintro x ⟨⟩)) (gr_emit _))))
  have hbody : ∀ gA, ArgA W A gA → Gr W A pre (callReduce sv W.createFunction
      [.val co, gA, .val nm, .val d, .val cl] ;; memoOrGet x ;; saveFuncState sv a s) := by
    intro gA hg
    refine gr_then (gr_call hsv _ c1 _ ?_) (gr_then (gr_memoOrGet x hx) hst)
    intro b hb
    simp only [List.mem_cons, List.not_mem_nil, or_false] at hb
    rcases hb with rfl | rfl | rfl | rfl | rfl
    · exact h _ (by simp [partRefs])
    · exact hg
    · exact h _ (by simp [partRefs])
    · exact h _ (by simp [partRefs])
    · exact h _ (by simp [partRefs])
  intro p p' o hp he
  cases g with
  | byRef v => exact gr_withPost hsv hw x hx [] (by simp) _ (hbody (.val v) (h _ (by simp [partRefs]))) p p' o hp he
  | copied init copy =>
    have h3 : ∀ v ∈ kvVals init, AV W A v := fun v hv => h v (by simp [partRefs, hv])
    have h4 := hc init copy rfl
    have hg : ArgA W A (.dict (.globs x) init) := ⟨by rintro y ⟨⟩, h3⟩
    simp only [saveFunc] at he
    cases hf : p.post.find? (fun e => e.1 ∈ valueAddrs copy) with
    | none =>
      rw [hf] at he
      refine gr_withPost hsv hw x hx _ ?_ _ (hbody _ hg) p p' o hp he
      intro r hr
      simp only [List.mem_singleton] at hr
      subst hr
      rcases h4 with h4 | ⟨y, hy, hyc⟩
      · exact h4
      · obtain ⟨e, he, _⟩ := hp.first (c := fun y => decide (y ∈ valueAddrs copy)) hy (by simpa using hyc)
        rw [hf] at he; cases he
    | some e =>
      obtain ⟨y, l⟩ := e
      rw [hf] at he
      have k1 : G W A pre p { p with post := addRed y (if p.onStack x then .setDead x copy else .setItems x copy) p.post } := by
        refine g_addRed ?_
        rcases h4 with h4 | ⟨z, hz, hzc⟩
        · left
          split
          · intro v hv; simp [redVals] at hv
          · exact h4
        · obtain ⟨e, he', hep⟩ := hp.first (c := fun y => decide (y ∈ valueAddrs copy)) hz (by simpa using hzc)
          rw [hf] at he'; cases he'
          exact .inr hep
      exact k1.trans (gr_withPost hsv hw x hx _ (by simp) _ (hbody _ hg) _ p' o (hp.next k1) he)

/-- the set is closed under references, except for those that wait for an object of `pre` -/
structure Parts (W : World) (A : Addr → Prop) (pre : List Addr) : Prop where
  main : ∀ x, A x → ∀ v ∈ partRefs (W.H x), AV W A v
  cell : ∀ x v, A x → W.H x = .cell (some v) → AV W A v ∨ pre ≠ []
  copy : ∀ x co init copy nm d cl a s, A x → W.H x = .func co (.copied init copy) nm d cl a s →
    (∀ v ∈ kvVals copy, AV W A v) ∨ ∃ y ∈ pre, y ∈ valueAddrs copy

theorem gr_step (hw : WF W) (hA : Parts W A pre) (v : Val) (hv : AV W A v) : Gr W A pre (saveStep W sv v) := by
  cases v with
  | atom a => exact gr_emit _
  | ref x =>
    intro p p' o hp he
    simp only [saveStep] at he
    split at he
    · exact gr_emit _ p p' o hp he
    · by_cases hl : isLeaf (W.H x)
      · cases hH : W.H x <;> rw [hH] at hl <;> first | exact hl.elim | skip
        rw [hH] at he
        exact gr_then (gr_emit _) (gr_memoize (.obj x) (by rintro y ⟨⟩; right; rw [hH]; exact hl)) p p' o hp he
      · have hx : A x := by
          rcases hv with ⟨a, ha⟩ | ⟨y, e, hy⟩
          · simp only [res] at ha
            cases hH : W.H x <;> rw [hH] at ha hl <;> first | (simp at ha; done) | exact absurd trivial hl
          · cases e; exact hy
        have hr := hA.main x hx
        cases hH : W.H x with
        | leaf a => rw [hH] at hl; exact absurd trivial hl
        | tuple es => rw [hH] at he hr; exact gr_tuple hsv x hx es hr p p' o hp he
        | fset es => rw [hH] at he hr; exact gr_fset hsv x hx es hr p p' o hp he
        | node con lits dits st => rw [hH] at he hr; exact gr_node hsv x hx con lits dits st hr p p' o hp he
        | cell c =>
          rw [hH] at he hr
          refine gr_cell hsv hw x hx c ?_ p p' o hp he
          rintro v rfl
          exact hA.cell x v hx hH
        | func co g nm d cl a s => rw [hH] at he hr; exact gr_func hsv hw x hx co g nm d cl a s hr (by rintro init copy rfl; exact hA.copy x _ _ _ _ _ _ _ _ hx hH) p p' o hp he
        | cls mt nm b d q =>
          rw [hH] at he hr
          have c1 : AV W A W.createType := .inl ⟨_, hw.createType⟩
          refine gr_withPost hsv hw x hx _ ?_ _ (gr_then (gr_call hsv _ c1 _ ?_) (gr_memoOrGet x hx)) p p' o hp he
          · intro r hr'
            simp only [List.mem_singleton] at hr'
            subst hr'
            intro v hv
            simp only [redVals, List.mem_cons, List.not_mem_nil, or_false] at hv
            rcases hv with rfl | rfl
            · exact .inr ⟨x, rfl, hx⟩
            · exact hr _ (by simp [partRefs, refs])
          · intro a ha
            simp only [List.mem_cons, List.not_mem_nil, or_false] at ha
            rcases ha with rfl | rfl | rfl | rfl
            · exact hr _ (by simp [partRefs, refs])
            · exact hr _ (by simp [partRefs, refs])
            · exact hr _ (by simp [partRefs, refs])
            · exact ⟨(by rintro y ⟨⟩), fun v hv => hr v (by simp [partRefs, refs, hv])⟩
        | bad => rw [hH] at he; cases he

end

/-- saving a value memoises only objects of a set that contains it and everything pickled with it -/
def GrowOK (W : World) (sv : Val → PM) : Prop :=
  ∀ A pre, Parts W A pre → ∀ v, AV W A v → Gr W A pre (sv v)

theorem save_grow {W} (hw : WF W) (n : Nat) : GrowOK W (save W n) := by
  intro A pre hA
  induction n with
  | zero => intro v _ p p' o _ h; cases h
  | succ n ih => intro v hv; exact gr_step ih hw hA v hv

theorem partRefs_refs {o v} (h : v ∈ partRefs o) : v ∈ refs o := by
  cases o with
  | func co g nm d cl a s =>
    cases g with
    | byRef v => exact h
    | copied init copy =>
      simp only [partRefs, refs, List.mem_append] at h ⊢
      rcases h with ((h | h) | h) | h <;> simp [h]
  | cell c => cases h
  | _ => exact h

theorem parts_reaches {W} (vs : List Val) (pre : List Addr) : Parts W (fun x => ∃ v ∈ vs, Reaches W v x) pre := by
  have key : ∀ x, (∃ v ∈ vs, Reaches W v x) → ∀ w ∈ refs (W.H x), AV W (fun x => ∃ v ∈ vs, Reaches W v x) w := by
    rintro x ⟨v, hv, hx⟩ w hw
    cases w with
    | atom a => exact .inl ⟨a, rfl⟩
    | ref y => exact .inr ⟨y, rfl, v, hv, .step hx hw⟩
  refine ⟨fun x hx v hv => key x hx v (partRefs_refs hv), ?_, ?_⟩
  · intro x v hx hH
    exact .inl (key x hx v (by rw [hH]; simp [refs]))
  · intro x co init copy nm d cl a s hx hH
    exact .inl fun v hv => key x hx v (by rw [hH]; simp [refs, hv])

theorem parts_eager {W} (x : Addr) (vs : List Val) (pre : List Addr) (hx : x ∈ pre) :
    Parts W (fun y => ∃ v ∈ vs, Eager W x v y) pre := by
  have key : ∀ y, (∃ v ∈ vs, Eager W x v y) → ∀ w ∈ eagerRefs x (W.H y), AV W (fun y => ∃ v ∈ vs, Eager W x v y) w := by
    rintro y ⟨v, hv, hy⟩ w hw
    cases w with
    | atom a => exact .inl ⟨a, rfl⟩
    | ref z => exact .inr ⟨z, rfl, v, hv, .step hy hw⟩
  refine ⟨fun y hy v hv => key y hy v ?_, ?_, ?_⟩
  · cases hH : W.H y with
    | func co g nm d cl a s =>
      rw [hH] at hv
      cases g with
      | byRef v => exact hv
      | copied init copy =>
        simp only [partRefs, eagerRefs, List.mem_append] at hv ⊢
        rcases hv with ((h | h) | h) | h <;> simp [h]
    | cell c => rw [hH] at hv; cases hv
    | _ => rw [hH] at hv; exact hv
  · intro y v hy hH
    right; rintro rfl; cases hx
  · intro y co init copy nm d cl a s hy hH
    by_cases hc : .ref x ∈ copy.map (·.2)
    · right
      refine ⟨x, hx, ?_⟩
      obtain ⟨e, he, hex⟩ := List.mem_map.1 hc
      simp only [valueAddrs, List.mem_filterMap]
      exact ⟨e, he, by rw [hex]⟩
    · exact .inl fun v hv => key y hy v (by rw [hH]; simp only [eagerRefs, if_neg hc]; simp [hv])

end Verif.Core
