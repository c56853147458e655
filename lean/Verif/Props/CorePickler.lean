import Verif.Model.CorePickler
import Verif.Props.CoreEx
/-! C76: one pickler for several dumps, one unpickler for several loads. -/
set_option linter.unusedSimpArgs false
namespace Verif.Core
open Spec

/-! ### on success, the objects in `_postproc` are those that were there before -/

/-- the objects a successful action leaves in `_postproc` -/
def Keeps (f : PM) : Prop := ∀ p p' o, f p = .ok (p', o) → p'.post.map (·.1) = p.post.map (·.1)

theorem keeps_emit (ops : List Op) : Keeps (emit ops) := by
  intro p p' o h; cases h; rfl

theorem keeps_then {f g : PM} (hf : Keeps f) (hg : Keeps g) : Keeps (f ;; g) := by
  intro p p' o h
  obtain ⟨p1, o1, o2, h1, h2, _⟩ := andThen_ok h
  rw [hg _ _ _ h2, hf _ _ _ h1]

theorem keeps_memoize (k : Key) : Keeps (memoize k) := by
  intro p p' o h; cases h; rfl

theorem keeps_memoOrGet (x : Addr) : Keeps (memoOrGet x) := by
  intro p p' o h
  unfold memoOrGet at h
  split at h
  · cases h; rfl
  · exact keeps_memoize _ _ _ _ h

section
variable {W : World} {sv : Val → PM} (hsv : ∀ v, Keeps (sv v))
include hsv

theorem keeps_all (vs : List Val) : Keeps (saveAll sv vs) := by
  induction vs with
  | nil => exact keeps_emit _
  | cons v vs ih => exact keeps_then (hsv v) ih

theorem keeps_kvs (es : List (Val × Val)) : Keeps (saveKVs sv es) := by
  induction es with
  | nil => exact keeps_emit _
  | cons e es ih => exact keeps_then (hsv _) (keeps_then (hsv _) ih)

omit hsv in
theorem keeps_foldr {α : Type} (g : List α → PM) (cs : List (List α)) (h : ∀ c, Keeps (g c)) :
    Keeps (cs.foldr (fun c rest => g c ;; rest) (emit [])) := by
  induction cs with
  | nil => exact keeps_emit _
  | cons c cs ih => exact keeps_then (h c) ih

theorem keeps_appends (vs : List Val) : Keeps (batchAppends sv vs) := by
  refine keeps_foldr _ _ ?_
  intro c
  split
  · exact keeps_then (hsv _) (keeps_emit _)
  · exact keeps_then (keeps_emit _) (keeps_then (keeps_all hsv _) (keeps_emit _))

theorem keeps_adds (vs : List Val) : Keeps (batchAdds sv vs) := by
  refine keeps_foldr _ _ ?_
  intro c
  exact keeps_then (keeps_emit _) (keeps_then (keeps_all hsv _) (keeps_emit _))

theorem keeps_setitems (es : List (Val × Val)) : Keeps (batchSetitems sv es) := by
  refine keeps_foldr _ _ ?_
  intro c
  split
  · exact keeps_then (hsv _) (keeps_then (hsv _) (keeps_emit _))
  · exact keeps_then (keeps_emit _) (keeps_then (keeps_kvs hsv _) (keeps_emit _))

theorem keeps_dict (k : Key) (es : List (Val × Val)) : Keeps (saveDict sv k es) :=
  keeps_then (keeps_emit _) (keeps_then (keeps_memoize _) (keeps_setitems hsv _))

theorem keeps_args (as : List Arg) : Keeps (saveArgs sv as) := by
  induction as with
  | nil => exact keeps_emit _
  | cons a as ih =>
    refine keeps_then ?_ ih
    cases a with
    | val v => exact hsv v
    | dict k es => exact keeps_dict hsv k es

theorem keeps_anonTuple (as : List Arg) : Keeps (anonTuple sv as) := by
  unfold anonTuple
  split
  · exact keeps_emit _
  · split
    · exact keeps_then (keeps_args hsv _) (keeps_then (keeps_emit _) (keeps_memoize _))
    · exact keeps_then (keeps_emit _) (keeps_then (keeps_args hsv _) (keeps_then (keeps_emit _) (keeps_memoize _)))

theorem keeps_call (f : Val) (as : List Arg) : Keeps (callReduce sv f as) :=
  keeps_then (hsv f) (keeps_then (keeps_anonTuple hsv as) (keeps_emit _))

theorem keeps_tuple (x : Addr) (es : List Val) : Keeps (saveTuple sv x es) := by
  unfold saveTuple
  split
  · exact keeps_emit _
  · split
    · refine keeps_then (keeps_all hsv _) ?_
      intro p p' o h
      dsimp only at h
      split at h
      · cases h; rfl
      · exact keeps_then (keeps_emit _) (keeps_memoize _) _ _ _ h
    · refine keeps_then (keeps_emit _) (keeps_then (keeps_all hsv _) ?_)
      intro p p' o h
      dsimp only at h
      split at h
      · cases h; rfl
      · exact keeps_then (keeps_emit _) (keeps_memoize _) _ _ _ h

theorem keeps_fset (x : Addr) (es : List Val) : Keeps (saveFset sv x es) := by
  unfold saveFset
  refine keeps_then (keeps_emit _) (keeps_then (keeps_all hsv _) ?_)
  intro p p' o h
  dsimp only at h
  split at h
  · cases h; rfl
  · exact keeps_then (keeps_emit _) (keeps_memoize _) _ _ _ h

theorem keeps_state (st : Option St) : Keeps (saveState sv st) := by
  cases st with
  | none => exact keeps_emit _
  | some st => cases st with
    | «opaque» v => exact keeps_then (hsv v) (keeps_emit _)
    | attrs es => exact keeps_then (keeps_dict hsv _ _) (keeps_emit _)

theorem keeps_node (x : Addr) (con : Con) (lits : List Val) (dits : List (Val × Val)) (st : Option St) :
    Keeps (saveNode sv x con lits dits st) := by
  have tail : Keeps (memoOrGet x ;; batchAppends sv lits ;; batchSetitems sv dits ;; saveState sv st) :=
    keeps_then (keeps_memoOrGet x) (keeps_then (keeps_appends hsv _) (keeps_then (keeps_setitems hsv _) (keeps_state hsv st)))
  cases con with
  | list => exact keeps_then (keeps_emit _) (keeps_then (keeps_memoize _) (keeps_appends hsv _))
  | set => exact keeps_then (keeps_emit _) (keeps_then (keeps_memoize _) (keeps_adds hsv _))
  | dict => exact keeps_then (keeps_emit _) (keeps_then (keeps_memoize _) (keeps_setitems hsv _))
  | red f as => exact keeps_then (keeps_call hsv f _) tail
  | newobj c as => exact keeps_then (hsv c) (keeps_then (keeps_anonTuple hsv _) (keeps_then (keeps_emit _) tail))

theorem keeps_red (r : Red) : Keeps (runRed W sv r) := by
  cases r with
  | setCell c v => exact keeps_then (keeps_call hsv _ _) (keeps_emit _)
  | setQual c q => exact keeps_then (keeps_call hsv _ _) (keeps_emit _)
  | setItems f copy =>
    simp only [runRed]
    split
    · exact keeps_emit _
    · intro p p' o h
      dsimp only at h
      split at h
      · cases h
      · exact keeps_then (keeps_emit _) (keeps_then (keeps_setitems hsv _) (keeps_emit _)) _ _ _ h
  | setDead f copy =>
    simp only [runRed]
    split
    · exact keeps_emit _
    · intro p p' o h; cases h

omit hsv in
theorem keeps_saveGlobal (x : Addr) : Keeps (saveGlobal W x) := by
  unfold saveGlobal
  split
  · exact keeps_then (keeps_emit _) (keeps_memoize _)
  · intro p p' o h; cases h

theorem keeps_reds (rs : List Red) : Keeps (runReds W sv rs) := by
  induction rs with
  | nil => exact keeps_emit _
  | cons r rs ih => exact keeps_then (keeps_red hsv r) ih

omit hsv in
theorem keys_filter (x : Addr) (l : List (Addr × List Red)) (ks : List Addr) (h : l.map (·.1) = ks ++ [x])
    (hx : x ∉ ks) : (l.filter (·.1 ≠ x)).map (·.1) = ks := by
  have e : ((l.map (·.1)).filter (· ≠ x)) = (l.filter (·.1 ≠ x)).map (·.1) := by
    rw [List.filter_map]; rfl
  rw [← e, h, List.filter_append]
  have : ks.filter (· ≠ x) = ks := by
    rw [List.filter_eq_self]
    intro a ha
    simp only [decide_eq_true_eq, ne_eq]
    rintro rfl; exact hx ha
  rw [this]; simp

theorem keeps_withPost (x : Addr) (l0 : List Red) (body : PM) (hb : Keeps body) : Keeps (withPost W sv x l0 body) := by
  intro p p' o h
  unfold withPost at h
  split at h
  · exact keeps_saveGlobal x _ _ _ h
  · rename_i hns
    cases h1 : body { p with post := p.post ++ [(x, l0)] } with
    | error e => rw [h1] at h; cases h
    | ok r =>
      obtain ⟨p1, o1⟩ := r
      rw [h1] at h
      simp only [] at h
      have k1 := hb _ _ _ h1
      cases h2 : runReds W sv ((((p1.post.find? (·.1 = x)).map (·.2)).getD []).reverse) { p1 with post := p1.post.filter (·.1 ≠ x) } with
      | error e => rw [h2] at h; cases h
      | ok r =>
        obtain ⟨p2, o2⟩ := r
        rw [h2] at h
        simp only [Except.ok.injEq, Prod.mk.injEq] at h
        have k2 := keeps_reds hsv _ _ _ _ h2
        rw [← h.1, k2]
        refine keys_filter x _ _ (by simpa using k1) ?_
        intro hx
        apply hns
        rw [onStack_iff]
        obtain ⟨e, he, hx⟩ := List.mem_map.1 hx
        exact ⟨e, he, hx⟩

theorem keeps_cell (x : Addr) (c : Option Val) : Keeps (saveCell W sv x c) := by
  cases c with
  | none =>
    exact keeps_then (keeps_call hsv _ _) (keeps_then (keeps_memoOrGet x) (keeps_then (keeps_call hsv _ _) (keeps_emit _)))
  | some v =>
    intro p p' o he
    simp only [saveCell] at he
    split at he
    · cases h1 : (callReduce sv W.createCell [.val (.atom .none)] ;; memoOrGet x) p with
      | error e => rw [h1] at he; cases he
      | ok r =>
        obtain ⟨p1, o1⟩ := r
        rw [h1] at he
        simp only [Except.ok.injEq, Prod.mk.injEq] at he
        rw [← he.1]
        simp only [keys_addRed]
        exact keeps_then (keeps_call hsv _ _) (keeps_memoOrGet x) _ _ _ h1
    · exact keeps_then (keeps_call hsv _ _) (keeps_memoOrGet x) _ _ _ he

theorem keeps_func (x : Addr) (co : Val) (g : Globs) (nm d cl : Val) (a s : List (Val × Val)) :
    Keeps (saveFunc W sv x co g nm d cl a s) := by
  have hst : Keeps (saveFuncState sv a s) := by
    unfold saveFuncState
    split
    · exact keeps_then (keeps_dict hsv _ _) (keeps_emit _)
    · exact keeps_then (keeps_dict hsv _ _) (keeps_then (keeps_dict hsv _ _) (keeps_then (keeps_emit _)
        (keeps_then (keeps_memoize _) (keeps_emit _))))
  have hbody : ∀ gA, Keeps (callReduce sv W.createFunction
      [.val co, gA, .val nm, .val d, .val cl] ;; memoOrGet x ;; saveFuncState sv a s) :=
    fun gA => keeps_then (keeps_call hsv _ _) (keeps_then (keeps_memoOrGet x) hst)
  intro p p' o he
  cases g with
  | byRef v => exact keeps_withPost hsv x [] _ (hbody (.val v)) p p' o he
  | copied init copy =>
    simp only [saveFunc] at he
    cases hf : p.post.find? (fun e => e.1 ∈ valueAddrs copy) with
    | none => rw [hf] at he; exact keeps_withPost hsv x _ _ (hbody _) p p' o he
    | some e =>
      obtain ⟨y, l⟩ := e
      rw [hf] at he
      rw [keeps_withPost hsv x _ _ (hbody _) _ p' o he]
      simp only [keys_addRed]

theorem keeps_step (v : Val) : Keeps (saveStep W sv v) := by
  cases v with
  | atom a => exact keeps_emit _
  | ref x =>
    intro p p' o he
    simp only [saveStep] at he
    split at he
    · exact keeps_emit _ p p' o he
    · cases hH : W.H x with
      | leaf a => rw [hH] at he; exact keeps_then (keeps_emit _) (keeps_memoize (.obj x)) p p' o he
      | tuple es => rw [hH] at he; exact keeps_tuple hsv x es p p' o he
      | fset es => rw [hH] at he; exact keeps_fset hsv x es p p' o he
      | node con lits dits st => rw [hH] at he; exact keeps_node hsv x con lits dits st p p' o he
      | cell c => rw [hH] at he; exact keeps_cell hsv x c p p' o he
      | func co g nm d cl a s => rw [hH] at he; exact keeps_func hsv x co g nm d cl a s p p' o he
      | cls mt nm b d q =>
        rw [hH] at he
        exact keeps_withPost hsv x _ _ (keeps_then (keeps_call hsv _ _) (keeps_memoOrGet x)) p p' o he
      | bad => rw [hH] at he; cases he
end

theorem keeps_save (W : World) (n : Nat) : ∀ v, Keeps (save W n v) := by
  induction n with
  | zero => intro v p p' o h; cases h
  | succ n ih => intro v; exact keeps_step ih v

theorem dumpOn_ok {W n root p p' ops} (h : dumpOn W n root p = (p', .ok ops)) : save W n root p = .ok (p', ops) := by
  unfold dumpOn at h
  split at h
  · rename_i hs; simp only [Prod.mk.injEq, Except.ok.injEq] at h; rw [hs, h.1, h.2]
  · simp at h

/-! ### C76 -/

/-- no dump of the history raised -/
def AllOk (rs : List (Except Err (List Op))) : Prop := ∀ r ∈ rs, ∃ ops, r = .ok ops

theorem evs_post (es : List Ev) (p : P) (hp : p.post = []) (h : AllOk (runEvs p es).2) : (runEvs p es).1.post = [] := by
  induction es generalizing p with
  | nil => exact hp
  | cons e es ih =>
    simp only [runEvs] at h ⊢
    refine ih _ ?_ (fun r hr => h r (by simp [hr]))
    cases e with
    | clear => exact hp
    | dump W n root =>
      obtain ⟨ops, ho⟩ := h (dumpOn W n root p).2 (by simp [onEv])
      have := keeps_save W n root p _ ops (dumpOn_ok (p' := (dumpOn W n root p).1) (ops := ops) (by rw [← ho]))
      rw [hp] at this
      simpa [onEv] using this

/-- After `clear_memo`, a pickler that has only ever dumped successfully behaves like a new one: `dill.dumps`. -/
theorem C76_clear_memo_like_new_partial (es : List Ev) (W : World) (n : Nat) (root : Val)
    (h : AllOk (runEvs freshPickler es).2) :
    (dumpOn W n root (clearMemo (runEvs freshPickler es).1)).2 = dumps W n root := by
  have hp := evs_post es freshPickler rfl h
  have : clearMemo (runEvs freshPickler es).1 = ⟨[], []⟩ := by
    unfold clearMemo; rw [← hp]
  rw [this]
  unfold dumpOn dumps
  cases save W n root ⟨[], []⟩ with
  | ok r => rfl
  | error e => rfl

/-- the invariant after a successful dump, for a pickler and an unpickler in step -/
structure InStep (W : World) (p : P) (u : Unp) : Prop where
  inv : Inv W (fun _ => False) p u.memo u.heap
  post : p.post = []

theorem dump_step {W} (hw : WF W) {n root p u p' ops} (hi : InStep W p u) (h : dumpOn W n root p = (p', .ok ops)) :
    ∃ tv u', loadOn ops u = some (tv, u') ∧ InStep W p' u' ∧ p.memo <+: p'.memo ∧ u.memo <+: u'.memo ∧
      VRel W p'.memo u'.memo root tv := by
  obtain ⟨m, h1, tv, h2, h3, h4, h5, h6⟩ :=
    save_ok hw n root (fun _ => False) p ⟨[], [], u.memo, u.heap⟩ hi.inv p' ops (dumpOn_ok h)
  refine ⟨tv, ⟨m.memo, m.heap⟩, ?_, ⟨h5, ?_⟩, h4.pmPre, h4.mmPre, h6⟩
  · simp [loadOn, h1, h2, h3]
  · have := keeps_save W n root p p' ops (dumpOn_ok h)
    rw [hi.post] at this
    simpa using this

/-- the corresponding objects form a copy, as soon as the root's value is related -/
theorem copy_of {W p u root tv} (hs : InStep W p u) (hv : VRel W p.memo u.memo root tv) :
    IsCopy W root tv u.heap (corrOf p.memo u.memo) := by
  have hi := hs.inv
  have good : ∀ (i : Nat) k v, p.memo[i]? = some k → u.memo[i]? = some v → Good W p.memo u.memo u.heap k v := by
    intro i k v g1 g2
    refine hi.good i k v g1 g2 (fun h => h) ?_
    rintro ⟨e, he, _⟩
    rw [hs.post] at he; cases he
  refine ⟨copyVal_of hi hs.post hv, ?_, ?_, ?_, ?_, ?_⟩
  · intro x y t hx hy
    obtain ⟨i, a1, a2⟩ := (corr_obj hi).1 hx
    obtain ⟨j, b1, b2⟩ := (corr_obj hi).1 hy
    have := hi.inj i j t a2 b2
    subst this
    rw [a1] at b1; cases b1; rfl
  · intro x y t hx hy
    obtain ⟨i, a1, a2⟩ := (corr_globs hi).1 hx
    obtain ⟨j, b1, b2⟩ := (corr_globs hi).1 hy
    have := hi.inj i j t a2 b2
    subst this
    rw [a1] at b1; cases b1; rfl
  · intro x f t hx hf
    obtain ⟨i, a1, a2⟩ := (corr_obj hi).1 hx
    obtain ⟨j, b1, b2⟩ := (corr_globs hi).1 hf
    have := hi.inj i j t a2 b2
    subst this
    rw [a1] at b1; cases b1
  · intro x t hx
    obtain ⟨i, a1, a2⟩ := (corr_obj hi).1 hx
    rcases good i _ _ a1 a2 with (⟨_, _, _, e⟩ | ⟨a, _, e⟩) | ⟨t', o, e, g1, g2⟩
    · cases e
    · cases e
    · cases e; exact ⟨o, g1, copyObj_of hi hs.post g2⟩
  · rintro f t hf ⟨co, i', c, n', d, cl, a, s, hF⟩
    obtain ⟨i, a1, a2⟩ := (corr_globs hi).1 hf
    obtain ⟨t', es, e, g1, g2⟩ := good i _ _ a1 a2
    obtain ⟨t'', es', e', k1, k2⟩ := hi.shape i _ _ a1 a2
    cases e; cases e'
    rw [g1] at k1; cases k1
    refine ⟨es, g1, ?_⟩
    simp only [CopyGlobals, hF]
    simp only [globCopy, hF] at g2
    constructor
    · intro e he
      obtain ⟨tk, tv, q1, q2, q3⟩ := g2 e he
      exact ⟨tk, tv, copyVal_of hi hs.post q1, copyVal_of hi hs.post q2, q3⟩
    · intro te hte
      rcases k2 te hte with q | ⟨s, hs', q⟩
      · exact .inl q
      · refine .inr ⟨s, ?_, copyVal_of hi hs.post q.1, copyVal_of hi hs.post q.2⟩
        simpa [globSrc, hF] using hs'

theorem seq_aux {W} (hw : WF W) (rs : List (Nat × Val)) (p : P) (u : Unp) (hi : InStep W p u) (opss : List (List Op))
    (h : (runEvs p (rs.map fun r => .dump W r.1 r.2)).2 = opss.map .ok) :
    ∃ tvs u' p', loadAll opss u = some (tvs, u') ∧ InStep W p' u' ∧ p.memo <+: p'.memo ∧ u.memo <+: u'.memo ∧
      All2 (VRel W p'.memo u'.memo) (rs.map (·.2)) tvs := by
  induction rs generalizing p u opss with
  | nil =>
    simp only [List.map_nil, runEvs] at h
    cases opss with
    | nil => exact ⟨[], u, p, rfl, hi, List.prefix_rfl, List.prefix_rfl, .nil⟩
    | cons a b => cases h
  | cons r rs ih =>
    simp only [List.map_cons, runEvs, onEv, Option.toList, List.singleton_append] at h
    cases opss with
    | nil => cases h
    | cons ops opss =>
      simp only [List.map_cons, List.cons.injEq] at h
      obtain ⟨tv, u1, g1, g2, g3, g4, g5⟩ := dump_step hw hi (n := r.1) (root := r.2)
        (p' := (dumpOn W r.1 r.2 p).1) (ops := ops) (by rw [← h.1])
      obtain ⟨tvs, u2, p2, k1, k2, k3, k4, k5⟩ := ih _ u1 g2 opss h.2
      refine ⟨tv :: tvs, u2, p2, ?_, k2, g3.trans k3, g4.trans k4, .cons (g5.mono k3 k4) k5⟩
      simp [loadAll, g1, k1]

/-- Objects dumped in turn by one new pickler and loaded in turn by one new unpickler are copies of the originals
under a single correspondence: what they share is shared by the copies, also across dumps. -/
theorem C76_dump_sequence (W : World) (hw : WF W) (rs : List (Nat × Val)) (opss : List (List Op))
    (h : (runEvs freshPickler (rs.map fun r => .dump W r.1 r.2)).2 = opss.map .ok) :
    ∃ tvs u φ, loadAll opss freshUnpickler = some (tvs, u) ∧
      Pointwise (fun r tv => IsCopy W r.2 tv u.heap φ) rs tvs := by
  have hi : InStep W freshPickler freshUnpickler := by
    refine ⟨⟨rfl, ?_, ?_, ?_, ?_, ?_, ?_, ?_, ?_, ?_, ?_, hw.nameOne, hw.nameInj⟩, rfl⟩ <;> simp [freshPickler, freshUnpickler]
  obtain ⟨tvs, u', p', h1, h2, _, _, h5⟩ := seq_aux hw rs freshPickler freshUnpickler hi opss h
  refine ⟨tvs, u', corrOf p'.memo u'.memo, h1, ?_⟩
  refine ⟨by simpa using h5.length, ?_⟩
  intro i r tv hr ht
  obtain ⟨b, g1, g2⟩ := h5.get i r.2 (by simp [hr])
  rw [ht] at g1; cases g1
  exact copy_of h2 g2

/-- In particular two roots are the same object iff their copies are (no root being the bare name of an object that is saved by
value). -/
theorem C76_identity_across_dumps (W : World) (hw : WF W) (rs : List (Nat × Val)) (opss : List (List Op))
    (hp : ∀ r ∈ rs, ∀ x a, W.byName x = some a → r.2 ≠ .atom a)
    (h : (runEvs freshPickler (rs.map fun r => .dump W r.1 r.2)).2 = opss.map .ok) :
    ∃ tvs u, loadAll opss freshUnpickler = some (tvs, u) ∧ tvs.length = rs.length ∧
      ∀ (i j : Nat) r r' tv tv', rs[i]? = some r → rs[j]? = some r' → tvs[i]? = some tv → tvs[j]? = some tv' →
        (node W r.2 = node W r'.2 ↔ tv = tv') := by
  obtain ⟨tvs, u, φ, h1, h2, h3⟩ := C76_dump_sequence W hw rs opss h
  refine ⟨tvs, u, h1, h2.symm, ?_⟩
  intro i j r r' tv tv' a b c d
  have x := h3 i r tv a c
  have y := h3 j r' tv' b d
  exact same_of hw x (hp r (List.mem_of_getElem? a)) (hp r' (List.mem_of_getElem? b)) x.root y.root

/-! ### three dumps of parts of one graph -/

namespace Ex76

def isSome {α : Type} : Option α → Bool
  | some _ => true
  | none => false

/-- the results, if all are ok -/
def oks : List (Except Err (List Op)) → Option (List (List Op))
  | [] => some []
  | .ok o :: rs => (oks rs).map (o :: ·)
  | .error _ :: _ => none

theorem oks_some {rs opss} (h : oks rs = some opss) : rs = opss.map .ok := by
  induction rs generalizing opss with
  | nil => simp only [oks, Option.some.injEq] at h; subst h; rfl
  | cons r rs ih =>
    cases r with
    | error e => cases h
    | ok o =>
      simp only [oks, Option.map_eq_some_iff] at h
      obtain ⟨t, h1, rfl⟩ := h
      simp [ih h1]

def roots : List (Nat × Val) := [(40, .ref 7), (40, .ref 0), (40, .ref 6), (40, .ref 7)]

theorem roots_ok : isSome (oks (runEvs freshPickler (roots.map fun r => .dump Ex.W r.1 r.2)).2) = true := by
  decide +kernel

/-- C76_dump_sequence and C76_identity_across_dumps apply to the list, the recursive function, the class and the list again -/
example : ∃ opss tvs u φ, (runEvs freshPickler (roots.map fun r => .dump Ex.W r.1 r.2)).2 = opss.map .ok ∧
    loadAll opss freshUnpickler = some (tvs, u) ∧ Pointwise (fun r tv => IsCopy Ex.W r.2 tv u.heap φ) roots tvs := by
  cases h : oks (runEvs freshPickler (roots.map fun r => .dump Ex.W r.1 r.2)).2 with
  | none => have := roots_ok; rw [h] at this; cases this
  | some opss =>
    have e := oks_some h
    obtain ⟨tvs, u, φ, h1, h2⟩ := C76_dump_sequence Ex.W Ex.wf roots opss e
    exact ⟨opss, tvs, u, φ, e, h1, h2⟩

def s (x : String) : Val := .atom (.str x)

/-- 0: a function whose defaults hold an object that cannot be pickled; 4: a closure over a cell with 5 in it;
6: a list with the same list twice -/
def H : Addr → SObj := fun a => match a with
  | 0 => .func (s "code") (.byRef (.atom (.glob "m" "__dict__"))) (s "f") (.ref 1) (.atom .none) [] []
  | 1 => .tuple [.ref 2]
  | 2 => .bad
  | 3 => .cell (some (.atom (.int 5)))
  | 4 => .func (s "code") (.byRef (.atom (.glob "m" "__dict__"))) (s "g") (.atom .none) (.ref 5) [] []
  | 5 => .tuple [.ref 3]
  | 6 => .node .list [.ref 7, .ref 7] [] none
  | 7 => .node .list [.atom (.int 1)] [] none
  | 8 => .node .list [.ref 9, .ref 9] [] none
  | 9 => .node .list [.atom (.int 2)] [] none
  | _ => .leaf .none

def W : World := ⟨H, .atom aCreateFunction, .atom aCreateCell, .atom aCreateType, .atom aCellEmpty,
  .atom aSetattr, .atom aDelattr, .atom aContents, .atom aQualname, fun _ => none⟩

/-- the value an access path leads to in what the last of some dumps on one pickler loads as, with a new unpickler -/
def lastLoad (es : List Ev) (path : List Sel) : Option (Option TVal) :=
  match (runEvs freshPickler es).2.getLast? with
  | some (.ok ops) => (load ops).map fun r => tfollow r.2 r.1 path
  | _ => none

/-- A dump that raises, `clear_memo`, then the dump of a closure: that dump succeeds and loads, but the closure's
variable is None instead of 5.  Without the failed dump it is 5. -/
theorem C76_failed_dump_spoils_pickler :
    (dumpOn W 40 (.ref 0) freshPickler).2 = .error .unpicklable ∧
    follow W (.ref 4) [.closure, .item 0, .contents] = some (.atom (.int 5)) ∧
    lastLoad [.dump W 40 (.ref 0), .clear, .dump W 40 (.ref 4)] [.closure, .item 0, .contents] = some (some (.atom .none)) ∧
    lastLoad [.dump W 40 (.ref 8), .clear, .dump W 40 (.ref 4)] [.closure, .item 0, .contents] = some (some (.atom (.int 5))) := by
  refine ⟨rfl, by decide +kernel, by decide +kernel, by decide +kernel⟩

/-- what one unpickler makes of two pickles written by two picklers -/
def twoLoads (r r' : Val) (path : List Sel) : Option (Option TVal) :=
  match dumps W 40 r, dumps W 40 r' with
  | .ok a, .ok b => match loadAll [a, b] freshUnpickler with
    | some ([_, tv], u) => some (tfollow u.heap tv path)
    | _ => none
  | _, _ => none

/-- Two pickles written by two `dill.dump` calls cannot be read by one unpickler: `[b, b]` comes back as `[b, a]`,
where `[a, a]` was loaded before. -/
theorem C76_two_picklers_one_unpickler :
    follow W (.ref 8) [.item 1, .item 0] = some (.atom (.int 2)) ∧
    twoLoads (.ref 6) (.ref 8) [.item 0, .item 0] = some (some (.atom (.int 2))) ∧
    twoLoads (.ref 6) (.ref 8) [.item 1, .item 0] = some (some (.atom (.int 1))) := by
  refine ⟨by decide +kernel, by decide +kernel, by decide +kernel⟩

end Ex76
end Verif.Core
