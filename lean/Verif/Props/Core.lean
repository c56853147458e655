import Verif.Core.Sim6
import Verif.Spec.Core
/-! C01, C03, C04, C05: what dill writes loads as an isomorphic copy. -/
set_option linter.unusedSimpArgs false
namespace Verif.Core
open Spec

/-! ### from the invariant to the specification -/

theorem dumps_inv {W} (hw : WF W) {n root ops} (h : dumps W n root = .ok ops) :
    ∃ p m tv, exec ops ⟨[], [], [], []⟩ = some m ∧ m.stack = [tv] ∧ m.metas = [] ∧
      Inv W (fun _ => False) p m.memo m.heap ∧ p.post = [] ∧ VRel W p.memo m.memo root tv := by
  unfold dumps at h
  split at h
  · rename_i p o hs
    cases h
    have hi : Inv W (fun _ => False) ⟨[], []⟩ [] [] := by
      refine ⟨rfl, ?_, ?_, ?_, ?_, ?_, ?_, ?_, ?_, ?_, ?_, hw.nameOne, hw.nameInj⟩ <;> simp
    obtain ⟨m, h1, tv, h2, h3, h4, h5, h6⟩ := save_ok hw n root (fun _ => False) ⟨[], []⟩ ⟨[], [], [], []⟩ hi p ops hs
    refine ⟨p, m, tv, h1, h2, h3, h5, ?_, h6⟩
    have := h4.post
    unfold PostExt at this
    generalize p.post = l at this
    cases this; rfl
  · cases h

def corrOf (pm : List Key) (mm : List TVal) : Corr where
  obj x := match (idx pm (.obj x)).bind (mm[·]?) with
    | some (.ref t) => some t
    | _ => none
  globs f := match (idx pm (.globs f)).bind (mm[·]?) with
    | some (.ref t) => some t
    | _ => none

section
variable {W : World} {opn : Key → Prop} {p : P} {mm : List TVal} {heap : List TObj}

theorem idx_eq (hi : Inv W opn p mm heap) {i : Nat} {k} (h : p.memo[i]? = some k) (hne : k ≠ .anon) :
    idx p.memo k = some i := by
  obtain ⟨j, hj⟩ := idx_isSome (List.mem_of_getElem? h)
  rw [hj, hi.nodup i j _ h (idx_some hj) hne]

theorem corr_obj (hi : Inv W opn p mm heap) {x t} :
    (corrOf p.memo mm).obj x = some t ↔ ∃ i : Nat, p.memo[i]? = some (.obj x) ∧ mm[i]? = some (.ref t) := by
  constructor
  · intro h
    simp only [corrOf] at h
    split at h
    · rename_i t' he
      cases h
      obtain ⟨i, h1, h2⟩ := Option.bind_eq_some_iff.1 he
      exact ⟨i, idx_some h1, h2⟩
    · cases h
  · rintro ⟨i, h1, h2⟩
    simp [corrOf, idx_eq hi h1, h2]

theorem corr_globs (hi : Inv W opn p mm heap) {x t} :
    (corrOf p.memo mm).globs x = some t ↔ ∃ i : Nat, p.memo[i]? = some (.globs x) ∧ mm[i]? = some (.ref t) := by
  constructor
  · intro h
    simp only [corrOf] at h
    split at h
    · rename_i t' he
      cases h
      obtain ⟨i, h1, h2⟩ := Option.bind_eq_some_iff.1 he
      exact ⟨i, idx_some h1, h2⟩
    · cases h
  · rintro ⟨i, h1, h2⟩
    simp [corrOf, idx_eq hi h1, h2]

theorem copyVal_of (hi : Inv W opn p mm heap) (hp : p.post = []) {v tv} (h : VRel W p.memo mm v tv) :
    CopyVal W (corrOf p.memo mm) v tv := by
  unfold VRel at h
  cases v with
  | atom a => exact h
  | ref x =>
    simp only [res] at h
    simp only [CopyVal]
    cases hx : W.H x <;> rw [hx] at h <;> simp only at h ⊢
    · exact h
    all_goals
      obtain ⟨i, h1, h2, ⟨t, rfl⟩ | h3⟩ := h
      · exact .inl ⟨t, (corr_obj hi).2 ⟨i, h1, h2⟩, rfl⟩
      · obtain ⟨hf, a, ha, rfl⟩ := h3
        refine .inr ⟨?_, ?_, a, ha, rfl⟩
        · rcases hi.named i x a h1 h2 hf with ⟨e, he, _⟩ | h
          · rw [hp] at he; cases he
          · exact h
        · cases hc : (corrOf p.memo mm).obj x with
          | none => rfl
          | some t =>
            obtain ⟨j, g1, g2⟩ := (corr_obj hi).1 hc
            have := hi.nodup i j _ h1 g1 (by simp)
            subst this
            rw [h2] at g2; cases g2

theorem pointwise_of {α β : Type} {R S : α → β → Prop} {as bs} (h : All2 R as bs) (hr : ∀ a b, R a b → S a b) :
    Pointwise S as bs := by
  refine ⟨h.length, ?_⟩
  intro i a b h1 h2
  obtain ⟨b', g1, g2⟩ := h.get i a h1
  rw [h2] at g1; cases g1
  exact hr _ _ g2

theorem copyVals_of (hi : Inv W opn p mm heap) (hp : p.post = []) {as bs} (h : All2 (VRel W p.memo mm) as bs) :
    CopyVals W (corrOf p.memo mm) as bs := pointwise_of h fun _ _ h => copyVal_of hi hp h

theorem copyEntries_of (hi : Inv W opn p mm heap) (hp : p.post = []) {as bs} (h : All2 (KVRel W p.memo mm) as bs) :
    CopyEntries W (corrOf p.memo mm) as bs :=
  pointwise_of h fun _ _ h => ⟨copyVal_of hi hp h.1, copyVal_of hi hp h.2⟩

theorem copyObj_of (hi : Inv W opn p mm heap) (hp : p.post = []) {x o} (h : ObjRel W p.memo mm x (W.H x) o) :
    CopyObj W (corrOf p.memo mm) x o := by
  unfold CopyObj
  unfold ObjRel at h
  cases hx : W.H x with
  | leaf a => rw [hx] at h; exact h
  | tuple es =>
    rw [hx] at h
    cases o <;> simp only at h ⊢
    exact copyVals_of hi hp h
  | fset es =>
    rw [hx] at h
    cases o <;> simp only at h ⊢
    exact copyVals_of hi hp h
  | node con lits dits st =>
    rw [hx] at h
    cases o <;> simp only at h ⊢
    obtain ⟨h1, h2, h3, h4⟩ := h
    refine ⟨?_, ⟨h2.choose, copyVals_of hi hp h2.choose_spec.1, h2.choose_spec.2⟩, copyEntries_of hi hp h3, ?_⟩
    · rename_i tcon _ _ _ _
      cases con <;> cases tcon <;> simp only [ConRel] at h1 ⊢
      all_goals exact ⟨copyVal_of hi hp h1.1, copyVals_of hi hp h1.2⟩
    · cases st with
      | none => exact h4
      | some st =>
        cases st with
        | «opaque» v => obtain ⟨g1, tv, g2, g3⟩ := h4; exact ⟨g1, tv, g2, copyVal_of hi hp g3⟩
        | attrs es => exact ⟨copyEntries_of hi hp h4.1, h4.2⟩
  | cell c =>
    rw [hx] at h
    cases c <;> cases o <;> simp only at h ⊢
    · exact h
    · obtain ⟨tv, g1, g2⟩ := h; exact ⟨tv, g1, copyVal_of hi hp g2⟩
  | func code g name df cl attrs slots =>
    rw [hx] at h
    cases o <;> simp only at h ⊢
    obtain ⟨h1, h2, h3, h4, h5, h6, h7⟩ := h
    refine ⟨copyVal_of hi hp h1, ?_, copyVal_of hi hp h3, copyVal_of hi hp h4, copyVal_of hi hp h5, copyEntries_of hi hp h6,
      copyEntries_of hi hp h7⟩
    cases g with
    | byRef v => exact copyVal_of hi hp h2
    | copied a b =>
      obtain ⟨i, t, g1, g2, g3⟩ := h2
      exact ⟨t, (corr_globs hi).2 ⟨i, g1, g2⟩, g3⟩
  | cls mt name bases dict qual =>
    rw [hx] at h
    cases o <;> simp only at h ⊢
    obtain ⟨h1, h2, h3, h4, tq, h5, h6⟩ := h
    exact ⟨copyVal_of hi hp h1, copyVal_of hi hp h2, copyVal_of hi hp h3, copyEntries_of hi hp h4, tq, h5, copyVal_of hi hp h6⟩
  | bad => rw [hx] at h; cases o <;> exact h.elim

end

/-! ### C01: an isomorphic copy -/

/-- If dumps succeeds, loads succeeds and the result is an
isomorphic copy of the whole graph, except that the list items of an object that can be reached from its own constructor
arguments may be there several times over (`C01_items_repeated`), and a function or class that can be reached from what is needed to
create it (its defaults, its bases, its class dict) may be a reference to its name (`C01_class_of_itself_by_name`). -/
theorem C01_isomorphic_copy_partial (W : World) (hw : WF W) (n : Nat) (root : Val) (ops : List Op)
    (h : dumps W n root = .ok ops) :
    ∃ tv heap φ, load ops = some (tv, heap) ∧ IsCopy W root tv heap φ := by
  obtain ⟨p, m, tv, h1, h2, h3, hi, h5, h6⟩ := dumps_inv hw h
  have good : ∀ (i : Nat) k v, p.memo[i]? = some k → m.memo[i]? = some v → Good W p.memo m.memo m.heap k v := by
    intro i k v g1 g2
    refine hi.good i k v g1 g2 (fun h => h) ?_
    rintro ⟨e, he, _⟩
    rw [h5] at he; cases he
  refine ⟨tv, m.heap, corrOf p.memo m.memo, ?_, ?_⟩
  · simp [load, h1, h2, h3]
  · refine ⟨copyVal_of hi h5 h6, ?_, ?_, ?_, ?_, ?_⟩
    · intro x y t hx hy
      obtain ⟨i, a1, a2⟩ := (corr_obj hi).1 hx
      obtain ⟨j, b1, b2⟩ := (corr_obj hi).1 hy
      have := hi.inj i j t a2 b2
      subst this
      rw [a1] at b1; cases b1; rfl
    · intro x y t hx hy
      obtain ⟨i, a1, a2⟩ := (corr_globs hi).1 hx
      obtain ⟨j, b1, b2⟩ := (corr_globs hi).1 hy
      have := hi.inj i j t a2 b2
      subst this
      rw [a1] at b1; cases b1; rfl
    · intro x f t hx hf
      obtain ⟨i, a1, a2⟩ := (corr_obj hi).1 hx
      obtain ⟨j, b1, b2⟩ := (corr_globs hi).1 hf
      have := hi.inj i j t a2 b2
      subst this
      rw [a1] at b1; cases b1
    · intro x t hx
      obtain ⟨i, a1, a2⟩ := (corr_obj hi).1 hx
      rcases good i _ _ a1 a2 with (⟨_, _, _, e⟩ | ⟨a, _, e⟩) | ⟨t', o, e, g1, g2⟩
      · cases e
      · cases e
      · cases e; exact ⟨o, g1, copyObj_of hi h5 g2⟩
    · rintro f t hf ⟨co, i', c, n', d, cl, a, s, hF⟩
      obtain ⟨i, a1, a2⟩ := (corr_globs hi).1 hf
      obtain ⟨t', es, e, g1, g2⟩ := good i _ _ a1 a2
      obtain ⟨t'', es', e', k1, k2⟩ := hi.shape i _ _ a1 a2
      cases e; cases e'
      rw [g1] at k1; cases k1
      refine ⟨es, g1, ?_⟩
      simp only [CopyGlobals, hF]
      simp only [globCopy, hF] at g2
      constructor
      · intro e he
        obtain ⟨tk, tv, q1, q2, q3⟩ := g2 e he
        exact ⟨tk, tv, copyVal_of hi h5 q1, copyVal_of hi h5 q2, q3⟩
      · intro te hte
        rcases k2 te hte with q | ⟨s, hs, q⟩
        · exact .inl q
        · refine .inr ⟨s, ?_, copyVal_of hi h5 q.1, copyVal_of hi h5 q.2⟩
          simpa [globSrc, hF] using hs

/-! ### paths -/

section paths
variable {W : World} {root : Val} {rv : TVal} {heap : List TObj} {φ : Corr}

theorem kind_of (hc : IsCopy W root rv heap φ) {v tv} (h : CopyVal W φ v tv) :
    tkind heap tv = some (kind W v) ∨
      ∃ x a, v = .ref x ∧ Circular W x ∧ W.byName x = some a ∧ tv = .atom a := by
  cases v with
  | atom a => simp only [CopyVal] at h; subst h; exact .inl rfl
  | ref x =>
    simp only [CopyVal] at h
    cases hx : W.H x <;> rw [hx] at h <;> simp only at h
    · subst h; simp [tkind, kind, hx]
    all_goals
      rcases h with ⟨t, h1, rfl⟩ | ⟨h1, _, a, h2, h3⟩
      case inr => exact .inr ⟨x, a, rfl, h1, h2, h3⟩
      left
      obtain ⟨o, h2, h3⟩ := hc.objs x t h1
      unfold CopyObj at h3
      rw [hx] at h3
    case ref.bad.inl => cases o <;> exact h3.elim
    case ref.tuple.inl => cases o <;> simp only at h3; simp [tkind, kind, h2, hx]
    case ref.fset.inl => cases o <;> simp only at h3; simp [tkind, kind, h2, hx]
    case ref.cls.inl => cases o <;> simp only at h3; simp [tkind, kind, h2, hx]
    case ref.func.inl => cases o <;> simp only at h3; simp [tkind, kind, h2, hx]
    case ref.cell.inl c => cases c <;> cases o <;> simp only at h3 <;> simp [tkind, kind, h2, hx]
    case ref.node.inl con _ _ _ =>
      cases o <;> simp only at h3
      rename_i tcon _ _ _ _
      have h4 := h3.1
      cases con <;> cases tcon <;> simp only at h4 <;> simp [tkind, kind, h2, hx]

theorem Plain.ref (W : World) (x : Addr) : Plain W (.ref x) := by intro _ _ _ h; cases h

theorem Plain.of_refs {W : World} (hw : WF W) {v y} (h : v ∈ refs (W.H y)) : Plain W v := by
  rintro x a hx rfl; exact (hw.nameOne x a hx y).2 h

/-- copies of one object are one value -/
theorem copy_fun {v v' tv tv'} (h : CopyVal W φ v tv) (h' : CopyVal W φ v' tv') (e : node W v = node W v') : tv = tv' := by
  have key : ∀ {v tv}, CopyVal W φ v tv → (∃ a, node W v = .atom a ∧ tv = .atom a) ∨
      (∃ x t, node W v = .obj x ∧ tv = .ref t ∧ φ.obj x = some t) ∨
      (∃ x a, node W v = .obj x ∧ tv = .atom a ∧ W.byName x = some a ∧ φ.obj x = none) := by
    intro v tv h
    cases v with
    | atom a => exact .inl ⟨a, rfl, h⟩
    | ref x =>
      simp only [CopyVal] at h
      cases hx : W.H x <;> rw [hx] at h <;> simp only at h
      · exact .inl ⟨_, by simp [node, hx], h⟩
      all_goals
        rcases h with ⟨t, h1, h2⟩ | ⟨_, h1, a, h2, h3⟩
        · exact .inr (.inl ⟨x, t, by simp [node, hx], h2, h1⟩)
        · exact .inr (.inr ⟨x, a, by simp [node, hx], h3, h2, h1⟩)
  rcases key h with ⟨a, h1, rfl⟩ | ⟨x, t, h1, rfl, h3⟩ | ⟨x, a, h1, rfl, h3, h4⟩ <;>
    rcases key h' with ⟨b, k1, rfl⟩ | ⟨y, u, k1, rfl, k3⟩ | ⟨y, b, k1, rfl, k3, k4⟩ <;>
    rw [h1, k1] at e <;> cases e <;> first
      | rfl
      | (rw [h3] at k3; cases k3; rfl)
      | (rw [h4] at k3; cases k3)
      | (rw [h3] at k4; cases k4)

theorem same_of (hw : WF W) (hc : IsCopy W root rv heap φ) {v v' tv tv'} (hv : Plain W v) (hv' : Plain W v')
    (h : CopyVal W φ v tv) (h' : CopyVal W φ v' tv') : node W v = node W v' ↔ tv = tv' := by
  have key : ∀ {v tv}, CopyVal W φ v tv → (∃ a, node W v = .atom a ∧ tv = .atom a) ∨
      (∃ x t, node W v = .obj x ∧ tv = .ref t ∧ φ.obj x = some t) ∨
      (∃ x a, node W v = .obj x ∧ tv = .atom a ∧ W.byName x = some a ∧ φ.obj x = none) := by
    intro v tv h
    cases v with
    | atom a => exact .inl ⟨a, rfl, h⟩
    | ref x =>
      simp only [CopyVal] at h
      cases hx : W.H x <;> rw [hx] at h <;> simp only at h
      · exact .inl ⟨_, by simp [node, hx], h⟩
      all_goals
        rcases h with ⟨t, h1, h2⟩ | ⟨_, h1, a, h2, h3⟩
        · exact .inr (.inl ⟨x, t, by simp [node, hx], h2, h1⟩)
        · exact .inr (.inr ⟨x, a, by simp [node, hx], h3, h2, h1⟩)
  have noname : ∀ {v a x}, Plain W v → node W v = .atom a → W.byName x ≠ some a := by
    intro v a x hp hv hb
    cases v with
    | atom b => simp only [node, Node.atom.injEq] at hv; subst hv; exact hp x b hb rfl
    | ref y =>
      simp only [node] at hv
      have := (hw.nameOne x a hb y).1
      cases hy : W.H y <;> rw [hy] at hv this <;> simp only [Node.atom.injEq] at hv <;> first | (subst hv; exact this rfl) | cases hv
  rcases key h with ⟨a, h1, h2⟩ | ⟨x, t, h1, h2, h3⟩ | ⟨x, a, h1, h2, h3, h4⟩ <;>
    rcases key h' with ⟨b, k1, k2⟩ | ⟨y, u, k1, k2, k3⟩ | ⟨y, b, k1, k2, k3, k4⟩
  · rw [h1, k1, h2, k2]; simp
  · rw [h1, k1, h2, k2]; simp
  · rw [h1, k1, h2, k2]
    simp only [reduceCtorEq, TVal.atom.injEq, false_iff]
    rintro rfl; exact noname hv h1 k3
  · rw [h1, k1, h2, k2]; simp
  rotate_left
  · rw [h1, k1, h2, k2]
    simp only [Node.obj.injEq, reduceCtorEq, iff_false]
    rintro rfl; rw [h3] at k4; cases k4
  · rw [h1, k1, h2, k2]
    simp only [reduceCtorEq, TVal.atom.injEq, false_iff]
    rintro rfl; exact noname hv' k1 h3
  · rw [h1, k1, h2, k2]
    simp only [Node.obj.injEq, reduceCtorEq, iff_false]
    rintro rfl; rw [k3] at h4; cases h4
  · rw [h1, k1, h2, k2]
    simp only [Node.obj.injEq, TVal.atom.injEq]
    constructor
    · rintro rfl; rw [h3] at k3; cases k3; rfl
    · rintro rfl; exact hw.nameInj _ _ _ h3 k3
  · rw [h1, k1, h2, k2]
    simp only [Node.obj.injEq, TVal.ref.injEq]
    constructor
    · rintro rfl; rw [h3] at k3; cases k3; rfl
    · rintro rfl; exact hc.inj x y t h3 k3

/-- related options: both absent, or related values -/
def OptRel (W : World) (φ : Corr) (a : Option Val) (b : Option TVal) : Prop :=
  match a, b with
  | none, none => True
  | some v, some tv => CopyVal W φ v tv
  | _, _ => False

theorem pw_get {as bs} (h : CopyVals W φ as bs) (n : Nat) : OptRel W φ as[n]? bs[n]? := by
  obtain ⟨hl, hr⟩ := h
  cases ha : as[n]? with
  | none =>
    have : bs[n]? = none := by rw [List.getElem?_eq_none_iff] at ha ⊢; omega
    rw [this]; trivial
  | some a =>
    cases hb : bs[n]? with
    | none => rw [List.getElem?_eq_none_iff] at hb; have := (List.getElem?_eq_some_iff.1 ha).1; omega
    | some b => exact hr n a b ha hb

theorem pw_key {as bs} (h : CopyEntries W φ as bs) (n : Nat) : OptRel W φ (as[n]?.map (·.1)) (bs[n]?.map (·.1)) := by
  obtain ⟨hl, hr⟩ := h
  cases ha : as[n]? with
  | none =>
    have : bs[n]? = none := by rw [List.getElem?_eq_none_iff] at ha ⊢; omega
    rw [this]; trivial
  | some a =>
    cases hb : bs[n]? with
    | none => rw [List.getElem?_eq_none_iff] at hb; have := (List.getElem?_eq_some_iff.1 ha).1; omega
    | some b => exact (hr n a b ha hb).1

theorem pw_val {as bs} (h : CopyEntries W φ as bs) (n : Nat) : OptRel W φ (as[n]?.map (·.2)) (bs[n]?.map (·.2)) := by
  obtain ⟨hl, hr⟩ := h
  cases ha : as[n]? with
  | none =>
    have : bs[n]? = none := by rw [List.getElem?_eq_none_iff] at ha ⊢; omega
    rw [this]; trivial
  | some a =>
    cases hb : bs[n]? with
    | none => rw [List.getElem?_eq_none_iff] at hb; have := (List.getElem?_eq_some_iff.1 ha).1; omega
    | some b => exact (hr n a b ha hb).2

theorem lookupGlob_mem {k es v} (h : lookupGlob W k es = some v) : ∃ k', (k', v) ∈ es ∧ node W k' = .atom k := by
  induction es with
  | nil => cases h
  | cons e es ih =>
    obtain ⟨k', v'⟩ := e
    unfold lookupGlob at h
    split at h
    · rename_i hk; cases h; exact ⟨k', by simp, hk⟩
    · obtain ⟨k'', h1, h2⟩ := ih h; exact ⟨k'', by simp [h1], h2⟩

theorem times_get {α : Type} {n : Nat} {l : List α} {i : Nat} {v : α} (h : l[i]? = some v) : (times (n + 1) l)[i]? = some v := by
  rw [times, List.getElem?_append_left (List.getElem?_eq_some_iff.1 h).1]; exact h

/-- children of an object and of its copy; in one direction only for copied globals (the copy also has
`__builtins__` and `__name__`) and for items of self-made objects -/
theorem child_rel (hw : WF W) (hc : IsCopy W root rv heap φ) {x t o} (hx : φ.obj x = some t) (ho : heap[t]? = some o)
    (h : CopyObj W φ x o) (s : Sel) :
    (isGlob s = false → ¬ SelfMade W x → OptRel W φ (child W (W.H x) s) (tchild heap o s)) ∧
    (∀ v, child W (W.H x) s = some v → ∃ tv, tchild heap o s = some tv ∧ CopyVal W φ v tv) := by
  have lift : OptRel W φ (child W (W.H x) s) (tchild heap o s) →
    (isGlob s = false → ¬ SelfMade W x → OptRel W φ (child W (W.H x) s) (tchild heap o s)) ∧
    (∀ v, child W (W.H x) s = some v → ∃ tv, tchild heap o s = some tv ∧ CopyVal W φ v tv) := by
    intro h
    refine ⟨fun _ _ => h, ?_⟩
    intro v hv
    rw [hv] at h
    cases ht : tchild heap o s with
    | none => rw [ht] at h; exact h.elim
    | some tv => rw [ht] at h; exact ⟨tv, rfl, h⟩
  have hwo := hw.obj x
  unfold CopyObj at h
  cases hX : W.H x with
  | leaf a => rw [hX] at h; exact h.elim
  | tuple es =>
    rw [hX] at h lift
    cases o <;> simp only at h
    refine lift ?_
    cases s <;> first | exact pw_get h _ | trivial
  | fset es =>
    rw [hX] at h lift
    cases o <;> simp only at h
    refine lift ?_
    cases s <;> first | exact pw_get h _ | trivial
  | node con lits dits st =>
    rw [hX] at h lift hwo
    cases o <;> simp only at h
    rename_i tcon l d a s'
    obtain ⟨h1, ⟨k, h2, h2'⟩, h3, h4⟩ := h
    by_cases hit : ∃ n, s = .item n
    · obtain ⟨n, rfl⟩ := hit
      refine ⟨fun _ hns => ?_, ?_⟩
      · obtain rfl := h2' hns
        have := pw_get h2 n
        simpa [times, child, tchild] using this
      · intro v hv
        have := pw_get h2 n
        rw [times_get (v := v) hv] at this
        cases ht : l[n]? with
        | none => rw [ht] at this; exact this.elim
        | some tv => rw [ht] at this; exact ⟨tv, ht, this⟩
    refine lift ?_
    cases s with
    | item n => exact absurd ⟨n, rfl⟩ hit
    | key n => exact pw_key h3 n
    | val n => exact pw_val h3 n
    | state =>
      cases st with
      | none => rw [h4.2]; trivial
      | some st => cases st with
        | «opaque» v => obtain ⟨_, tv, e, h5⟩ := h4; rw [e]; exact h5
        | attrs es => rw [h4.2]; trivial
    | attrKey n =>
      cases st with
      | none => rw [h4.1]; trivial
      | some st => cases st with
        | «opaque» v => rw [h4.1]; trivial
        | attrs es => exact pw_key h4.1 n
    | attrVal n =>
      cases st with
      | none => rw [h4.1]; trivial
      | some st => cases st with
        | «opaque» v => rw [h4.1]; trivial
        | attrs es => exact pw_val h4.1 n
    | callee =>
      cases con <;> cases tcon <;> simp only at h1 <;> first | exact h1.1 | trivial
    | arg n =>
      cases con <;> cases tcon <;> simp only at h1 <;> first | exact pw_get h1.2 n | trivial
    | _ => trivial
  | cell c =>
    rw [hX] at h lift
    cases c with
    | none =>
      cases o <;> simp only at h
      subst h
      refine lift ?_
      cases s <;> trivial
    | some v =>
      cases o <;> simp only at h
      obtain ⟨tv, rfl, h5⟩ := h
      refine lift ?_
      cases s <;> first | exact h5 | trivial
  | func code g name df cl attrs slots =>
    rw [hX] at h lift hwo
    cases o <;> simp only at h
    rename_i code' g' name' df' cl' attrs' slots'
    obtain ⟨h1, h2, h3, h4, h5, h6, h7⟩ := h
    cases s with
    | code => exact lift h1
    | name => exact lift h3
    | defaults => exact lift h4
    | closure => exact lift h5
    | attrKey n => exact lift (pw_key h6 n)
    | attrVal n => exact lift (pw_val h6 n)
    | slotKey n => exact lift (pw_key h7 n)
    | slotVal n => exact lift (pw_val h7 n)
    | globRef =>
      refine lift ?_
      cases g with
      | copied i c => obtain ⟨t', _, rfl⟩ := h2; trivial
      | byRef v =>
        obtain ⟨a, ha⟩ := hwo.1
        have : g' = .atom a := by
          cases v with
          | atom b => simp [res] at ha; subst ha; exact h2
          | ref y =>
            simp only [res] at ha
            simp only [CopyVal] at h2
            cases hy : W.H y <;> rw [hy] at ha h2 <;> simp at ha
            subst ha; exact h2
        subst this
        exact h2
    | glob k =>
      refine ⟨by simp [isGlob], ?_⟩
      intro v hv
      cases g with
      | byRef v => simp [child] at hv
      | copied i c =>
        simp only [child] at hv
        obtain ⟨t', h8, rfl⟩ := h2
        obtain ⟨es, h9, h10⟩ := hc.globs x t' h8 ⟨_, _, _, _, _, _, _, _, hX⟩
        simp only [CopyGlobals, hX] at h10
        obtain ⟨k', hm, hk⟩ := lookupGlob_mem hv
        obtain ⟨tk, tv, c1, c2, c3⟩ := h10.1 _ hm
        have : tk = .atom k := copy_fun (v := k') (v' := .atom k) c1 rfl hk
        subst this
        exact ⟨tv, by simp [tchild, h9, c3], c2⟩
    | _ => exact lift trivial
  | cls mt name bases dict qual =>
    rw [hX] at h lift
    cases o <;> simp only at h
    obtain ⟨h1, h2, h3, h4, tq, rfl, h6⟩ := h
    refine lift ?_
    cases s <;> first | exact h1 | exact h2 | exact h3 | exact h6 | exact pw_key h4 _ | exact pw_val h4 _ | trivial
  | bad => rw [hX] at h; cases o <;> exact h.elim

/-- along a path without references to names the copy has the same path -/
theorem follow_rel (hw : WF W) (hc : IsCopy W root rv heap φ) (path : List Sel) {v tv} (h : CopyVal W φ v tv) :
    ∀ v', follow W v path = some v' → (∃ tv', tfollow heap tv path = some tv' ∧ CopyVal W φ v' tv') ∨
      ∃ pre s suf x a, path = pre ++ s :: suf ∧ follow W v pre = some (.ref x) ∧ Circular W x ∧ W.byName x = some a ∧
        tfollow heap tv pre = some (.atom a) := by
  induction path generalizing v tv with
  | nil => intro v' hv; simp [follow] at hv; subst hv; exact .inl ⟨tv, rfl, h⟩
  | cons s ss ih =>
    intro v' hv
    cases v with
    | atom a => simp [follow] at hv
    | ref x =>
      simp only [follow] at hv
      obtain ⟨w, hw1, hw2⟩ := Option.bind_eq_some_iff.1 hv
      simp only [CopyVal] at h
      have : (∃ t, φ.obj x = some t ∧ tv = .ref t) ∨ (Circular W x ∧ φ.obj x = none ∧ ∃ a, W.byName x = some a ∧ tv = .atom a) := by
        cases hx : W.H x <;> rw [hx] at h hw1 <;> first | exact h | simp [child] at hw1
      rcases this with ⟨t, h1, rfl⟩ | ⟨h1, _, a, h2, rfl⟩
      · obtain ⟨o, h2, h3⟩ := hc.objs x t h1
        obtain ⟨tw, h4, h5⟩ := (child_rel hw hc h1 h2 h3 s).2 w hw1
        rcases ih h5 v' hw2 with ⟨tv', h6, h7⟩ | ⟨pre, s', suf, y, a, e, g1, g2, g3, g4⟩
        · exact .inl ⟨tv', by simp [tfollow, h2, h4, h6], h7⟩
        · exact .inr ⟨s :: pre, s', suf, y, a, by simp [e], by simp [follow, hw1, g1], g2, g3,
            by simp [tfollow, h2, h4, g4]⟩
      · exact .inr ⟨[], s, ss, x, a, rfl, rfl, h1, h2, rfl⟩

theorem tfollow_append (heap : List TObj) (tv : TVal) (a b : List Sel) :
    tfollow heap tv (a ++ b) = (tfollow heap tv a).bind fun w => tfollow heap w b := by
  induction a generalizing tv with
  | nil => rfl
  | cons s a ih =>
    cases tv with
    | atom a => rfl
    | ref t =>
      simp only [List.cons_append, tfollow]
      cases (heap[t]?.bind fun o => tchild heap o s) with
      | none => rfl
      | some w => exact ih w

/-- a path in both graphs -/
theorem follow_both (hw : WF W) (hc : IsCopy W root rv heap φ) (path : List Sel) {v tv} (h : CopyVal W φ v tv) {v' tv'}
    (h1 : follow W v path = some v') (h2 : tfollow heap tv path = some tv') : CopyVal W φ v' tv' := by
  rcases follow_rel hw hc path h v' h1 with ⟨tw, g1, g2⟩ | ⟨pre, s, suf, x, a, rfl, _, _, _, g⟩
  · rw [g1] at h2; cases h2; exact g2
  · rw [tfollow_append, g] at h2; simp [tfollow] at h2

theorem reaches_child {x w y} (h : w ∈ refs (W.H x)) (hr : Reaches W w y) : Reaches W (.ref x) y := by
  induction hr with
  | here e => subst e; exact .step (.here rfl) h
  | step _ h' ih => exact .step ih h'

theorem child_refs {x s w} (hg : isGlob s = false) (h : child W (W.H x) s = some w) : w ∈ refs (W.H x) := by
  have mk : ∀ {es : List (Val × Val)} {n : Nat}, es[n]?.map (·.1) = some w → w ∈ kvVals es := by
    intro es n h
    obtain ⟨e, h1, rfl⟩ := Option.map_eq_some_iff.1 h
    exact List.mem_flatMap.2 ⟨e, List.mem_of_getElem? h1, by simp⟩
  have mv : ∀ {es : List (Val × Val)} {n : Nat}, es[n]?.map (·.2) = some w → w ∈ kvVals es := by
    intro es n h
    obtain ⟨e, h1, rfl⟩ := Option.map_eq_some_iff.1 h
    exact List.mem_flatMap.2 ⟨e, List.mem_of_getElem? h1, by simp⟩
  cases hx : W.H x with
  | leaf a => rw [hx] at h; cases h
  | bad => rw [hx] at h; cases h
  | tuple es => rw [hx] at h; cases s <;> first | exact List.mem_of_getElem? h | cases h
  | fset es => rw [hx] at h; cases s <;> first | exact List.mem_of_getElem? h | cases h
  | cell c => rw [hx] at h; cases s <;> cases c <;> first | (cases h; simp [refs]; done) | cases h
  | cls mt nm b d q =>
    rw [hx] at h
    cases s <;> first
      | (cases h; simp [refs]; done)
      | cases h
      | (have := mk h; simp [refs, this]; done)
      | (have := mv h; simp [refs, this]; done)
  | func co g nm d cl a sl =>
    rw [hx] at h
    cases s <;> first
      | (cases h; simp [refs]; done)
      | (have := mk h; simp [refs, this]; done)
      | (have := mv h; simp [refs, this]; done)
      | (cases g <;> first | (cases h; simp [refs]; done) | cases h)
      | cases h
      | cases hg
  | node con lits dits st =>
    rw [hx] at h
    cases s <;> first
      | (cases h; simp [refs]; done)
      | (have := List.mem_of_getElem? h; simp [refs, this]; done)
      | (have := mk h; simp [refs, this]; done)
      | (have := mv h; simp [refs, this]; done)
      | (cases con <;> first | (cases h; simp [refs, conRefs]; done) | (have := List.mem_of_getElem? h; simp [refs, conRefs, this]; done) | cases h)
      | (rcases st with _ | _ | _ <;> first
          | (cases h; simp [refs, stRefs]; done)
          | (have := mk h; simp [refs, stRefs, this]; done)
          | (have := mv h; simp [refs, stRefs, this]; done)
          | cases h)
      | cases h

theorem follow_back (hw : WF W) (hc : IsCopy W root rv heap φ) (path : List Sel) (hng : ∀ s ∈ path, isGlob s = false)
    {v tv} (hns : ∀ x, Reaches W v x → ¬ SelfMade W x) (h : CopyVal W φ v tv) :
    ∀ tv', tfollow heap tv path = some tv' → ∃ v', follow W v path = some v' := by
  induction path generalizing v tv with
  | nil => intro v' hv; exact ⟨v, rfl⟩
  | cons s ss ih =>
    intro tv' hv
    cases v with
    | atom a => simp only [CopyVal] at h; subst h; simp [tfollow] at hv
    | ref x =>
      simp only [CopyVal] at h
      have : ∃ t, φ.obj x = some t ∧ tv = .ref t := by
        cases hx : W.H x <;> rw [hx] at h <;> first
          | (simp only at h; subst h; simp [tfollow] at hv; done)
          | (rcases h with h | ⟨_, _, a, _, rfl⟩
             · exact h
             · simp [tfollow] at hv)
      obtain ⟨t, h1, rfl⟩ := this
      obtain ⟨o, h2, h3⟩ := hc.objs x t h1
      have h4 := (child_rel hw hc h1 h2 h3 s).1 (hng s (by simp)) (hns x (.here rfl))
      simp only [tfollow, h2, Option.bind_some] at hv
      obtain ⟨tw, k1, k2⟩ := Option.bind_eq_some_iff.1 hv
      rw [k1] at h4
      cases hw1 : child W (W.H x) s with
      | none => rw [hw1] at h4; exact h4.elim
      | some w =>
        rw [hw1] at h4
        obtain ⟨v', h6⟩ := ih (fun s hs => hng s (by simp [hs]))
          (fun y hy => hns y (reaches_child (child_refs (hng s (by simp)) hw1) hy)) h4 tv' k2
        exact ⟨v', by simp [follow, hw1, h6]⟩

end paths

/-- a path leads to the same atom or the same kind of object in the copy, or meets a reference to a name -/
theorem path_or_name {W : World} {root : Val} {tv : TVal} {heap : List TObj} {φ : Corr} (hw : WF W) (hc : IsCopy W root tv heap φ)
    {path : List Sel} {v} (hv : follow W root path = some v) :
    ByName W root heap tv path ∨
      ∃ tv', tfollow heap tv path = some tv' ∧ CopyVal W φ v tv' ∧ tkind heap tv' = some (kind W v) := by
  rcases follow_rel hw hc path hc.root v hv with ⟨tv', h1, h2⟩ | ⟨pre, s, suf, x, a, h1, h2, h3, h4, h5⟩
  · rcases kind_of hc h2 with h | ⟨x, a, rfl, h3, h4, rfl⟩
    · exact .inr ⟨tv', h1, h2, h⟩
    · exact .inl ⟨path, [], x, a, by simp, hv, h3, h4, h1⟩
  · exact .inl ⟨pre, s :: suf, x, a, h1, h2, h3, h4, h5⟩

theorem glob_refs {W : World} {x k v} (h : child W (W.H x) (.glob k) = some v) : v ∈ refs (W.H x) := by
  cases hx : W.H x with
  | func co g nm d cl a s =>
    rw [hx] at h
    cases g with
    | byRef w => cases h
    | copied init copy =>
      obtain ⟨k', h1, _⟩ := lookupGlob_mem h
      have : v ∈ kvVals copy := List.mem_flatMap.2 ⟨_, h1, by simp⟩
      simp [refs, this]
  | _ => rw [hx] at h; cases h

theorem child_mem {W : World} {x s w} (h : child W (W.H x) s = some w) : w ∈ refs (W.H x) := by
  cases hg : isGlob s with
  | false => exact child_refs hg h
  | true => cases s <;> simp [isGlob] at hg; exact glob_refs h

/-- what a path of at least one step leads to is found in the graph -/
theorem follow_plain {W : World} (hw : WF W) {path : List Sel} {v w} (hv : Plain W v) (h : follow W v path = some w) : Plain W w := by
  induction path generalizing v with
  | nil => simp [follow] at h; subst h; exact hv
  | cons s ss ih =>
    cases v with
    | atom a => simp [follow] at h
    | ref y =>
      simp only [follow] at h
      obtain ⟨u, h1, h2⟩ := Option.bind_eq_some_iff.1 h
      exact ih (.of_refs hw (child_mem h1)) h2

/-- The property in terms of access paths: every path of the original leads to the same atom or the same kind
of object in the copy, unless it comes to a function or class needed for its own creation which has become a reference to its
name; and two paths meet in the copy exactly when they meet in the original. -/
theorem C01_paths_partial (W : World) (hw : WF W) (n : Nat) (root : Val) (ops : List Op) (h : dumps W n root = .ok ops) :
    ∃ tv heap, load ops = some (tv, heap) ∧
      (∀ path v, follow W root path = some v → ByName W root heap tv path ∨
        ∃ tv', tfollow heap tv path = some tv' ∧ tkind heap tv' = some (kind W v)) ∧
      (∀ path path' v v' tv' tv'', follow W root path = some v → follow W root path' = some v' →
        tfollow heap tv path = some tv' → tfollow heap tv path' = some tv'' →
        (node W v = node W v' ↔ tv' = tv'')) := by
  obtain ⟨tv, heap, φ, hl, hc⟩ := C01_isomorphic_copy_partial W hw n root ops h
  refine ⟨tv, heap, hl, ?_, ?_⟩
  · intro path v hv
    exact (path_or_name hw hc hv).imp id fun ⟨tv', h1, _, h3⟩ => ⟨tv', h1, h3⟩
  · intro path path' v v' tv' tv'' h1 h2 h3 h4
    cases root with
    | ref r =>
      exact same_of hw hc (follow_plain hw (.ref W r) h1) (follow_plain hw (.ref W r) h2)
        (follow_both hw hc path hc.root h1 h3) (follow_both hw hc path' hc.root h2 h4)
    | atom a =>
      have hn : ∀ {path v}, follow W (.atom a) path = some v → path = [] ∧ v = .atom a := by
        intro path v h
        cases path with
        | nil => simp only [follow, Option.some.injEq] at h; exact ⟨rfl, h.symm⟩
        | cons s ss => cases h
      obtain ⟨rfl, rfl⟩ := hn h1
      obtain ⟨rfl, rfl⟩ := hn h2
      rw [h3] at h4; cases h4; simp

theorem reaches_trans {W : World} {v x y} (h : Reaches W v x) (h' : Reaches W (.ref x) y) : Reaches W v y := by
  induction h' with
  | here e => cases e; exact h
  | step _ h' ih => exact .step ih h'

theorem follow_reaches {W : World} {path : List Sel} {v x} (h : follow W v path = some (.ref x)) : Reaches W v x := by
  induction path generalizing v with
  | nil => simp [follow] at h; exact .here h
  | cons s ss ih =>
    cases v with
    | atom a => simp [follow] at h
    | ref y =>
      simp only [follow] at h
      obtain ⟨w, h1, h2⟩ := Option.bind_eq_some_iff.1 h
      exact reaches_child (child_mem h1) (ih h2)

/-- If nothing in the graph is needed for its own creation, there are no references to names and every path of the original is a
path of the copy. -/
theorem C01_paths_exact_partial (W : World) (hw : WF W) (n : Nat) (root : Val) (ops : List Op) (h : dumps W n root = .ok ops)
    (hnc : ∀ x, Reaches W root x → ¬ Circular W x) :
    ∃ tv heap, load ops = some (tv, heap) ∧
      (∀ path v, follow W root path = some v →
        ∃ tv', tfollow heap tv path = some tv' ∧ tkind heap tv' = some (kind W v)) ∧
      (∀ path path' v v' tv' tv'', follow W root path = some v → follow W root path' = some v' →
        tfollow heap tv path = some tv' → tfollow heap tv path' = some tv'' →
        (node W v = node W v' ↔ tv' = tv'')) := by
  obtain ⟨tv, heap, hl, h1, h2⟩ := C01_paths_partial W hw n root ops h
  refine ⟨tv, heap, hl, ?_, h2⟩
  intro path v hv
  rcases h1 path v hv with ⟨pre, suf, x, a, _, g1, g2, _⟩ | h
  · exact absurd g2 (hnc x (follow_reaches g1))
  · exact h

/-- The copy has no other paths (copied globals aside, which also get `__builtins__`), unless an object with list items can be
reached from its own constructor arguments; see `C01_items_repeated` for such an object. -/
theorem C01_no_other_paths_partial (W : World) (hw : WF W) (n : Nat) (root : Val) (ops : List Op) (h : dumps W n root = .ok ops)
    (hns : ∀ x, Reaches W root x → ¬ SelfMade W x) :
    ∃ tv heap, load ops = some (tv, heap) ∧
      ∀ path tv', (∀ s ∈ path, isGlob s = false) → tfollow heap tv path = some tv' → ∃ v, follow W root path = some v := by
  obtain ⟨tv, heap, φ, hl, hc⟩ := C01_isomorphic_copy_partial W hw n root ops h
  exact ⟨tv, heap, hl, fun path tv' hng hv => follow_back hw hc path hng hns hc.root tv' hv⟩

/-! ### C03: cells -/

/-- every cell reached in the original is reached as a cell in the copy, empty if and only if it was empty,
and with the copy of the original contents -/
theorem C03_cells (W : World) (hw : WF W) (n : Nat) (root : Val) (ops : List Op) (h : dumps W n root = .ok ops) :
    ∃ tv heap φ, load ops = some (tv, heap) ∧ IsCopy W root tv heap φ ∧
      ∀ path x c, follow W root path = some (.ref x) → W.H x = .cell c → ByName W root heap tv path ∨
        ∃ t, tfollow heap tv path = some (.ref t) ∧ φ.obj x = some t ∧
          match c with
          | none => heap[t]? = some (.cell none)
          | some v => ∃ tv', heap[t]? = some (.cell (some tv')) ∧ CopyVal W φ v tv' := by
  obtain ⟨tv, heap, φ, hl, hc⟩ := C01_isomorphic_copy_partial W hw n root ops h
  refine ⟨tv, heap, φ, hl, hc, ?_⟩
  intro path x c hp hx
  rcases path_or_name hw hc hp with hb | ⟨tv', h1, h2, _⟩
  · exact .inl hb
  simp only [CopyVal, hx] at h2
  rcases h2 with ⟨t, h3, rfl⟩ | ⟨h3, _⟩
  case inr => obtain ⟨v, hv, _⟩ := h3; simp [hx, makeRefs] at hv
  refine .inr ⟨t, h1, h3, ?_⟩
  obtain ⟨o, h4, h5⟩ := hc.objs x t h3
  unfold CopyObj at h5
  rw [hx] at h5
  cases c with
  | none => cases o <;> simp only at h5; subst h5; exact h4
  | some v =>
    cases o <;> simp only at h5
    obtain ⟨tv', rfl, h6⟩ := h5
    exact ⟨tv', h4, h6⟩

/-! ### C04: copied globals -/

/-- a function pickled with a copy of its globals has, after loading, its own dict of globals in which every
name of that copy is bound to the copy of its value -/
theorem C04_globals (W : World) (hw : WF W) (n : Nat) (root : Val) (ops : List Op) (h : dumps W n root = .ok ops) :
    ∃ tv heap φ, load ops = some (tv, heap) ∧ IsCopy W root tv heap φ ∧
      ∀ path x co init copy nm d cl a s, follow W root path = some (.ref x) →
        W.H x = .func co (.copied init copy) nm d cl a s → ByName W root heap tv path ∨
        ∃ t tg es co' nm' d' cl' a' s', tfollow heap tv path = some (.ref t) ∧
          heap[t]? = some (.func co' (.ref tg) nm' d' cl' a' s') ∧
          heap[tg]? = some (.node .dict [] es [] none) ∧
          (∀ e ∈ copy, ∃ tk tv', CopyVal W φ e.1 tk ∧ CopyVal W φ e.2 tv' ∧ lookupD es tk = some tv') ∧
          (∀ te ∈ es, te = (.atom aBuiltins, .atom aBuiltinsVal) ∨
            ∃ e ∈ init ++ copy, CopyVal W φ e.1 te.1 ∧ CopyVal W φ e.2 te.2) := by
  obtain ⟨tv, heap, φ, hl, hc⟩ := C01_isomorphic_copy_partial W hw n root ops h
  refine ⟨tv, heap, φ, hl, hc, ?_⟩
  intro path x co init copy nm d cl a s hp hx
  rcases path_or_name hw hc hp with hb | ⟨tv', h1, h2, _⟩
  · exact .inl hb
  simp only [CopyVal, hx] at h2
  rcases h2 with ⟨t, h3, rfl⟩ | ⟨h3, _, b, h4, rfl⟩
  case inr => exact .inl ⟨path, [], x, b, by simp, hp, h3, h4, h1⟩
  obtain ⟨o, h4, h5⟩ := hc.objs x t h3
  unfold CopyObj at h5
  rw [hx] at h5
  cases o <;> simp only at h5
  obtain ⟨_, ⟨tg, h6, rfl⟩, _⟩ := h5
  obtain ⟨es, h7, h8⟩ := hc.globs x tg h6 ⟨_, _, _, _, _, _, _, _, hx⟩
  simp only [CopyGlobals, hx] at h8
  exact .inr ⟨t, tg, es, _, _, _, _, _, _, h1, h4, h7, h8.1, h8.2⟩

/-! ### C05: the stream is a program that runs -/

/-- every opcode of the stream can be executed, and at the end there is exactly one value and no open mark -/
theorem C05_stream_runs (W : World) (hw : WF W) (n : Nat) (root : Val) (ops : List Op)
    (h : dumps W n root = .ok ops) :
    (∃ m v, exec ops ⟨[], [], [], []⟩ = some m ∧ m.stack = [v] ∧ m.metas = []) ∧
    (∀ pre op post, ops = pre ++ op :: post →
      ∃ m m', exec pre ⟨[], [], [], []⟩ = some m ∧ step op m = some m') := by
  obtain ⟨p, m, tv, h1, h2, h3, _⟩ := dumps_inv hw h
  refine ⟨⟨m, tv, h1, h2, h3⟩, ?_⟩
  rintro pre op post rfl
  rw [exec_append] at h1
  obtain ⟨m1, g1, g2⟩ := Option.bind_eq_some_iff.1 h1
  simp only [exec] at g2
  obtain ⟨m2, k1, k2⟩ := Option.bind_eq_some_iff.1 g2
  exact ⟨m1, m2, g1, k1⟩

end Verif.Core
