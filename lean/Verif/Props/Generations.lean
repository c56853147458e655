import Verif.Spec.Again
import Verif.Props.CoreSucc
import Verif.Core.KeysOnce
import Verif.Props.CoreEx
import Mathlib.Tactic.CasesM
/-! C112: copies of copies. -/
set_option linter.unusedSimpArgs false
namespace Verif.Core
open Spec

section
variable {W : World} {root : Val} {tv : TVal} {heap : List TObj} {φ : Corr}

/-- a value of the graph -/
def InG (W : World) (root v : Val) : Prop := ∀ x, v = .ref x → Reaches W root x

theorem InG.part {x v} (hx : Reaches W root x) (h : v ∈ refs (W.H x)) : InG W root v := by
  rintro y rfl; exact .step hx h

theorem val_cases (hn : ∀ x, Reaches W root x → ¬ Circular W x) {v u} (hv : InG W root v) (h : CopyVal W φ v u) :
    (∃ a, u = .atom a ∧ res W v = .inl a) ∨
    ∃ x t, v = .ref x ∧ res W v = .inr x ∧ u = .ref t ∧ φ.obj x = some t ∧ Reaches W root x := by
  cases v with
  | atom a => exact .inl ⟨a, h, rfl⟩
  | ref x =>
    simp only [CopyVal] at h
    cases hx : W.H x <;> rw [hx] at h <;> simp only at h
    case leaf a => exact .inl ⟨a, h, by simp [res, hx]⟩
    all_goals
      rcases h with ⟨t, h1, h2⟩ | ⟨h1, _⟩
      · exact .inr ⟨x, t, rfl, by simp [res, hx], h2, h1, hv x rfl⟩
      · exact absurd h1 (hn x (hv x rfl))

theorem res_src (hc : IsCopy W root tv heap φ) (hn : ∀ x, Reaches W root x → ¬ Circular W x) {v v' u} (hv : InG W root v)
    (hv' : InG W root v') (h : CopyVal W φ v u) (h' : CopyVal W φ v' u) : res W v = res W v' := by
  rcases val_cases hn hv h with ⟨a, h1, h2⟩ | ⟨x, t, rfl, h2, h3, h4, _⟩ <;>
    rcases val_cases hn hv' h' with ⟨b, g1, g2⟩ | ⟨y, s, rfl, g2, g3, g4, _⟩
  · rw [h1] at g1; cases g1; rw [h2, g2]
  · rw [h1] at g3; cases g3
  · rw [g1] at h3; cases h3
  · rw [h3] at g3; cases g3; rw [h2, g2, hc.inj x y t h4 g4]

/-! ### parts of a loaded object are copies of parts of the source object -/

theorem vals_parts {as : List Val} {bs : List TVal} (h : CopyVals W φ as bs) : ∀ u ∈ bs, ∃ v ∈ as, CopyVal W φ v u := by
  intro u hu
  obtain ⟨i, hi, rfl⟩ := List.mem_iff_getElem.1 hu
  have hi' : i < as.length := h.1 ▸ hi
  exact ⟨as[i], List.getElem_mem hi', h.2 i _ _ (List.getElem?_eq_getElem hi') (List.getElem?_eq_getElem hi)⟩

theorem mem_times {α} {n : Nat} {l : List α} {v : α} (h : v ∈ times n l) : v ∈ l := by
  induction n with
  | zero => simp [times] at h
  | succ n ih => simp only [times, List.mem_append] at h; exact h.elim id ih

/-- every object in `ws` is a copy of one of `vs` -/
def CParts (W : World) (φ : Corr) (vs ws : List Val) : Prop := ∀ t, .ref t ∈ ws → ∃ v ∈ vs, CopyVal W φ v (.ref t)

theorem toVal_ref {u t} : toVal u = .ref t ↔ u = .ref t := by cases u <;> simp [toVal]
theorem toVal_inj {u u'} (h : toVal u = toVal u') : u = u' := by cases u <;> cases u' <;> simp_all [toVal]

theorem CParts.nil {vs} : CParts W φ vs [] := fun _ h => absurd h (by simp)
theorem CParts.app {vs vs' ws ws'} (h : CParts W φ vs ws) (h' : CParts W φ vs' ws') : CParts W φ (vs ++ vs') (ws ++ ws') := by
  intro w hw
  rcases List.mem_append.1 hw with hw | hw
  · obtain ⟨v, h1, h2⟩ := h w hw; exact ⟨v, by simp [h1], h2⟩
  · obtain ⟨v, h1, h2⟩ := h' w hw; exact ⟨v, by simp [h1], h2⟩
theorem CParts.cons {v vs u ws} (h : CopyVal W φ v u) (h' : CParts W φ vs ws) : CParts W φ (v :: vs) (toVal u :: ws) := by
  intro w hw
  rcases List.mem_cons.1 hw with hw | hw
  · exact ⟨v, by simp, by rw [← toVal_ref.1 hw.symm]; exact h⟩
  · obtain ⟨v, h1, h2⟩ := h' w hw; exact ⟨v, by simp [h1], h2⟩
theorem CParts.vals {as : List Val} {bs : List TVal} (h : CopyVals W φ as bs) : CParts W φ as (bs.map toVal) := by
  intro w hw
  obtain ⟨u, hu, e⟩ := List.mem_map.1 hw
  have := toVal_ref.1 e
  subst this
  exact vals_parts h _ hu
theorem CParts.entries {as : List (Val × Val)} {bs : List (TVal × TVal)} (h : CopyEntries W φ as bs) :
    CParts W φ (kvVals as) (kvVals (toEntries bs)) := by
  intro w hw
  obtain ⟨e, he, hw⟩ := List.mem_flatMap.1 hw
  obtain ⟨te, hte, rfl⟩ := List.mem_map.1 he
  obtain ⟨i, hi, rfl⟩ := List.mem_iff_getElem.1 hte
  have hi' : i < as.length := h.1 ▸ hi
  have := h.2 i _ _ (List.getElem?_eq_getElem hi') (List.getElem?_eq_getElem hi)
  have hm : as[i] ∈ as := List.getElem_mem hi'
  simp only [List.mem_cons, List.not_mem_nil, or_false] at hw
  rcases hw with hw | hw
  · exact ⟨as[i].1, List.mem_flatMap.2 ⟨_, hm, by simp⟩, by rw [← toVal_ref.1 hw.symm]; exact this.1⟩
  · exact ⟨as[i].2, List.mem_flatMap.2 ⟨_, hm, by simp⟩, by rw [← toVal_ref.1 hw.symm]; exact this.2⟩

theorem CParts.atom {vs ws a} (h : CParts W φ vs ws) : CParts W φ vs (.atom a :: ws) := by
  intro w hw
  rcases List.mem_cons.1 hw with hw | hw
  · cases hw
  · exact h w hw

theorem CParts.sub {vs vs' ws} (h : CParts W φ vs ws) (hs : ∀ v ∈ vs, v ∈ vs') : CParts W φ vs' ws := by
  intro w hw
  obtain ⟨v, h1, h2⟩ := h w hw
  exact ⟨v, hs v h1, h2⟩

/-- what the theorem needs to know about a loaded object -/
structure ObjFacts (W : World) (heap : List TObj) (φ : Corr) (x : Addr) (o : TObj) : Prop where
  refs : CParts W φ (Spec.refs (W.H x)) (Spec.refs (found heap o))
  make : CParts W φ (makeRefs (W.H x)) (makeRefs (found heap o))
  creation : CParts W φ (creationRefs (W.H x)) (creationRefs (found heap o))
  cell : ∀ c, W.H x = .cell c → ∃ c', found heap o = .cell c'
  conParts : ∀ con lits dits st, found heap o = .node con lits dits st → ∃ con' lits' dits' st', W.H x = .node con' lits' dits' st' ∧
    CParts W φ (conRefs con') (conRefs con) ∧ (lits ≠ [] → lits' ≠ [])

theorem CParts.both {vs ws ws'} (h : CParts W φ vs ws) (h' : CParts W φ vs ws') : CParts W φ vs (ws ++ ws') := by
  intro w hw
  exact (List.mem_append.1 hw).elim (h w) (h' w)

theorem foundName_atom (es : List (TVal × TVal)) : ∃ a, foundName es = .atom a := by
  unfold foundName
  split
  · exact ⟨_, rfl⟩
  · exact ⟨_, rfl⟩

theorem CParts.name {vs} (es : List (TVal × TVal)) : CParts W φ vs (kvVals [(.atom (.str "__name__"), foundName es)]) := by
  obtain ⟨a, ha⟩ := foundName_atom es
  rw [ha]
  exact .atom (.atom .nil)

/-- what a loaded dict of globals refers to -/
theorem CParts.globs {x es} {co nm df cl : Val} {i c : List (Val × Val)} {a s} (hx : W.H x = .func co (.copied i c) nm df cl a s)
    (h : CopyGlobals W φ x es) : CParts W φ (kvVals i ++ kvVals c) (kvVals (toEntries es)) := by
  simp only [CopyGlobals, hx] at h
  intro w hw
  obtain ⟨e, he, hw⟩ := List.mem_flatMap.1 hw
  obtain ⟨te, hte, rfl⟩ := List.mem_map.1 he
  simp only [List.mem_cons, List.not_mem_nil, or_false] at hw
  rcases h.2 te hte with rfl | ⟨e, h1, h2, h3⟩
  · rcases hw with hw | hw <;> cases hw
  · have hm : ∀ v, v = e.1 ∨ v = e.2 → v ∈ kvVals i ++ kvVals c := by
      intro v hv
      rw [kvVals, kvVals, ← List.flatMap_append]
      exact List.mem_flatMap.2 ⟨e, h1, by simpa using hv⟩
    rcases hw with hw | hw
    · exact ⟨_, hm _ (.inl rfl), by rw [← toVal_ref.1 hw.symm]; exact h2⟩
    · exact ⟨_, hm _ (.inr rfl), by rw [← toVal_ref.1 hw.symm]; exact h3⟩

theorem obj_facts (hc : IsCopy W root tv heap φ) {x o} (hby : ∀ c g n d cl a s v, W.H x = .func c g n d cl a s → g = .byRef v →
    ∀ u, CopyVal W φ v u → ∃ b, u = .atom b) (h : CopyObj W φ x o) : ObjFacts W heap φ x o := by
  cases hx : W.H x with
  | leaf a => simp [CopyObj, hx] at h
  | bad => simp [CopyObj, hx] at h
  | tuple es =>
    cases o with
    | tuple ts =>
      simp only [CopyObj, hx] at h
      constructor <;> simp only [hx, found, Spec.refs, makeRefs, creationRefs]
      · exact .vals h
      · exact .nil
      · exact .vals h
      · intro c hc; cases hc
      · intro _ _ _ _ hc; cases hc
    | _ => simp [CopyObj, hx] at h
  | fset es =>
    cases o with
    | fset ts =>
      simp only [CopyObj, hx] at h
      constructor <;> simp only [hx, found, Spec.refs, makeRefs, creationRefs]
      · exact .vals h
      · exact .nil
      · exact .vals h
      · intro c hc; cases hc
      · intro _ _ _ _ hc; cases hc
    | _ => simp [CopyObj, hx] at h
  | cell c =>
    cases o with
    | cell c' =>
      cases c with
      | none =>
        simp only [CopyObj, hx] at h
        subst h
        constructor <;> simp only [hx, found, Spec.refs, makeRefs, creationRefs, Option.map]
        · exact .nil
        · exact .nil
        · exact .nil
        · intro c _; exact ⟨_, rfl⟩
        · intro _ _ _ _ hc; cases hc
      | some v =>
        simp only [CopyObj, hx] at h
        obtain ⟨u, rfl, h⟩ := h
        constructor <;> simp only [hx, found, Spec.refs, makeRefs, creationRefs, Option.map]
        · exact .cons h .nil
        · exact .nil
        · exact .cons h .nil
        · intro c _; exact ⟨_, rfl⟩
        · intro _ _ _ _ hc; cases hc
    | _ => cases c <;> simp [CopyObj, hx] at h
  | cls mt nm b d q =>
    cases o with
    | cls mt' nm' b' d' q' =>
      simp only [CopyObj, hx] at h
      obtain ⟨h1, h2, h3, h4, u, rfl, h5⟩ := h
      constructor <;> simp only [hx, found, Spec.refs, makeRefs, creationRefs, Option.getD]
      · exact .app (.cons h1 (.cons h2 (.cons h3 (.cons h5 .nil)))) (.entries h4)
      · exact .app (.cons h1 (.cons h2 (.cons h3 .nil))) (.entries h4)
      · exact .nil
      · intro c hc; cases hc
      · intro _ _ _ _ hc; cases hc
    | _ => simp [CopyObj, hx] at h
  | func co g nm df cl a s =>
    cases g with
    | copied i c =>
      cases o with
      | func co' g' nm' df' cl' a' s' =>
        simp only [CopyObj, hx] at h
        obtain ⟨h1, ⟨tg, h2, rfl⟩, h3, h4, h5, h6, h7⟩ := h
        obtain ⟨es, g1, g2⟩ := hc.globs x tg h2 ⟨_, _, _, _, _, _, _, _, hx⟩
        constructor <;> simp only [hx, found, foundGlobs, g1, Spec.refs, makeRefs, creationRefs]
        · exact .app (.app (.app (.cons h1 (.cons h3 (.cons h4 (.cons h5 .nil)))) (.both (.name es) (.globs hx g2))) (.entries h6)) (.entries h7)
        · exact .app (.cons h1 (.cons h3 (.cons h4 (.cons h5 .nil)))) (.name es)
        · exact .nil
        · intro c hc; cases hc
        · intro _ _ _ _ hc; cases hc
      | _ => simp [CopyObj, hx] at h
    | byRef gv =>
      cases o with
      | func co' g' nm' df' cl' a' s' =>
        simp only [CopyObj, hx] at h
        obtain ⟨h1, h2, h3, h4, h5, h6, h7⟩ := h
        obtain ⟨b, rfl⟩ := hby _ _ _ _ _ _ _ _ hx rfl _ h2
        constructor <;> simp only [hx, found, foundGlobs, Spec.refs, makeRefs, creationRefs]
        · exact .app (.app (.app (.cons h1 (.cons h3 (.cons h4 (.cons h5 .nil)))) (.cons h2 .nil)) (.entries h6)) (.entries h7)
        · exact .app (.cons h1 (.cons h3 (.cons h4 (.cons h5 .nil)))) (.cons h2 .nil)
        · exact .nil
        · intro c hc; cases hc
        · intro _ _ _ _ hc; cases hc
      | _ => simp [CopyObj, hx] at h
  | node con lits dits st =>
    cases o with
    | node con' l d a s =>
      simp only [CopyObj, hx] at h
      obtain ⟨h1, ⟨n, h2, _⟩, h3, h4⟩ := h
      have hl : CParts W φ lits (l.map toVal) := (CParts.vals h2).sub fun v => mem_times
      have hl' : l ≠ [] → lits ≠ [] := by
        rintro hl0 rfl
        obtain ⟨u, us, rfl⟩ := List.exists_cons_of_ne_nil hl0
        obtain ⟨v, g1, _⟩ := vals_parts h2 u (by simp)
        exact absurd (mem_times g1) (by simp)
      have hcon : CParts W φ (conRefs con) (conRefs (foundCon con')) := by
        cases con <;> cases con' <;> simp only at h1 <;> first
          | exact h1.elim
          | exact .nil
          | exact .cons h1.1 (.vals h1.2)
      have hst : CParts W φ (stRefs st) (stRefs (foundState s a)) := by
        rcases st with _ | v | es <;> simp only at h4
        · obtain ⟨rfl, rfl⟩ := h4; exact .nil
        · obtain ⟨rfl, u, rfl, h4⟩ := h4; exact .cons h4 .nil
        · obtain ⟨h4, rfl⟩ := h4
          cases a with
          | nil => exact .nil
          | cons e es' => exact .entries h4
      constructor <;> simp only [hx, found, Spec.refs, makeRefs, creationRefs]
      · exact .app (.app (.app hcon hl) (.entries h3)) hst
      · exact .nil
      · exact hcon
      · intro c hc; cases hc
      · intro _ _ _ _ hc
        cases hc
        exact ⟨_, _, _, _, rfl, hcon, fun h => hl' (by simpa using h)⟩
    | _ => simp [CopyObj, hx] at h

/-! ### the loaded graph as a source graph -/

theorem again_H {t o} (h : Found heap tv t) (ho : heap[t]? = some o) : (again heap tv).H t = found heap o := by simp [again, h, ho]

theorem again_out {t} (h : ¬ Found heap tv t) : (again heap tv).H t = .leaf .none := by simp [again, h]

theorem found_not_leaf (heap : List TObj) (o : TObj) : (∀ a, found heap o ≠ .leaf a) ∧ found heap o ≠ .bad := by
  cases o <;> simp [found]

/-- the loaded object at `t` is the copy of the object at `x` -/
structure Source (W : World) (root : Val) (heap : List TObj) (φ : Corr) (t : Nat) (x : Addr) (o : TObj) : Prop where
  reach : Reaches W root x
  obj : φ.obj x = some t
  at_ : heap[t]? = some o
  copy : CopyObj W φ x o
  facts : ObjFacts W heap φ x o

theorem byRef_atom (hp : Regular W root) {x c v n d cl a s u} (hr : Reaches W root x) (hx : W.H x = .func c (.byRef v) n d cl a s)
    (h : CopyVal W φ v u) : ∃ b, u = .atom b := by
  have hw := hp.wf.obj x
  rw [hx] at hw
  obtain ⟨⟨b, hb⟩, _⟩ := hw
  rcases val_cases (fun x hx => (hp.ok x hx).2) (InG.part hr (v := v) (by simp [hx, refs])) h with ⟨b', h1, _⟩ | ⟨_, _, _, h2, _⟩
  · exact ⟨b', h1⟩
  · rw [hb] at h2; cases h2

theorem source_of (hc : IsCopy W root tv heap φ) (hp : Regular W root) {v t} (hv : InG W root v)
    (h : CopyVal W φ v (.ref t)) : ∃ x o, v = .ref x ∧ Source W root heap φ t x o := by
  rcases val_cases (fun x hx => (hp.ok x hx).2) hv h with ⟨a, h1, _⟩ | ⟨x, t', rfl, _, h1, h2, h3⟩
  · cases h1
  · cases h1
    obtain ⟨o, g1, g2⟩ := hc.objs x t h2
    refine ⟨x, o, rfl, h3, h2, g1, g2, obj_facts hc (fun c g n d cl a s v hx hg u hu => ?_) g2⟩
    subst hg
    exact byRef_atom hp h3 hx hu

theorem found_source (hc : IsCopy W root tv heap φ) (hp : Regular W root) {t} (h : Found heap tv t) :
    ∃ x o, Source W root heap φ t x o := by
  induction h with
  | here e =>
    have := hc.root
    rw [e] at this
    obtain ⟨x, o, _, h⟩ := source_of hc hp (fun x hx => by subst hx; exact .here rfl) this
    exact ⟨x, o, h⟩
  | part _ ho hr ih =>
    obtain ⟨x, o', hs⟩ := ih
    have := hs.at_.symm.trans ho
    cases this
    obtain ⟨v, h1, h3⟩ := hs.facts.refs _ hr
    obtain ⟨y, o', _, h⟩ := source_of hc hp (InG.part hs.reach h1) h3
    exact ⟨y, o', h⟩

/-- a value of the loaded graph -/
def FoundV (heap : List TObj) (tv u : TVal) : Prop := ∀ t, u = .ref t → Found heap tv t

theorem FoundV.part {t o u} (h : Found heap tv t) (ho : heap[t]? = some o) (hu : toVal u ∈ Spec.refs (found heap o)) : FoundV heap tv u := by
  rintro t' rfl; exact .part h ho hu

theorem res_again (hc : IsCopy W root tv heap φ) (hp : Regular W root) {u} (hu : FoundV heap tv u) :
    res (again heap tv) (toVal u) = (match u with | .atom a => .inl a | .ref t => .inr t) := by
  cases u with
  | atom a => rfl
  | ref t =>
    obtain ⟨x, o, hs⟩ := found_source hc hp (hu t rfl)
    simp only [toVal, res, again_H (hu t rfl) hs.at_]
    cases o <;> rfl

theorem res_again_inj (hc : IsCopy W root tv heap φ) (hp : Regular W root) {u u'} (hu : FoundV heap tv u) (hu' : FoundV heap tv u')
    (h : res (again heap tv) (toVal u) = res (again heap tv) (toVal u')) : u = u' := by
  rw [res_again hc hp hu, res_again hc hp hu'] at h
  cases u <;> cases u' <;> simp_all

theorem knodup_again (hc : IsCopy W root tv heap φ) (hp : Regular W root) {es tes} (hk : KNodup W es)
    (hs : ∀ v ∈ kvVals es, InG W root v) (ht : ∀ u, toVal u ∈ kvVals (toEntries tes) → FoundV heap tv u) (h : CopyEntries W φ es tes) :
    KNodup (again heap tv) (toEntries tes) := by
  unfold KNodup at *
  simp only [toEntries, List.map_map]
  unfold List.Nodup at *
  rw [List.pairwise_iff_getElem] at *
  intro i j hi hj hij
  simp only [List.length_map, List.getElem_map, Function.comp] at *
  replace hi : i < tes.length := by simpa using hi
  replace hj : j < tes.length := by simpa using hj
  have hi' : i < es.length := h.1 ▸ hi
  have hj' : j < es.length := h.1 ▸ hj
  have h1 := h.2 i _ _ (List.getElem?_eq_getElem hi') (List.getElem?_eq_getElem hi)
  have h2 := h.2 j _ _ (List.getElem?_eq_getElem hj') (List.getElem?_eq_getElem hj)
  have mt : ∀ (i : Nat) (hi : i < tes.length), FoundV heap tv tes[i].1 := by
    intro i hi
    exact ht _ (List.mem_flatMap.2 ⟨_, List.mem_map.2 ⟨_, List.getElem_mem hi, rfl⟩, by simp⟩)
  have ms : ∀ (i : Nat) (hi : i < es.length), InG W root es[i].1 := by
    intro i hi
    exact hs _ (List.mem_flatMap.2 ⟨_, List.getElem_mem hi, by simp⟩)
  intro e
  have e' := res_again_inj hc hp (mt i hi) (mt j hj) e
  dsimp only at h1 h2
  rw [← e'] at h2
  exact hk i j hi' hj' hij (res_src hc (fun x hx => (hp.ok x hx).2) (ms i hi') (ms j hj') h1.1 h2.1)

theorem res_atom (hc : IsCopy W root tv heap φ) (hp : Regular W root) {v u} (hv : InG W root v) (hu : FoundV heap tv u)
    (h : CopyVal W φ v u) (a : Atom) : res (again heap tv) (toVal u) = .inl a ↔ res W v = .inl a := by
  rw [res_again hc hp hu]
  rcases val_cases (fun x hx => (hp.ok x hx).2) hv h with ⟨b, rfl, h2⟩ | ⟨x, t, _, h2, rfl, _⟩ <;> rw [h2] <;> simp

theorem pointwise_ne_nil {α β} {R : α → β → Prop} {as : List α} {bs : List β} (h : Pointwise R as bs) (hn : as ≠ []) : bs ≠ [] := by
  rintro rfl
  exact hn (List.length_eq_zero_iff.1 h.1)

theorem pointwise_nil {α β} {R : α → β → Prop} {bs : List β} (h : Pointwise R ([] : List α) bs) : bs = [] :=
  List.length_eq_zero_iff.1 h.1.symm

theorem wfObj_again (hc : IsCopy W root tv heap φ) (hp : Regular W root) (hk : KeysOnce heap) (t : Nat) : WFObj (again heap tv) ((again heap tv).H t) := by
  by_cases hf : Found heap tv t
  case neg => rw [again_out hf]; trivial
  obtain ⟨x, o, hs⟩ := found_source hc hp hf
  rw [again_H hf hs.at_]
  have hv : ∀ v ∈ refs (W.H x), InG W root v := fun v hv => .part hs.reach hv
  have ht : ∀ u, toVal u ∈ refs (found heap o) → FoundV heap tv u := fun u hu => .part hf hs.at_ hu
  have hw := hp.wf.obj x
  have h := hs.copy
  cases hx : W.H x with
  | leaf a => simp [CopyObj, hx] at h
  | bad => simp [CopyObj, hx] at h
  | tuple es =>
    cases o with
    | tuple ts =>
      simp only [CopyObj, hx] at h
      simp only [hx, WFObj] at hw
      have := pointwise_ne_nil h hw
      simpa [WFObj, found] using this
    | _ => simp [CopyObj, hx] at h
  | fset es =>
    cases o with
    | fset ts => trivial
    | _ => simp [CopyObj, hx] at h
  | cell c =>
    cases o with
    | cell c' =>
      cases c with
      | none => simp only [CopyObj, hx] at h; subst h; trivial
      | some v =>
        simp only [CopyObj, hx] at h
        obtain ⟨u, rfl, h⟩ := h
        simp only [hx, WFObj] at hw
        simp only [found, Option.map, WFObj, ne_eq]
        rw [res_atom hc hp (hv v (by simp [hx, refs])) (ht u (by simp [found, refs])) h]
        exact hw
    | _ => cases c <;> simp [CopyObj, hx] at h
  | cls mt nm b d q =>
    cases o with
    | cls mt' nm' b' d' q' =>
      simp only [CopyObj, hx] at h
      simp only [hx, WFObj] at hw
      refine knodup_again hc hp hw (fun v h => hv v ?_) (fun u h => ht u ?_) h.2.2.2.1
      · simp [hx, refs, h]
      · simp [found, refs, h]
    | _ => simp [CopyObj, hx] at h
  | func co g nm df cl a s =>
    cases g with
    | copied i c =>
      cases o with
      | func co' g' nm' df' cl' a' s' =>
        simp only [CopyObj, hx] at h
        simp only [hx, WFObj] at hw
        obtain ⟨_, hw2, hw3⟩ := hw
        obtain ⟨h1, ⟨tg, h2, rfl⟩, h3⟩ := h
        obtain ⟨es, g1, g2⟩ := hc.globs x tg h2 ⟨_, _, _, _, _, _, _, _, hx⟩
        have e : found heap (.func co' (.ref tg) nm' df' cl' a' s') = .func (toVal co') (.copied [(.atom (.str "__name__"), foundName es)]
          (toEntries es)) (toVal nm') (toVal df') (toVal cl') (toEntries a') (toEntries s') := by simp [found, foundGlobs, g1]
        rw [e] at ht ⊢
        refine ⟨⟨by simp, by simp [KNodup], ?_⟩, ?_, ?_⟩
        · have := hk tg _ _ _ _ _ g1
          unfold KNodup
          simp only [toEntries, List.map_map]
          show (List.map ((fun u => res (again heap tv) (toVal u)) ∘ fun e : TVal × TVal => e.1) es).Nodup
          rw [← List.map_map]
          unfold List.Nodup
          rw [List.pairwise_map]
          refine List.Pairwise.imp_of_mem ?_ this
          intro u u' hu hu' hne he
          have fv : ∀ u ∈ es.map (·.1), FoundV heap tv u := by
            intro u hu
            obtain ⟨e, he, rfl⟩ := List.mem_map.1 hu
            have : toVal e.1 ∈ kvVals (toEntries es) := List.mem_flatMap.2 ⟨_, List.mem_map.2 ⟨e, he, rfl⟩, by simp⟩
            exact ht _ (by simp [refs, this])
          exact hne (res_again_inj hc hp (fv u hu) (fv u' hu') he)
        · refine knodup_again hc hp hw2 (fun v h => hv v ?_) (fun u h => ht u ?_) h3.2.2.2.1
          · simp [hx, refs, h]
          · simp [refs, h]
        · refine knodup_again hc hp hw3 (fun v h => hv v ?_) (fun u h => ht u ?_) h3.2.2.2.2
          · simp [hx, refs, h]
          · simp [refs, h]
      | _ => simp [CopyObj, hx] at h
    | byRef gv =>
      cases o with
      | func co' g' nm' df' cl' a' s' =>
        simp only [CopyObj, hx] at h
        obtain ⟨b, rfl⟩ := byRef_atom hp hs.reach hx h.2.1
        simp only [hx, WFObj] at hw
        obtain ⟨_, hw2, hw3⟩ := hw
        refine ⟨⟨b, rfl⟩, ?_, ?_⟩
        · refine knodup_again hc hp hw2 (fun v h => hv v ?_) (fun u h => ht u ?_) h.2.2.2.2.2.1
          · simp [hx, refs, h]
          · simp [found, refs, h]
        · refine knodup_again hc hp hw3 (fun v h => hv v ?_) (fun u h => ht u ?_) h.2.2.2.2.2.2
          · simp [hx, refs, h]
          · simp [found, refs, h]
      | _ => simp [CopyObj, hx] at h
  | node con lits dits st =>
    cases o with
    | node con' l d a s =>
      simp only [CopyObj, hx] at h
      obtain ⟨h1, ⟨n, h2, _⟩, h3, h4⟩ := h
      have kd : KNodup W dits → KNodup (again heap tv) (toEntries d) := fun hk =>
        knodup_again hc hp hk (fun v h => hv v (by simp [hx, refs, h])) (fun u h => ht u (by simp [found, refs, h])) h3
      have ks : WFSt W st → WFSt (again heap tv) (foundState s a) := by
        intro hk
        rcases st with _ | v | es <;> simp only at h4
        · obtain ⟨rfl, rfl⟩ := h4; trivial
        · obtain ⟨rfl, u, rfl, h4⟩ := h4; trivial
        · obtain ⟨h4, rfl⟩ := h4
          cases a with
          | nil => trivial
          | cons e es' =>
            exact knodup_again hc hp hk (fun v h => hv v (by simp [hx, refs, stRefs, h]))
              (fun u h => ht u (by simp [found, refs, foundState, stRefs, h])) h4
      have ns : st = none → foundState s a = none := by
        rintro rfl
        obtain ⟨rfl, rfl⟩ := h4; rfl
      have nd : dits = [] → toEntries d = [] := by
        rintro rfl
        rw [pointwise_nil h3]; rfl
      have nl : lits = [] → l.map toVal = [] := by
        rintro rfl
        cases l with
        | nil => rfl
        | cons u us =>
          obtain ⟨v, g1, _⟩ := vals_parts h2 u (by simp)
          exact absurd (mem_times g1) (by simp)
      cases con <;> cases con' <;> simp only at h1 <;> first
        | exact h1.elim
        | (simp only [hx, WFObj] at hw; exact ⟨nd hw.1, ns hw.2⟩)
        | (simp only [hx, WFObj] at hw; exact ⟨nl hw.1, ns hw.2.1, kd hw.2.2⟩)
        | (simp only [hx, WFObj] at hw; exact ⟨kd hw.1, ks hw.2⟩)
        | (simp only [hx, WFObj] at hw
           refine ⟨kd hw.1, ks hw.2.1, fun a ha => ?_⟩
           rw [ne_eq, res_atom hc hp (hv _ (by simp [hx, refs, conRefs])) (ht _ (by simp [found, foundCon, refs, conRefs])) h1.1]
           exact hw.2.2 a ha)
    | _ => simp [CopyObj, hx] at h

theorem wf_again (hc : IsCopy W root tv heap φ) (hp : Regular W root) (hk : KeysOnce heap) : WF (again heap tv) where
  createFunction := rfl
  createCell := rfl
  createType := rfl
  cellEmpty := rfl
  setattr := rfl
  delattr := rfl
  contents := rfl
  qualname := rfl
  obj := wfObj_again hc hp hk
  nameOwn _ _ h := by cases h
  nameOne _ _ h := by cases h
  nameInj _ _ _ h := by cases h

/-! ### what is reachable, needed for creation, circular in it -/

theorem parts_source (hc : IsCopy W root tv heap φ) (hp : Regular W root) {x t' vs ws} (hx : Reaches W root x)
    (hv : ∀ v ∈ vs, v ∈ refs (W.H x)) (h : CParts W φ vs ws) (ht : .ref t' ∈ ws) :
    ∃ y o, .ref y ∈ vs ∧ Source W root heap φ t' y o := by
  obtain ⟨v, h1, h3⟩ := h _ ht
  obtain ⟨y, o', rfl, h⟩ := source_of hc hp (InG.part hx (hv v h1)) h3
  exact ⟨y, o', h1, h⟩

theorem make_refs {o : SObj} {v} (h : v ∈ makeRefs o) : v ∈ refs o := by
  cases o <;> simp only [makeRefs, refs] at * <;> try (simp at h; done)
  case func c g n d cl a s => cases g <;> simp at * <;> tauto
  case cls => simp at *; tauto

theorem eager_refs {x : Addr} {o : SObj} {v} (h : v ∈ eagerRefs x o) : v ∈ refs o := by
  cases o <;> try exact h
  case cell => simp [eagerRefs] at h
  case func c g n d cl a s =>
    cases g with
    | byRef => exact h
    | copied i c =>
      simp only [eagerRefs] at h
      simp only [refs]
      split at h <;> simp at * <;> tauto

theorem creation_refs {o : SObj} {v} (h : v ∈ creationRefs o) : v ∈ refs o := by
  cases o <;> simp only [creationRefs, refs] at * <;> try (first | exact h | (simp at h; done))
  case node => simp [h]
  case cell c => cases c <;> simp_all

theorem reaches_found (hc : IsCopy W root tv heap φ) (hp : Regular W root) {t x o} (hs : Source W root heap φ t x o) (hf : Found heap tv t)
    {vs ws} (hvs : ∀ v ∈ vs, v ∈ refs (W.H x)) (h : CParts W φ vs ws) {w s} (hw : w ∈ ws)
    (hfw : ∀ t, w = .ref t → Found heap tv t) (hr : Reaches (again heap tv) w s) :
    Found heap tv s ∧ ∃ v ∈ vs, ∃ y p, Reaches W v y ∧ Source W root heap φ s y p := by
  induction hr with
  | here e =>
    subst e
    obtain ⟨y, p, h1, h2⟩ := parts_source hc hp hs.reach hvs h hw
    exact ⟨hfw _ rfl, _, h1, y, p, .here rfl, h2⟩
  | step _ h' ih =>
    obtain ⟨g0, v, g1, y, p, g2, g3⟩ := ih
    rw [again_H g0 g3.at_] at h'
    obtain ⟨z, q, k1, k2⟩ := parts_source hc hp g3.reach (fun _ h => h) g3.facts.refs h'
    exact ⟨.part g0 g3.at_ h', v, g1, z, q, .step g2 k1, k2⟩

theorem selfMade_again (hc : IsCopy W root tv heap φ) (hp : Regular W root) {t x o} (hs : Source W root heap φ t x o)
    (hf : Found heap tv t) (h : SelfMade (again heap tv) t) : SelfMade W x := by
  obtain ⟨con, lits, dits, st, h1, h2, w, hw, hr⟩ := h
  rw [again_H hf hs.at_] at h1
  obtain ⟨con', lits', dits', st', g1, g2, g3⟩ := hs.facts.conParts _ _ _ _ h1
  obtain ⟨_, v, k1, y, p, k2, k3⟩ := reaches_found hc hp hs hf (vs := conRefs con') (ws := conRefs con)
    (fun v hv => by simp [g1, refs, hv]) g2 hw
    (fun t' e => by subst e; exact .part hf hs.at_ (by simp [h1, refs, hw])) hr
  cases hc.inj _ _ _ hs.obj k3.obj
  exact ⟨con', lits', dits', st', g1, g3 h2, v, k1, k2⟩

theorem lookupD_mem {es : List (TVal × TVal)} {k v : TVal} (h : lookupD es k = some v) : (k, v) ∈ es := by
  induction es with
  | nil => cases h
  | cons e es ih =>
    obtain ⟨k', v'⟩ := e
    simp only [lookupD] at h
    split at h
    · cases h; rename_i hk; subst hk; simp
    · exact List.mem_cons_of_mem _ (ih h)

/-- what waits for `x` waits for its copy -/
theorem eager_parts (hc : IsCopy W root tv heap φ) (hp : Regular W root) {t x o s y p} (hs : Source W root heap φ t x o)
    (hy : Source W root heap φ s y p) : CParts W φ (eagerRefs x (W.H y)) (eagerRefs t (found heap p)) := by
  have all : eagerRefs x (W.H y) = refs (W.H y) → CParts W φ (eagerRefs x (W.H y)) (eagerRefs t (found heap p)) := by
    intro e
    rw [e]
    exact fun w hw => hy.facts.refs w (eager_refs hw)
  cases hx : W.H y with
  | cell c =>
    obtain ⟨c', h⟩ := hy.facts.cell c hx
    rw [h]; exact .nil
  | func co g nm df cl a sl =>
    cases g with
    | byRef v => rw [← hx]; exact all (by rw [hx]; rfl)
    | copied i c =>
      have h := hy.copy
      cases p with
      | func co' g' nm' df' cl' a' s' =>
        simp only [CopyObj, hx] at h
        obtain ⟨h1, ⟨tg, h2, rfl⟩, h3, h4, h5, h6, h7⟩ := h
        obtain ⟨es, g1, g2⟩ := hc.globs y tg h2 ⟨_, _, _, _, _, _, _, _, hx⟩
        simp only [found, foundGlobs, g1, eagerRefs]
        refine .app (.app (.app (.cons h1 (.cons h3 (.cons h4 (.cons h5 .nil)))) (.both (.name es) ?_)) (.entries h6)) (.entries h7)
        have hg := CParts.globs hx g2
        simp only [CopyGlobals, hx] at g2
        by_cases hw : (.ref x : Val) ∈ c.map (·.2)
        · obtain ⟨e, he, hex⟩ := List.mem_map.1 hw
          obtain ⟨tk, tu, q1, q2, q3⟩ := g2.1 e he
          rw [hex] at q2
          have : tu = .ref t := by
            have hnl : res W (.ref x) = .inr x := by
              have := hs.copy
              cases hxx : W.H x <;> simp [res, hxx]
              simp [CopyObj, hxx] at this
            rcases val_cases (fun x hx => (hp.ok x hx).2) (fun z hz => by cases hz; exact hs.reach) q2 with ⟨b, _, k⟩ | ⟨_, t', e1, _, e2, e3, _⟩
            · rw [hnl] at k; cases k
            · cases e1
              rw [hs.obj] at e3; cases e3; exact e2
          subst this
          have hin : (.ref t : Val) ∈ (toEntries es).map (·.2) :=
            List.mem_map.2 ⟨(toVal tk, .ref t), List.mem_map.2 ⟨_, lookupD_mem q3, rfl⟩, rfl⟩
          rw [if_pos hin]
          exact .nil
        · rw [if_neg hw]
          split
          · exact .nil
          · exact hg
      | _ => simp [CopyObj, hx] at h
  | _ => rw [← hx]; exact all (by rw [hx]; rfl)

theorem eager_again (hc : IsCopy W root tv heap φ) (hp : Regular W root) {t x o} (hs : Source W root heap φ t x o) (hf : Found heap tv t)
    {vs ws} (hvs : ∀ v ∈ vs, v ∈ refs (W.H x)) (h : CParts W φ vs ws) {w s} (hw : w ∈ ws)
    (hfw : ∀ t, w = .ref t → Found heap tv t) (hr : Eager (again heap tv) t w s) :
    Found heap tv s ∧ ∃ v ∈ vs, ∃ y p, Eager W x v y ∧ Source W root heap φ s y p := by
  induction hr with
  | here e =>
    subst e
    obtain ⟨y, p, h1, h2⟩ := parts_source hc hp hs.reach hvs h hw
    exact ⟨hfw _ rfl, _, h1, y, p, .here rfl, h2⟩
  | @step a b _ h' ih =>
    obtain ⟨g0, v, g1, y, p, g2, g3⟩ := ih
    rw [again_H g0 g3.at_] at h'
    obtain ⟨z, q, k1, k2⟩ := parts_source hc hp g3.reach (fun _ h => eager_refs h) (eager_parts hc hp hs g3) h'
    exact ⟨.part g0 g3.at_ (eager_refs h'), v, g1, z, q, .step g2 k1, k2⟩

theorem circular_again (hc : IsCopy W root tv heap φ) (hp : Regular W root) {t x o} (hs : Source W root heap φ t x o)
    (hf : Found heap tv t) : ¬ Circular (again heap tv) t := by
  rintro ⟨w, hw, hr⟩
  rw [again_H hf hs.at_] at hw
  obtain ⟨_, v, k1, y, p, k2, k3⟩ := eager_again hc hp hs hf (fun v hv => make_refs hv) hs.facts.make hw
    (fun t' e => by subst e; exact .part hf hs.at_ (make_refs hw)) hr
  cases hc.inj _ _ _ hs.obj k3.obj
  exact (hp.ok x hs.reach).2 ⟨v, k1, k2⟩

theorem creation_again (hc : IsCopy W root tv heap φ) (hp : Regular W root) {t t'} (h : CreationRef (again heap tv) t t') :
    ∃ x y o p, Source W root heap φ t x o ∧ Source W root heap φ t' y p ∧ CreationRef W x y := by
  unfold CreationRef at h
  by_cases hf : Found heap tv t
  · obtain ⟨x, o, hs⟩ := found_source hc hp hf
    rw [again_H hf hs.at_] at h
    obtain ⟨y, p, h1, h2⟩ := parts_source hc hp hs.reach (fun v hv => creation_refs hv) hs.facts.creation h
    exact ⟨x, y, o, p, hs, h2, h1⟩
  · rw [again_out hf] at h; simp [creationRefs] at h

theorem creations_again (hc : IsCopy W root tv heap φ) (hp : Regular W root) {t t'}
    (h : Relation.TransGen (CreationRef (again heap tv)) t t') :
    ∃ x y o p, Source W root heap φ t x o ∧ Source W root heap φ t' y p ∧ Relation.TransGen (CreationRef W) x y := by
  induction h with
  | single h =>
    obtain ⟨x, y, o, p, h1, h2, h3⟩ := creation_again hc hp h
    exact ⟨x, y, o, p, h1, h2, .single h3⟩
  | tail _ h ih =>
    obtain ⟨x, y, o, p, h1, h2, h3⟩ := ih
    obtain ⟨y', z, p', q, g1, g2, g3⟩ := creation_again hc hp h
    cases hc.inj _ _ _ h2.obj g1.obj
    exact ⟨x, z, o, q, h1, g2, h3.tail g3⟩

theorem reach_found {t} (h : Reaches (again heap tv) (toVal tv) t) : Found heap tv t := by
  induction h with
  | here e => exact .here (toVal_ref.1 e)
  | @step a b _ h' ih =>
    have : ∃ o, heap[a]? = some o := by
      simp only [again, ih, if_true] at h'
      cases ha : heap[a]? with
      | none => rw [ha] at h'; simp [refs] at h'
      | some o => exact ⟨o, rfl⟩
    obtain ⟨o, ho⟩ := this
    rw [again_H ih ho] at h'
    exact .part ih ho h'

/-- what was loaded is as regular as what was pickled -/
theorem regular_again (hc : IsCopy W root tv heap φ) (hp : Regular W root) (hk : KeysOnce heap) : Regular (again heap tv) (toVal tv) where
  wf := wf_again hc hp hk
  finite := by
    obtain ⟨dom, h1, h2⟩ := hp.finite
    have mem : ∀ {t}, Found heap tv t → t ∈ dom.filterMap φ.obj := by
      intro t hf
      obtain ⟨x, o, hs⟩ := found_source hc hp hf
      refine List.mem_filterMap.2 ⟨x, ?_, hs.obj⟩
      have := hs.reach
      clear hs
      induction this with
      | here e => exact h2 _ e
      | step _ h ih => exact h1 _ ih _ h
    refine ⟨dom.filterMap φ.obj, ?_, fun t e => mem (.here (toVal_ref.1 e))⟩
    intro t _ t' ht'
    by_cases hf : Found heap tv t
    · obtain ⟨x, o, hs⟩ := found_source hc hp hf
      rw [again_H hf hs.at_] at ht'
      exact mem (.part hf hs.at_ ht')
    · rw [again_out hf] at ht'; simp [refs] at ht'
  noCycle := by
    intro t h
    obtain ⟨x, y, o, p, h1, h2, h3⟩ := creations_again hc hp h
    cases hc.inj _ _ _ h1.obj h2.obj
    exact hp.noCycle x h3
  ok := by
    intro t h
    have hf := reach_found h
    obtain ⟨x, o, hs⟩ := found_source hc hp hf
    have hcirc := circular_again hc hp hs hf
    rw [again_H hf hs.at_]
    exact ⟨(found_not_leaf heap o).2, hcirc⟩

/-! ### the same paths -/

theorem toEntries_get (es : List (TVal × TVal)) (n : Nat) :
    (toEntries es)[n]?.map (·.1) = (es[n]?.map (·.1)).map toVal ∧ (toEntries es)[n]?.map (·.2) = (es[n]?.map (·.2)).map toVal := by
  simp [toEntries]; constructor <;> rfl

theorem lookup_again (hc : IsCopy W root tv heap φ) (hp : Regular W root) {es : List (TVal × TVal)}
    (hes : ∀ e ∈ es, FoundV heap tv e.1) (k : Atom) :
    lookupGlob (again heap tv) k (toEntries es) = (lookupD es (.atom k)).map toVal := by
  induction es with
  | nil => rfl
  | cons e es ih =>
    obtain ⟨k', v'⟩ := e
    have hk := hes _ (List.mem_cons_self ..)
    have e1 : node (again heap tv) (toVal k') = .atom k ↔ k' = .atom k := by
      cases k' with
      | atom a => simp [toVal, node]
      | ref t =>
        obtain ⟨x, o, hs⟩ := found_source hc hp (hk t rfl)
        simp only [toVal, node, again_H (hk t rfl) hs.at_]
        cases o <;> simp [found]
    simp only [toEntries, List.map_cons, lookupGlob, lookupD] at *
    by_cases h : k' = .atom k
    · rw [if_pos (e1.2 h), if_pos h]; rfl
    · rw [if_neg (fun h' => h (e1.1 h')), if_neg h]
      exact ih fun e he => hes e (List.mem_cons_of_mem _ he)

theorem child_again (hc : IsCopy W root tv heap φ) (hp : Regular W root) {t x o} (hs : Source W root heap φ t x o)
    (hf : Found heap tv t) (s : Sel) : child (again heap tv) (found heap o) s = (tchild heap o s).map toVal := by
  have h := hs.copy
  have hw := hp.wf.obj x
  have ht : ∀ u, toVal u ∈ refs (found heap o) → FoundV heap tv u := fun u hu => .part hf hs.at_ hu
  generalize hW : again heap tv = W'
  cases o with
  | tuple ts => cases s <;> simp [child, tchild, found]
  | fset ts => cases s <;> simp [child, tchild, found]
  | cell c => cases s <;> simp [child, tchild, found]
  | cls mt nm b d q =>
    have : q ≠ none := by
      rintro rfl
      cases hx : W.H x <;> rw [CopyObj.eq_def, hx] at h <;> simp at h
    obtain ⟨q, rfl⟩ := Option.ne_none_iff_exists'.1 this
    cases s <;> first
      | exact (toEntries_get _ _).1
      | exact (toEntries_get _ _).2
      | rfl
  | func c g n df cl a sl =>
    cases g with
    | atom b =>
      cases s <;> first
        | exact (toEntries_get _ _).1
        | exact (toEntries_get _ _).2
        | rfl
    | ref tg =>
      have : ∃ es, heap[tg]? = some (.node .dict [] es [] none) := by
        cases hx : W.H x <;> rw [CopyObj.eq_def, hx] at h <;> simp only at h
        rename_i _ g0 _ _ _ _ _
        cases g0 with
        | copied =>
          obtain ⟨_, ⟨t', h1, h2⟩, _⟩ := h
          cases h2
          obtain ⟨es, g1, _⟩ := hc.globs x tg h1 ⟨_, _, _, _, _, _, _, _, hx⟩
          exact ⟨es, g1⟩
        | byRef v =>
          obtain ⟨b, hb⟩ := byRef_atom hp hs.reach hx h.2.1
          cases hb
      obtain ⟨es, he⟩ := this
      have hes : ∀ e ∈ es, FoundV heap tv e.1 := by
        intro e hm
        refine ht _ ?_
        have : toVal e.1 ∈ kvVals (toEntries es) := List.mem_flatMap.2 ⟨_, List.mem_map.2 ⟨e, hm, rfl⟩, by simp⟩
        simp [found, foundGlobs, he, refs, this]
      have hl := lookup_again hc hp hes
      rw [hW] at hl
      simp only [found, foundGlobs, he]
      cases s <;> first
        | exact (toEntries_get _ _).1
        | exact (toEntries_get _ _).2
        | rfl
        | (simp only [child, tchild, he]; exact hl _)
  | node con l d a st =>
    have : st = none ∨ a = [] := by
      cases hx : W.H x <;> rw [CopyObj.eq_def, hx] at h <;> simp only at h
      rename_i st0
      rcases st0 with _ | v | es <;> simp only at h
      · exact .inr h.2.2.2.1
      · exact .inr h.2.2.2.1
      · exact .inl h.2.2.2.2
    have tg := toEntries_get
    have hn : ∀ n, child W' (.node (foundCon con) (l.map toVal) (toEntries d) (foundState st a)) (.attrKey n) = (a[n]?.map (·.1)).map toVal ∧
        child W' (.node (foundCon con) (l.map toVal) (toEntries d) (foundState st a)) (.attrVal n) = (a[n]?.map (·.2)).map toVal := by
      intro n
      rcases st with _ | u
      · cases a with
        | nil => simp [foundState, child]
        | cons e es => exact ⟨(tg _ _).1, (tg _ _).2⟩
      · rcases this with h | rfl
        · cases h
        · simp [foundState, child]
    have hst : child W' (.node (foundCon con) (l.map toVal) (toEntries d) (foundState st a)) .state = st.map toVal := by
      rcases st with _ | u
      · cases a <;> rfl
      · rfl
    cases s <;> first
      | exact (hn _).1
      | exact (hn _).2
      | exact hst
      | exact (toEntries_get _ _).1
      | exact (toEntries_get _ _).2
      | (cases con <;> simp [child, tchild, found, foundCon])

/-- the same paths lead to the same things -/
theorem follow_again (hc : IsCopy W root tv heap φ) (hp : Regular W root) (path : List Sel) {u} (hu : FoundV heap tv u) :
    follow (again heap tv) (toVal u) path = (tfollow heap u path).map toVal ∧ ∀ u', tfollow heap u path = some u' → FoundV heap tv u' := by
  induction path generalizing u with
  | nil => exact ⟨by simp [follow, tfollow], fun u' h => by simp [tfollow] at h; exact h ▸ hu⟩
  | cons s ss ih =>
    cases u with
    | atom a => simp [follow, tfollow, toVal]
    | ref t =>
      obtain ⟨x, o, hs⟩ := found_source hc hp (hu t rfl)
      have h1 := child_again hc hp hs (hu t rfl) s
      simp only [toVal, follow, tfollow, again_H (hu t rfl) hs.at_, hs.at_, Option.bind_some, h1]
      cases h2 : tchild heap o s with
      | none => simp
      | some w =>
        have hm : toVal w ∈ refs (found heap o) := by
          have := child_mem (W := again heap tv) (x := t) (s := s) (w := toVal w) (by rw [again_H (hu t rfl) hs.at_, h1, h2]; rfl)
          rwa [again_H (hu t rfl) hs.at_] at this
        simpa using ih (FoundV.part (hu t rfl) hs.at_ hm)

theorem kind_again (hc : IsCopy W root tv heap φ) (hp : Regular W root) {u} (hu : FoundV heap tv u) :
    tkind heap u = some (kind (again heap tv) (toVal u)) := by
  cases u with
  | atom a => rfl
  | ref t =>
    obtain ⟨x, o, hs⟩ := found_source hc hp (hu t rfl)
    simp only [toVal, kind, again_H (hu t rfl) hs.at_, tkind, hs.at_, Option.map]
    cases o with
    | node con => cases con <;> rfl
    | _ => rfl

theorem node_again (hc : IsCopy W root tv heap φ) (hp : Regular W root) {u u'} (hu : FoundV heap tv u) (hu' : FoundV heap tv u') :
    node (again heap tv) (toVal u) = node (again heap tv) (toVal u') ↔ u = u' := by
  refine ⟨fun h => res_again_inj hc hp hu hu' ?_, fun h => h ▸ rfl⟩
  have key : ∀ {u}, FoundV heap tv u → node (again heap tv) (toVal u) = tnode u := by
    intro u hu
    cases u with
    | atom a => rfl
    | ref t =>
      obtain ⟨x, o, hs⟩ := found_source hc hp (hu t rfl)
      simp only [toVal, node, again_H (hu t rfl) hs.at_]
      have h2 := (found_not_leaf heap o).1
      cases hf : found heap o <;> first | rfl | exact absurd hf (h2 _)
  rw [key hu, key hu'] at h
  cases u <;> cases u' <;> simp_all [tnode]
end

/-! ### C112 -/

/-- the specification `again` shows what was loaded: the same paths, kinds and identities -/
theorem C112_again_shows_what_was_loaded {W : World} {root : Val} (hp : Regular W root) {n ops tv heap} (h : dumps W n root = .ok ops)
    (hl : load ops = some (tv, heap)) :
    (∀ path, follow (again heap tv) (toVal tv) path = (tfollow heap tv path).map toVal) ∧
    (∀ path u, tfollow heap tv path = some u → tkind heap u = some (kind (again heap tv) (toVal u))) ∧
    (∀ path path' u u', tfollow heap tv path = some u → tfollow heap tv path' = some u' →
      (node (again heap tv) (toVal u) = node (again heap tv) (toVal u') ↔ u = u')) := by
  obtain ⟨tv0, heap0, φ, hl0, hc⟩ := C01_isomorphic_copy_partial W hp.wf n root ops h
  have := hl.symm.trans hl0
  cases this
  have hr : FoundV heap tv tv := fun t e => .here e
  have hf := fun path => follow_again hc hp path hr
  exact ⟨fun path => (hf path).1, fun path u h => kind_again hc hp ((hf path).2 u h),
    fun path path' u u' h h' => node_again hc hp ((hf path).2 u h) ((hf path').2 u' h')⟩

theorem hop_regular {a b : World × Val} (hp : Regular a.1 a.2) (h : Hop a b) : Regular b.1 b.2 := by
  obtain ⟨n, ops, tv, heap, h1, h2, rfl⟩ := h
  obtain ⟨tv0, heap0, φ, hl0, hc⟩ := C01_isomorphic_copy_partial _ hp.wf n _ ops h1
  have := h2.symm.trans hl0
  cases this
  exact regular_again hc hp (load_keysOnce h2)

theorem hop_exists {a : World × Val} (hp : Regular a.1 a.2) : ∃ b, Hop a b := by
  obtain ⟨dom, h1, h2⟩ := hp.finite
  obtain ⟨ops, tv, heap, g1, g2, _⟩ := C86_round_trip a.1 hp.wf dom h1 hp.noCycle a.2 h2 (fun x hx => (hp.ok x hx).1)
    (fun x hx => (hp.ok x hx).2)
  exact ⟨_, _, ops, tv, heap, g1 _ (Nat.le_refl _), g2, rfl⟩

/-- the same things are at the same paths of both graphs, and paths meet in both or in neither -/
def SameGraph (a b : World × Val) : Prop :=
  (∀ path v, follow a.1 a.2 path = some v → ∃ v', follow b.1 b.2 path = some v' ∧ kind b.1 v' = kind a.1 v) ∧
  (∀ p q v w v' w', follow a.1 a.2 p = some v → follow a.1 a.2 q = some w → follow b.1 b.2 p = some v' → follow b.1 b.2 q = some w' →
    (node a.1 v = node a.1 w ↔ node b.1 v' = node b.1 w'))

theorem hop_same {a b : World × Val} (hp : Regular a.1 a.2) (h : Hop a b) : SameGraph a b := by
  obtain ⟨n, ops, tv, heap, h1, h2, rfl⟩ := h
  obtain ⟨e1, e2, e3⟩ := C112_again_shows_what_was_loaded hp h1 h2
  obtain ⟨tv0, heap0, hl0, k1, k2⟩ := C01_paths_exact_partial _ hp.wf n _ ops h1 (fun x hx => (hp.ok x hx).2)
  have := h2.symm.trans hl0
  cases this
  refine ⟨?_, ?_⟩
  · intro path v hv
    obtain ⟨u, g1, g2⟩ := k1 path v hv
    refine ⟨toVal u, by rw [e1, g1]; rfl, ?_⟩
    rw [e2 _ _ g1] at g2
    exact Option.some.inj g2
  · intro p q v w v' w' hv hw hv' hw'
    simp only [e1] at hv' hw'
    obtain ⟨u, g1, rfl⟩ := Option.map_eq_some_iff.1 hv'
    obtain ⟨u', g2, rfl⟩ := Option.map_eq_some_iff.1 hw'
    rw [e3 _ _ _ _ g1 g2]
    exact k2 _ _ _ _ _ _ hv hw g1 g2

theorem SameGraph.trans {a b c : World × Val} (h : SameGraph a b) (h' : SameGraph b c) : SameGraph a c := by
  refine ⟨?_, ?_⟩
  · intro path v hv
    obtain ⟨v', g1, g2⟩ := h.1 path v hv
    obtain ⟨v'', g3, g4⟩ := h'.1 path v' g1
    exact ⟨v'', g3, g4.trans g2⟩
  · intro p q v w v'' w'' hv hw hv'' hw''
    obtain ⟨v', g1, _⟩ := h.1 p v hv
    obtain ⟨w', g2, _⟩ := h.1 q w hw
    exact (h.2 _ _ _ _ _ _ hv hw g1 g2).trans (h'.2 _ _ _ _ _ _ g1 g2 hv'' hw'')

theorem hops {a b : World × Val} (hp : Regular a.1 a.2) (h : Relation.ReflTransGen Hop a b) : Regular b.1 b.2 ∧ SameGraph a b := by
  induction h with
  | refl =>
    refine ⟨hp, fun path v hv => ⟨v, hv, rfl⟩, ?_⟩
    intro p q v w v' w' h1 h2 h3 h4
    rw [h1] at h3; cases h3
    rw [h2] at h4; cases h4
    rfl
  | tail _ h ih => exact ⟨hop_regular ih.1 h, ih.2.trans (hop_same ih.1 h)⟩

/-- C112: a copy is as good as the original.  However often a graph was pickled and loaded and what was loaded pickled again, the same kinds
of objects are at the same paths, and two paths meet exactly when they met in the first graph. -/
theorem C112_copies_of_copies_partial (W : World) (root : Val) (hp : Regular W root) (W' : World) (root' : Val)
    (h : Relation.ReflTransGen Hop (W, root) (W', root')) :
    (∀ path v, follow W root path = some v → ∃ v', follow W' root' path = some v' ∧ kind W' v' = kind W v) ∧
    (∀ p q v w v' w', follow W root p = some v → follow W root q = some w → follow W' root' p = some v' → follow W' root' q = some w' →
      (node W v = node W w ↔ node W' v' = node W' w')) := (hops hp h).2

/-- and it never fails: every copy of a copy can be pickled, and the pickle loaded -/
theorem C112_never_fails_partial (W : World) (root : Val) (hp : Regular W root) (W' : World) (root' : Val)
    (h : Relation.ReflTransGen Hop (W, root) (W', root')) :
    ∃ n ops tv heap, dumps W' n root' = .ok ops ∧ load ops = some (tv, heap) := by
  obtain ⟨_, n, ops, tv, heap, h1, h2, _⟩ := hop_exists (hops hp h).1
  exact ⟨n, ops, tv, heap, h1, h2⟩

theorem hop_back {a b : World × Val} (hp : Regular a.1 a.2) (hm : ∀ x, Reaches a.1 a.2 x → ¬ SelfMade a.1 x) (h : Hop a b) :
    (∀ x, Reaches b.1 b.2 x → ¬ SelfMade b.1 x) ∧
    ∀ path v', (∀ s ∈ path, isGlob s = false) → follow b.1 b.2 path = some v' → ∃ v, follow a.1 a.2 path = some v := by
  obtain ⟨n, ops, tv, heap, h1, h2, rfl⟩ := h
  obtain ⟨e1, _, _⟩ := C112_again_shows_what_was_loaded hp h1 h2
  obtain ⟨tv0, heap0, hl0, k⟩ := C01_no_other_paths_partial _ hp.wf n _ ops h1 hm
  obtain ⟨tv1, heap1, φ, hl1, hc⟩ := C01_isomorphic_copy_partial _ hp.wf n _ ops h1
  have := h2.symm.trans hl0
  cases this
  have := h2.symm.trans hl1
  cases this
  refine ⟨?_, ?_⟩
  · intro t ht hs
    have hf := reach_found ht
    obtain ⟨x, o, hx⟩ := found_source hc hp hf
    exact hm x hx.reach (selfMade_again hc hp hx hf hs)
  · intro path v' hg hv
    simp only [e1] at hv
    obtain ⟨u, g1, _⟩ := Option.map_eq_some_iff.1 hv
    exact k path u hg g1

/-- and nothing is added: if no list item of the first graph is needed to create the list, a copy of copies has no other paths -/
theorem C112_nothing_added_partial (W : World) (root : Val) (hp : Regular W root) (hm : ∀ x, Reaches W root x → ¬ SelfMade W x)
    (W' : World) (root' : Val) (h : Relation.ReflTransGen Hop (W, root) (W', root')) :
    ∀ path v', (∀ s ∈ path, isGlob s = false) → follow W' root' path = some v' → ∃ v, follow W root path = some v := by
  have key : ∀ b : World × Val, Relation.ReflTransGen Hop (W, root) b → (∀ x, Reaches b.1 b.2 x → ¬ SelfMade b.1 x) ∧
      ∀ path v', (∀ s ∈ path, isGlob s = false) → follow b.1 b.2 path = some v' → ∃ v, follow W root path = some v := by
    intro b h
    induction h with
    | refl => exact ⟨hm, fun path v' _ h => ⟨v', h⟩⟩
    | tail h1 h2 ih =>
      obtain ⟨g1, g2⟩ := hop_back (hops (a := (W, root)) hp h1).1 ih.1 h2
      refine ⟨g1, fun path v' hg hv => ?_⟩
      obtain ⟨v, hv⟩ := g2 path v' hg hv
      exact ih.2 path v hg hv
  exact (key _ h).2

namespace GenEx
open Ex (W H s)

theorem rank {x y : Addr} (h : CreationRef W x y) :
    (if x = 0 ∨ x = 6 then 100 else x) < (if y = 0 ∨ y = 6 then 100 else y) := by
  match x with
  | 0 => simp [CreationRef, W, H, creationRefs] at h
  | 1 => simp [CreationRef, W, H, creationRefs] at h; rcases h with rfl | rfl <;> decide
  | 2 => simp [CreationRef, W, H, creationRefs] at h; subst h; decide
  | 3 => simp [CreationRef, W, H, creationRefs, conRefs] at h; subst h; decide
  | 4 => simp [CreationRef, W, H, creationRefs] at h
  | 5 => simp [CreationRef, W, H, creationRefs] at h
  | 6 => simp [CreationRef, W, H, creationRefs] at h
  | 7 => simp [CreationRef, W, H, creationRefs, conRefs] at h
  | 8 => simp [CreationRef, W, H, creationRefs, conRefs] at h
  | 9 => simp [CreationRef, W, H, creationRefs] at h
  | 10 => simp [CreationRef, W, H, creationRefs] at h; subst h; decide
  | 11 => simp [CreationRef, W, H, creationRefs] at h; subst h; decide
  | 12 => simp [CreationRef, W, H, creationRefs, conRefs] at h
  | 13 => simp [CreationRef, W, H, creationRefs] at h; subst h; decide
  | 14 => simp [CreationRef, W, H, creationRefs, conRefs] at h
  | _ + 15 => simp [CreationRef, W, H, creationRefs] at h

theorem noCycle : NoCreationCycle W := by
  have key : ∀ {x y : Addr}, Relation.TransGen (CreationRef W) x y →
      (if x = 0 ∨ x = 6 then 100 else x) < (if y = 0 ∨ y = 6 then 100 else y) := by
    intro x y h
    induction h with
    | single h => exact rank h
    | tail _ h ih => exact Nat.lt_trans ih (rank h)
  exact fun x h => Nat.lt_irrefl _ (key h)

def dom : List Addr := List.range 15

theorem closed : Closed W dom := by
  intro x _ y hy
  simp only [dom, List.mem_range]
  match x with
  | 0 => simp [W, H, refs, kvVals, s] at hy; (try casesm* _ ∨ _) <;> subst_vars <;> decide
  | 1 => simp [W, H, refs] at hy; (try casesm* _ ∨ _) <;> subst_vars <;> decide
  | 2 => simp [W, H, refs] at hy; (try casesm* _ ∨ _) <;> subst_vars <;> decide
  | 3 => simp [W, H, refs, conRefs, kvVals, stRefs] at hy; (try casesm* _ ∨ _) <;> subst_vars <;> decide
  | 4 => simp [W, H, refs] at hy
  | 5 => simp [W, H, refs] at hy
  | 6 => simp [W, H, refs, kvVals, s] at hy; (try casesm* _ ∨ _) <;> subst_vars <;> decide
  | 7 => simp [W, H, refs, conRefs, kvVals, stRefs] at hy; (try casesm* _ ∨ _) <;> subst_vars <;> decide
  | 8 => simp [W, H, refs, conRefs, kvVals, stRefs, s] at hy; (try casesm* _ ∨ _) <;> subst_vars <;> decide
  | 9 => simp [W, H, refs, kvVals, s] at hy; (try casesm* _ ∨ _) <;> subst_vars <;> decide
  | 10 => simp [W, H, refs] at hy; (try casesm* _ ∨ _) <;> subst_vars <;> decide
  | 11 => simp [W, H, refs] at hy; (try casesm* _ ∨ _) <;> subst_vars <;> decide
  | 12 => simp [W, H, refs, conRefs, kvVals, stRefs, s] at hy; (try casesm* _ ∨ _) <;> subst_vars <;> decide
  | 13 => simp [W, H, refs] at hy; (try casesm* _ ∨ _) <;> subst_vars <;> decide
  | 14 => simp [W, H, refs, conRefs, kvVals, stRefs] at hy; (try casesm* _ ∨ _) <;> subst_vars <;> decide
  | _ + 15 => simp [W, H, refs] at hy

theorem noAtom {x y : Addr} {a : Atom} (h : Eager W x (.atom a) y) : False := by
  generalize hv : Val.atom a = v at h
  induction h with
  | here e => subst e; cases hv
  | step _ _ ih => exact ih

/-- what is pickled while the functions and the class are being created -/
theorem eager {x y : Addr} {v : Val} (hv : v = .ref 9 ∨ v = .ref 3 ∨ v = .ref 10 ∨ v = .ref 1) (h : Eager W x v y) :
    y ∈ [3, 4, 10, 11, 1, 2, 5] ∨ (y = 9 ∧ v = .ref 9) := by
  induction h with
  | here e => subst e; rcases hv with h | h | h | h <;> cases h <;> simp
  | step _ h ih =>
    rcases ih with ih | ⟨rfl, e⟩
    · simp only [List.mem_cons, List.not_mem_nil, or_false] at ih
      rcases ih with rfl | rfl | rfl | rfl | rfl | rfl | rfl <;>
        simp [W, H, eagerRefs, refs, conRefs, kvVals, stRefs] at h <;> simp [h]
    · simp [W, H, eagerRefs, refs, kvVals, s] at h
      rcases h with rfl | rfl <;> simp

theorem notCircular (x : Addr) : ¬ Circular W x := by
  rintro ⟨v, hv, he⟩
  match x with
  | 0 =>
    simp [W, H, makeRefs, kvVals, s] at hv
    rcases hv with rfl | rfl | rfl | rfl | rfl | rfl <;> first
      | exact noAtom he
      | (rcases eager (by simp) he with h | ⟨h, _⟩ <;> simp at h)
  | 6 =>
    simp [W, H, makeRefs, kvVals, s] at hv
    rcases hv with rfl | rfl | rfl | rfl | rfl <;> first
      | exact noAtom he
      | (rcases eager (by simp) he with h | ⟨h, _⟩ <;> simp at h)
  | 9 =>
    simp [W, H, makeRefs, kvVals, s] at hv
    rcases hv with rfl | rfl | rfl | rfl | rfl <;> first
      | exact noAtom he
      | (rcases eager (by simp) he with h | ⟨_, h⟩ <;> simp at h)
  | 1 | 2 | 3 | 4 | 5 | 7 | 8 | 10 | 11 | 12 | 13 | 14 => simp [W, H, makeRefs] at hv
  | _ + 15 => simp [W, H, makeRefs] at hv

/-- a list of itself, a recursive function with its own globals and closure, a class whose method refers to the class, ... -/
theorem regular (r : Addr) (hr : r < 15) : Regular W (.ref r) where
  wf := Ex.wf
  finite := ⟨dom, closed, fun x e => by cases e; simp [dom, hr]⟩
  noCycle := noCycle
  ok := fun x _ => ⟨by
    match x with
    | 0 | 1 | 2 | 3 | 4 | 5 | 6 | 7 | 8 | 9 | 10 | 11 | 12 | 13 | 14 => simp [W, H]
    | _ + 15 => simp [W, H], notCircular x⟩

/-- however often the class was pickled and loaded, its method's closure refers to the new class -/
example (W' : World) (c : Val) (h : Relation.ReflTransGen Hop (W, .ref 6) (W', c)) :
    ∃ v, follow W' c [.val 0, .closure, .item 0, .contents] = some v ∧ kind W' v = .cls ∧ node W' v = node W' c := by
  obtain ⟨h1, h2⟩ := C112_copies_of_copies_partial W (.ref 6) (regular 6 (by decide)) W' c h
  obtain ⟨v, g1, g2⟩ := h1 [.val 0, .closure, .item 0, .contents] (.ref 6) rfl
  exact ⟨v, g1, g2, (h2 [.val 0, .closure, .item 0, .contents] [] _ _ _ _ rfl rfl g1 rfl).1 rfl⟩

/-- and the recursive function finds the new function in its globals and in its closure -/
example (W' : World) (f : Val) (h : Relation.ReflTransGen Hop (W, .ref 0) (W', f)) :
    ∃ v w, follow W' f [.glob (.str "f")] = some v ∧ follow W' f [.closure, .item 0, .contents] = some w ∧
      node W' v = node W' f ∧ node W' w = node W' f := by
  obtain ⟨h1, h2⟩ := C112_copies_of_copies_partial W (.ref 0) (regular 0 (by decide)) W' f h
  obtain ⟨v, g1, _⟩ := h1 [.glob (.str "f")] (.ref 0) rfl
  obtain ⟨w, g2, _⟩ := h1 [.closure, .item 0, .contents] (.ref 0) rfl
  exact ⟨v, w, g1, g2, (h2 [.glob (.str "f")] [] _ _ _ _ rfl rfl g1 rfl).1 rfl,
    (h2 [.closure, .item 0, .contents] [] _ _ _ _ rfl rfl g2 rfl).1 rfl⟩

/-- there are copies of copies -/
example : ∃ b c d, Hop (W, .ref 7) b ∧ Hop b c ∧ Hop c d := by
  have hr := regular 7 (by decide)
  obtain ⟨b, hb⟩ := hop_exists (a := (W, .ref 7)) hr
  obtain ⟨c, hc⟩ := hop_exists (hop_regular (a := (W, .ref 7)) hr hb)
  obtain ⟨d, hd⟩ := hop_exists (hop_regular (hop_regular (a := (W, .ref 7)) hr hb) hc)
  exact ⟨b, c, d, hb, hc, hd⟩

/-- and they have no other items -/
example (W' : World) (l : Val) (h : Relation.ReflTransGen Hop (W, .ref 7) (W', l)) : follow W' l [.item 7] = none := by
  cases hf : follow W' l [.item 7] with
  | none => rfl
  | some v =>
    obtain ⟨v, h⟩ := C112_nothing_added_partial W (.ref 7) (regular 7 (by decide)) (fun x _ => Ex.notSelfMade x) W' l h [.item 7] v
      (by simp [isGlob]) hf
    cases h

end GenEx
end Verif.Core
