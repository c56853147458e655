import Verif.Props.Core
import Verif.Spec.SessionGraph
/-! C81: a restored session is one graph: names, functions' globals and objects are connected as they were. -/
set_option linter.unusedSimpArgs false
namespace Verif.SessionGraph
open Verif.Core Verif.Core.Spec Spec

theorem find_mainDict (ns : List (String × Val)) (n : String) (h1 : n ≠ "__builtins__") (h2 : n ≠ "__loader__") :
    bound (mainDict ns) n = bound ns n := by
  unfold bound mainDict
  rw [List.find?_filter]
  congr 2
  funext e
  by_cases h : e.1 = n
  · subst h; simp [h1, h2]
  · simp [h]

theorem restored_append {F : Type} (f : String → Option (TVal ⊕ F)) (T : List (TVal × TVal)) (j : String)
    (h : ∀ e ∈ T, e.1 ≠ .atom (.str j)) : (T.foldl setName f) j = f j := by
  induction T generalizing f with
  | nil => rfl
  | cons e T ih =>
    rw [List.foldl_cons, ih _ (fun e he => h e (by simp [he]))]
    have := h e (by simp)
    obtain ⟨k, v⟩ := e
    cases k with
    | ref t => rfl
    | atom a =>
      cases a <;> first
        | rfl
        | (simp only [setName]; rw [if_neg]; rintro rfl; exact this rfl)

theorem pointwise_cons {α β : Type} {R : α → β → Prop} {a : α} {as : List α} {bs : List β} (h : Pointwise R (a :: as) bs) :
    ∃ b bs', bs = b :: bs' ∧ R a b ∧ Pointwise R as bs' := by
  cases bs with
  | nil => have := h.1; simp at this
  | cons b bs =>
    refine ⟨b, bs, rfl, h.2 0 a b rfl rfl, by have := h.1; simpa using this, ?_⟩
    intro i a b h1 h2
    exact h.2 (i + 1) a b (by simpa using h1) (by simpa using h2)

theorem pointwise_nil {α β : Type} {R : α → β → Prop} {bs : List β} (h : Pointwise R ([] : List α) bs) : bs = [] := by
  have := h.1
  cases bs with
  | nil => rfl
  | cons b bs => simp at this

/-- names in the restored namespace -/
theorem restored_spec {W : World} {φ : Corr} {F : Type} (D : List (String × Val)) (hn : (D.map (·.1)).Nodup) (T : List (TVal × TVal))
    (f : String → Option (TVal ⊕ F)) (h : CopyEntries W φ (D.map fun e => (.atom (.str e.1), e.2)) T) (j : String) :
    match bound D j with
    | some v => ∃ tv, (T.foldl setName f) j = some (.inl tv) ∧ CopyVal W φ v tv
    | none => (T.foldl setName f) j = f j := by
  induction D generalizing T f with
  | nil => rw [pointwise_nil h]; rfl
  | cons e D ih =>
    obtain ⟨te, T', rfl, ⟨h1, h2⟩, h3⟩ := pointwise_cons h
    obtain ⟨tk, tv⟩ := te
    simp only [CopyVal] at h1
    subst h1
    simp only [List.map_cons, List.nodup_cons] at hn
    rw [List.foldl_cons]
    have keys : ∀ (D : List (String × Val)) (T : List (TVal × TVal)), CopyEntries W φ (D.map fun e => (.atom (.str e.1), e.2)) T →
        ∀ te ∈ T, ∃ d ∈ D, te.1 = .atom (.str d.1) := by
      intro D
      induction D with
      | nil => intro T h; rw [pointwise_nil h]; simp
      | cons d D ih =>
        intro T h
        obtain ⟨te, T', rfl, ⟨k1, _⟩, k3⟩ := pointwise_cons h
        intro t ht
        simp only [List.mem_cons] at ht
        rcases ht with rfl | ht
        · exact ⟨d, by simp, k1⟩
        · obtain ⟨d', hd', e'⟩ := ih T' k3 t ht
          exact ⟨d', by simp [hd'], e'⟩
    by_cases hj : e.1 = j
    · have hb : bound (e :: D) j = some e.2 := by simp [bound, hj]
      rw [hb]
      refine ⟨tv, ?_, h2⟩
      rw [restored_append]
      · simp [setName, hj]
      · intro t ht hk
        obtain ⟨d, hd, e'⟩ := keys D T' h3 t ht
        rw [hk] at e'
        simp only [TVal.atom.injEq, Atom.str.injEq] at e'
        refine hn.1 ?_
        rw [hj, e']
        exact List.mem_map_of_mem hd
    · have hb : bound (e :: D) j = bound D j := by simp [bound, hj]
      rw [hb]
      have := ih hn.2 T' (setName f (.atom (.str e.1), tv)) h3
      have hs : setName f (.atom (.str e.1), tv) j = f j := by
        simp only [setName]; rw [if_neg (fun h => hj h.symm)]
      rw [hs] at this
      exact this

theorem nodup_mainDict {ns : List (String × Val)} (h : (ns.map (·.1)).Nodup) : ((mainDict ns).map (·.1)).Nodup := by
  refine h.sublist ?_
  exact List.Sublist.map _ List.filter_sublist

section
variable {W : World} {r : Addr} {name : String} {imported : Bool} {ns : List (String × Val)} {heap : List TObj} {t : Nat} {φ : Corr}
  {F : Type} {nsT : String → Option (TVal ⊕ F)}

theorem ofMain_rel (hc : IsCopy W (.ref r) (.ref t) heap φ) {v u} (h : CopyVal W φ v (.ref u)) (hm : OfMain W v) :
    TOfMain heap (.ref u) := by
  obtain ⟨x, co, g, nm, d, cl, a, s, rfl, hx, hg⟩ := hm
  simp only [CopyVal, hx] at h
  obtain ⟨u, hu, e⟩ | ⟨_, _, _, _, e⟩ := h
  case inr => cases e
  cases e
  obtain ⟨o, ho, hco⟩ := hc.objs x u hu
  unfold CopyObj at hco
  rw [hx] at hco
  cases o <;> simp only at hco
  rename_i co' g' nm' d' cl' a' s'
  have h2 := hco.2.1
  have : g' = .atom aMain := copy_fun (v := g) (v' := .atom aMain) h2 rfl hg
  subst this
  exact ⟨u, _, _, _, _, _, _, rfl, ho⟩

theorem path_rel (hw : WF W) (hc : IsCopy W (.ref r) (.ref t) heap φ) (hr : φ.obj r = some t) (hrl : ∀ a, W.H r ≠ .leaf a)
    (hns : ∀ n v, bound ns n = some v → n ≠ "__builtins__" → n ≠ "__loader__" → ∃ tv, nsT n = some (.inl tv) ∧ CopyVal W φ v tv)
    {v p u} (hp : Path W r ns v p u) : ∀ {tv}, CopyVal W φ v tv → (∃ tu, TPath heap t nsT tv p tu ∧ CopyVal W φ u tu) ∨
      ∃ pre s suf x a, p = pre ++ s :: suf ∧ Path W r ns v pre (.ref x) ∧ Circular W x ∧ W.byName x = some a ∧
        TPath heap t nsT tv pre (.atom a) := by
  induction hp with
  | nil v => exact fun h => .inl ⟨_, .nil _, h⟩
  | part h1 _ ih =>
    intro tv h
    rcases follow_rel hw hc [_] h _ h1 with ⟨tw, h2, h3⟩ | ⟨pre, s, suf, x, a, g1, g2, g3, g4, g5⟩
    · rcases ih h3 with ⟨tu, h4, h5⟩ | ⟨pre, s, suf, x, a, rfl, g2, g3, g4, g5⟩
      · exact .inl ⟨tu, .part h2 h4, h5⟩
      · exact .inr ⟨_ :: pre, s, suf, x, a, rfl, .part h1 g2, g3, g4, .part h2 g5⟩
    · cases pre with
      | cons y pre => simp at g1
      | nil =>
        simp only [follow, Option.some.injEq] at g2
        simp only [tfollow, Option.some.injEq] at g5
        subst g2 g5
        exact .inr ⟨[], _, _, x, a, rfl, .nil _, g3, g4, .nil _⟩
  | @global v w u n p hv hb hb1 hb2 _ ih =>
    intro tv h
    have hcase : (v = .ref r ∧ tv = .ref t) ∨ (OfMain W v ∧ ∃ u, tv = .ref u) ∨
        ∃ x a, v = .ref x ∧ tv = .atom a ∧ Circular W x ∧ W.byName x = some a := by
      rcases hv with rfl | hv
      · left
        refine ⟨rfl, ?_⟩
        simp only [CopyVal] at h
        cases hx : W.H r
        · exact absurd hx (hrl _)
        all_goals
          rcases h with ⟨u, hu, rfl⟩ | ⟨_, h0, _⟩
          · rw [hr] at hu; cases hu; rfl
          · rw [hr] at h0; cases h0
      · right
        obtain ⟨x, co, g, nm, d, cl, a, s, rfl, hx, hg⟩ := hv
        have h' := h
        simp only [CopyVal, hx] at h'
        rcases h' with ⟨u, _, rfl⟩ | ⟨g1, _, b, g2, rfl⟩
        · exact .inl ⟨⟨x, co, g, nm, d, cl, a, s, rfl, hx, hg⟩, u, rfl⟩
        · exact .inr ⟨x, b, rfl, rfl, g1, g2⟩
    have hT : (∃ x a, v = .ref x ∧ tv = .atom a ∧ Circular W x ∧ W.byName x = some a) ∨ (tv = .ref t ∨ TOfMain heap tv) := by
      rcases hcase with ⟨_, h1⟩ | ⟨h1, u, rfl⟩ | h1
      · exact .inr (.inl h1)
      · exact .inr (.inr (ofMain_rel hc h h1))
      · exact .inl h1
    rcases hT with ⟨x, a, rfl, rfl, g1, g2⟩ | hT
    · exact .inr ⟨[], _, _, x, a, rfl, .nil _, g1, g2, .nil _⟩
    obtain ⟨tw, h2, h3⟩ := hns _ _ hb hb1 hb2
    rcases ih h3 with ⟨tu, h4, h5⟩ | ⟨pre, s, suf, x, a, rfl, g2, g3, g4, g5⟩
    · exact .inl ⟨tu, .global hT h2 h4, h5⟩
    · exact .inr ⟨_ :: pre, s, suf, x, a, rfl, .global hv hb hb1 hb2 g2, g3, g4, .global hT h2 g5⟩

theorem bound_mem {ns : List (String × Val)} {n v} (h : bound ns n = some v) : ∃ e ∈ ns, e.1 = n ∧ e.2 = v := by
  obtain ⟨e, h1, rfl⟩ := Option.map_eq_some_iff.1 h
  exact ⟨e, List.mem_of_find?_eq_some h1, by simpa using List.find?_some h1, rfl⟩

/-- what a path leads to is found in the graph -/
theorem path_plain (hw : WF W) (hns : ∀ n v, bound ns n = some v → n ≠ "__builtins__" → n ≠ "__loader__" → Plain W v) {v p u}
    (hp : Path W r ns v p u) : Plain W v → Plain W u := by
  induction hp with
  | nil v => exact id
  | part h1 _ ih => intro h; exact ih (follow_plain hw h h1)
  | global _ hb h1 h2 _ ih => intro _; exact ih (hns _ _ hb h1 h2)

end

theorem tpath_det {F : Type} {heap : List TObj} {t : Nat} {ns : String → Option (TVal ⊕ F)} {v p u u'} (h : TPath heap t ns v p u)
    (h' : TPath heap t ns v p u') : u = u' := by
  induction h with
  | nil v => cases h'; rfl
  | part h1 _ ih =>
    cases h' with
    | part k1 k2 => rw [h1] at k1; cases k1; exact ih k2
  | global _ h1 _ ih =>
    cases h' with
    | global _ k1 k2 => rw [h1] at k1; cases k1; exact ih k2

/-- nothing lies behind a reference to a name -/
theorem tpath_atom {F : Type} {heap : List TObj} {t : Nat} {ns : String → Option (TVal ⊕ F)} {v pre a s suf u}
    (h : TPath heap t ns v pre (.atom a)) : ¬ TPath heap t ns v (pre ++ s :: suf) u := by
  generalize hb : TVal.atom a = b at h
  induction h with
  | nil v =>
    subst hb
    intro h
    cases h with
    | part h1 _ => cases h1
    | global h1 _ _ => rcases h1 with h1 | ⟨_, _, _, _, _, _, _, h1, _⟩ <;> cases h1
  | part h1 _ ih =>
    intro h
    cases h with
    | part k1 k2 => rw [h1] at k1; cases k1; exact ih hb k2
  | global _ h1 _ ih =>
    intro h
    cases h with
    | global _ k1 k2 => rw [h1] at k1; cases k1; exact ih hb k2

/-- Saving a module and loading it into a session: the loaded object is the module of that name; every path of the saved session,
also through global names of the module and of its functions, exists in the restored session and leads to the same atom or kind
of object, unless it comes to a function or class needed for its own creation which has become a reference to its name; two paths meet in the restored session exactly when they met before; names that were not saved, and `__builtins__` and
`__loader__`, are what they were in the target session. -/
theorem C81_session_graph_partial (F : Type) (W : World) (hw : WF W) (fuel : Nat) (r : Addr) (imported : Bool) (name : String)
    (ns : List (String × Val)) (hns : (ns.map (·.1)).Nodup) (hr : W.H r = savedModule imported name ns) (ops : List Op)
    (h : dumps W fuel (.ref r) = .ok ops) :
    ∃ t heap state, load ops = some (.ref t, heap) ∧
      heap[t]? = some (.node (.red (.atom aImportModule) [.atom (.str (if imported then name else "__runtime__." ++ name))]) [] [] state none) ∧
      ∀ prev : String → Option F,
        (∀ p v, Path W r ns (.ref r) p v → NamedOn W r ns heap t (restored prev state) p ∨
          ∃ tv, TPath heap t (restored prev state) (.ref t) p tv ∧ tkind heap tv = some (kind W v)) ∧
        (∀ p p' v v' tv tv', Path W r ns (.ref r) p v → Path W r ns (.ref r) p' v' →
          TPath heap t (restored prev state) (.ref t) p tv → TPath heap t (restored prev state) (.ref t) p' tv' →
          (node W v = node W v' ↔ tv = tv')) ∧
        (∀ n, bound ns n = none ∨ n = "__builtins__" ∨ n = "__loader__" → restored prev state n = (prev n).map .inr) := by
  obtain ⟨tv, heap, φ, hl, hc⟩ := C01_isomorphic_copy_partial W hw fuel (.ref r) ops h
  have hroot := hc.root
  simp only [CopyVal, hr, savedModule] at hroot
  obtain ⟨t, ht, rfl⟩ | ⟨hcirc, _⟩ := hroot
  case inr => obtain ⟨v, hv, _⟩ := hcirc; rw [hr] at hv; cases hv
  obtain ⟨o, ho, hco⟩ := hc.objs r t ht
  unfold CopyObj at hco
  rw [hr] at hco
  cases o <;> simp only [savedModule] at hco
  rename_i tcon l d state st
  obtain ⟨h1, h2, h3, h4, rfl⟩ := hco
  obtain ⟨k, h2, h2'⟩ := h2
  have hl0 : l = [] := by
    rw [times_nil] at h2
    exact pointwise_nil h2
  obtain rfl := pointwise_nil h3
  cases tcon <;> simp only at h1
  rename_i f' as'
  obtain ⟨hf, ha⟩ := h1
  simp only [CopyVal] at hf
  subst hf hl0
  obtain ⟨b, bs, rfl, hb, hbs⟩ := pointwise_cons ha
  obtain rfl := pointwise_nil hbs
  simp only [CopyVal] at hb
  subst hb
  refine ⟨t, heap, state, hl, ho, fun prev => ?_⟩
  have spec := restored_spec (mainDict ns) (nodup_mainDict hns) state (fun j => (prev j).map .inr) h4
  have hnsT : ∀ n v, bound ns n = some v → n ≠ "__builtins__" → n ≠ "__loader__" →
      ∃ tv, restored prev state n = some (.inl tv) ∧ CopyVal W φ v tv := by
    intro n v hb h1 h2
    have := spec n
    rw [find_mainDict ns n h1 h2, hb] at this
    exact this
  have hpl : ∀ n v, bound ns n = some v → n ≠ "__builtins__" → n ≠ "__loader__" → Plain W v := by
    intro n v hb h1 h2
    obtain ⟨e, he, rfl, rfl⟩ := bound_mem hb
    refine Plain.of_refs hw (y := r) ?_
    rw [hr]
    simp only [savedModule, refs, stRefs, List.mem_append]
    right
    refine List.mem_flatMap.2 ⟨(.atom (.str e.1), e.2), ?_, by simp⟩
    exact List.mem_map.2 ⟨e, by simp [mainDict, he, h1, h2], rfl⟩
  have go : ∀ {p v}, Path W r ns (.ref r) p v → _ :=
    fun hp => path_rel hw hc ht (by rw [hr]; intro a e; cases e) hnsT hp hc.root
  refine ⟨?_, ?_, ?_⟩
  · intro p v hp
    rcases go hp with ⟨tu, h1, h2⟩ | ⟨pre, s, suf, x, a, h1, h2, h3, h4, h5⟩
    · rcases kind_of hc h2 with h | ⟨x, a, rfl, h3, h4, rfl⟩
      · exact .inr ⟨tu, h1, h⟩
      · exact .inl ⟨p, [], x, a, by simp, hp, h3, h4, h1⟩
    · exact .inl ⟨pre, s :: suf, x, a, h1, h2, h3, h4, h5⟩
  · intro p p' v v' tv tv' hp hp' hq hq'
    have both : ∀ {p v tv}, Path W r ns (.ref r) p v → TPath heap t (restored prev state) (.ref t) p tv → CopyVal W φ v tv := by
      intro p v tv hp hq
      rcases go hp with ⟨tu, h1, h2⟩ | ⟨pre, s, suf, x, a, rfl, h2, h3, h4, h5⟩
      · obtain rfl := tpath_det hq h1; exact h2
      · exact absurd hq (tpath_atom h5)
    exact same_of hw hc (path_plain hw hpl hp (.ref W r)) (path_plain hw hpl hp' (.ref W r)) (both hp hq) (both hp' hq')
  · intro n hn
    have := spec n
    have hb : bound (mainDict ns) n = none := by
      by_cases h1 : n = "__builtins__" ∨ n = "__loader__"
      · simp only [bound, mainDict, Option.map_eq_none_iff, List.find?_eq_none]
        intro e he
        simp only [List.mem_filter, Bool.and_eq_true, decide_eq_true_eq] at he
        intro hk
        simp only [decide_eq_true_eq] at hk
        rcases h1 with h1 | h1
        · exact he.2.1 (hk.trans h1)
        · exact he.2.2 (hk.trans h1)
      · rcases hn with hn | hn
        · rw [find_mainDict ns n (fun e => h1 (.inl e)) (fun e => h1 (.inr e))]; exact hn
        · exact absurd hn h1
    rw [hb] at this
    exact this

/-! ### a concrete session -/

/-- `x = [1]; def f(): return x, f; g = f` in a module `m`: 0 is the module, 1 the function, 2 the list. -/
def exNs : List (String × Val) := [("__builtins__", .atom (.glob "builtins" "__dict__")), ("x", .ref 2), ("f", .ref 1), ("g", .ref 1),
  ("__loader__", .atom .none)]

def exH : Addr → SObj := fun a => match a with
  | 0 => savedModule true "m" exNs
  | 1 => .func (.atom (.str "code")) (.byRef (.atom aMain)) (.atom (.str "f")) (.atom .none) (.atom .none) [] []
  | 2 => .node .list [.atom (.int 1)] [] none
  | _ => .leaf .none

def exW : World := ⟨exH, .atom aCreateFunction, .atom aCreateCell, .atom aCreateType, .atom aCellEmpty,
  .atom aSetattr, .atom aDelattr, .atom aContents, .atom aQualname, fun _ => none⟩

instance (es : List (Val × Val)) : Decidable (KNodup exW es) := by unfold KNodup; infer_instance

theorem exWF : WF exW := by
  refine ⟨rfl, rfl, rfl, rfl, rfl, rfl, rfl, rfl, ?_, (by intro _ _ h; cases h), (by intro _ _ h; cases h), (by intro _ _ _ h; cases h)⟩
  intro x
  match x with
  | 0 =>
    refine ⟨by decide, ?_, ?_⟩
    · show KNodup exW _; decide
    · intro a ha h
      cases h
      rcases ha with h | h | h | h | h <;> exact absurd h (by decide)
  | 1 => exact ⟨⟨_, rfl⟩, by decide, by decide⟩
  | 2 => exact ⟨rfl, rfl⟩
  | _ + 3 => trivial

theorem ex_ok : ∃ ops, dumps exW 20 (.ref 0) = .ok ops := by
  have : (match dumps exW 20 (.ref 0) with | .ok _ => true | .error _ => false) = true := by decide +kernel
  cases e : dumps exW 20 (.ref 0) with
  | ok o => exact ⟨o, rfl⟩
  | error e' => rw [e] at this; cases this

example : (exNs.map (·.1)).Nodup := by decide
/-- the global `x` of `main.f`, of `main.g`, of the function `f` that `g` finds, and `main.x` are one object: -/
example : Path exW 0 exNs (.ref 0) [.global "f", .global "x"] (.ref 2) :=
  .global (.inl rfl) (w := .ref 1) rfl (by decide) (by decide)
    (.global (.inr ⟨1, _, _, _, _, _, _, _, rfl, rfl, rfl⟩) rfl (by decide) (by decide) (.nil _))
example : Path exW 0 exNs (.ref 0) [.global "g", .global "f", .global "x", .part (.item 0)] (.atom (.int 1)) :=
  .global (.inl rfl) (w := .ref 1) rfl (by decide) (by decide)
    (.global (.inr ⟨1, _, _, _, _, _, _, _, rfl, rfl, rfl⟩) (w := .ref 1) rfl (by decide) (by decide)
      (.global (.inr ⟨1, _, _, _, _, _, _, _, rfl, rfl, rfl⟩) (w := .ref 2) rfl (by decide) (by decide) (.part rfl (.nil _))))
/-- restored into a session that has its own `y` and `x`: `y` stays, `x` is replaced -/
example : ∃ ops t heap state, dumps exW 20 (.ref 0) = .ok ops ∧ load ops = some (.ref t, heap) ∧
    restored (fun n => if n = "y" then some 7 else if n = "x" then some 8 else none) state "y" = some (.inr 7) := by
  obtain ⟨ops, h⟩ := ex_ok
  obtain ⟨t, heap, state, h1, _, h2⟩ := C81_session_graph_partial Nat exW exWF 20 0 true "m" exNs (by decide) rfl ops h
  exact ⟨ops, t, heap, state, h, h1, (h2 _).2.2 "y" (.inl rfl)⟩

end Verif.SessionGraph
