import Verif.Model.Chain
import Mathlib.Data.List.Nodup
import Mathlib.Data.List.Perm.Subperm
/-! C22: find_chain returns a shortest chain. -/
set_option linter.unusedSimpArgs false
namespace Verif.Chain

/-! ### specification -/

/-- `c` is a reference chain from a matching object back to `obj`: its first element satisfies the
predicate, its last is `obj`, and each element is one of the neighbours of the next one and is not
ignored. -/
structure GoodChain (obj : Node) (pred : Node → Bool) (edges : Node → List Node)
    (ignore : Node → Bool) (c : List Node) : Prop where
  last : c.getLast? = some obj
  first : ∃ t, c.head? = some t ∧ pred t = true
  linked : c.IsChain (fun a b => a ∈ edges b ∧ ignore a = false)

/-- What the search must return for depth limit `D`. -/
def Correct (obj : Node) (pred : Node → Bool) (edges : Node → List Node) (D : Nat)
    (ignore : Node → Bool) (c : List Node) : Prop :=
  (GoodChain obj pred edges ignore c ∧ c.length ≤ D + 1 ∧
    ∀ c', GoodChain obj pred edges ignore c' → c.length ≤ c'.length) ∨
  (c = [obj] ∧ ∀ c', GoodChain obj pred edges ignore c' → D + 1 < c'.length)

/-! ### invariant -/

/-- Everything within `k` steps. -/
def ball (obj : Node) (edges : Node → List Node) : Nat → List Node
  | 0 => [obj]
  | k + 1 => ball obj edges k ++ (ball obj edges k).flatMap edges

theorem ball_mono (obj edges) {a b : Nat} (h : a ≤ b) : ball obj edges a ⊆ ball obj edges b := by
  obtain ⟨k, rfl⟩ := Nat.exists_eq_add_of_le h
  clear h
  induction k with
  | zero => exact fun _ h => h
  | succ k ih => intro x hx; exact List.mem_append_left _ (ih hx)

structure Base (obj : Node) (edges : Node → List Node) (D : Nat) (ignore : Node → Bool) (s : St) :
    Prop where
  wfd : s.depth.WF
  wfp : s.parent.WF
  len : s.parent.length = s.depth.length
  root : s.depth.get obj = some 0
  rootp : s.parent.get obj = some none
  zero : ∀ n, s.depth.get n = some 0 → n = obj
  par : ∀ n k, s.depth.get n = some (k + 1) → ∃ p, s.parent.get n = some (some p) ∧
    s.depth.get p = some k ∧ n ∈ edges p ∧ ignore n = false
  bound : ∀ n k, s.depth.get n = some k → k ≤ D
  inball : ∀ n k, s.depth.get n = some k → n ∈ ball obj edges k
  qnodup : s.queue.Nodup
  qvis : ∀ n ∈ s.queue, ∃ k, s.depth.get n = some k

structure Inv (obj : Node) (pred : Node → Bool) (edges : Node → List Node) (D : Nat)
    (ignore : Node → Bool) (s : St) : Prop extends Base obj edges D ignore s where
  lev : ∃ h q1 q2, s.queue = q1 ++ q2 ∧ (∀ n ∈ q1, s.depth.get n = some h) ∧
    (∀ n ∈ q2, s.depth.get n = some (h + 1)) ∧ ∀ n k, s.depth.get n = some k → k ≤ h + 1
  done : ∀ n k, s.depth.get n = some k → n ∉ s.queue → pred n = false ∧
    (k < D → ∀ m ∈ edges n, ignore m = false → ∃ j, s.depth.get m = some j ∧ j ≤ k + 1)

theorem length_set_new {α β : Type} [DecidableEq α] (d : Dict α β) (a : α) (b : β)
    (h : d.get a = none) : (d.set a b).length = d.length + 1 := by
  induction d with
  | nil => rfl
  | cons p d ih =>
    unfold Dict.set
    unfold Dict.get at h
    split at h
    · simp at h
    · rename_i hne
      rw [if_neg hne]
      simp only [List.length_cons]
      rw [ih h]

/-- the inner loop -/
theorem visit_spec (obj edges D ignore) (t : Node) (td : Nat) (htD : td < D) (ns : List Node)
    (hns : ∀ n ∈ ns, n ∈ edges t) (s : St) (hb : Base obj edges D ignore s)
    (ht : s.depth.get t = some td) :
    Base obj edges D ignore (visit ignore t td ns s) ∧
    (∃ add, (visit ignore t td ns s).queue = s.queue ++ add ∧
      (∀ n ∈ add, (visit ignore t td ns s).depth.get n = some (td + 1)) ∧
      (visit ignore t td ns s).depth.length = s.depth.length + add.length ∧
      (∀ n k, (visit ignore t td ns s).depth.get n = some k →
        s.depth.get n = some k ∨ (n ∈ add ∧ k = td + 1 ∧ s.depth.get n = none))) ∧
    (∀ n k, s.depth.get n = some k → (visit ignore t td ns s).depth.get n = some k) ∧
    (∀ m ∈ ns, ignore m = false → ∃ j, (visit ignore t td ns s).depth.get m = some j ∧
      (s.depth.get m = some j ∨ j = td + 1)) := by
  induction ns generalizing s with
  | nil =>
    refine ⟨hb, ⟨[], by simp [visit], by simp, by simp [visit], ?_⟩, fun _ _ h => h, by simp⟩
    intro n k h; exact .inl h
  | cons m ns ih =>
    unfold visit
    split
    · rename_i hi
      obtain ⟨h1, h2, h3, h4⟩ := ih (fun n hn => hns n (by simp [hn])) s hb ht
      refine ⟨h1, h2, h3, ?_⟩
      intro x hx hxi
      simp only [List.mem_cons] at hx
      rcases hx with rfl | hx
      · rw [hi] at hxi; simp at hxi
      · exact h4 x hx hxi
    · rename_i hi
      split
      · rename_i hv
        obtain ⟨h1, h2, h3, h4⟩ := ih (fun n hn => hns n (by simp [hn])) s hb ht
        refine ⟨h1, h2, h3, ?_⟩
        intro x hx hxi
        simp only [List.mem_cons] at hx
        rcases hx with rfl | hx
        · obtain ⟨j, hj⟩ := Option.isSome_iff_exists.1 hv
          exact ⟨j, h3 _ _ hj, .inl hj⟩
        · exact h4 x hx hxi
      · rename_i hv
        have hnone : s.depth.get m = none := by
          cases h : s.depth.get m with
          | none => rfl
          | some j => rw [h] at hv; simp at hv
        generalize hs' : (St.mk (s.queue ++ [m]) (s.depth.set m (td + 1))
          (s.parent.set m (some t))) = s'
        have hd' : ∀ x, s'.depth.get x = if x = m then some (td + 1) else s.depth.get x := by
          intro x; rw [← hs']; exact Dict.get_set _ _ _ _
        have hp' : ∀ x, s'.parent.get x = if x = m then some (some t) else s.parent.get x := by
          intro x; rw [← hs']; exact Dict.get_set _ _ _ _
        have hq' : s'.queue = s.queue ++ [m] := by rw [← hs']
        have hold : ∀ n k, s.depth.get n = some k → s'.depth.get n = some k := by
          intro n k h
          rw [hd', if_neg]
          · exact h
          · rintro rfl; rw [hnone] at h; simp at h
        have hmo : m ≠ obj := by rintro rfl; rw [hb.root] at hnone; simp at hnone
        have hpn : s.parent.get m = none := by
          -- parent and depth have the same keys
          have hsub : s.depth.keys ⊆ s.parent.keys := by
            intro x hx
            obtain ⟨k, hk⟩ := Option.isSome_iff_exists.1 ((Dict.get_isSome_iff _ _).2 hx)
            rw [← Dict.get_isSome_iff]
            cases k with
            | zero => rw [hb.zero x hk, hb.rootp]; rfl
            | succ k => obtain ⟨p, hp, _⟩ := hb.par x k hk; rw [hp]; rfl
          have hperm : (s.depth.keys).Perm s.parent.keys := by
            refine (List.subperm_of_subset hb.wfd hsub).perm_of_length_le ?_
            simp [Dict.keys, hb.len]
          rw [Dict.get_eq_none_iff]
          intro h
          have := hperm.mem_iff.2 h
          rw [← Dict.get_isSome_iff, hnone] at this
          simp at this
        have hb' : Base obj edges D ignore s' := by
          refine ⟨?_, ?_, ?_, ?_, ?_, ?_, ?_, ?_, ?_, ?_, ?_⟩
          · rw [← hs']; exact Dict.wf_set hb.wfd _ _
          · rw [← hs']; exact Dict.wf_set hb.wfp _ _
          · rw [← hs']
            show (s.parent.set m (some t)).length = (s.depth.set m (td + 1)).length
            rw [length_set_new _ _ _ hpn, length_set_new _ _ _ hnone, hb.len]
          · exact hold _ _ hb.root
          · rw [hp', if_neg (Ne.symm hmo)]; exact hb.rootp
          · intro n h
            rw [hd'] at h
            split at h
            · simp at h
            · exact hb.zero n h
          · intro n k h
            rw [hd'] at h
            split at h
            · rename_i e; subst e
              simp at h; subst h
              exact ⟨t, by rw [hp', if_pos rfl], hold _ _ ht, hns _ (by simp), by simpa using hi⟩
            · rename_i e
              obtain ⟨p, h1, h2, h3⟩ := hb.par n k h
              exact ⟨p, by rw [hp', if_neg e]; exact h1, hold _ _ h2, h3⟩
          · intro n k h
            rw [hd'] at h
            split at h
            · simp at h; omega
            · exact hb.bound n k h
          · intro n k h
            rw [hd'] at h
            split at h
            · rename_i e; subst e
              simp at h; subst h
              exact List.mem_append_right _ (List.mem_flatMap.2 ⟨t, hb.inball t td ht, hns _ (by simp)⟩)
            · exact hb.inball n k h
          · rw [hq', List.nodup_append]
            refine ⟨hb.qnodup, by simp, ?_⟩
            intro a ha b hbm
            simp at hbm; subst hbm
            rintro rfl
            obtain ⟨k, hk⟩ := hb.qvis a ha
            rw [hnone] at hk; simp at hk
          · intro n hn
            rw [hq', List.mem_append] at hn
            rcases hn with hn | hn
            · obtain ⟨k, hk⟩ := hb.qvis n hn; exact ⟨k, hold _ _ hk⟩
            · simp at hn; subst hn; exact ⟨td + 1, by rw [hd', if_pos rfl]⟩
        obtain ⟨h1, ⟨add, a1, a2, a3, a4⟩, h3, h4⟩ :=
          ih (fun n hn => hns n (by simp [hn])) s' hb' (hold _ _ ht)
        have hm' : s'.depth.get m = some (td + 1) := by rw [hd', if_pos rfl]
        refine ⟨h1, ⟨m :: add, ?_, ?_, ?_, ?_⟩, ?_, ?_⟩
        · rw [a1, hq']; simp
        · intro n hn
          simp only [List.mem_cons] at hn
          rcases hn with rfl | hn
          · exact h3 _ _ hm'
          · exact a2 n hn
        · rw [a3, ← hs']
          show (s.depth.set m (td + 1)).length + add.length = _
          rw [length_set_new _ _ _ hnone]; simp; omega
        · intro n k h
          rcases a4 n k h with h | ⟨hin, rfl, hn⟩
          · rw [hd'] at h
            split at h
            · rename_i e; subst e; simp at h; exact .inr ⟨by simp, h.symm, hnone⟩
            · exact .inl h
          · right
            refine ⟨by simp [hin], rfl, ?_⟩
            rw [hd'] at hn
            split at hn
            · simp at hn
            · exact hn
        · intro n k h; exact h3 _ _ (hold _ _ h)
        · intro x hx hxi
          simp only [List.mem_cons] at hx
          rcases hx with rfl | hx
          · exact ⟨td + 1, h3 _ _ hm', .inr rfl⟩
          · obtain ⟨j, hj, hj2⟩ := h4 x hx hxi
            refine ⟨j, hj, ?_⟩
            rcases hj2 with h | h
            · rw [hd'] at h
              split at h
              · simp at h; exact .inr h.symm
              · exact .inl h
            · exact .inr h

/-- following the parent links gives a linked chain of the recorded length -/
theorem follow_spec (obj edges D ignore) (s : St) (hb : Base obj edges D ignore s) (k : Nat) :
    ∀ t fuel, s.depth.get t = some k → k < fuel →
      ∃ c, follow s.parent fuel t = some c ∧ c.length = k + 1 ∧ c.head? = some t ∧
        c.getLast? = some obj ∧ c.IsChain (fun a b => a ∈ edges b ∧ ignore a = false) := by
  induction k with
  | zero =>
    intro t fuel ht hf
    obtain ⟨f, rfl⟩ : ∃ f, fuel = f + 1 := ⟨fuel - 1, by omega⟩
    have := hb.zero t ht
    subst this
    exact ⟨[t], by simp [follow, hb.rootp], rfl, rfl, rfl, by simp⟩
  | succ k ih =>
    intro t fuel ht hf
    obtain ⟨f, rfl⟩ : ∃ f, fuel = f + 1 := ⟨fuel - 1, by omega⟩
    obtain ⟨p, hp, hd, he, hi⟩ := hb.par t k ht
    obtain ⟨c, hc, hl, hh, hla, hch⟩ := ih p f hd (by omega)
    refine ⟨t :: c, by simp [follow, hp, hc], by simp [hl], rfl, ?_, ?_⟩
    · cases c with
      | nil => simp at hh
      | cons a c => rw [List.getLast?_cons_cons]; exact hla
    · cases c with
      | nil => simp
      | cons a c =>
        simp at hh; subst hh
        rw [List.isChain_cons_cons]
        exact ⟨⟨he, hi⟩, hch⟩

/-- along any chain, the elements are visited at most at their distance, as long as they are processed -/
theorem along (obj pred edges D ignore) (s : St) (hv : Inv obj pred edges D ignore s) (c : List Node)
    (hla : c.getLast? = some obj) (hch : c.IsChain (fun a b => a ∈ edges b ∧ ignore a = false))
    (L : Nat) (hL : c.length ≤ L + 1) (hLD : L ≤ D)
    (hq : ∀ n k, s.depth.get n = some k → k < L → n ∉ s.queue) :
    ∀ t, c.head? = some t → ∃ k, s.depth.get t = some k ∧ k + 1 ≤ c.length := by
  induction c with
  | nil => simp at hla
  | cons a c ih =>
    intro t ht
    simp at ht; subst ht
    cases c with
    | nil =>
      simp at hla; subst hla
      exact ⟨0, hv.root, by simp⟩
    | cons b c =>
      rw [List.isChain_cons_cons] at hch
      rw [List.getLast?_cons_cons] at hla
      simp only [List.length_cons] at hL
      obtain ⟨k, hk, hkl⟩ := ih hla hch.2 (by simp; omega) b rfl
      simp only [List.length_cons] at hkl ⊢
      have hnq := hq b k hk (by omega)
      obtain ⟨j, hj, hjk⟩ := (hv.done b k hk hnq).2 (by omega) a hch.1.1 hch.1.2
      exact ⟨j, hj, by omega⟩

theorem inv_init (obj pred edges D ignore) : Inv obj pred edges D ignore
    { queue := [obj], depth := [(obj, 0)], parent := [(obj, none)] } where
  wfd := by simp [Dict.WF, Dict.keys]
  wfp := by simp [Dict.WF, Dict.keys]
  len := rfl
  root := by simp [Dict.get]
  rootp := by simp [Dict.get]
  zero := by
    intro n h; simp only [Dict.get] at h; split at h
    · rename_i e; exact e.symm
    · simp at h
  par := by intro n k h; simp only [Dict.get] at h; split at h <;> simp at h
  bound := by intro n k h; simp only [Dict.get] at h; split at h <;> simp at h; omega
  inball := by
    intro n k h; simp only [Dict.get] at h; split at h
    · rename_i e; simp at h; subst h; simp [ball, e]
    · simp at h
  qnodup := by simp
  qvis := by intro n hn; simp at hn; subst hn; exact ⟨0, by simp [Dict.get]⟩
  lev := ⟨0, [obj], [], by simp, by simp [Dict.get], by simp, by
    intro n k h; simp only [Dict.get] at h; split at h <;> simp at h; omega⟩
  done := by
    intro n k h hn; simp only [Dict.get] at h; split at h
    · rename_i e; simp [e] at hn
    · simp at h

/-- one step keeps the invariant -/
theorem inv_step (obj pred edges D ignore) (s : St) (hv : Inv obj pred edges D ignore s) (t : Node)
    (q : List Node) (hq : s.queue = t :: q) (hp : pred t = false) (td : Nat)
    (htd : s.depth.get t = some td) :
    let s1 : St := { s with queue := q }
    let s2 := if td < D then visit ignore t td (edges t) s1 else s1
    Inv obj pred edges D ignore s2 ∧
    s2.depth.length + s.queue.length = s.depth.length + s2.queue.length + 1 := by
  intro s1 s2
  have hb1 : Base obj edges D ignore s1 := by
    refine ⟨hv.wfd, hv.wfp, hv.len, hv.root, hv.rootp, hv.zero, hv.par, hv.bound, hv.inball, ?_, ?_⟩
    · have := hv.qnodup; rw [hq] at this; exact (List.nodup_cons.1 this).2
    · intro n hn; exact hv.qvis n (by rw [hq]; simp only [s1] at hn; simp [hn])
  have htq : t ∉ q := by
    have := hv.qnodup; rw [hq] at this; exact (List.nodup_cons.1 this).1
  -- the rest of the queue is level
  have hlev : ∃ q1 q2, q = q1 ++ q2 ∧ (∀ n ∈ q1, s.depth.get n = some td) ∧
      (∀ n ∈ q2, s.depth.get n = some (td + 1)) ∧ ∀ n k, s.depth.get n = some k → k ≤ td + 1 := by
    obtain ⟨h, q1, q2, e, l1, l2, l3⟩ := hv.lev
    rw [hq] at e
    cases q1 with
    | nil =>
      simp at e
      have := l2 t (by rw [← e]; simp)
      rw [htd] at this; simp at this
      refine ⟨q, [], by simp, fun n hn => by rw [this]; exact l2 n (by rw [← e]; simp [hn]), by simp, ?_⟩
      intro n k hk; have := l3 n k hk; omega
    | cons a q1 =>
      simp at e
      obtain ⟨rfl, rfl⟩ := e
      have := l1 t (by simp)
      rw [htd] at this; simp at this; subst this
      exact ⟨q1, q2, rfl, fun n hn => l1 n (by simp [hn]), l2, l3⟩
  obtain ⟨q1, q2, hqq, l1, l2, l3⟩ := hlev
  by_cases hlt : td < D
  · have hs2 : s2 = visit ignore t td (edges t) s1 := by simp [s2, hlt]
    obtain ⟨v1, ⟨add, a1, a2, a3, a4⟩, v3, v4⟩ :=
      visit_spec obj edges D ignore t td hlt (edges t) (fun n h => h) s1 hb1 htd
    rw [← hs2] at v1 a1 a2 a3 a4 v3 v4
    refine ⟨⟨v1, ?_, ?_⟩, ?_⟩
    · refine ⟨td, q1, q2 ++ add, ?_, ?_, ?_, ?_⟩
      · rw [a1]; simp [s1, hqq]
      · intro n hn; exact v3 n td (l1 n hn)
      · intro n hn
        rw [List.mem_append] at hn
        rcases hn with hn | hn
        · exact v3 _ _ (l2 n hn)
        · exact a2 n hn
      · intro n k h
        rcases a4 n k h with h | ⟨_, h, _⟩
        · exact l3 n k h
        · omega
    · intro n k h hn
      rw [a1, List.mem_append, not_or] at hn
      rcases a4 n k h with h0 | ⟨h0, _⟩
      · by_cases hnt : n = t
        · subst hnt
          have : k = td := by
            have := htd; have h0' : s.depth.get n = some k := h0
            rw [this] at h0'; simpa using h0'.symm
          subst this
          refine ⟨hp, fun _ m hm hmi => ?_⟩
          obtain ⟨j, hj, hj2⟩ := v4 m hm hmi
          rcases hj2 with hj2 | hj2
          · exact ⟨j, hj, l3 m j hj2⟩
          · exact ⟨j, hj, by omega⟩
        · have hnq : n ∉ s.queue := by
            rw [hq]; simp only [List.mem_cons, not_or]; exact ⟨hnt, hn.1⟩
          obtain ⟨d1, d2⟩ := hv.done n k h0 hnq
          refine ⟨d1, fun hk m hm hmi => ?_⟩
          obtain ⟨j, hj, hjk⟩ := d2 hk m hm hmi
          exact ⟨j, v3 _ _ hj, hjk⟩
      · exact absurd h0 hn.2
    · have : s2.queue.length = q.length + add.length := by rw [a1]; simp [s1]
      rw [a3, this, hq]; simp [s1]; omega
  · have hs2 : s2 = s1 := by simp [s2, hlt]
    rw [hs2]
    refine ⟨⟨hb1, ⟨td, q1, q2, hqq, l1, l2, l3⟩, ?_⟩, ?_⟩
    · intro n k h hn
      by_cases hnt : n = t
      · subst hnt
        have h' : s.depth.get n = some k := h
        rw [htd] at h'; simp at h'; subst h'
        exact ⟨hp, fun h => absurd h hlt⟩
      · exact hv.done n k h (by
          rw [hq]; simp only [List.mem_cons, not_or]; exact ⟨hnt, hn⟩)
    · rw [hq]; simp [s1]; omega

theorem loop_spec (obj pred edges D ignore) (N : Nat)
    (hN : ∀ s, Base obj edges D ignore s → s.depth.length ≤ N) :
    ∀ fuel s, Inv obj pred edges D ignore s →
      N + s.queue.length + 1 ≤ fuel + s.depth.length →
      ∃ c, loop obj pred edges D ignore fuel s = some c ∧ Correct obj pred edges D ignore c := by
  intro fuel
  induction fuel with
  | zero => intro s hv hf; have := hN s hv.toBase; omega
  | succ fuel ih =>
    intro s hv hf
    unfold loop
    cases hq : s.queue with
    | nil =>
      refine ⟨[obj], rfl, .inr ⟨rfl, ?_⟩⟩
      intro c' hc'
      refine Classical.byContradiction fun hlen => ?_
      obtain ⟨t, ht, hpt⟩ := hc'.first
      obtain ⟨k, hk, _⟩ := along obj pred edges D ignore s hv c' hc'.last hc'.linked D (by omega)
        (Nat.le_refl _) (by intro n k _ _; simp [hq]) t ht
      have := (hv.done t k hk (by simp [hq])).1
      rw [hpt] at this; simp at this
    | cons t q =>
      simp only
      obtain ⟨td, htd⟩ := hv.qvis t (by rw [hq]; simp)
      by_cases hp : pred t = true
      · rw [if_pos hp]
        have hlt : td < s.parent.length + 1 := by
          -- a node of depth td has td distinct ancestors: the ones on its chain
          have key : ∀ k n, s.depth.get n = some k →
              ∃ l : List Node, l.Nodup ∧ l.length = k + 1 ∧
                (∀ x ∈ l, ∃ j, s.depth.get x = some j ∧ j ≤ k) := by
            intro k
            induction k with
            | zero =>
              intro n hn
              exact ⟨[n], by simp, rfl, by intro x hx; simp at hx; subst hx; exact ⟨0, hn, Nat.le_refl _⟩⟩
            | succ k ihk =>
              intro n hn
              obtain ⟨p, _, hpd, _⟩ := hv.par n k hn
              obtain ⟨l, h1, h2, h3⟩ := ihk p hpd
              refine ⟨n :: l, ?_, by simp [h2], ?_⟩
              · rw [List.nodup_cons]
                refine ⟨fun hm => ?_, h1⟩
                obtain ⟨j, hj, hjk⟩ := h3 n hm
                rw [hn] at hj; simp at hj; omega
              · intro x hx
                simp only [List.mem_cons] at hx
                rcases hx with rfl | hx
                · exact ⟨k + 1, hn, Nat.le_refl _⟩
                · obtain ⟨j, hj, hjk⟩ := h3 x hx; exact ⟨j, hj, by omega⟩
          obtain ⟨l, h1, h2, h3⟩ := key td t htd
          have hsub : l ⊆ s.depth.keys := by
            intro x hx
            obtain ⟨j, hj, _⟩ := h3 x hx
            rw [← Dict.get_isSome_iff, hj]; rfl
          have := (List.subperm_of_subset h1 hsub).length_le
          have hk : s.depth.keys.length = s.depth.length := by simp [Dict.keys]
          rw [hv.len]; omega
        obtain ⟨c, hc, hl, hh, hla, hch⟩ := follow_spec obj edges D ignore s hv.toBase td t _ htd hlt
        refine ⟨c, hc, .inl ⟨⟨hla, ⟨t, hh, hp⟩, hch⟩, ?_, ?_⟩⟩
        · have := hv.bound t td htd; omega
        · intro c' hc'
          refine Classical.byContradiction fun hlen => ?_
          obtain ⟨t', ht', hpt'⟩ := hc'.first
          have hne : c'.length ≠ 0 := by intro h; rw [List.length_eq_zero_iff] at h; subst h; simp at ht'
          have hqd : ∀ n k, s.depth.get n = some k → k < td → n ∉ s.queue := by
            intro n k hn hk hnq
            obtain ⟨h, q1, q2, e, l1, l2, l3⟩ := hv.lev
            have hmin : ∀ x ∈ s.queue, ∃ j, s.depth.get x = some j ∧ td ≤ j := by
              intro x hx
              rw [hq] at e
              cases q1 with
              | nil =>
                simp at e
                have h1 := l2 t (by rw [← e]; simp)
                have h2 := l2 x (by rw [← e, ← hq]; exact hx)
                rw [htd] at h1; simp at h1
                exact ⟨h + 1, h2, by omega⟩
              | cons a q1 =>
                have h1 := l1 a (by simp)
                simp at e
                obtain ⟨rfl, rfl⟩ := e
                rw [htd] at h1; simp at h1
                rw [hq] at hx
                have hx' : x ∈ (t :: q1) ++ q2 := by simpa using hx
                rw [List.mem_append] at hx'
                rcases hx' with h' | h'
                · exact ⟨h, l1 x h', by omega⟩
                · exact ⟨h + 1, l2 x h', by omega⟩
            obtain ⟨j, hj, hjt⟩ := hmin n hnq
            rw [hn] at hj; simp at hj; omega
          obtain ⟨k, hk, hkl⟩ := along obj pred edges D ignore s hv c' hc'.last hc'.linked td (by omega)
            (hv.bound t td htd) hqd t' ht'
          have := (hv.done t' k hk (hqd t' k hk (by omega))).1
          rw [hpt'] at this; simp at this
      · rw [if_neg hp]
        simp only [htd]
        have hstep := inv_step obj pred edges D ignore s hv t q hq (by simpa using hp) td htd
        simp only at hstep
        split
        · rename_i hlt
          rw [if_pos hlt] at hstep
          exact ih _ hstep.1 (by have := hstep.2; omega)
        · rename_i hlt
          rw [if_neg hlt] at hstep
          exact ih _ hstep.1 (by have := hstep.2; omega)

/-- C22: on every reference graph, `find_chain` finishes and returns a shortest chain of references
joining `obj` to a matching object within the depth limit, avoiding ignored objects; or just `[obj]` when
there is none within the limit. -/
theorem C22_find_chain (obj : Node) (pred : Node → Bool) (edges : Node → List Node) (D : Nat)
    (ignore : Node → Bool) :
    ∃ fuel c, findChain fuel obj pred edges D ignore = some c ∧ Correct obj pred edges D ignore c := by
  refine ⟨(ball obj edges D).length + 1, ?_⟩
  refine loop_spec obj pred edges D ignore (ball obj edges D).length ?_
    ((ball obj edges D).length + 1) _ (inv_init obj pred edges D ignore) (by simp)
  · intro s hb
    have hsub : s.depth.keys ⊆ ball obj edges D := by
      intro x hx
      obtain ⟨k, hk⟩ := Option.isSome_iff_exists.1 ((Dict.get_isSome_iff _ _).2 hx)
      exact ball_mono obj edges (hb.bound x k hk) (hb.inball x k hk)
    have := (List.subperm_of_subset hb.wfd hsub).length_le
    simpa [Dict.keys] using this

theorem loop_succ (obj pred edges D ignore) (fuel : Nat) : ∀ s c,
    loop obj pred edges D ignore fuel s = some c → loop obj pred edges D ignore (fuel + 1) s = some c := by
  induction fuel with
  | zero => intro s c h; simp [loop] at h
  | succ fuel ih =>
    intro s c h
    rw [loop] at h ⊢
    split
    · rename_i hq; rw [hq] at h; exact h
    · rename_i t q hq
      rw [hq] at h
      simp only at h
      split
      · rename_i hp; rw [if_pos hp] at h; exact h
      · rename_i hp
        rw [if_neg hp] at h
        split
        · rename_i hd; rw [hd] at h; simp at h
        · rename_i td hd
          rw [hd] at h
          simp only at h ⊢
          split
          · rename_i hlt; rw [if_pos hlt] at h; exact ih _ _ h
          · rename_i hlt; rw [if_neg hlt] at h; exact ih _ _ h

theorem findChain_unique {obj pred edges D ignore a b c d}
    (h1 : findChain a obj pred edges D ignore = some c)
    (h2 : findChain b obj pred edges D ignore = some d) : c = d := by
  have le : ∀ {a b : Nat} (hab : a ≤ b) s x, loop obj pred edges D ignore a s = some x →
      loop obj pred edges D ignore b s = some x := by
    intro a b hab s x h
    obtain ⟨k, rfl⟩ := Nat.exists_eq_add_of_le hab
    clear hab
    induction k with
    | zero => exact h
    | succ k ih => exact loop_succ obj pred edges D ignore _ _ _ ih
  have e1 := le (Nat.le_max_left a b) _ _ h1
  have e2 := le (Nat.le_max_right a b) _ _ h2
  rw [e1] at e2; simpa using e2

/-- C22 for `children`: whatever it returns (and it always does) is a shortest chain of referrers. -/
theorem C22_children (referrers : Node → List Node) (isType : Node → Bool) (obj : Node) (depth : Nat)
    (ignore : Node → Bool) :
    (∃ fuel c, children fuel referrers isType obj depth ignore = some c) ∧
    ∀ fuel c, children fuel referrers isType obj depth ignore = some c →
      Correct obj isType referrers depth ignore c := by
  obtain ⟨f, c, h, hc⟩ := C22_find_chain obj isType referrers depth ignore
  refine ⟨⟨f, c, h⟩, fun fuel c' h' => ?_⟩
  rw [findChain_unique h' h]; exact hc

/-- C22 for `parents`: whatever it returns is the reverse of a shortest chain of referents (without
regard to `ignore`). -/
theorem C22_parents (referents : Node → List Node) (isType : Node → Bool) (obj : Node) (depth : Nat)
    (ignore : Node → Bool) :
    (∃ fuel c, parents fuel referents isType obj depth ignore = some c) ∧
    ∀ fuel c, parents fuel referents isType obj depth ignore = some c →
      Correct obj isType referents depth (fun _ => false) c.reverse := by
  obtain ⟨f, c, h, hc⟩ := C22_find_chain obj isType referents depth (fun _ => false)
  refine ⟨⟨f, c.reverse, by simp [parents, h]⟩, fun fuel c' h' => ?_⟩
  unfold parents at h'
  cases h2 : findChain fuel obj isType referents depth (fun _ => false) with
  | none => rw [h2] at h'; simp at h'
  | some c2 =>
    rw [h2] at h'; simp at h'
    rw [← h', List.reverse_reverse, findChain_unique h2 h]; exact hc

/-- C22 for `parent`: it returns an object of the requested type that `obj` refers to directly, unless
`obj` itself is of that type or refers to no such object, in which case it returns None. -/
theorem C22_parent (referents : Node → List Node) (isType : Node → Bool) (obj : Node)
    (ignore : Node → Bool) (fuel : Nat) (r : Option Node)
    (h : parent fuel referents isType obj ignore = some r) :
    (∀ p, r = some p → isType p = true ∧ p ∈ referents obj) ∧
    (r = none → isType obj = true ∨ ∀ p ∈ referents obj, p ≠ obj → isType p = false) := by
  unfold parent at h
  cases hc : parents fuel referents isType obj 1 ignore with
  | none => rw [hc] at h; simp at h
  | some c =>
    rw [hc] at h
    simp only [Option.map_some, Option.some.injEq] at h
    have hcor := (C22_parents referents isType obj 1 ignore).2 fuel c hc
    have hrev : c.getLast? = c.reverse.head? := by simp
    generalize c.reverse = d at hcor hrev
    rw [hrev] at h
    rcases hcor with ⟨hg, hl, hmin⟩ | ⟨rfl, hnone⟩
    · obtain ⟨t, ht, hpt⟩ := hg.first
      rw [ht] at h
      simp only at h
      have hlast := hg.last
      have hlink := hg.linked
      match d, hl, ht, hlast, hlink with
      | [], _, ht, _, _ => simp at ht
      | [a], _, ht, hlast, _ =>
        simp at ht hlast; subst ht; subst hlast
        simp at h; subst h
        exact ⟨by simp, fun _ => .inl hpt⟩
      | [a, b], _, ht, hlast, hlink =>
        simp at ht hlast; subst ht; subst hlast
        simp at hlink
        split at h
        · rename_i e
          subst h
          refine ⟨by simp, fun _ => .inl (by rw [← e]; exact hpt)⟩
        · subst h
          refine ⟨?_, by simp⟩
          intro p hp; simp at hp; subst hp
          exact ⟨hpt, hlink⟩
      | a :: b :: c :: d, hl, _, _, _ => simp at hl
    · simp at h; subst h
      refine ⟨by simp, fun _ => .inr ?_⟩
      intro p hp hne
      cases hip : isType p with
      | false => rfl
      | true =>
        have := hnone [p, obj] ⟨by simp, ⟨p, rfl, hip⟩, by simp [hp]⟩
        simp at this

/-- The `ignore` argument of `parents` has no effect: a chain through an ignored object is returned. -/
theorem C22_parents_does_not_honour_ignore :
    ∃ (referents : Node → List Node) (isType ignore : Node → Bool) (obj m : Node) (c : List Node),
      parents 10 referents isType obj 2 ignore = some c ∧ m ∈ c ∧ m ≠ obj ∧ ignore m = true :=
  ⟨fun n => if n = 0 then [1] else [], fun n => n == 1, fun n => n == 1, 0, 1, [0, 1],
    by decide +kernel, by decide, by decide, by decide⟩

/-- a diamond with a cycle: 0 → 1,2 ; 1 → 0 ; 2 → 3 ; the match is 3 -/
example : findChain 20 0 (fun n => n == 3) (fun n => if n = 0 then [1, 2] else if n = 1 then [0]
    else if n = 2 then [3] else []) 5 (fun _ => false) = some [3, 2, 0] := by decide +kernel
example : GoodChain 0 (fun n => n == 3) (fun n => if n = 0 then [1, 2] else if n = 1 then [0]
    else if n = 2 then [3] else []) (fun _ => false) [3, 2, 0] :=
  ⟨rfl, ⟨3, rfl, rfl⟩, by decide⟩

end Verif.Chain
