import Verif.Core.Cost3
/-! The length of what saving writes when nothing is needed by what it is created from (used for C111): another account. -/
set_option linter.unusedSimpArgs false
namespace Verif.Core
open Spec

/-- memoised, or on the stack of the functions and classes being saved -/
def settled (p : P) (x : Addr) : Prop := .obj x ∈ p.memo ∨ p.onStack x = true

/-- a cell whose content (or the content of its content, and so on, these being cells) is settled -/
inductive Rel (W : World) (p : P) : Addr → Prop
  | last {y z} : W.H y = .cell (some (.ref z)) → (∀ k, W.H z ≠ .cell k) → settled p z → Rel W p y
  | next {y z} : W.H y = .cell (some (.ref z)) → Rel W p z → Rel W p y

theorem Rel.cell {W p y} (h : Rel W p y) : ∃ k, W.H y = .cell k := by
  cases h with
  | last h _ _ => exact ⟨_, h⟩
  | next h _ => exact ⟨_, h⟩

theorem Rel.mono {W p q y} (h : Rel W p y) (hm : ∀ z, settled p z → settled q z) : Rel W q y := by
  induction h with
  | last h1 h2 h3 => exact .last h1 h2 (hm _ h3)
  | next h1 _ ih => exact .next h1 ih

theorem free_iff (p : P) (x : Addr) : free p x = true ↔ ¬ settled p x := by
  simp [free, settled]

open Classical in
/-- an object neither memoised nor being saved may be started once (unless it has been: `A`), and a cell once more, as long as
its content is not settled -/
noncomputable def lterm (W : World) (A : List Addr) (p : P) (x : Addr) : Nat :=
  if free p x then (if x ∈ A then 0 else sz W x) + (if (∃ k, W.H x = .cell k) ∧ ¬ Rel W p x then sz W x else 0) else 0

noncomputable def LPhi (W : World) (dom A : List Addr) (p : P) : Nat := (dom.map (lterm W A p)).sum + pend p.post

section
variable {W : World} {dom : List Addr}

theorem lsum_mono {A A' : List Addr} {p p' : P} (hs : ∀ y, settled p y → settled p' y)
    (hA : ∀ y, ¬ settled p' y → y ∈ A' → y ∈ A ∨ (∃ k, W.H y = .cell k) ∧ ¬ Rel W p y ∧ Rel W p' y) :
    (dom.map (lterm W A p')).sum ≤ (dom.map (lterm W A' p)).sum := by
  refine sum_le ?_
  intro y _
  unfold lterm
  by_cases h : free p' y = true
  · have h' := (free_iff _ _).1 h
    have hf : free p y = true := (free_iff _ _).2 fun hy => h' (hs y hy)
    rw [if_pos h, if_pos hf]
    have hR : Rel W p y → Rel W p' y := fun h => h.mono hs
    by_cases hc : ∃ k, W.H y = .cell k
    · by_cases h1 : Rel W p y
      · have h2 := hR h1
        by_cases h3 : y ∈ A'
        · have := (hA y h' h3).resolve_right fun h => h.2.1 h1
          simp [h3, this, h1, h2]
        · simp only [h3, h1, h2, not_true, and_false, if_false]; split <;> omega
      · by_cases h2 : Rel W p' y
        · simp only [hc, h1, h2, not_true, not_false_eq_true, and_false, and_self, if_true, if_false]
          split <;> omega
        · by_cases h3 : y ∈ A'
          · have := (hA y h' h3).resolve_right fun h => h2 h.2.2
            simp only [h3, this, h1, h2, hc, not_false_eq_true, and_self, if_true]; omega
          · simp only [h3, h1, h2, hc, not_false_eq_true, and_self, if_true, if_false]; split <;> omega
    · simp only [hc, false_and, if_false]
      by_cases h3 : y ∈ A'
      · have := (hA y h' h3).resolve_right fun h => hc h.1
        simp [h3, this]
      · simp only [h3, if_false]; split <;> omega
  · rw [if_neg h]; exact Nat.zero_le _

/-- what may be saved while the objects `A` are being created -/
def LG (W : World) (dom A : List Addr) (v : Val) (p : P) : Prop :=
  Mem W v p ∨ ∃ x, v = .ref x ∧ x ∈ dom ∧ (∀ e ∈ p.post.map (·.1), Relation.ReflTransGen (Refers W) e x) ∧
    ∀ y ∈ A, y ∈ dom ∧ Relation.ReflTransGen (Refers W) y x ∧
      (Relation.TransGen (CreationRef W) y x ∨ ¬ Relation.ReflTransGen (Refers W) x y)

/-- deferred values are reachable from the function or class at the end of whose saving they are saved -/
def LI (W : World) (post : List (Addr × List Red)) : Prop :=
  ∀ e ∈ post, ∀ r ∈ e.2, ∀ z, .ref z ∈ redVals r → Relation.ReflTransGen (Refers W) e.1 z

theorem creation_refs (o : SObj) : ∀ v ∈ creationRefs o, v ∈ refs o := by
  cases o with
  | node con lits dits st => intro v hv; simp only [refs, List.append_assoc, List.mem_append]; exact .inl hv
  | cell k => cases k <;> simp [creationRefs, refs]
  | tuple es => exact fun v h => h
  | fset es => exact fun v h => h
  | _ => intro v hv; simp [creationRefs] at hv

theorem creation_refers {x y} (h : CreationRef W x y) : Refers W x y := creation_refs _ _ h

theorem creation_reaches {x y} (h : Relation.TransGen (CreationRef W) x y) : Relation.ReflTransGen (Refers W) x y := by
  induction h with
  | single h => exact .single (creation_refers h)
  | tail _ h ih => exact .tail ih (creation_refers h)

theorem closed_reaches (hd : Closed W dom) {x y} (hx : x ∈ dom) (h : Relation.ReflTransGen (Refers W) x y) : y ∈ dom := by
  induction h with
  | refl => exact hx
  | tail _ h ih => exact hd _ ih _ h

/-- If creating `y` needs `x`, which is no cell and refers back to `y`, then `y` is a cell, and its content leads to `x`. -/
theorem chain (hd : Closed W dom) (hk : NoKnot W dom) {x y} (hx : ∀ k, W.H x ≠ .cell k)
    (h : Relation.TransGen (CreationRef W) y x) : y ∈ dom → Relation.ReflTransGen (Refers W) x y →
      (∃ k, W.H y = .cell k) ∧ ∀ p, Rel W p y ↔ settled p x := by
  have cell : ∀ {y z}, y ∈ dom → CreationRef W y z → Relation.ReflTransGen (Refers W) z y → W.H y = .cell (some (.ref z)) := by
    intro y z hy hyz hzy
    by_cases hc : ∃ k, W.H y = .cell k
    · obtain ⟨k, hc⟩ := hc
      cases k with
      | none => simp [CreationRef, hc, creationRefs] at hyz
      | some v => simp [CreationRef, hc, creationRefs] at hyz; rw [hc, hyz]
    · exact absurd hzy (hk y hy (fun k h => hc ⟨k, h⟩) z hyz)
  induction h using Relation.TransGen.head_induction_on with
  | single h =>
    intro hy hxy
    have hc := cell hy h hxy
    refine ⟨⟨_, hc⟩, fun p => ⟨?_, fun hs => .last hc hx hs⟩⟩
    intro hr
    cases hr with
    | last h1 h2 h3 => rw [hc] at h1; cases h1; exact h3
    | next h1 h2 =>
      rw [hc] at h1; cases h1
      obtain ⟨k, h⟩ := h2.cell
      exact absurd h (hx k)
  | @head y w h h' ih =>
    intro hy hxy
    have hwx := creation_reaches h'
    have hc := cell hy h (hwx.trans hxy)
    obtain ⟨⟨k, hw⟩, hr⟩ := ih (hd y hy w (creation_refers h)) (hxy.tail (creation_refers h))
    refine ⟨⟨_, hc⟩, fun p => ?_⟩
    rw [← hr p]
    refine ⟨?_, fun h => .next hc h⟩
    intro hp
    cases hp with
    | last h1 h2 h3 => rw [hc] at h1; cases h1; exact absurd hw (h2 k)
    | next h1 h2 => rw [hc] at h1; cases h1; exact h2

open Classical in
/-- those of `A` which do not become startable again -/
noncomputable def keep (W : World) (p p' : P) (A : List Addr) : List Addr :=
  A.filter fun y => decide (¬ (¬ Rel W p y ∧ Rel W p' y))

theorem mem_keep {p p' : P} {A : List Addr} {y} : y ∈ keep W p p' A ↔ y ∈ A ∧ ¬ (¬ Rel W p y ∧ Rel W p' y) := by
  simp only [keep, List.mem_filter, decide_eq_true_eq]

/-- `x` becomes settled -/
theorem released (hd : Closed W dom) (hk : NoKnot W dom) {A : List Addr} {x : Addr} {p p' : P} (hx : ∀ k, W.H x ≠ .cell k)
    (hA : ∀ y ∈ A, y ∈ dom ∧ Relation.ReflTransGen (Refers W) y x ∧
      (Relation.TransGen (CreationRef W) y x ∨ ¬ Relation.ReflTransGen (Refers W) x y))
    (hs : ¬ settled p x) (hs' : settled p' x) {z} (hz : Relation.ReflTransGen (Refers W) x z) :
    ∀ y ∈ keep W p p' A, y ∈ dom ∧ Relation.ReflTransGen (Refers W) y z ∧
      (Relation.TransGen (CreationRef W) y z ∨ ¬ Relation.ReflTransGen (Refers W) z y) := by
  intro y hy
  obtain ⟨hyA, hn⟩ := mem_keep.1 hy
  obtain ⟨h1, h2, h3⟩ := hA y hyA
  refine ⟨h1, h2.trans hz, .inr fun hzy => hn ?_⟩
  have hxy := hz.trans hzy
  have := (chain hd hk hx (h3.resolve_right fun h => h hxy) h1 hxy).2
  exact ⟨fun h => hs ((this p).1 h), (this p').2 hs'⟩

theorem LPhi_mono {A A' : List Addr} {q : P} (h : ∀ y ∈ A', y ∈ A) : LPhi W dom A q ≤ LPhi W dom A' q := by
  have := lsum_mono (W := W) (dom := dom) (A := A) (A' := A') (p := q) (p' := q) (fun _ h => h) (fun y _ hy => .inl (h y hy))
  unfold LPhi; omega

theorem settled_memo {p : P} {k : Key} {x} (h : settled p x) : settled { p with memo := p.memo ++ [k] } x :=
  h.imp (fun h => by simp [h]) id

theorem LG.mono {I : List (Addr × List Red) → Prop} {A v p p'} (h : LG W dom A v p) (hf : CF W dom I p p') : LG W dom A v p' := by
  rcases h with h | ⟨x, h1, h2, h3, h4⟩
  · exact .inl (h.mono hf.fr.memo)
  · exact .inr ⟨x, h1, h2, by rw [hf.fr.keys]; exact h3, h4⟩

theorem lmodes (hd : Closed W dom) (hc : NoCreationCycle W) (hk : NoKnot W dom) :
    Modes W dom (LI W) (LPhi W dom) (LG W dom) := by
  have key : ∀ {A : List Addr} {x : Addr} {p : P}, ¬ Mem W (.ref x) p → LG W dom A (.ref x) p →
      (∀ e ∈ p.post.map (·.1), Relation.ReflTransGen (Refers W) e x) ∧ ∀ y ∈ A, y ∈ dom ∧ Relation.ReflTransGen (Refers W) y x ∧
      (Relation.TransGen (CreationRef W) y x ∨ ¬ Relation.ReflTransGen (Refers W) x y) := by
    rintro A x p hm (h | ⟨z, hz, _, h⟩)
    · exact absurd h hm
    · cases hz; exact h
  have xA : ∀ {A : List Addr} {x : Addr} {p : P}, ¬ Mem W (.ref x) p → LG W dom A (.ref x) p → x ∉ A := by
    intro A x p hm hg h
    rcases ((key hm hg).2 x h).2.2 with h | h
    · exact hc x h
    · exact h .refl
  refine ⟨fun _ _ _ _ h hf => h.mono hf, ?_, fun _ _ _ h => .inl h, ?_, ?_, ?_, ?_, ?_, ?_, ?_, ?_⟩
  · intro A k p
    have := lsum_mono (W := W) (dom := dom) (A := A) (A' := A) (p := p) (p' := { p with memo := p.memo ++ [k] })
      (fun _ h => settled_memo h) (fun _ _ h => .inl h)
    unfold LPhi; simp only; omega
  · rintro A v p (h | ⟨x, rfl, h, _⟩)
    · exact .inl h
    · exact .inr h
  · intro A x p hm
    have := lsum_mono (W := W) (dom := dom) (A := A) (A' := x :: A) (p := p) (p' := p) (fun _ h => h) (by
      intro y hy h
      rcases List.mem_cons.1 h with rfl | h
      · exact absurd (.inl hm) hy
      · exact .inl h)
    unfold LPhi; omega
  · intro A x p hx hf hm _ hg
    have hxA := xA hm hg
    have : (dom.map (lterm W (x :: A) p)).sum + sz W x ≤ (dom.map (lterm W A p)).sum := by
      refine sum_le_of_mem hx ?_ ?_
      · intro y _
        unfold lterm
        split
        · by_cases h : y ∈ A
          · simp [h]
          · simp only [List.mem_cons, h, or_false, if_false]; split <;> omega
        · omega
      · unfold lterm
        simp only [hf, if_true, List.mem_cons, true_or, hxA, if_false]; omega
    unfold LPhi; omega
  · intro A x p hx hm _ hg w hw hw'
    cases w with
    | atom a => exact .inl (.inl ⟨a, rfl⟩)
    | ref z =>
      obtain ⟨k1, k2⟩ := key hm hg
      have hxz : Refers W x z := creation_refs _ _ hw
      refine .inr ⟨z, rfl, hw', fun e he => (k1 e he).tail hxz, ?_⟩
      intro y hy
      rcases List.mem_cons.1 hy with rfl | hy
      · exact ⟨hx, .single hxz, .inl (.single hw)⟩
      · obtain ⟨h1, h2, h3⟩ := k2 y hy
        exact ⟨h1, h2.tail hxz, h3.imp (fun h => .tail h hw) fun h h' => h (.head hxz h')⟩
  · intro A x p p1 hx hm hg hp hf hX
    obtain ⟨con, lits, dits, st, hX⟩ := hX
    have hnc : ∀ k, W.H x ≠ .cell k := by intro k; rw [hX]; simp
    obtain ⟨k1, k2⟩ := key hm hg
    have hs : ¬ settled p1 x := (free_iff _ _).1 hf
    have hs' : settled { p1 with memo := p1.memo ++ [.obj x] } x := .inl (by simp)
    refine ⟨keep W p1 { p1 with memo := p1.memo ++ [.obj x] } A, ?_, ?_, ?_⟩
    · have := lsum_mono (W := W) (dom := dom) (A := keep W p1 { p1 with memo := p1.memo ++ [.obj x] } A) (A' := x :: A) (p := p1)
        (p' := { p1 with memo := p1.memo ++ [.obj x] }) (fun _ h => settled_memo h) (by
          intro y hy h
          rcases List.mem_cons.1 h with rfl | h
          · exact absurd hs' hy
          · rw [mem_keep]
            by_cases hr : ¬ Rel W p1 y ∧ Rel W { p1 with memo := p1.memo ++ [.obj x] } y
            · exact .inr ⟨hr.2.cell, hr⟩
            · exact .inl ⟨h, hr⟩)
      unfold LPhi; simp only; omega
    · intro v hv hvd
      cases v with
      | atom a => exact .inl (.inl ⟨a, rfl⟩)
      | ref z =>
        refine .inr ⟨z, rfl, hvd, ?_, released hd hk hnc k2 hs hs' (.single hv)⟩
        simp only [hp.fr.keys]
        exact fun e he => (k1 e he).tail hv
    · intro q
      exact LPhi_mono fun y hy => (mem_keep.1 hy).1
  · intro A x p l0 hx hm hg hp hns hfc hl0
    have hnc : ∀ k, W.H x ≠ .cell k := by intro k h; rw [h] at hfc; exact hfc
    obtain ⟨k1, k2⟩ := key hm hg
    have hxA := xA hm hg
    have hs : ¬ settled p x := by
      rintro (h | h)
      · exact hm (.inr ⟨x, rfl, h⟩)
      · rw [hns] at h; cases h
    have hf : free p x = true := (free_iff _ _).2 hs
    generalize hp' : ({ p with post := p.post ++ [(x, l0)] } : P) = p'
    have hst : ∀ y, settled p y → settled p' y := by
      subst hp'
      intro y h
      refine h.imp id ?_
      simp only [P.onStack, List.any_append, Bool.or_eq_true]
      exact .inl
    have hs' : settled p' x := by
      subst hp'
      exact .inr (by simp [P.onStack])
    have hfree : ∀ y, free p' y = true → free p y = true := by
      intro y h
      exact (free_iff _ _).2 fun h' => (free_iff _ _).1 h (hst y h')
    have reach : ∀ r ∈ l0, ∀ z, .ref z ∈ redVals r → Relation.ReflTransGen (Refers W) x z := by
      intro r hr z hz
      rcases hl0 r hr _ hz with h | h
      · cases h; exact .refl
      · exact .single h
    have keys : p'.post.map (·.1) = p.post.map (·.1) ++ [x] := by subst hp'; simp
    have hI : LI W (p.post ++ [(x, l0)]) := by
      intro e he
      rcases List.mem_append.1 he with he | he
      · exact hp.i e he
      · simp at he; subst he; exact reach
    refine ⟨keep W p p' A, ?_, hI, ?_, fun q => LPhi_mono fun y hy => (mem_keep.1 hy).1, ?_⟩
    · have e1 : (dom.map (lterm W (keep W p p' A) p')).sum ≤ (dom.map (lterm W (x :: A) p)).sum := by
        refine lsum_mono hst ?_
        intro y hy h
        rcases List.mem_cons.1 h with rfl | h
        · exact absurd hs' hy
        · rw [mem_keep]
          by_cases hr : ¬ Rel W p y ∧ Rel W p' y
          · exact .inr ⟨hr.2.cell, hr⟩
          · exact .inl ⟨h, hr⟩
      have e2 : (dom.map (lterm W (x :: A) p)).sum + sz W x ≤ (dom.map (lterm W A p)).sum := by
        refine sum_le_of_mem hx ?_ ?_
        · intro y _
          unfold lterm
          split
          · by_cases h : y ∈ A
            · simp [h]
            · simp only [List.mem_cons, h, or_false, if_false]; split <;> omega
          · omega
        · unfold lterm
          simp only [hf, if_true, List.mem_cons, true_or, hxA, if_false]; omega
      have ep : pend p'.post = pend p.post + cRs l0 := by subst hp'; simp [pend]
      unfold LPhi; omega
    · intro v hv hvd
      cases v with
      | atom a => exact .inl (.inl ⟨a, rfl⟩)
      | ref z =>
        refine .inr ⟨z, rfl, hvd, ?_, released hd hk hnc k2 hs hs' (.single hv)⟩
        rw [keys]
        intro e he
        rcases List.mem_append.1 he with he | he
        · exact (k1 e he).tail hv
        · simp at he; subst he; exact .single hv
    · intro p2 h2 m2
      have hsub : ∀ e ∈ p2.post.filter (fun e => decide (e.1 ≠ x)), e ∈ p2.post := fun e he => (List.mem_filter.1 he).1
      refine ⟨fun e he => h2.i e (hsub e he), ?_, ?_⟩
      · have e1 : (dom.map (lterm W (keep W p p' A) { p2 with post := p2.post.filter (fun e => decide (e.1 ≠ x)) })).sum ≤
            (dom.map (lterm W (keep W p p' A) p2)).sum := by
          refine lsum_mono ?_ (fun _ _ h => .inl h)
          rintro y (h | h)
          · exact .inl h
          · by_cases hyx : y = x
            · subst hyx; exact .inl m2
            · refine .inr ?_
              simp only [P.onStack, List.any_eq_true, decide_eq_true_eq] at h ⊢
              obtain ⟨e, he, rfl⟩ := h
              exact ⟨e, List.mem_filter.2 ⟨he, by simpa using hyx⟩, rfl⟩
        have e3 := pend_split (post := p2.post) (x := x)
        unfold LPhi
        simp only
        omega
      · intro e he hex r hr v hv hvd
        cases v with
        | atom a => exact .inl (.inl ⟨a, rfl⟩)
        | ref z =>
          have hxz : Relation.ReflTransGen (Refers W) x z := by rw [← hex]; exact h2.i e he r hr z hv
          refine .inr ⟨z, rfl, hvd, ?_, released hd hk hnc k2 hs hs' hxz⟩
          intro a ha
          simp only at ha
          obtain ⟨e', he', rfl⟩ := List.mem_map.1 ha
          have hne : e'.1 ≠ x := by simpa using (List.mem_filter.1 he').2
          have hin : e'.1 ∈ p2.post.map (·.1) := List.mem_map_of_mem (hsub e' he')
          rw [h2.fr.keys, keys] at hin
          rcases List.mem_append.1 hin with h | h
          · exact (k1 _ h).trans hxz
          · simp at h; exact absurd h hne
  · intro A p y r hp
    have h1 : (dom.map (lterm W A { p with post := addRed y r p.post })).sum ≤ (dom.map (lterm W A p)).sum := by
      refine lsum_mono ?_ (fun _ _ h => .inl h)
      rintro z (h | h)
      · exact .inl h
      · exact .inr (by rw [onStack_keys (p := p) addRed_keys]; exact h)
    have h2 := pend_addRed y r p.post hp.nd
    unfold LPhi; simp only; omega
  · intro A x p p1 y r hx hm hg hp hy hr
    have hyx := (key hm hg).1 y hy
    intro e he r' hr' z hz
    obtain ⟨⟨u, l⟩, h0, rfl⟩ := List.mem_map.1 he
    simp only at hr' ⊢
    by_cases huy : u = y
    · subst huy
      simp only [if_true, List.mem_append, List.mem_singleton] at hr' ⊢
      rcases hr' with h | rfl
      · exact hp.i _ h0 r' h z hz
      · rcases hr _ hz with h | h
        · cases h; exact hyx
        · exact hyx.tail h
    · simp only [huy, if_false] at hr' ⊢
      exact hp.i _ h0 r' hr' z hz

end
end Verif.Core
