import Verif.Core.Cost2
/-! The length of what saving writes, whatever the cycles (used for C111): one account. -/
set_option linter.unusedSimpArgs false
namespace Verif.Core
open Spec

/-- an object neither memoised nor being saved: once it is memoised, everything may be started once more; and it may be started
once before that, unless it has been (`A`: those being created) -/
def term (W : World) (dom A : List Addr) (p : P) (x : Addr) : Nat :=
  if free p x then total W dom + (if x ∈ A then 0 else sz W x) else 0

def Fsum (W : World) (dom A : List Addr) (p : P) : Nat := (dom.map (term W dom A p)).sum
def Phi (W : World) (dom A : List Addr) (p : P) : Nat := Fsum W dom A p + pend p.post

section
variable {W : World} {dom : List Addr}

theorem Fsum_mono {A A' : List Addr} {p p' : P} (hf : ∀ y, free p' y = true → free p y = true)
    (hA : ∀ y, free p' y = true → y ∈ A' → y ∈ A) : Fsum W dom A p' ≤ Fsum W dom A' p := by
  refine sum_le ?_
  intro y _
  unfold term
  by_cases h : free p' y = true
  · rw [if_pos h, if_pos (hf y h)]
    have := hA y h
    by_cases h1 : y ∈ A'
    · rw [if_pos h1, if_pos (this h1)]
    · rw [if_neg h1]; split <;> omega
  · rw [if_neg h]; exact Nat.zero_le _

theorem Phi_nil (A : List Addr) (p : P) : Phi W dom A p ≤ Phi W dom [] p := by
  have := Fsum_mono (W := W) (dom := dom) (A := A) (A' := []) (p := p) (p' := p) (fun _ h => h) (fun _ _ h => by cases h)
  unfold Phi; omega

theorem free_memo {k : Key} {p : P} (y : Addr) (h : free { p with memo := p.memo ++ [k] } y = true) : free p y = true := by
  simp only [free, P.onStack, Bool.and_eq_true, decide_eq_true_eq, List.mem_append, not_or] at h ⊢
  exact ⟨h.1.1, h.2⟩

theorem free_of_memo {p : P} {x : Addr} (h : .obj x ∈ p.memo) : free p x = false := by simp [free, h]

theorem Phi_memo (A : List Addr) (k : Key) (p : P) : Phi W dom A { p with memo := p.memo ++ [k] } ≤ Phi W dom A p := by
  have := Fsum_mono (W := W) (dom := dom) (A := A) (A' := A) (p := p) (p' := { p with memo := p.memo ++ [k] })
    (fun y h => free_memo y h) (fun _ _ h => h)
  unfold Phi; simp only; omega

/-- starting to save an object -/
theorem Phi_start {A : List Addr} {p : P} {x} (hx : x ∈ dom) (hf : free p x = true) (hA : x ∉ A) :
    Phi W dom (x :: A) p + sz W x ≤ Phi W dom A p := by
  have : Fsum W dom (x :: A) p + sz W x ≤ Fsum W dom A p := by
    refine sum_le_of_mem hx ?_ ?_
    · intro y _
      unfold term
      split
      · by_cases h : y ∈ A
        · simp [h]
        · simp only [List.mem_cons, h, or_false]; split <;> simp
      · omega
    · unfold term
      simp [hf, hA]
  unfold Phi; omega

/-- the end of creating an object -/
theorem Phi_end {A : List Addr} {p : P} {x} (hm : .obj x ∈ p.memo) : Phi W dom A p ≤ Phi W dom (x :: A) p := by
  have := Fsum_mono (W := W) (dom := dom) (A := A) (A' := x :: A) (p := p) (p' := p) (fun _ h => h) (by
    intro y hy h
    rcases List.mem_cons.1 h with rfl | h
    · rw [free_of_memo hm] at hy; cases hy
    · exact h)
  unfold Phi; omega

/-- an object becomes memoised (or is put on the stack of those being saved): everything may be started again -/
theorem Phi_release {A : List Addr} {p p' : P} {x} (hx : x ∈ dom) (hf : free p x = true) (hf' : free p' x = false)
    (hs : ∀ y, free p' y = true → free p y = true) :
    Phi W dom [] p' + sz W x + pend p.post ≤ Phi W dom A p + pend p'.post := by
  let T := total W dom
  let f1 : Addr → Nat := fun y => if free p' y then T else 0
  let f2 : Addr → Nat := fun y => if y = x then 0 else sz W y
  let f3 : Addr → Nat := fun y => if free p y then T else 0
  have h0 : Fsum W dom [] p' ≤ (dom.map fun y => f1 y + f2 y).sum := by
    refine sum_le ?_
    intro y _
    simp only [term, f1, f2, T, List.not_mem_nil, if_false]
    by_cases hy : y = x
    · subst hy; simp [hf']
    · rw [if_neg hy]; split <;> omega
  rw [sum_add] at h0
  have h1 : (dom.map f1).sum + T ≤ (dom.map f3).sum := by
    refine sum_le_of_mem hx ?_ ?_
    · intro y _
      simp only [f1, f3]
      by_cases h : free p' y = true
      · rw [if_pos h, if_pos (hs y h)]
      · rw [if_neg h]; exact Nat.zero_le _
    · simp [f1, f3, hf, hf']
  have h2 : (dom.map f2).sum + sz W x ≤ T := by
    refine sum_le_of_mem hx ?_ ?_
    · intro y _
      simp only [f2]; split <;> omega
    · simp [f2]
  have h3 : (dom.map f3).sum ≤ Fsum W dom A p := by
    refine sum_le ?_
    intro y _
    simp only [f3, term, T]; split <;> omega
  unfold Phi; omega

theorem Phi_memo_release {A : List Addr} {p : P} {x} (hx : x ∈ dom) (hf : free p x = true) :
    Phi W dom [] { p with memo := p.memo ++ [.obj x] } ≤ Phi W dom A p := by
  have := Phi_release (W := W) (A := A) (p := p) (p' := { p with memo := p.memo ++ [.obj x] }) hx hf
    (by simp [free]) (fun y h => free_memo y h)
  simp only at this
  omega

theorem Phi_addRed {I : List (Addr × List Red) → Prop} {A : List Addr} {p : P} (hp : CI W dom I p) (y r) :
    Phi W dom A { p with post := addRed y r p.post } ≤ Phi W dom A p + cR r := by
  have h1 : Fsum W dom A { p with post := addRed y r p.post } ≤ Fsum W dom A p :=
    Fsum_mono (fun z hz => by
      rw [← hz]; exact (free_keys (p := p) (q := { p with post := addRed y r p.post }) rfl addRed_keys z).symm) (fun _ _ h => h)
  have h2 := pend_addRed y r p.post hp.nd
  unfold Phi; simp only; omega

/-- what may be saved while the objects `A` are being created -/
def Gd (W : World) (dom A : List Addr) (v : Val) (p : P) : Prop :=
  Mem W v p ∨ (InD dom v ∧ ∀ y ∈ A, ∃ x, v = .ref x ∧ Relation.TransGen (CreationRef W) y x)

theorem Gd.mono {A v p p'} {I : List (Addr × List Red) → Prop} (h : Gd W dom A v p) (hf : CF W dom I p p') : Gd W dom A v p' :=
  h.imp (fun h => h.mono hf.fr.memo) id

theorem gd_nil {v p} (h : InD dom v) : Gd W dom [] v p := .inr ⟨h, fun _ h => by cases h⟩
theorem gd_atom {A v p} (h : isAtomV W v) : Gd W dom A v p := .inl (.inl h)

theorem modes (hd : Closed W dom) (hc : NoCreationCycle W) : Modes W dom (fun _ => True) (Phi W dom) (Gd W dom) := by
  have key : ∀ {A : List Addr} {x : Addr} {p : P}, ¬ Mem W (.ref x) p → Gd W dom A (.ref x) p →
      ∀ y ∈ A, Relation.TransGen (CreationRef W) y x := by
    rintro A x p hm (h | ⟨_, h⟩) y hy
    · exact absurd h hm
    · obtain ⟨z, hz, h⟩ := h y hy
      cases hz; exact h
  refine ⟨fun _ _ _ _ h hf => h.mono hf, Phi_memo, fun _ _ _ h => .inl h, fun _ _ _ h => h.imp id (·.1),
    fun _ _ _ h => Phi_end h, ?_, ?_, ?_, ?_, fun A p y r hp => Phi_addRed hp y r, fun _ _ _ _ _ _ _ _ _ _ _ _ => trivial⟩
  · intro A x p hx hf hm _ hg
    exact Phi_start hx hf fun h => hc x (key hm hg x h)
  · intro A x p hx hm _ hg w hw hw'
    cases w with
    | atom a => exact gd_atom ⟨a, rfl⟩
    | ref y =>
      refine .inr ⟨hw', fun z hz => ⟨y, rfl, ?_⟩⟩
      rcases List.mem_cons.1 hz with rfl | hz
      · exact .single hw
      · exact .tail (key hm hg z hz) hw
  · intro A x p p1 hx _ _ _ hf _
    exact ⟨[], Phi_memo_release hx hf, fun v _ h => gd_nil h, Phi_nil A⟩
  · intro A x p l0 hx hm hg hp hns hfc _
    have hn : .obj x ∉ p.memo := fun h => hm (.inr ⟨x, rfl, h⟩)
    have hf : free p x = true := by simp [free, hn, hns]
    have er := Phi_release (W := W) (A := A) (p := p) (p' := { p with post := p.post ++ [(x, l0)] }) hx hf
      (by simp [free, P.onStack]) (by
        intro y hy
        simp only [free, P.onStack, List.any_append, Bool.and_eq_true, decide_eq_true_eq, Bool.not_eq_true',
          Bool.or_eq_false_iff] at hy ⊢
        exact ⟨hy.1, hy.2.1⟩)
    have ep : pend (p.post ++ [(x, l0)]) = pend p.post + cRs l0 := by simp [pend]
    simp only [ep] at er
    refine ⟨[], by omega, trivial, fun v _ h => gd_nil h, Phi_nil A, ?_⟩
    intro p2 h2 m2
    refine ⟨trivial, ?_, fun _ _ _ _ _ v _ h => gd_nil h⟩
    have e2 : Fsum W dom [] { p2 with post := p2.post.filter (fun e => decide (e.1 ≠ x)) } ≤ Fsum W dom [] p2 := by
      refine Fsum_mono ?_ (fun _ _ h => h)
      intro y hy
      by_cases hyx : y = x
      · subst hyx
        rw [free_of_memo (p := { p2 with post := p2.post.filter (fun e => decide (e.1 ≠ y)) }) m2] at hy; cases hy
      · simp only [free, P.onStack, Bool.and_eq_true, decide_eq_true_eq, Bool.not_eq_true', List.any_eq_false] at hy ⊢
        refine ⟨hy.1, ?_⟩
        intro e he hey
        exact hy.2 e (List.mem_filter.2 ⟨he, by simp [hey, hyx]⟩) hey
    have e3 := pend_split (post := p2.post) (x := x)
    unfold Phi
    simp only
    omega

end
end Verif.Core
