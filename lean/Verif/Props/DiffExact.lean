import Verif.Props.Diff
/-! C51, exactness of `whats_changed` (`dill/__diff.py:129-204`): something is reported exactly when something reachable changed; and, where no
object leads back to itself, each attribute and the items exactly as the property says. -/
set_option linter.unusedSimpArgs false
set_option linter.unusedVariables false
namespace Verif.Diff

/-- something is listed, or the items are flagged -/
def Reports (v : Val) : Prop := (∃ k w, (k, w) ∈ v.1) ∨ v.2 = true

theorem truthy_iff (v : Val) : truthy v = true ↔ Reports v := by
  obtain ⟨l, b⟩ := v
  cases l with
  | nil => simp [truthy, Reports]
  | cons p l => simp only [truthy, Reports]; simp; exact Or.inl ⟨p.1, p.2, Or.inl rfl⟩

/-- C51, as a yes-or-no answer, on every graph, cyclic or not: after any history of `memorise` calls `whats_changed(obj)` reports something
exactly when an object reachable from `obj` by what was memorised has gained, lost or been rebound an attribute or item. -/
theorem C51_reports_iff (G : Graph) (m : Memo) (excl : Id → Bool) (n : Nat) (x : Id) (v : Val) (r : Rec)
    (hm : History excl m) (hx : m x = some r) (wf : ∀ y, WF (G y)) (kind : ∀ y r, m y = some r → SameKind r (G y))
    (h : whatsChanged G m excl n x = .ok v) :
    Reports v ↔ ∃ y r', MReach m x y ∧ m y = some r' ∧ Differs r' (G y) := by
  obtain ⟨i1, i2, i3⟩ := history_inv hm
  have hS : Setting G m := ⟨kind, i3, wf⟩
  unfold whatsChanged at h
  have he : ¬ excl x = true := fun e => by rw [i2 x e] at hx; cases hx
  rw [if_neg he, hx] at h
  simp only at h
  cases hc : compare (hasChanged G m excl n) (G x) r (Seen.set (fun _ => none) x ([], false)) with
  | error e => rw [hc] at h; cases h
  | ok q =>
    obtain ⟨v', s'⟩ := q
    rw [hc] at h
    cases h
    have h' : hasChanged G m excl (n + 1) x noSeen = .ok (truthy v, s'.set x v) := by
      rw [hasChanged]
      rw [show noSeen x = none from rfl]
      simp only
      rw [if_neg he, hx]
      simp only
      have : (Seen.set noSeen x ([], false)) = Seen.set (fun _ => none) x ([], false) := rfl
      rw [this, hc]
    rw [← truthy_iff]
    exact hasChanged_iff hS i1 (Or.inr (by rw [hx]; rfl)) i2 h'

/-! ### without cycles -/

section
variable {G : Graph} {m : Memo}

theorem MReach.snoc {x y z : Id} {r : Rec} (h : MReach m x y) (hm : m y = some r) (hl : Link r z) : MReach m x z := by
  induction h with
  | refl => exact .step hm hl (.refl _)
  | step a b _ ih => exact .step a b (ih hm)

theorem MReach.trans {x y z : Id} (h : MReach m x y) (h' : MReach m y z) : MReach m x z := by
  induction h with
  | refl => exact h'
  | step a b _ ih => exact .step a b (ih h')

/-- what was memorised below `x` has no cycle -/
def Acyclic (m : Memo) (x : Id) : Prop := ∀ y r c, MReach m x y → m y = some r → Link r c → ¬ MReach m c y

theorem Acyclic.link {x c : Id} {r : Rec} (h : Acyclic m x) (hm : m x = some r) (hl : Link r c) : Acyclic m c :=
  fun y r' c' hr => h y r' c' (.step hm hl hr)

/-- entries of `seen` for objects that are not being compared right now (`P`) do not miss a change -/
def Full (G : Graph) (m : Memo) (P : Id → Prop) (s : Seen) : Prop :=
  ∀ y v, s y = some v → ¬ P y → Bad G m y → truthy v = true

/-- the recursive call may be made on `c` while the objects of `P` are being compared -/
def May (m : Memo) (P : Id → Prop) (c : Id) : Prop := Acyclic m c ∧ ∀ y, MReach m c y → ¬ P y

def RcFull (G : Graph) (m : Memo) (rc : Rc) : Prop := ∀ P c s b s', rc c s = .ok (b, s') → May m P c → Full G m P s →
  Full G m P s' ∧ (b = false → ¬ Bad G m c)

theorem attrLoop_full {rc : Rc} (hrc : RcFull G m rc) (P : Id → Prop) (o : List (String × Id)) :
    ∀ (a : List (String × Id)) (ch : List (String × Option Id)) (s : Seen) (ch' : List (String × Option Id)) (s' : Seen),
    attrLoop rc o a ch s = .ok (ch', s') → (∀ k v, (k, v) ∈ a → o.lookup k = some v → May m P v) → Full G m P s →
    Full G m P s' ∧ (∀ p ∈ ch, p ∈ ch') ∧ (∀ k v, (k, v) ∈ a → o.lookup k = some v → Bad G m v → (k, some v) ∈ ch') := by
  intro a
  induction a with
  | nil =>
    intro ch s ch' s' h _ hf
    cases h
    exact ⟨hf, fun _ h => h, fun k v h => (by cases h)⟩
  | cons p a ih =>
    obtain ⟨k, v⟩ := p
    intro ch s ch' s' h hmay hf
    have hmay' : ∀ k v, (k, v) ∈ a → o.lookup k = some v → May m P v := fun k v hm => hmay k v (by simp [hm])
    rw [attrLoop] at h
    by_cases c : o.lookup k ≠ some v
    · rw [if_pos c] at h
      obtain ⟨i1, i2, i3⟩ := ih _ _ _ _ h hmay' hf
      refine ⟨i1, fun p hp => i2 p (by simp [hp]), ?_⟩
      intro k' v' hm hl hb
      rcases List.mem_cons.1 hm with e | e
      · cases e; exact absurd hl c
      · exact i3 k' v' e hl hb
    · rw [if_neg c] at h
      have c' : o.lookup k = some v := Classical.not_not.1 c
      cases hr : rc v s with
      | error e => rw [hr] at h; cases h
      | ok q =>
        obtain ⟨b, s1⟩ := q
        rw [hr] at h
        obtain ⟨r1, r2⟩ := hrc P _ _ _ _ hr (hmay k v (by simp) c') hf
        cases b with
        | true =>
          simp only at h
          obtain ⟨i1, i2, i3⟩ := ih _ _ _ _ h hmay' r1
          refine ⟨i1, fun p hp => i2 p (by simp [hp]), ?_⟩
          intro k' v' hm hl hb
          rcases List.mem_cons.1 hm with e | e
          · cases e; exact i2 _ (by simp)
          · exact i3 k' v' e hl hb
        | false =>
          simp only at h
          obtain ⟨i1, i2, i3⟩ := ih _ _ _ _ h hmay' r1
          refine ⟨i1, i2, ?_⟩
          intro k' v' hm hl hb
          rcases List.mem_cons.1 hm with e | e
          · cases e; exact absurd hb (r2 rfl)
          · exact i3 k' v' e hl hb

theorem dictLoop_full {rc : Rc} (hrc : RcFull G m rc) (P : Id → Prop) (o : List (Id × Id)) :
    ∀ (a : List (Id × Id)) (s : Seen) (b : Bool) (s' : Seen), dictLoop rc o a s = .ok (b, s') →
    (∀ k v, (k, v) ∈ a → o.lookup k = some v → May m P k ∧ May m P v) → Full G m P s →
    Full G m P s' ∧ (b = false → ∀ k v, (k, v) ∈ a → o.lookup k = some v ∧ ¬ Bad G m k ∧ ¬ Bad G m v) := by
  intro a
  induction a with
  | nil =>
    intro s b s' h _ hf
    cases h
    exact ⟨hf, fun _ k v h => (by cases h)⟩
  | cons p a ih =>
    obtain ⟨k, v⟩ := p
    intro s b s' h hmay hf
    rw [dictLoop] at h
    by_cases c : o.lookup k ≠ some v
    · rw [if_pos c] at h
      cases h
      exact ⟨hf, fun h => by cases h⟩
    · rw [if_neg c] at h
      have c' : o.lookup k = some v := Classical.not_not.1 c
      obtain ⟨mk, mv⟩ := hmay k v (by simp) c'
      cases hr : rc k s with
      | error e => rw [hr] at h; cases h
      | ok q =>
        obtain ⟨b1, s1⟩ := q
        rw [hr] at h
        obtain ⟨r1, r2⟩ := hrc P _ _ _ _ hr mk hf
        cases b1 with
        | true => cases h; exact ⟨r1, fun h => by cases h⟩
        | false =>
          simp only at h
          cases hr2 : rc v s1 with
          | error e => rw [hr2] at h; cases h
          | ok q =>
            obtain ⟨b2, s2⟩ := q
            rw [hr2] at h
            obtain ⟨t1, t2⟩ := hrc P _ _ _ _ hr2 mv r1
            cases b2 with
            | true => cases h; exact ⟨t1, fun h => by cases h⟩
            | false =>
              simp only at h
              obtain ⟨i1, i2⟩ := ih _ _ _ h (fun k' v' hm => hmay k' v' (by simp [hm])) t1
              refine ⟨i1, fun hb k' v' hm => ?_⟩
              rcases List.mem_cons.1 hm with e | e
              · cases e; exact ⟨c', r2 rfl, t2 rfl⟩
              · exact i2 hb k' v' e

theorem listLoop_full {rc : Rc} (hrc : RcFull G m rc) (P : Id → Prop) :
    ∀ (l o : List Id) (s : Seen) (b : Bool) (s' : Seen), listLoop rc l o s = .ok (b, s') → l.length = o.length →
    (∀ v ∈ o, May m P v) → Full G m P s →
    Full G m P s' ∧ (b = false → l = o ∧ ∀ v ∈ o, ¬ Bad G m v) := by
  intro l
  induction l with
  | nil =>
    intro o s b s' h hl _ hf
    cases o with
    | cons => cases hl
    | nil => cases h; exact ⟨hf, fun _ => ⟨rfl, fun v h => (by cases h)⟩⟩
  | cons i l ih =>
    intro o s b s' h hl hmay hf
    cases o with
    | nil => cases hl
    | cons j o =>
      rw [listLoop] at h
      by_cases c : i ≠ j
      · rw [if_pos c] at h
        cases h
        exact ⟨hf, fun h => by cases h⟩
      · rw [if_neg c] at h
        have c' : i = j := Classical.not_not.1 c
        subst c'
        cases hr : rc i s with
        | error e => rw [hr] at h; cases h
        | ok q =>
          obtain ⟨b1, s1⟩ := q
          rw [hr] at h
          obtain ⟨r1, r2⟩ := hrc P _ _ _ _ hr (hmay i (by simp)) hf
          cases b1 with
          | true => cases h; exact ⟨r1, fun h => by cases h⟩
          | false =>
            simp only at h
            obtain ⟨i1, i2⟩ := ih o _ _ _ h (by simpa using hl) (fun v hv => hmay v (by simp [hv])) r1
            refine ⟨i1, fun hb => ?_⟩
            obtain ⟨e1, e2⟩ := i2 hb
            refine ⟨by rw [e1], fun v hv => ?_⟩
            rcases List.mem_cons.1 hv with e | e
            · subst e; exact r2 rfl
            · exact e2 v e

theorem cmpSeq_full {rc : Rc} (hrc : RcFull G m rc) (P : Id → Prop) (now old : Rec) (hk : SameKind old now) (hw : WF old)
    (hw' : WF now) (s : Seen) (b : Bool) (s' : Seen) (h : cmpSeq rc now.seq old.seq s = .ok (b, s'))
    (hmay : ∀ c, Item old c → May m P c) (hf : Full G m P s) :
    Full G m P s' ∧ (b = false → SameItems old.seq now.seq ∧ ∀ c, Item old c → ¬ Bad G m c) := by
  obtain ⟨oa, os⟩ := old
  obtain ⟨na, ns⟩ := now
  obtain ⟨hk1, hk2⟩ := hk
  have hw2 := hw.2
  have hw2' := hw'.2
  simp only at hk2 h hw2 hw2'
  cases ns with
  | none =>
    cases os with
    | none =>
      cases h
      refine ⟨hf, fun _ => ⟨trivial, ?_⟩⟩
      rintro c (⟨l, e, -⟩ | ⟨l, k, v, e, -⟩)
      · cases e
      · cases e
    | list l => cases hk2
    | dict l => cases hk2
  | list l =>
    cases os with
    | none => cases hk2
    | dict o => cases hk2
    | list o =>
      rw [cmpSeq] at h
      by_cases c : l.length ≠ o.length
      · rw [if_pos c] at h
        cases h
        exact ⟨hf, fun h => by cases h⟩
      · rw [if_neg c] at h
        obtain ⟨i1, i2⟩ := listLoop_full hrc P l o s b s' h (Classical.not_not.1 c)
          (fun v hv => hmay v (Or.inl ⟨o, rfl, hv⟩)) hf
        refine ⟨i1, fun hb => ⟨(i2 hb).1.symm, ?_⟩⟩
        rintro c (⟨l', e, h'⟩ | ⟨l', k, v, e, -⟩)
        · cases e; exact (i2 hb).2 c h'
        · cases e
  | dict l =>
    cases os with
    | none => cases hk2
    | list o => cases hk2
    | dict o =>
      rw [cmpSeq] at h
      have wo := hw2 o rfl
      have wl := hw2' l rfl
      by_cases c : l.length ≠ o.length
      · rw [if_pos c] at h
        cases h
        exact ⟨hf, fun h => by cases h⟩
      · rw [if_neg c] at h
        obtain ⟨i1, i2⟩ := dictLoop_full hrc P o l s b s' h
          (fun k v hv hl => ⟨hmay k (Or.inr ⟨o, k, v, rfl, mem_of_lookup hl, Or.inl rfl⟩),
            hmay v (Or.inr ⟨o, k, v, rfl, mem_of_lookup hl, Or.inr rfl⟩)⟩) hf
        refine ⟨i1, fun hb => ?_⟩
        have same := dict_same wo wl (Classical.not_not.1 c) (fun k v hv => (i2 hb k v hv).1)
        refine ⟨same, ?_⟩
        rintro c (⟨l', e, h'⟩ | ⟨l', k, v, e, h1, h2⟩)
        · cases e
        · cases e
          have hl := lookup_of_mem wo h1
          rw [same] at hl
          have := i2 hb k v (mem_of_lookup hl)
          rcases h2 with rfl | rfl
          · exact this.2.1
          · exact this.2.2

theorem cmpAttrs_full {rc : Rc} (hrc : RcFull G m rc) (P : Id → Prop) (now old : Rec) (hk : SameKind old now) (hw : WF old)
    (hw' : WF now) (s : Seen) (ch : List (String × Option Id)) (s' : Seen)
    (h : cmpAttrs rc now.attrs old.attrs s = .ok (ch, s'))
    (hmay : ∀ k c, attrOf old k = some c → May m P c) (hf : Full G m P s) :
    Full G m P s' ∧ ∀ k c, attrOf old k = some c → attrOf now k = some c → Bad G m c → (k, some c) ∈ ch := by
  obtain ⟨oa, os⟩ := old
  obtain ⟨na, ns⟩ := now
  have hk1 := hk.1
  simp only [attrOf] at *
  cases na with
  | none =>
    cases oa with
    | some => cases hk1
    | none =>
      cases h
      exact ⟨hf, fun k c e => by cases e⟩
  | some a =>
    cases oa with
    | none => cases hk1
    | some o =>
      rw [cmpAttrs] at h
      obtain ⟨i1, i2, i3⟩ := attrLoop_full hrc P o _ _ _ _ _ h (fun k v _ hl => hmay k v hl) hf
      exact ⟨i1, fun k c e1 e2 hb => i3 k c (mem_of_lookup e2) e1 hb⟩

theorem compare_full {rc : Rc} (hrc : RcFull G m rc) (P : Id → Prop) (now old : Rec) (hk : SameKind old now) (hw : WF old)
    (hw' : WF now) (s : Seen) (v : Val) (s' : Seen) (h : compare rc now old s = .ok (v, s'))
    (hmay : ∀ c, Link old c → May m P c) (hf : Full G m P s) :
    Full G m P s' ∧ (∀ k c, attrOf old k = some c → attrOf now k = some c → Bad G m c → (k, some c) ∈ v.1) ∧
    (v.2 = false → SameItems old.seq now.seq ∧ ∀ c, Item old c → ¬ Bad G m c) := by
  unfold compare at h
  cases h1 : cmpAttrs rc now.attrs old.attrs s with
  | error e => rw [h1] at h; cases h
  | ok q =>
    obtain ⟨ch, s1⟩ := q
    rw [h1] at h
    simp only at h
    cases h2 : cmpSeq rc now.seq old.seq s1 with
    | error e => rw [h2] at h; cases h
    | ok q =>
      obtain ⟨d, s2⟩ := q
      rw [h2] at h
      cases h
      have hlink : ∀ k c, attrOf old k = some c → Link old c := by
        intro k c e
        unfold attrOf at e
        cases ha : old.attrs with
        | none => rw [ha] at e; cases e
        | some a => rw [ha] at e; exact Or.inl ⟨a, k, ha, mem_of_lookup e⟩
      obtain ⟨a1, a2⟩ := cmpAttrs_full hrc P now old hk hw hw' _ _ _ h1 (fun k c e => hmay c (hlink k c e)) hf
      obtain ⟨b1, b2⟩ := cmpSeq_full hrc P now old hk hw hw' _ _ _ h2 (fun c hc => hmay c (Or.inr hc)) a1
      exact ⟨b1, a2, b2⟩

theorem hasChanged_full {excl : Id → Bool} (hS : Setting G m) (hC : ClosedMemo m excl) (hxm : ∀ y, excl y = true → m y = none)
    (n : Nat) : RcFull G m (hasChanged G m excl n) := by
  induction n with
  | zero => intro P v s b s' h; cases h
  | succ n ih =>
    intro P x s b s' h hmay hf
    have none_not_bad : m x = none → ¬ Bad G m x := by
      rintro hn ⟨z, r, hr, hz, -⟩
      cases hr with
      | refl => rw [hn] at hz; cases hz
      | step hm _ _ => rw [hn] at hm; cases hm
    rw [hasChanged] at h
    cases hs : s x with
    | some v =>
      rw [hs] at h; cases h
      refine ⟨hf, fun hb hbad => ?_⟩
      have := hf x v hs (hmay.2 x (.refl _)) hbad
      rw [hb] at this; cases this
    | none =>
      rw [hs] at h
      simp only at h
      by_cases he : excl x = true
      · rw [if_pos he] at h
        cases h
        refine ⟨?_, fun _ => none_not_bad (hxm x he)⟩
        intro y w hw hp hbad
        by_cases e : y = x
        · subst e; exact absurd hbad (none_not_bad (hxm y he))
        · simp [Seen.set, e] at hw; exact hf y w hw hp hbad
      · rw [if_neg he] at h
        cases hm : m x with
        | none => rw [hm] at h; cases h; exact ⟨hf, fun h => by cases h⟩
        | some r =>
          rw [hm] at h
          simp only at h
          cases hc : compare (hasChanged G m excl n) (G x) r (s.set x ([], false)) with
          | error e => rw [hc] at h; cases h
          | ok q =>
            obtain ⟨v, s1⟩ := q
            rw [hc] at h
            cases h
            have hmay' : ∀ c, Link r c → May m (fun y => P y ∨ y = x) c := by
              intro c hl
              refine ⟨hmay.1.link hm hl, ?_⟩
              rintro y hr (hp | rfl)
              · exact hmay.2 y (.step hm hl hr) hp
              · exact hmay.1 y r c (.refl _) hm hl hr
            have hf' : Full G m (fun y => P y ∨ y = x) (s.set x ([], false)) := by
              intro y w hw hp hbad
              have e : y ≠ x := fun e => hp (Or.inr e)
              simp [Seen.set, e] at hw
              exact hf y w hw (fun h => hp (Or.inl h)) hbad
            obtain ⟨c1, c2, c3⟩ := compare_full ih _ (G x) r (hS.kind x r hm) (hS.wfOld x r hm) (hS.wfNow x) _ _ _ hc hmay' hf'
            have k5 := (compare_ok (hasChanged_ok hS hC n) (G x) r (hS.kind x r hm) (hS.wfOld x r hm) (hS.wfNow x) _ _ _ hc).2.2.2.2
            have key : Bad G m x → truthy v = true := by
              intro hbad
              cases ht : truthy v with
              | true => rfl
              | false =>
                exfalso
                obtain ⟨nd, -, -⟩ := k5 ht
                have hv : v.1 = [] ∧ v.2 = false := by
                  unfold truthy at ht
                  cases hl : v.1 with
                  | nil => rw [hl] at ht; exact ⟨rfl, by simpa using ht⟩
                  | cons p l => rw [hl] at ht; simp at ht
                have hsame : ∀ k, attrOf r k = attrOf (G x) k := by
                  intro k
                  exact Classical.byContradiction fun hne => nd (Or.inl ⟨k, hne⟩)
                obtain ⟨z, r', hr, hz, hd⟩ := hbad
                cases hr with
                | refl => rw [hm] at hz; cases hz; exact nd hd
                | step hm' hl hr =>
                  rw [hm] at hm'; cases hm'
                  rename_i c
                  have hb : Bad G m c := ⟨z, r', hr, hz, hd⟩
                  rcases hl with ⟨a, k, e1, e2⟩ | hi
                  · have : attrOf r k = some c := by
                      unfold attrOf; rw [e1]
                      exact lookup_of_mem ((hS.wfOld x r hm).1 a e1) e2
                    have hin := c2 k c this (by rw [← hsame]; exact this) hb
                    rw [hv.1] at hin; cases hin
                  · exact (c3 hv.2).2 c hi hb
            refine ⟨?_, fun hb hbad => ?_⟩
            · intro y w hw hp hbad
              by_cases e : y = x
              · subst e
                simp [Seen.set] at hw
                subst hw
                exact key hbad
              · simp [Seen.set, e] at hw
                exact c1 y w hw (fun h => h.elim hp e) hbad
            · rw [key hbad] at hb; cases hb

end

/-- C51 in full where no memorised object leads back to itself: after any history of `memorise` calls, an attribute is listed, with its present
value or `None` if it was lost, exactly when it was gained, lost or rebound or an object reachable from its value changed; and the items
are flagged exactly when they differ or an object reachable from one of them changed.  Missing: cycles (`C51_missed_attribute`). -/
theorem C51_exact_acyclic_partial (G : Graph) (m : Memo) (excl : Id → Bool) (n : Nat) (x : Id) (v : Val) (r : Rec)
    (hm : History excl m) (hx : m x = some r) (wf : ∀ y, WF (G y)) (kind : ∀ y r, m y = some r → SameKind r (G y))
    (hacyc : ∀ y r' c, MReach m x y → m y = some r' → Link r' c → ¬ MReach m c y)
    (h : whatsChanged G m excl n x = .ok v) :
    (∀ k w, (k, w) ∈ v.1 ↔ w = attrOf (G x) k ∧ (attrOf r k ≠ attrOf (G x) k ∨
      ∃ c y r', attrOf (G x) k = some c ∧ MReach m c y ∧ m y = some r' ∧ Differs r' (G y))) ∧
    (v.2 = true ↔ ¬ SameItems r.seq (G x).seq ∨
      ∃ c y r', Item r c ∧ MReach m c y ∧ m y = some r' ∧ Differs r' (G y)) := by
  obtain ⟨l1, l2, l3, l4⟩ := C51_listed_partial G m excl n x v r hm hx wf kind h
  obtain ⟨i1, i2, i3⟩ := history_inv hm
  have hS : Setting G m := ⟨kind, i3, wf⟩
  unfold whatsChanged at h
  have he : ¬ excl x = true := fun e => by rw [i2 x e] at hx; cases hx
  rw [if_neg he, hx] at h
  simp only at h
  cases hc : compare (hasChanged G m excl n) (G x) r (Seen.set (fun _ => none) x ([], false)) with
  | error e => rw [hc] at h; cases h
  | ok q =>
    obtain ⟨v', s'⟩ := q
    rw [hc] at h
    cases h
    have hmay : ∀ c, Link r c → May m (fun y => y = x) c := by
      intro c hl
      refine ⟨Acyclic.link hacyc hx hl, ?_⟩
      rintro y hr rfl
      exact hacyc y r c (.refl _) hx hl hr
    have hf : Full G m (fun y => y = x) (Seen.set (fun _ => none) x ([], false)) := by
      intro y w hw hp _
      simp [Seen.set, hp] at hw
    obtain ⟨-, c2, c3⟩ := compare_full (hasChanged_full hS i1 i2 n) _ (G x) r (kind x r hx) (i3 x r hx) (wf x) _ _ _ hc hmay hf
    refine ⟨fun k w => ⟨l3 k w, ?_⟩, l4, ?_⟩
    · rintro ⟨rfl, hne | ⟨c, y, r', e1, e2, e3, e4⟩⟩
      · exact l1 k hne
      · by_cases hne : attrOf r k = attrOf (G x) k
        · rw [e1]; exact c2 k c (by rw [hne, e1]) e1 ⟨y, r', e2, e3, e4⟩
        · exact l1 k hne
    · rintro (hne | ⟨c, y, r', e1, e2, e3, e4⟩)
      · exact l2 hne
      · cases hv : v.2 with
        | true => rfl
        | false => exact absurd ⟨y, r', e2, e3, e4⟩ ((c3 hv).2 c e1)

/-! ### examples: a shared object below two attributes and an item -/

/-- 0 has attributes `a` (1) and `b` (2); both refer to the list 3, which holds `last` -/
def dag (last : List Id) : Graph := fun x =>
  if x = 0 then ⟨some [("a", 1), ("b", 2)], .none⟩
  else if x = 1 then ⟨some [("y", 3)], .none⟩
  else if x = 2 then ⟨none, .list [3]⟩
  else if x = 3 then ⟨none, .list last⟩
  else ⟨none, .none⟩

def dagMemo : Memo := fun x => if x ≤ 3 then some (dag [] x) else none

example : whatsChanged (dag [4]) dagMemo (fun _ => false) 10 0 = .ok ([("a", some 1), ("b", some 2)], false) := by decide +kernel
example : whatsChanged (dag []) dagMemo (fun _ => false) 10 0 = .ok ([], false) := by decide +kernel
example : whatsChanged (dag [4]) dagMemo (fun _ => false) 10 2 = .ok ([], true) := by decide +kernel

theorem dag_link {y c : Id} {r : Rec} (hm : dagMemo y = some r) (hl : Link r c) : y < c := by
  unfold dagMemo at hm
  split at hm
  · cases hm
    simp only [dag, Link] at hl
    repeat' split at hl
    all_goals simp_all
    all_goals grind
  · cases hm

theorem dag_reach {y z : Id} (h : MReach dagMemo y z) : y ≤ z := by
  induction h with
  | refl => exact Nat.le_refl _
  | step hm hl _ ih => exact Nat.le_trans (Nat.le_of_lt (dag_link hm hl)) ih

/-- the hypothesis of `C51_exact_acyclic_partial` is met -/
example : ∀ y r' c, MReach dagMemo 0 y → dagMemo y = some r' → Link r' c → ¬ MReach dagMemo c y :=
  fun y r' c _ h1 h2 h3 => Nat.not_le_of_lt (dag_link h1 h2) (dag_reach h3)

theorem dag_memorised : memorise (dag []) (fun _ => false) 10 false 0 emptyMemo = .ok dagMemo := by
  have : memorise (dag []) (fun _ => false) 10 false 0 emptyMemo =
      .ok ((((emptyMemo.set 0 (dag [] 0)).set 1 (dag [] 1)).set 3 (dag [] 3)).set 2 (dag [] 2)) := by rfl
  rw [this]
  congr 1
  funext x
  simp only [Memo.set, emptyMemo, dagMemo]
  grind

end Verif.Diff
