import Verif.Model.Abc
/-! C77: a copied abstract base class accepts the copies of what its original accepts. -/
set_option linter.unusedSimpArgs false
namespace Verif.Abc

/-! ### specification -/

/-- no class at all -/
def CW.none : CW := ⟨fun _ => False, fun _ => [], fun _ => False, fun _ => []⟩

/-- the states a process can reach -/
inductive Reach : CW → Prop
  | start : Reach CW.none
  | next {w w' e} : Reach w → step w e = .ok w' → Reach w'

/-- No class that is not itself an ABC, but that some ABC inherits from, is registered anywhere. -/
def Plain (w : CW) : Prop :=
  ∀ a d b, w.ex a → d ∈ w.reg a → w.ex b → w.abc b → Anc w b d → w.abc d

/-- `l` knows some of the classes of `w`, with the same bases, and no further registrations. -/
structure Part (l w : CW) : Prop where
  ex : ∀ c, l.ex c → w.ex c
  bases : ∀ c, l.ex c → l.bases c = w.bases c
  abc : ∀ c, l.ex c → (l.abc c ↔ w.abc c)
  reg : ∀ c, l.ex c → ∀ r ∈ l.reg c, r ∈ w.reg c

/-- the classes an action needs -/
def needs : Ev → List Cls
  | .create _ bs _ => bs
  | .register a x => [a, x]

def isCreate (c : Cls) : Ev → Prop
  | .create d _ _ => d = c
  | .register _ _ => False

/-- `es` is an order in which loading a pickle of the classes `S` may run their actions: all of them and no others, each class
made once and before it is used; the other classes are in the loading process already. -/
structure IsLoad (src : CW) (S : Cls → Prop) (l0 : CW) (es : List Ev) : Prop where
  known : ∀ c, S c → src.ex c
  fresh : ∀ c, S c → ¬ l0.ex c
  only : ∀ e ∈ es, ∃ c, S c ∧ e ∈ actions src c
  all : ∀ c, S c → ∀ e ∈ actions src c, e ∈ es
  ready : ∀ pre e post, es = pre ++ e :: post → ∀ d ∈ needs e, l0.ex d ∨ ∃ x ∈ pre, isCreate d x
  once : ∀ pre e post c, es = pre ++ e :: post → isCreate c e → ∀ x ∈ pre, ¬ isCreate c x

/-! ### worlds -/

structure Closed (w : CW) : Prop where
  bases : ∀ c, w.ex c → ∀ b ∈ w.bases c, w.ex b
  reg : ∀ c, w.ex c → ∀ r ∈ w.reg c, w.ex r
  inh : ∀ c, w.ex c → ∀ b ∈ w.bases c, w.abc b → w.abc c

theorem Part.refl (w) : Part w w := ⟨fun _ h => h, fun _ _ => rfl, fun _ _ => Iff.rfl, fun _ _ _ h => h⟩

theorem Part.trans {a b c} (h : Part a b) (k : Part b c) : Part a c where
  ex x hx := k.ex x (h.ex x hx)
  bases x hx := (h.bases x hx).trans (k.bases x (h.ex x hx))
  abc x hx := (h.abc x hx).trans (k.abc x (h.ex x hx))
  reg x hx r hr := k.reg x (h.ex x hx) r (h.reg x hx r hr)

theorem anc_ex {w} (hc : Closed w) {c a} (h : Anc w c a) (hx : w.ex c) : w.ex a := by
  induction h with
  | refl => exact hx
  | step hb _ ih => exact ih (hc.bases _ hx _ hb)

theorem Anc.part {l w} (hc : Closed l) (hp : Part l w) {c a} (h : Anc l c a) (hx : l.ex c) : Anc w c a := by
  induction h with
  | refl => exact .refl _
  | step hb _ ih => exact .step (by rw [← hp.bases _ hx]; exact hb) (ih (hc.bases _ hx _ hb))

theorem Anc.back {l w} (hc : Closed l) (hp : Part l w) {c a} (h : Anc w c a) (hx : l.ex c) : Anc l c a := by
  induction h with
  | refl => exact .refl _
  | step hb _ ih =>
    rw [← hp.bases _ hx] at hb
    exact .step hb (ih (hc.bases _ hx _ hb))

theorem Anc.trans {w a b c} (h : Anc w a b) (k : Anc w b c) : Anc w a c := by
  induction h with
  | refl => exact k
  | step hb _ ih => exact .step hb (ih k)

theorem Sub.part {l w} (hc : Closed l) (hp : Part l w) {c a} (h : Sub l c a) (hx : l.ex c) (ha : l.ex a) : Sub w c a := by
  induction h with
  | mro h => exact .mro (h.part hc hp hx)
  | reg h1 h2 _ ih => exact .reg ((hp.abc _ ha).1 h1) (hp.reg _ ha _ h2) (ih (hc.reg _ ha _ h2))
  | sub h1 h2 h3 _ ih => exact .sub ((hp.abc _ ha).1 h1) (hp.ex _ h2) (by rw [← hp.bases _ h2]; exact h3) (ih h2)

theorem Plain.part {l w} (hc : Closed l) (hp : Part l w) (h : Plain w) : Plain l := by
  intro a d b ha hd hb hbb hab
  exact (hp.abc d (hc.reg a ha d hd)).2
    (h a d b (hp.ex a ha) (hp.reg a ha d hd) (hp.ex b hb) ((hp.abc b hb).1 hbb) (hab.part hc hp hb))

theorem anc_abc {w} (hc : Closed w) {c a} (h : Anc w c a) (hx : w.ex c) (ha : w.abc a) : w.abc c := by
  induction h with
  | refl => exact ha
  | step hb _ ih => exact hc.inh _ hx _ hb (ih (hc.bases _ hx _ hb) ha)

/-- up to an ABC along the bases -/
theorem sub_anc {w} (hc : Closed w) {c b a} (h : Sub w c b) (k : Anc w b a) (hb : w.ex b) (ha : w.abc a) : Sub w c a := by
  induction k with
  | refl => exact h
  | step hb1 h2 ih =>
    have hx := hc.bases _ hb _ hb1
    exact ih (.sub (anc_abc hc h2 hx ha) hb hb1 h) hx ha

theorem sub_plain {w c a} (h : Sub w c a) (ha : ¬ w.abc a) : Anc w c a := by
  cases h with
  | mro h => exact h
  | reg h1 => exact absurd h1 ha
  | sub h1 => exact absurd h1 ha

/-- issubclass is transitive where no plain class gets in between -/
theorem sub_trans {w} (hc : Closed w) (hp : Plain w) {c b a} (h : Sub w c b) (k : Sub w b a) (hb : w.ex b) (ha : w.ex a)
    (hq : ∀ x, w.ex x → w.abc x → Anc w x a → w.abc a) : Sub w c a := by
  induction k with
  | mro k =>
    rename_i a
    by_cases habc : w.abc a
    · exact sub_anc hc h k hb habc
    · by_cases hbb : w.abc b
      · exact absurd (hq b hb hbb k) habc
      · exact .mro ((sub_plain h hbb).trans k)
  | reg h1 h2 _ ih =>
    exact .reg h1 h2 (ih (hc.reg _ ha _ h2) fun x hx hxx hxa => hp _ _ x ha h2 hx hxx hxa)
  | sub h1 h2 h3 _ ih =>
    exact .sub h1 h2 h3 (ih h2 fun _ _ _ _ => hc.inh _ h2 _ h3 h1)

/-! ### steps -/

theorem make_part {w : CW} {c bs m} (h : ¬ w.ex c) : Part w (w.make c bs m) where
  ex x hx := .inr hx
  bases x hx := by
    have : x ≠ c := fun e => h (e ▸ hx)
    simp [CW.make, this]
  abc x hx := by
    have : x ≠ c := fun e => h (e ▸ hx)
    simp [CW.make, this]
  reg x hx := by
    have : x ≠ c := fun e => h (e ▸ hx)
    simp [CW.make, this]

theorem make_closed {w : CW} (hc : Closed w) {c bs m} (h : ¬ w.ex c) (hb : ∀ b ∈ bs, w.ex b) : Closed (w.make c bs m) where
  bases x hx b hbx := by
    by_cases hxc : x = c
    · simp only [CW.make, hxc, if_true] at hbx; exact .inr (hb b hbx)
    · simp only [CW.make, hxc, if_false] at hbx
      rcases hx with hx | hx
      · exact absurd hx hxc
      · exact .inr (hc.bases x hx b hbx)
  reg x hx r hr := by
    by_cases hxc : x = c
    · simp [CW.make, hxc] at hr
    · simp only [CW.make, hxc, if_false] at hr
      rcases hx with hx | hx
      · exact absurd hx hxc
      · exact .inr (hc.reg x hx r hr)
  inh x hx b hbx hab := by
    by_cases hxc : x = c
    · simp only [CW.make, hxc, if_true] at hbx ⊢
      have hbc : b ≠ c := fun e => h (e ▸ hb b hbx)
      simp only [CW.make, hbc, if_false] at hab
      exact .inr ⟨b, hbx, hab⟩
    · simp only [CW.make, hxc, if_false] at hbx ⊢
      rcases hx with hx | hx
      · exact absurd hx hxc
      · have hbe := hc.bases x hx b hbx
        have hbc : b ≠ c := fun e => h (e ▸ hbe)
        simp only [CW.make, hbc, if_false] at hab
        exact hc.inh x hx b hbx hab

theorem enter_part (w : CW) (a x) : Part w (w.enter a x) where
  ex _ h := h
  bases _ _ := rfl
  abc _ _ := Iff.rfl
  reg c _ r hr := by
    simp only [CW.enter]
    split
    · simp [hr]
    · exact hr

theorem enter_closed {w : CW} (hc : Closed w) {a x} (hx : w.ex x) : Closed (w.enter a x) where
  bases := hc.bases
  inh := hc.inh
  reg c hcx r hr := by
    simp only [CW.enter] at hr
    split at hr
    · rcases List.mem_append.1 hr with hr | hr
      · exact hc.reg c hcx r hr
      · simp only [List.mem_cons, List.not_mem_nil, or_false] at hr; subst hr; exact hx
    · exact hc.reg c hcx r hr

theorem create_ok {w w' c bs m} (h : step w (.create c bs m) = .ok w') :
    ¬ w.ex c ∧ (∀ b ∈ bs, w.ex b) ∧ w' = w.make c bs m := by
  simp only [step] at h
  split at h
  · cases h
  · rename_i hn
    simp only [Except.ok.injEq] at h
    exact ⟨fun e => hn (.inl e), fun b hb => Classical.byContradiction fun e => hn (.inr ⟨b, hb, e⟩), h.symm⟩

theorem register_ok {w w' a x} (h : step w (.register a x) = .ok w') :
    w.ex a ∧ w.ex x ∧ w.abc a ∧ ((Sub w x a ∧ w' = w) ∨ (¬ Sub w x a ∧ ¬ Sub w a x ∧ w' = w.enter a x)) := by
  simp only [step] at h
  split at h
  · cases h
  · rename_i h1
    split at h
    · cases h
    · rename_i h2
      have h3 : w.ex a := Classical.byContradiction fun e => h1 (.inl e)
      have h4 : w.ex x := Classical.byContradiction fun e => h1 (.inr e)
      refine ⟨h3, h4, Classical.byContradiction fun e => h2 e, ?_⟩
      split at h
      · rename_i h5; cases h; exact .inl ⟨h5, rfl⟩
      · rename_i h5
        split at h
        · cases h
        · rename_i h6; cases h; exact .inr ⟨h5, h6, rfl⟩

theorem step_part {w w' e} (h : step w e = .ok w') : Part w w' := by
  cases e with
  | create c bs m => obtain ⟨h1, _, rfl⟩ := create_ok h; exact make_part h1
  | register a x =>
    obtain ⟨_, _, _, ⟨_, rfl⟩ | ⟨_, _, rfl⟩⟩ := register_ok h
    · exact Part.refl _
    · exact enter_part _ _ _

theorem step_closed {w w' e} (hc : Closed w) (h : step w e = .ok w') : Closed w' := by
  cases e with
  | create c bs m => obtain ⟨h1, h2, rfl⟩ := create_ok h; exact make_closed hc h1 h2
  | register a x =>
    obtain ⟨_, h2, _, ⟨_, rfl⟩ | ⟨_, _, rfl⟩⟩ := register_ok h
    · exact hc
    · exact enter_closed hc h2

theorem reach_closed {w} (h : Reach w) : Closed w := by
  induction h with
  | start => exact ⟨fun _ h => h.elim, fun _ h => h.elim, fun _ h => h.elim⟩
  | next _ hs ih => exact step_closed ih hs

/-! ### no two classes are subclasses of each other -/

theorem make_new {w : CW} (hc : Closed w) {c bs m} (h : ¬ w.ex c) (hb : ∀ b ∈ bs, w.ex b) {x y} (hs : Sub (w.make c bs m) x y)
    (hx : (w.make c bs m).ex x) : y = c → x = c := by
  have hnb : ∀ s, (w.make c bs m).ex s → c ∉ (w.make c bs m).bases s := by
    intro s hs hm
    by_cases hsc : s = c
    · simp only [CW.make, hsc, if_true] at hm; exact h (hb c hm)
    · simp only [CW.make, hsc, if_false] at hm
      rcases hs with hs | hs
      · exact hsc hs
      · exact h (hc.bases s hs c hm)
  induction hs with
  | mro ha =>
    intro hy
    induction ha with
    | refl => exact hy
    | step h1 h2 ih =>
      have := ih ((make_closed hc h hb).bases _ hx _ h1) hy
      subst this
      exact absurd h1 (hnb _ hx)
  | reg h1 h2 _ _ => rintro rfl; simp [CW.make] at h2
  | sub h1 h2 h3 _ _ => rintro rfl; exact absurd h3 (hnb _ h2)

theorem make_old {w : CW} (hc : Closed w) {c bs m} (h : ¬ w.ex c) (hb : ∀ b ∈ bs, w.ex b) {x y}
    (hs : Sub (w.make c bs m) x y) (hx : w.ex x) (hy : w.ex y) : Sub w x y := by
  have hp := make_part (bs := bs) (m := m) h
  induction hs with
  | mro ha => exact .mro (ha.back hc hp hx)
  | reg h1 h2 h3 ih =>
    rename_i r a
    have hac : a ≠ c := fun e => h (e ▸ hy)
    simp only [CW.make, hac, if_false] at h2
    exact .reg ((hp.abc a hy).2 h1) h2 (ih (hc.reg a hy r h2))
  | sub h1 h2 h3 h4 ih =>
    rename_i s a
    by_cases hsc : s = c
    · have := make_new hc h hb h4 (.inr hx) hsc
      exact absurd (this ▸ hx) h
    · have hse : w.ex s := by
        rcases h2 with h2 | h2
        · exact absurd h2 hsc
        · exact h2
      exact .sub ((hp.abc a hy).2 h1) hse (by rw [hp.bases s hse]; exact h3) (ih hse)

theorem enter_split {w : CW} {a x c d} (hs : Sub (w.enter a x) c d) : Sub w c d ∨ (Sub w c x ∧ Sub w a d) := by
  have anc : ∀ {c d}, Anc (w.enter a x) c d → Anc w c d := by
    intro c d h
    induction h with
    | refl => exact .refl _
    | step h _ ih => exact .step h ih
  induction hs with
  | mro h => exact .inl (.mro (anc h))
  | reg h1 h2 _ ih =>
    rename_i r d _
    have key : r ∈ w.reg d ∨ (d = a ∧ r = x) := by
      simp only [CW.enter] at h2
      split at h2
      · rename_i hda
        rcases List.mem_append.1 h2 with h2 | h2
        · exact .inl h2
        · simp only [List.mem_cons, List.not_mem_nil, or_false] at h2; exact .inr ⟨hda, h2⟩
      · exact .inl h2
    rcases key with h | ⟨rfl, rfl⟩
    · rcases ih with ih | ⟨i1, i2⟩
      · exact .inl (.reg h1 h ih)
      · exact .inr ⟨i1, .reg h1 h i2⟩
    · rcases ih with ih | ⟨i1, _⟩
      · exact .inr ⟨ih, .mro (.refl _)⟩
      · exact .inr ⟨i1, .mro (.refl _)⟩
  | sub h1 h2 h3 _ ih =>
    rcases ih with ih | ⟨i1, i2⟩
    · exact .inl (.sub h1 h2 h3 ih)
    · exact .inr ⟨i1, .sub h1 h2 h3 i2⟩

/-- Where no plain class gets in between, no two classes count as subclasses of each other. -/
theorem reach_antisymm {w} (h : Reach w) (hp : Plain w) {c d} (hc : w.ex c) (hd : w.ex d) (h1 : Sub w c d) (h2 : Sub w d c) :
    c = d := by
  induction h generalizing c d with
  | start => exact hc.elim
  | next hr hs ih =>
    rename_i w w' e
    have hcl := reach_closed hr
    have hpw : Plain w := hp.part hcl (step_part hs)
    have ih := @ih hpw
    cases e with
    | create n bs m =>
      obtain ⟨hn, hb, rfl⟩ := create_ok hs
      by_cases hcn : c = n
      · exact (hcn.trans (make_new hcl hn hb h2 hd hcn).symm)
      · by_cases hdn : d = n
        · exact absurd (make_new hcl hn hb h1 hc hdn) hcn
        · have hc' : w.ex c := hc.resolve_left hcn
          have hd' : w.ex d := hd.resolve_left hdn
          exact ih hc' hd' (make_old hcl hn hb h1 hc' hd') (make_old hcl hn hb h2 hd' hc')
    | register a x =>
      obtain ⟨ha, hx, habc, ⟨_, rfl⟩ | ⟨hna, hnx, rfl⟩⟩ := register_ok hs
      · exact ih hc hd h1 h2
      · have hq : ∀ b, w.ex b → w.abc b → Anc w b x → w.abc x := by
          intro b hb hbb hbx
          refine hp a x b ha ?_ hb hbb (hbx.part hcl (enter_part w a x) hb)
          simp [CW.enter]
        have tr : ∀ {u v}, w.ex v → Sub w u v → Sub w v x → Sub w u x := fun hv h k => sub_trans hcl hpw h k hv hx hq
        have hc' : w.ex c := hc
        have hd' : w.ex d := hd
        rcases enter_split h1 with h1 | ⟨p1, p2⟩
        · rcases enter_split h2 with h2 | ⟨q1, q2⟩
          · exact ih hc' hd' h1 h2
          · exact absurd (tr hc' q2 (tr hd' h1 q1)) hnx
        · rcases enter_split h2 with h2 | ⟨q1, q2⟩
          · exact absurd (tr hd' p2 (tr hc' h2 p1)) hnx
          · exact absurd (tr hc' q2 p1) hnx

/-! ### loading -/

/-- what is known after some actions `pre` -/
structure Prog (src : CW) (S : Cls → Prop) (l0 : CW) (pre : List Ev) (w : CW) : Prop where
  part : Part w src
  closed : Closed w
  base : Part l0 w
  regs : ∀ c, l0.ex c → w.reg c = l0.reg c
  ex : ∀ c, w.ex c ↔ l0.ex c ∨ ∃ x ∈ pre, isCreate c x
  done : ∀ a x, Ev.register a x ∈ pre → Sub w x a ∧ w.ex a ∧ w.ex x

theorem act_create {src : CW} {c d bs m} (h : Ev.create d bs m ∈ actions src c) : d = c ∧ bs = src.bases c ∧ m = src.abc c := by
  simp only [actions, List.mem_cons, Ev.create.injEq, List.mem_reverse, List.mem_map, reduceCtorEq, and_false, exists_false,
    or_false] at h
  exact h

theorem act_register {src : CW} {c a x} (h : Ev.register a x ∈ actions src c) : a = c ∧ x ∈ src.reg c := by
  simp only [actions, List.mem_cons, reduceCtorEq, List.mem_reverse, List.mem_map, Ev.register.injEq, false_or] at h
  obtain ⟨r, h1, rfl, rfl⟩ := h
  exact ⟨rfl, h1⟩

/-- one more action -/
theorem prog_step {src S l0 es pre e post w w'} (hl : IsLoad src S l0 es) (hs : Closed src)
    (hes : es = pre ++ e :: post) (hp : Prog src S l0 pre w) (h : step w e = .ok w') :
    Prog src S l0 (pre ++ [e]) w' := by
  obtain ⟨c, hSc, hec⟩ := hl.only e (by rw [hes]; simp)
  have hpp := step_part h
  refine ⟨?_, step_closed hp.closed h, hp.base.trans hpp, ?_, ?_, ?_⟩
  · cases e with
    | create d bs m =>
      obtain ⟨rfl, rfl, rfl⟩ := act_create hec
      obtain ⟨hn, hb, rfl⟩ := create_ok h
      refine ⟨?_, ?_, ?_, ?_⟩
      · rintro x (rfl | hx)
        · exact hl.known _ hSc
        · exact hp.part.ex x hx
      · intro x hx
        by_cases hxd : x = d
        · simp [CW.make, hxd]
        · have := hx.resolve_left hxd
          simp only [CW.make, hxd, if_false]; exact hp.part.bases x this
      · intro x hx
        by_cases hxd : x = d
        · simp only [CW.make, hxd, if_true]
          constructor
          · rintro (h | ⟨b, hb1, hb2⟩)
            · exact h
            · exact hs.inh d (hl.known d hSc) b hb1 ((hp.part.abc b (hb b hb1)).1 hb2)
          · exact .inl
        · have := hx.resolve_left hxd
          simp only [CW.make, hxd, if_false]; exact hp.part.abc x this
      · intro x hx r hr
        by_cases hxd : x = d
        · simp [CW.make, hxd] at hr
        · have := hx.resolve_left hxd
          simp only [CW.make, hxd, if_false] at hr
          exact hp.part.reg x this r hr
    | register a x =>
      obtain ⟨rfl, hx⟩ := act_register hec
      obtain ⟨_, _, _, ⟨_, rfl⟩ | ⟨_, _, rfl⟩⟩ := register_ok h
      · exact hp.part
      · refine ⟨hp.part.ex, hp.part.bases, hp.part.abc, ?_⟩
        intro y hy r hr
        simp only [CW.enter] at hr
        split at hr
        · rename_i hya
          rcases List.mem_append.1 hr with hr | hr
          · exact hp.part.reg y hy r hr
          · simp only [List.mem_cons, List.not_mem_nil, or_false] at hr
            rw [hr, hya]; exact hx
        · exact hp.part.reg y hy r hr
  · intro y hy
    rw [← hp.regs y hy]
    have hyc : y ≠ c := fun h => hl.fresh c hSc (h ▸ hy)
    cases e with
    | create d bs m =>
      obtain ⟨rfl, _, _⟩ := act_create hec
      obtain ⟨hn, hb, rfl⟩ := create_ok h
      simp [CW.make, hyc]
    | register a x =>
      obtain ⟨rfl, hx⟩ := act_register hec
      obtain ⟨_, _, _, ⟨_, rfl⟩ | ⟨_, _, rfl⟩⟩ := register_ok h
      · rfl
      · simp [CW.enter, hyc]
  · intro y
    cases e with
    | create d bs m =>
      obtain ⟨hn, hb, rfl⟩ := create_ok h
      constructor
      · rintro (rfl | hy)
        · exact .inr ⟨.create y bs m, by simp, rfl⟩
        · rcases (hp.ex y).1 hy with h | ⟨x, h1, h2⟩
          · exact .inl h
          · exact .inr ⟨x, by simp [h1], h2⟩
      · rintro (hy | ⟨x, h1, h2⟩)
        · exact .inr ((hp.ex y).2 (.inl hy))
        · rcases List.mem_append.1 h1 with h1 | h1
          · exact .inr ((hp.ex y).2 (.inr ⟨x, h1, h2⟩))
          · simp only [List.mem_cons, List.not_mem_nil, or_false] at h1
            subst h1; exact .inl h2.symm
    | register a x =>
      have hexw : w'.ex = w.ex := by
        obtain ⟨_, _, _, ⟨_, rfl⟩ | ⟨_, _, rfl⟩⟩ := register_ok h <;> rfl
      rw [hexw, hp.ex y]
      constructor
      · rintro (h | ⟨z, h1, h2⟩)
        · exact .inl h
        · exact .inr ⟨z, by simp [h1], h2⟩
      · rintro (h | ⟨z, h1, h2⟩)
        · exact .inl h
        · rcases List.mem_append.1 h1 with h1 | h1
          · exact .inr ⟨z, h1, h2⟩
          · simp only [List.mem_cons, List.not_mem_nil, or_false] at h1
            subst h1; exact h2.elim
  · intro a x hax
    rcases List.mem_append.1 hax with hax | hax
    · obtain ⟨h1, h2, h3⟩ := hp.done a x hax
      exact ⟨h1.part hp.closed hpp h3 h2, hpp.ex _ h2, hpp.ex _ h3⟩
    · simp only [List.mem_cons, List.not_mem_nil, or_false] at hax
      subst hax
      obtain ⟨h1, h2, h3, ⟨h4, rfl⟩ | ⟨h4, h5, rfl⟩⟩ := register_ok h
      · exact ⟨h4, h1, h2⟩
      · exact ⟨.reg (r := x) h3 (by simp [CW.enter]) (.mro (.refl _)), h1, h2⟩

theorem prog_run {src S l0 es} (hl : IsLoad src S l0 es) (hs : Closed src) :
    ∀ (post pre : List Ev) (w w' : CW), es = pre ++ post → Prog src S l0 pre w → run w post = .ok w' →
      Prog src S l0 es w' := by
  intro post
  induction post with
  | nil =>
    intro pre w w' he hp h
    simp only [run, Except.ok.injEq] at h
    subst h; rw [he]; simpa using hp
  | cons e post ih =>
    intro pre w w' he hp h
    simp only [run] at h
    cases hse : step w e with
    | error x => rw [hse] at h; cases h
    | ok w1 =>
      rw [hse] at h
      exact ih (pre ++ [e]) w1 w' (by simp [he]) (prog_step hl hs he hp hse) h

theorem prog_start {src S l0} (hp : Part l0 src) (hc : Closed l0) : Prog src S l0 [] l0 :=
  ⟨hp, hc, Part.refl _, fun _ _ => rfl, fun c => by simp, fun _ _ h => by cases h⟩

/-- no error, if no two classes are subclasses of each other -/
theorem load_succeeds {src S l0 es} (hl : IsLoad src S l0 es) (hs : Closed src)
    (habc : ∀ c, src.ex c → ∀ r ∈ src.reg c, src.abc c)
    (has : ∀ c d, src.ex c → src.ex d → Sub src c d → Sub src d c → c = d) :
    ∀ (post pre : List Ev) (w : CW), es = pre ++ post → Prog src S l0 pre w → ∃ w', run w post = .ok w' := by
  intro post
  induction post with
  | nil => intro pre w _ _; exact ⟨w, rfl⟩
  | cons e post ih =>
    intro pre w he hp
    have hsucc : ∃ w1, step w e = .ok w1 := by
      obtain ⟨c, hSc, hec⟩ := hl.only e (by rw [he]; simp)
      have hex : ∀ d ∈ needs e, w.ex d := fun d hd => (hp.ex d).2 (hl.ready pre e post he d hd)
      cases e with
      | create d bs m =>
        obtain ⟨rfl, rfl, rfl⟩ := act_create hec
        refine ⟨w.make d (src.bases d) (src.abc d), ?_⟩
        simp only [step]
        rw [if_neg]
        rintro (h | ⟨b, hb, h⟩)
        · rcases (hp.ex d).1 h with h | ⟨x, h1, h2⟩
          · exact hl.fresh d hSc h
          · exact hl.once pre _ post d he rfl x h1 h2
        · exact h (hex b hb)
      | register a x =>
        obtain ⟨rfl, hx⟩ := act_register hec
        have h1 : w.ex a := hex a (by simp [needs])
        have h2 : w.ex x := hex x (by simp [needs])
        have h3 : w.abc a := (hp.part.abc a h1).2 (habc a (hl.known a hSc) x hx)
        by_cases h4 : Sub w x a
        · refine ⟨w, ?_⟩
          simp only [step]
          rw [if_neg (by simp [h1, h2]), if_neg (by simp [h3]), if_pos h4]
        · refine ⟨w.enter a x, ?_⟩
          have h5 : ¬ Sub w a x := by
            intro h5
            have : a = x := has a x (hl.known a hSc) (hp.part.ex x h2) (h5.part hp.closed hp.part h1 h2)
              (.reg (habc a (hl.known a hSc) x hx) hx (.mro (.refl _)))
            subst this
            exact h4 h5
          simp only [step]
          rw [if_neg (by simp [h1, h2]), if_neg (by simp [h3]), if_neg h4, if_neg h5]
    obtain ⟨w1, h1⟩ := hsucc
    obtain ⟨w', h2⟩ := ih (pre ++ [e]) w1 (by simp [he]) (prog_step hl hs he hp h1)
    exact ⟨w', by simp only [run, h1]; exact h2⟩

theorem reach_reg_abc {w} (h : Reach w) : ∀ c, w.ex c → ∀ r ∈ w.reg c, w.abc c := by
  induction h with
  | start => intro c h; exact h.elim
  | @next w w' e _ hs ih =>
    intro c hc r hr
    cases e with
    | create n bs m =>
      obtain ⟨hn, hb, rfl⟩ := create_ok hs
      by_cases hcn : c = n
      · simp [CW.make, hcn] at hr
      · simp only [CW.make, hcn, if_false] at hr ⊢
        exact ih c (hc.resolve_left hcn) r hr
    | register a x =>
      obtain ⟨_, _, habc, ⟨_, rfl⟩ | ⟨_, _, rfl⟩⟩ := register_ok hs
      · exact ih c hc r hr
      · simp only [CW.enter] at hr ⊢
        split at hr
        · rename_i hca; rw [hca]; exact habc
        · exact ih c hc r hr

/-! ### C77 -/

/-- Whatever is registered with a pickled ABC is a subclass of its copy, in every load that ends without an error, and
between the classes of the loading process nothing becomes a subclass that was not one when dumped. -/
theorem C77_registered_accepted (src : CW) (hr : Reach src) (S : Cls → Prop) (l0 : CW) (hp : Part l0 src) (hc : Closed l0)
    (es : List Ev) (hl : IsLoad src S l0 es) (w' : CW) (h : run l0 es = .ok w') :
    (∀ a, S a → ∀ r ∈ src.reg a, Sub w' r a) ∧
    (∀ c a, l0.ex c ∨ S c → l0.ex a ∨ S a → Sub w' c a → Sub src c a) := by
  have hs := reach_closed hr
  have hg := prog_run hl hs es [] l0 w' rfl (prog_start hp hc) h
  have hex : ∀ c, l0.ex c ∨ S c → w'.ex c := by
    rintro c (h | h)
    · exact (hg.ex c).2 (.inl h)
    · exact (hg.ex c).2 (.inr ⟨.create c (src.bases c) (src.abc c), hl.all c h _ (by simp [actions]), rfl⟩)
  constructor
  · intro a ha r hr
    exact (hg.done a r (hl.all a ha _ (by simp [actions, hr]))).1
  · intro c a h1 h2 h3
    exact h3.part hg.closed hg.part (hex c h1) (hex a h2)

/-- The full statement, for registries without plain base classes of ABCs (`Plain`), for loading processes that know all the
registrations of their own classes, and for pickles that hold, with an ABC, its subclasses: the load succeeds and
`issubclass` says the same of the copies as of the originals. -/
theorem C77_subclasses_kept_partial (src : CW) (hr : Reach src) (hpl : Plain src) (S : Cls → Prop) (l0 : CW) (hp : Part l0 src)
    (hc : Closed l0) (es : List Ev) (hl : IsLoad src S l0 es)
    (hreg : ∀ n, l0.ex n → ∀ r ∈ src.reg n, r ∈ l0.reg n)
    (hsub : ∀ s a, src.ex s → a ∈ src.bases s → src.abc a → l0.ex a ∨ S a → l0.ex s ∨ S s) :
    ∃ w', run l0 es = .ok w' ∧
      ∀ c a, l0.ex c ∨ S c → l0.ex a ∨ S a → (Sub w' c a ↔ Sub src c a) := by
  have hs := reach_closed hr
  obtain ⟨w', h⟩ := load_succeeds hl hs (reach_reg_abc hr) (fun c d h1 h2 h3 h4 => reach_antisymm hr hpl h1 h2 h3 h4)
    es [] l0 rfl (prog_start hp hc)
  refine ⟨w', h, ?_⟩
  have hg := prog_run hl hs es [] l0 w' rfl (prog_start hp hc) h
  have hex : ∀ c, l0.ex c ∨ S c → w'.ex c := by
    rintro c (h | h)
    · exact (hg.ex c).2 (.inl h)
    · exact (hg.ex c).2 (.inr ⟨.create c (src.bases c) (src.abc c), hl.all c h _ (by simp [actions]), rfl⟩)
  have hplw : Plain w' := hpl.part hg.closed hg.part
  intro c a h1 h2
  constructor
  · intro h3; exact h3.part hg.closed hg.part (hex c h1) (hex a h2)
  · intro h3
    induction h3 with
    | mro ha => exact .mro (ha.back hg.closed hg.part (hex _ h1))
    | reg g1 g2 g3 ih =>
      rename_i r a
      have haex := hex a h2
      have habc := (hg.part.abc a haex).2 g1
      rcases h2 with h2 | h2
      · have hrl := hreg a h2 r g2
        exact .reg habc (by rw [hg.regs a h2]; exact hrl) (ih (.inl (hc.reg a h2 r hrl)))
      · obtain ⟨k1, _, k3⟩ := hg.done a r (hl.all a h2 _ (by simp [actions, g2]))
        have hrD : l0.ex r ∨ S r := by
          rcases (hg.ex r).1 k3 with h | ⟨x, hx, hxr⟩
          · exact .inl h
          · obtain ⟨c', hS, hm⟩ := hl.only x hx
            cases x with
            | create d bs m =>
              obtain ⟨rfl, _, _⟩ := act_create hm
              simp only [isCreate] at hxr; subst hxr; exact .inr hS
            | register _ _ => exact hxr.elim
        exact sub_trans hg.closed hplw (ih hrD) k1 k3 haex (fun _ _ _ _ => habc)
    | sub g1 g2 g3 g4 ih =>
      rename_i s a
      have hsD := hsub s a g2 g3 g1 h2
      have hsx := hex s hsD
      exact .sub ((hg.part.abc a (hex a h2)).2 g1) hsx (by rw [hg.part.bases s hsx]; exact g3) (ih hsD)

/-! ### finite worlds, for examples -/

/-- a class: its number, bases, whether it is an ABC, registry -/
abbrev FW := List (Cls × List Cls × Bool × List Cls)

def fget (f : FW) (c : Cls) : Option (List Cls × Bool × List Cls) :=
  match f with
  | [] => none
  | (d, r) :: f => if d = c then some r else fget f c

def fkeys (f : FW) : List Cls := f.map (·.1)
def fbases (f : FW) (c : Cls) : List Cls := ((fget f c).map (·.1)).getD []
def fabc (f : FW) (c : Cls) : Bool := ((fget f c).map (·.2.1)).getD false
def freg (f : FW) (c : Cls) : List Cls := ((fget f c).map (·.2.2)).getD []

def toCW (f : FW) : CW := ⟨fun c => c ∈ fkeys f, fbases f, fun c => fabc f c = true, freg f⟩

def ancB (f : FW) : Nat → Cls → Cls → Bool
  | 0, _, _ => false
  | n + 1, c, a => c == a || (fbases f c).any fun b => ancB f n b a

def subB (f : FW) : Nat → Cls → Cls → Bool
  | 0, _, _ => false
  | n + 1, c, a => ancB f (n + 1) c a || (fabc f a && ((freg f a).any (subB f n c ·) ||
      (fkeys f).any fun s => (fbases f s).contains a && subB f n c s))

/-- nothing is missed with `n` levels -/
def enough (f : FW) (n : Nat) : Bool :=
  (fkeys f).all fun c => (fbases f c).all (fun b => (fkeys f).contains b) && (freg f c).all (fun r => (fkeys f).contains r) &&
    (fkeys f).all fun a => (!ancB f (n + 1) c a || ancB f n c a) && (!subB f (n + 1) c a || subB f n c a)

theorem ancB_sound {f n c a} (h : ancB f n c a = true) : Anc (toCW f) c a := by
  induction n generalizing c with
  | zero => cases h
  | succ n ih =>
    simp only [ancB, Bool.or_eq_true, beq_iff_eq, List.any_eq_true] at h
    rcases h with rfl | ⟨b, h1, h2⟩
    · exact .refl _
    · exact .step h1 (ih h2)

theorem subB_sound {f n c a} (h : subB f n c a = true) : Sub (toCW f) c a := by
  induction n generalizing a with
  | zero => cases h
  | succ n ih =>
    simp only [subB, Bool.or_eq_true, Bool.and_eq_true, List.any_eq_true, List.contains_iff_mem] at h
    rcases h with h | ⟨h1, ⟨r, h2, h3⟩ | ⟨s, h2, h3, h4⟩⟩
    · exact .mro (ancB_sound h)
    · exact .reg h1 h2 (ih h3)
    · exact .sub h1 h2 h3 (ih h4)

theorem ancB_complete {f n c a} (he : enough f n = true) (h : Anc (toCW f) c a) (hc : c ∈ fkeys f) (ha : a ∈ fkeys f) :
    ancB f n c a = true := by
  simp only [enough, List.all_eq_true, Bool.and_eq_true, Bool.or_eq_true, Bool.not_eq_true', List.contains_iff_mem] at he
  have up : ∀ {c}, c ∈ fkeys f → ancB f (n + 1) c a = true → ancB f n c a = true := by
    intro c hc h
    rcases ((he c hc).2 a ha).1 with h' | h'
    · rw [h] at h'; cases h'
    · exact h'
  induction h with
  | refl => exact up hc (by simp [ancB])
  | step h1 _ ih => 
    have h2 := ih ((he _ hc).1.1 _ h1) ha up
    exact up hc (by simp only [ancB, Bool.or_eq_true, List.any_eq_true]; exact .inr ⟨_, h1, h2⟩)

theorem subB_complete {f n c a} (he : enough f n = true) (h : Sub (toCW f) c a) (hc : c ∈ fkeys f) (ha : a ∈ fkeys f) :
    subB f n c a = true := by
  have he' := he
  simp only [enough, List.all_eq_true, Bool.and_eq_true, Bool.or_eq_true, Bool.not_eq_true', List.contains_iff_mem] at he'
  have up : ∀ {a}, a ∈ fkeys f → subB f (n + 1) c a = true → subB f n c a = true := by
    intro a ha h
    rcases ((he' c hc).2 a ha).2 with h' | h'
    · rw [h] at h'; cases h'
    · exact h'
  have upA : ∀ {a}, a ∈ fkeys f → ancB f n c a = true → ancB f (n + 1) c a = true := by
    intro a _
    clear up he' he
    generalize c = c
    induction n generalizing c with
    | zero => intro h; cases h
    | succ n ih =>
      intro h
      rw [ancB] at h ⊢
      simp only [Bool.or_eq_true, List.any_eq_true] at h ⊢
      rcases h with h | ⟨b, h1, h2⟩
      · exact .inl h
      · exact .inr ⟨b, h1, ih b h2⟩
  induction h with
  | mro h => exact up ha (by simp only [subB, Bool.or_eq_true]; exact .inl (upA ha (ancB_complete he h hc ha)))
  | reg h1 h2 _ ih =>
    have h3 := ih ((he' _ ha).1.2 _ h2)
    refine up ha ?_
    simp only [subB, Bool.or_eq_true, Bool.and_eq_true, List.any_eq_true]
    exact .inr ⟨h1, .inl ⟨_, h2, h3⟩⟩
  | sub h1 h2 h3 _ ih =>
    have h4 := ih h2
    refine up ha ?_
    simp only [subB, Bool.or_eq_true, Bool.and_eq_true, List.any_eq_true, List.contains_iff_mem]
    exact .inr ⟨h1, .inr ⟨_, h2, h3, h4⟩⟩

theorem sub_iff {f n} (he : enough f n = true) {c a} (hc : c ∈ fkeys f) (ha : a ∈ fkeys f) :
    Sub (toCW f) c a ↔ subB f n c a = true :=
  ⟨fun h => subB_complete he h hc ha, subB_sound⟩

deriving instance DecidableEq for Exc

instance : DecidableEq (Except Exc FW)
  | .ok a, .ok b => if h : a = b then isTrue (by rw [h]) else isFalse (by simp [h])
  | .error a, .error b => if h : a = b then isTrue (by rw [h]) else isFalse (by simp [h])
  | .ok _, .error _ => isFalse (by simp)
  | .error _, .ok _ => isFalse (by simp)

/-- events with a decidable metaclass -/
inductive FEv where
  | create (c : Cls) (bs : List Cls) (m : Bool)
  | register (a x : Cls)
  deriving DecidableEq

def FEv.ev : FEv → Ev
  | .create c bs m => .create c bs (m = true)
  | .register a x => .register a x

def fenter (a x : Cls) : FW → FW
  | [] => []
  | (d, b, m, r) :: f => (d, b, m, if d = a then r ++ [x] else r) :: fenter a x f

/-- the same steps on finite worlds; `none` when `n` levels were not enough -/
def fstep (n : Nat) (f : FW) : FEv → Option (Except Exc FW)
  | .create c bs m =>
    if (fkeys f).contains c || !bs.all (fun b => (fkeys f).contains b) then some (.error .noSuchClass)
    else some (.ok (f ++ [(c, bs, m || bs.any (fabc f ·), [])]))
  | .register a x =>
    if !enough f n then none
    else if !(fkeys f).contains a || !(fkeys f).contains x then some (.error .noSuchClass)
    else if !fabc f a then some (.error .notABC)
    else if subB f n x a then some (.ok f)
    else if subB f n a x then some (.error .cycle)
    else some (.ok (fenter a x f))

theorem fget_append {f : FW} {c d r} (h : c ∉ fkeys f) : fget (f ++ [(c, r)]) d = if d = c then some r else fget f d := by
  induction f with
  | nil => simp only [List.nil_append, fget]; by_cases h : c = d <;> simp [h, eq_comm]
  | cons e f ih =>
    obtain ⟨k, v⟩ := e
    simp only [fkeys, List.map_cons, List.mem_cons, not_or] at h
    simp only [List.cons_append, fget]
    rw [ih h.2]
    by_cases hk : k = d
    · subst hk
      rw [if_pos rfl, if_pos rfl, if_neg (fun e => h.1 e.symm)]
    · rw [if_neg hk, if_neg hk]

theorem fget_enter (a x : Cls) (f : FW) (c : Cls) :
    fget (fenter a x f) c = (fget f c).map fun r => (r.1, r.2.1, if c = a then r.2.2 ++ [x] else r.2.2) := by
  induction f with
  | nil => rfl
  | cons e f ih =>
    obtain ⟨d, b, m, r⟩ := e
    simp only [fenter, fget]
    by_cases h : d = c
    · subst h; simp
    · rw [if_neg h, if_neg h, ih]

theorem fkeys_enter (a x : Cls) (f : FW) : fkeys (fenter a x f) = fkeys f := by
  induction f with
  | nil => rfl
  | cons e f ih => obtain ⟨d, b, m, r⟩ := e; simpa [fenter, fkeys] using ih

theorem fget_none {f : FW} {c} (h : c ∉ fkeys f) : fget f c = none := by
  induction f with
  | nil => rfl
  | cons e f ih =>
    obtain ⟨k, v⟩ := e
    simp only [fkeys, List.map_cons, List.mem_cons, not_or] at h
    simp only [fget]
    rw [if_neg (fun e => h.1 e.symm)]
    exact ih h.2

theorem fget_some {f : FW} {c} (h : c ∈ fkeys f) : ∃ r, fget f c = some r := by
  induction f with
  | nil => cases h
  | cons e f ih =>
    obtain ⟨k, v⟩ := e
    simp only [fget]
    by_cases hk : k = c
    · exact ⟨v, by simp [hk]⟩
    · simp only [fkeys, List.map_cons, List.mem_cons] at h
      rw [if_neg hk]
      exact ih (h.resolve_left fun e => hk e.symm)

def lift : Except Exc FW → Except Exc CW
  | .ok f => .ok (toCW f)
  | .error x => .error x

theorem fstep_ok {n f e r} (h : fstep n f e = some r) :
    step (toCW f) e.ev = lift r := by
  cases e with
  | create c bs m =>
    simp only [fstep] at h
    simp only [step, FEv.ev]
    split at h
    · rename_i hc
      cases h
      simp only [Bool.or_eq_true, List.contains_iff_mem, Bool.not_eq_true', List.all_eq_false] at hc
      refine if_pos ?_
      rcases hc with hc | ⟨b, h1, h2⟩
      · exact .inl hc
      · exact .inr ⟨b, h1, by simpa [toCW] using h2⟩
    · rename_i hc
      cases h
      simp only [Bool.or_eq_true, List.contains_iff_mem, Bool.not_eq_true', List.all_eq_false, not_or, not_exists, not_and] at hc
      rw [if_neg]
      · simp only [lift]
        congr 1
        have hg := fun d => fget_append (d := d) (r := (bs, m || bs.any (fabc f ·), [])) hc.1
        simp only [CW.make, toCW, CW.mk.injEq]
        refine ⟨?_, ?_, ?_, ?_⟩
        · funext x; simp [fkeys, or_comm]
        · funext x
          simp only [fbases, hg]
          by_cases hx : x = c <;> simp [hx]
        · funext x
          have e : fabc (f ++ [(c, bs, m || bs.any (fabc f ·), [])]) x =
              ((if x = c then some (bs, m || bs.any (fabc f ·), []) else fget f x).map (·.2.1)).getD false := by
            rw [← hg x]; rfl
          rw [e]
          by_cases hx : x = c
          · simp only [hx, if_true, Option.map_some, Option.getD_some, Bool.or_eq_true, List.any_eq_true]
          · simp only [hx, if_false]; rfl
        · funext x
          simp only [freg, hg]
          by_cases hx : x = c <;> simp [hx]
      · rintro (h | ⟨b, h1, h2⟩)
        · exact hc.1 h
        · exact hc.2 b h1 (by simpa [toCW] using h2)
  | register a x =>
    simp only [fstep] at h
    simp only [step, FEv.ev]
    split at h
    · cases h
    · rename_i he
      simp only [Bool.not_eq_true', Bool.not_eq_false] at he
      split at h
      · rename_i hc
        cases h
        simp only [Bool.or_eq_true, Bool.not_eq_true', ← Bool.not_eq_true, List.contains_iff_mem] at hc
        exact if_pos hc
      · rename_i hc
        simp only [Bool.or_eq_true, Bool.not_eq_true', ← Bool.not_eq_true, List.contains_iff_mem, not_or, Classical.not_not] at hc
        rw [if_neg (fun h => h.elim (fun h => h hc.1) (fun h => h hc.2))]
        split at h
        · rename_i ha
          cases h
          exact if_pos (by simpa [toCW] using ha)
        · rename_i ha
          rw [if_neg (by simpa [toCW] using ha)]
          split at h
          · rename_i hs
            cases h
            exact if_pos ((sub_iff he hc.2 hc.1).2 hs)
          · rename_i hs
            rw [if_neg (fun h => hs ((sub_iff he hc.2 hc.1).1 h))]
            split at h
            · rename_i hs2
              cases h
              exact if_pos ((sub_iff he hc.1 hc.2).2 hs2)
            · rename_i hs2
              rw [if_neg (fun h => hs2 ((sub_iff he hc.1 hc.2).1 h))]
              cases h
              simp only [lift]
              congr 1
              simp only [CW.enter, toCW, CW.mk.injEq]
              refine ⟨?_, ?_, ?_, ?_⟩
              · funext y; rw [fkeys_enter]
              · funext y; simp only [fbases, fget_enter]; cases fget f y <;> rfl
              · funext y; simp only [fabc, fget_enter]; cases fget f y <;> rfl
              · funext y
                simp only [freg, fget_enter]
                by_cases hy : y = a
                · subst hy
                  obtain ⟨r, hr⟩ := fget_some hc.1
                  simp [hr]
                · cases fget f y <;> simp [hy]

def frun (n : Nat) (f : FW) : List FEv → Option (Except Exc FW)
  | [] => some (.ok f)
  | e :: es => match fstep n f e with
    | none => none
    | some (.error x) => some (.error x)
    | some (.ok f') => frun n f' es

theorem frun_ok {n f es r} (h : frun n f es = some r) :
    run (toCW f) (es.map FEv.ev) = lift r := by
  induction es generalizing f with
  | nil => simp only [frun, Option.some.injEq] at h; subst h; rfl
  | cons e es ih =>
    simp only [frun] at h
    simp only [List.map_cons, run]
    cases hs : fstep n f e with
    | none => rw [hs] at h; cases h
    | some r1 =>
      rw [hs] at h
      have := fstep_ok hs
      cases r1 with
      | error x => simp only [Option.some.injEq] at h; subst h; rw [this]; rfl
      | ok f' => rw [this]; exact ih h

theorem toCW_nil : toCW [] = CW.none := by
  simp only [toCW, CW.none, CW.mk.injEq]
  refine ⟨?_, rfl, ?_, rfl⟩
  · funext c; simp [fkeys]
  · funext c; simp [fabc, fget]

theorem reach_run {w w' es} (h : Reach w) (hr : run w es = .ok w') : Reach w' := by
  induction es generalizing w with
  | nil => simp only [run, Except.ok.injEq] at hr; subst hr; exact h
  | cons e es ih =>
    simp only [run] at hr
    cases hs : step w e with
    | error x => rw [hs] at hr; cases hr
    | ok w1 => rw [hs] at hr; exact ih (.next h hs) hr

theorem frun_reach {n es f} (h : frun n [] es = some (.ok f)) : Reach (toCW f) := by
  have := frun_ok h
  rw [toCW_nil] at this
  exact reach_run .start this

/-! ### examples and counterexamples -/

/-- 0: object; 1: an ABC; 2: a subclass of 1; 3, 4: plain classes; 2.register(3), 1.register(4) -/
def exEvs : List FEv := [.create 0 [] false, .create 1 [0] true, .create 2 [1] false, .create 3 [0] false, .create 4 [0] false,
  .register 2 3, .register 1 4]
def exW : FW := [(0, [], false, []), (1, [0], true, [4]), (2, [1], true, [3]), (3, [0], false, []), (4, [0], false, [])]
theorem ex_run : frun 8 [] exEvs = some (.ok exW) := rfl
theorem ex_reach : Reach (toCW exW) := frun_reach ex_run


/-! deciding `IsLoad` -/

def factions (f : FW) (c : Cls) : List FEv := .create c (fbases f c) (fabc f c) :: ((freg f c).map (.register c)).reverse

theorem factions_ev (f : FW) (c : Cls) : (factions f c).map FEv.ev = actions (toCW f) c := by
  simp only [factions, actions, List.map_cons, FEv.ev, List.map_reverse, List.map_map, toCW]
  rfl

def fneeds : FEv → List Cls
  | .create _ bs _ => bs
  | .register a x => [a, x]

def fisCreate (c : Cls) : FEv → Bool
  | .create d _ _ => d == c
  | .register _ _ => false

theorem isCreate_ev (c : Cls) (e : FEv) : isCreate c e.ev ↔ fisCreate c e = true := by
  cases e <;> simp [isCreate, fisCreate, FEv.ev]

theorem needs_ev (e : FEv) : needs e.ev = fneeds e := by cases e <;> rfl

def okAt (l0 : FW) (pre : List FEv) (e : FEv) : Bool :=
  (fneeds e).all (fun d => (fkeys l0).contains d || pre.any (fisCreate d)) &&
  match e with
  | .create c _ _ => !pre.any (fisCreate c)
  | .register _ _ => true

def okFrom (l0 : FW) (pre : List FEv) : List FEv → Bool
  | [] => true
  | e :: es => okAt l0 pre e && okFrom l0 (pre ++ [e]) es

def isLoadB (src : FW) (S : List Cls) (l0 : FW) (es : List FEv) : Bool :=
  S.all (fun c => (fkeys src).contains c && !(fkeys l0).contains c && (factions src c).all es.contains) &&
  es.all (fun e => S.any fun c => (factions src c).contains e) && okFrom l0 [] es

theorem okFrom_at {l0 es pre} (h : okFrom l0 pre es = true) {p e q} (he : es = p ++ e :: q) : okAt l0 (pre ++ p) e = true := by
  induction es generalizing pre p with
  | nil => simp at he
  | cons a es ih =>
    simp only [okFrom, Bool.and_eq_true] at h
    cases p with
    | nil => simp only [List.nil_append, List.cons.injEq] at he; rw [← he.1]; simpa using h.1
    | cons b p =>
      simp only [List.cons_append, List.cons.injEq] at he
      have := ih h.2 he.2
      rw [← he.1]
      simpa using this

theorem map_split {es : List FEv} {pre e post} (h : es.map FEv.ev = pre ++ e :: post) :
    ∃ p f q, es = p ++ f :: q ∧ p.map FEv.ev = pre ∧ f.ev = e := by
  obtain ⟨p, r, h1, h2, h3⟩ := List.map_eq_append_iff.1 h
  obtain ⟨f, q, h4, h5, _⟩ := List.map_eq_cons_iff.1 h3
  exact ⟨p, f, q, by rw [h1, h4], h2, h5⟩

theorem isLoadB_sound {src S l0 es} (h : isLoadB src S l0 es = true) :
    IsLoad (toCW src) (fun c => c ∈ S) (toCW l0) (es.map FEv.ev) := by
  simp only [isLoadB, Bool.and_eq_true, List.all_eq_true, List.contains_iff_mem, Bool.not_eq_true', List.any_eq_true] at h
  obtain ⟨⟨h1, h2⟩, h3⟩ := h
  refine ⟨fun c hc => (h1 c hc).1.1, ?_, ?_, ?_, ?_, ?_⟩
  · intro c hc hx
    have h0 := (h1 c hc).1.2
    have : (fkeys l0).contains c = true := List.contains_iff_mem.2 hx
    rw [this] at h0; cases h0
  · intro e he
    obtain ⟨f, hf, rfl⟩ := List.mem_map.1 he
    obtain ⟨c, g1, g2⟩ := h2 f hf
    exact ⟨c, g1, by rw [← factions_ev]; exact List.mem_map_of_mem g2⟩
  · intro c hc e he
    rw [← factions_ev] at he
    obtain ⟨f, hf, rfl⟩ := List.mem_map.1 he
    exact List.mem_map_of_mem ((h1 c hc).2 f hf)
  · intro pre e post he d hd
    obtain ⟨p, f, q, g1, rfl, rfl⟩ := map_split he
    have := okFrom_at h3 g1
    simp only [okAt, Bool.and_eq_true, List.all_eq_true, Bool.or_eq_true, List.contains_iff_mem, List.any_eq_true,
      List.nil_append] at this
    rw [needs_ev] at hd
    rcases this.1 d hd with h | ⟨x, g2, g3⟩
    · exact .inl h
    · exact .inr ⟨x.ev, List.mem_map_of_mem g2, (isCreate_ev d x).2 g3⟩
  · intro pre e post c he hce x hx hcx
    obtain ⟨p, f, q, g1, rfl, rfl⟩ := map_split he
    obtain ⟨y, hy, rfl⟩ := List.mem_map.1 hx
    have := okFrom_at h3 g1
    rw [isCreate_ev] at hce hcx
    cases f with
    | register _ _ => cases hce
    | create d bs m =>
      simp only [fisCreate, beq_iff_eq] at hce
      subst hce
      simp only [okAt, Bool.and_eq_true, List.nil_append, Bool.not_eq_true', List.any_eq_false] at this
      exact this.2 y hy hcx

def partB (l w : FW) : Bool :=
  (fkeys l).all fun c => (fkeys w).contains c && fbases l c == fbases w c && fabc l c == fabc w c &&
    (freg l c).all (freg w c).contains

theorem partB_sound {l w} (h : partB l w = true) : Part (toCW l) (toCW w) := by
  simp only [partB, List.all_eq_true, Bool.and_eq_true, List.contains_iff_mem, beq_iff_eq] at h
  exact ⟨fun c hc => (h c hc).1.1.1, fun c hc => (h c hc).1.1.2, fun c hc => by simp only [toCW, (h c hc).1.2], fun c hc => (h c hc).2⟩

def closedB (w : FW) : Bool :=
  (fkeys w).all fun c => (fbases w c).all (fun b => (fkeys w).contains b && (!fabc w b || fabc w c)) &&
    (freg w c).all (fun r => (fkeys w).contains r)

theorem closedB_sound {w} (h : closedB w = true) : Closed (toCW w) := by
  simp only [closedB, List.all_eq_true, Bool.and_eq_true, List.contains_iff_mem, Bool.or_eq_true, Bool.not_eq_true'] at h
  refine ⟨fun c hc b hb => ((h c hc).1 b hb).1, fun c hc r hr => (h c hc).2 r hr, ?_⟩
  intro c hc b hb ha
  rcases ((h c hc).1 b hb).2 with g | g
  · simp only [toCW] at ha; rw [ha] at g; cases g
  · exact g

def plainB (w : FW) (n : Nat) : Bool :=
  (fkeys w).all fun a => (freg w a).all fun d => (fkeys w).all fun b => !fabc w b || !ancB w n b d || fabc w d

theorem plainB_sound {w n} (he : enough w n = true) (hc : Closed (toCW w)) (h : plainB w n = true) : Plain (toCW w) := by
  intro a d b ha hd hb hbb hab
  simp only [plainB, List.all_eq_true, Bool.or_eq_true, Bool.not_eq_true'] at h
  rcases h a ha d hd b hb with (g | g) | g
  · simp only [toCW] at hbb; rw [hbb] at g; cases g
  · rw [ancB_complete he hab hb (hc.reg a ha d hd)] at g; cases g
  · exact g

def exL : FW := [(0, [], false, [])]
def exLoad : List FEv := [.create 1 [0] true, .create 4 [0] false, .register 1 4, .create 2 [1] true, .create 3 [0] false,
  .register 2 3]

/-- all hypotheses of C77_subclasses_kept_partial hold, and issubclass(3, 1) holds through the registry of the subclass 2 -/
example : Sub (toCW exW) 3 1 ∧ ∃ w', run (toCW exL) (exLoad.map FEv.ev) = .ok w' ∧ Sub w' 3 1 ∧ ¬ Sub w' 3 4 := by
  have h31 : Sub (toCW exW) 3 1 := subB_sound (n := 8) (by decide +kernel)
  have hen : enough exW 8 = true := by decide +kernel
  have h34 : ¬ Sub (toCW exW) 3 4 := fun h => absurd (subB_complete hen h (by decide) (by decide)) (by decide +kernel)
  refine ⟨h31, ?_⟩
  have hc := closedB_sound (w := exW) (by decide +kernel)
  obtain ⟨w', g1, g2⟩ := C77_subclasses_kept_partial (toCW exW) ex_reach
    (plainB_sound hen hc (by decide +kernel)) (fun c => c ∈ [1, 2, 3, 4]) (toCW exL)
    (partB_sound (by decide +kernel)) (closedB_sound (by decide +kernel)) (exLoad.map FEv.ev)
    (isLoadB_sound (by decide +kernel)) (by
      intro n hn r hr
      simp only [toCW, exL, fkeys, List.map_cons, List.map_nil, List.mem_cons, List.not_mem_nil, or_false] at hn
      subst hn; cases hr) (by
      intro s a hs ha habc _
      simp only [toCW, exW, fkeys, List.map_cons, List.map_nil, List.mem_cons, List.not_mem_nil, or_false] at hs
      rcases hs with rfl | rfl | rfl | rfl | rfl
      · exact .inl (show 0 ∈ fkeys exL by decide)
      all_goals exact .inr (by decide))
  exact ⟨w', g1, (g2 3 1 (.inr (by decide)) (.inr (by decide))).2 h31,
    fun h => h34 ((g2 3 4 (.inr (by decide)) (.inr (by decide))).1 h)⟩

/-- Registered with an ABC that is pickled by name (like collections.abc.Sequence): 1 is the ABC, known to the loading
process, 2 the pickled class.  The copy of 2 is not accepted any more. -/
theorem C77_named_abc_forgets :
    ∃ src l0 es w', Reach (toCW src) ∧ Part (toCW l0) (toCW src) ∧ Closed (toCW l0) ∧
      IsLoad (toCW src) (fun c => c ∈ [2]) (toCW l0) es ∧
      run (toCW l0) es = .ok (toCW w') ∧ Sub (toCW src) 2 1 ∧ ¬ Sub (toCW w') 2 1 := by
  let src : FW := [(0, [], false, []), (1, [0], true, [2]), (2, [0], false, [])]
  let l0 : FW := [(0, [], false, []), (1, [0], true, [])]
  let w' : FW := [(0, [], false, []), (1, [0], true, []), (2, [0], false, [])]
  refine ⟨src, l0, [FEv.create 2 [0] false].map FEv.ev, w',
    frun_reach (n := 6) (es := [.create 0 [] false, .create 1 [0] true, .create 2 [0] false, .register 1 2]) rfl,
    partB_sound (by decide +kernel), closedB_sound (by decide +kernel), isLoadB_sound (by decide +kernel),
    frun_ok (n := 6) (r := .ok w') rfl, subB_sound (n := 6) (by decide +kernel), ?_⟩
  intro h
  exact absurd (subB_complete (n := 6) (by decide +kernel) h (by decide) (by decide)) (by decide +kernel)

/-- A subclass of the ABC that is not in the pickle takes its registrations with it: 2 is a subclass of the ABC 1 and has 3
registered; 1 and 3 are pickled. -/
theorem C77_subclass_not_pickled :
    ∃ src l0 es w', Reach (toCW src) ∧ Part (toCW l0) (toCW src) ∧ Closed (toCW l0) ∧
      IsLoad (toCW src) (fun c => c ∈ [1, 3]) (toCW l0) es ∧
      run (toCW l0) es = .ok (toCW w') ∧ Sub (toCW src) 3 1 ∧ ¬ Sub (toCW w') 3 1 := by
  let src : FW := [(0, [], false, []), (1, [0], true, []), (2, [1], true, [3]), (3, [0], false, [])]
  let l0 : FW := [(0, [], false, [])]
  let w' : FW := [(0, [], false, []), (1, [0], true, []), (3, [0], false, [])]
  refine ⟨src, l0, [FEv.create 1 [0] true, .create 3 [0] false].map FEv.ev, w',
    frun_reach (n := 6) (es := [.create 0 [] false, .create 1 [0] true, .create 2 [1] false, .create 3 [0] false, .register 2 3]) rfl,
    partB_sound (by decide +kernel), closedB_sound (by decide +kernel), isLoadB_sound (by decide +kernel),
    frun_ok (n := 6) (r := .ok w') rfl, subB_sound (n := 6) (by decide +kernel), ?_⟩
  intro h
  exact absurd (subB_complete (n := 6) (by decide +kernel) h (by decide) (by decide)) (by decide +kernel)

/-- Everything is pickled, but the order of the registry (a set) matters: 1 is a plain class, 2 an ABC with 3 registered and 1
as base, and the ABC 4 has 2 and then 1 registered.  Run in reversed order, `4.register(2)` finds 2 to be a subclass already
(through 1) and does nothing, and 3 is no subclass of 4 any more. -/
theorem C77_order_loses_registration :
    ∃ src l0 es w', Reach (toCW src) ∧ Part (toCW l0) (toCW src) ∧ Closed (toCW l0) ∧
      IsLoad (toCW src) (fun c => c ∈ [1, 2, 3, 4]) (toCW l0) es ∧
      run (toCW l0) es = .ok (toCW w') ∧ Sub (toCW src) 3 4 ∧ ¬ Sub (toCW w') 3 4 := by
  let src : FW := [(0, [], false, []), (1, [0], false, []), (2, [1], true, [3]), (3, [0], false, []), (4, [0], true, [2, 1])]
  let l0 : FW := [(0, [], false, [])]
  let w' : FW := [(0, [], false, []), (4, [0], true, [1]), (1, [0], false, []), (2, [1], true, [3]), (3, [0], false, [])]
  refine ⟨src, l0, [FEv.create 4 [0] true, .create 1 [0] false, .register 4 1, .create 2 [1] true, .create 3 [0] false, .register 2 3, .register 4 2].map FEv.ev, w',
    frun_reach (n := 6) (es := [.create 0 [] false, .create 1 [0] false, .create 2 [1] true, .create 3 [0] false, .create 4 [0] true,
      .register 2 3, .register 4 2, .register 4 1]) rfl,
    partB_sound (by decide +kernel), closedB_sound (by decide +kernel), isLoadB_sound (by decide +kernel),
    frun_ok (n := 6) (r := .ok w') rfl, subB_sound (n := 6) (by decide +kernel), ?_⟩
  intro h
  exact absurd (subB_complete (n := 6) (by decide +kernel) h (by decide) (by decide)) (by decide +kernel)

/-- Here loading raises "Refusing to create an inheritance cycle": 1 plain; 2 an ABC with base 1; 3 and 4 ABCs; 4.register(1),
2.register(3) and 3.register(4), which is allowed in this order, and loaded in another. -/
theorem C77_order_raises :
    ∃ src l0 es, Reach (toCW src) ∧ Part (toCW l0) (toCW src) ∧ Closed (toCW l0) ∧
      IsLoad (toCW src) (fun c => c ∈ [1, 2, 3, 4]) (toCW l0) es ∧ run (toCW l0) es = .error .cycle := by
  let src : FW := [(0, [], false, []), (1, [0], false, []), (2, [1], true, [3]), (3, [0], true, [4]), (4, [0], true, [1])]
  let l0 : FW := [(0, [], false, [])]
  exact ⟨src, l0, [FEv.create 3 [0] true, .create 4 [0] true, .create 1 [0] false, .register 4 1, .register 3 4, .create 2 [1] true,
      .register 2 3].map FEv.ev,
    frun_reach (n := 7) (es := [.create 0 [] false, .create 1 [0] false, .create 2 [1] true, .create 3 [0] true, .create 4 [0] true,
      .register 4 1, .register 2 3, .register 3 4]) (by decide +kernel),
    partB_sound (by decide +kernel), closedB_sound (by decide +kernel), isLoadB_sound (by decide +kernel),
    frun_ok (n := 7) (r := .error .cycle) (by decide +kernel)⟩

end Verif.Abc
