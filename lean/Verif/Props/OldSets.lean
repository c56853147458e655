import Verif.Model.OldSets
import Mathlib.Logic.Relation
import Mathlib.Data.Finset.Card
import Mathlib.Data.Finset.Filter
/-!
C113: whether an object can be pickled does not depend on the protocol.  False: up to protocol 3 a set is pickled as a call of `set` with the
list of its elements, so that a set that is needed to make one of its elements ends in a RecursionError; protocols 4 and 5 make the
set first and fill it afterwards.  Exactly which graphs can be pickled at which protocol is proved.
-/
set_option linter.unusedSimpArgs false
namespace Verif.OldSets

/-! ### specification -/

/-- everything an object refers to -/
def parts : Obj → List Id
  | .plain b a => b ++ a
  | .set els => els
  | .fset els => els

/-- `y` can be reached from `x` -/
inductive Reach (H : Id → Obj) (x : Id) : Id → Prop
  | here : Reach H x x
  | step {y z} : Reach H x y → z ∈ parts (H y) → Reach H x z

/-- the object `x` cannot be made before `y` is there: `y` is an item of the tuple `x`, an element of the frozenset `x`, among the class and the
arguments that `x` is made from; or, at protocols below 4, an element of the set `x` -/
def Needs (p : Nat) (H : Id → Obj) (x y : Id) : Prop :=
  (∃ b a, H x = .plain b a ∧ y ∈ b) ∨ (∃ els, H x = .fset els ∧ y ∈ els) ∨ (p < 4 ∧ ∃ els, H x = .set els ∧ y ∈ els)

/-- something in the graph is needed, perhaps indirectly, to make itself -/
def Knot (p : Nat) (H : Id → Obj) (root : Id) : Prop := ∃ x, Reach H root x ∧ Relation.TransGen (Needs p H) x x

/-- the graph is finite -/
def FiniteGraph (H : Id → Obj) (root : Id) : Prop := ∃ dom : List Id, ∀ x, Reach H root x → x ∈ dom

/-- with a high enough recursion limit dumps succeeds -/
def CanDump (p : Nat) (H : Id → Obj) (root : Id) : Prop := ∃ n m, dumps p H n root = some m

/-- C113 in full: what can be pickled at one protocol can be pickled at every other. -/
def C113_full : Prop := ∀ (H : Id → Obj) (root : Id), FiniteGraph H root → ∀ p q, CanDump p H root → CanDump q H root

/-! ### proofs -/

theorem needs_iff (p : Nat) (H : Id → Obj) (x y : Id) : Needs p H x y ↔ y ∈ before p (H x) := by
  unfold Needs before
  cases h : H x <;> simp

theorem parts_iff (p : Nat) (o : Obj) (y : Id) : y ∈ parts o ↔ y ∈ before p o ∨ y ∈ after p o := by
  cases o <;> simp only [parts, before, after, List.mem_append] <;> (try split) <;> simp

theorem saveAll_mono {f g : Id → List Id → Option (List Id)} (h : ∀ x m m', f x m = some m' → g x m = some m') :
    ∀ (l : List Id) m m', saveAll f l m = some m' → saveAll g l m = some m' := by
  intro l
  induction l with
  | nil => intro m m' e; exact e
  | cons x xs ih =>
    intro m m' e
    simp only [saveAll, Option.bind_eq_some_iff] at e ⊢
    obtain ⟨m1, e1, e2⟩ := e
    exact ⟨m1, h _ _ _ e1, ih _ _ e2⟩

theorem save_succ (p : Nat) (H : Id → Obj) : ∀ n x m m', save p H n x m = some m' → save p H (n + 1) x m = some m' := by
  intro n
  induction n with
  | zero => intro x m m' e; simp [save] at e
  | succ n ih =>
    intro x m m' e
    rw [save] at e ⊢
    split at e
    · next h => rw [if_pos h]; exact e
    · next h =>
      rw [if_neg h]
      simp only [Option.bind_eq_some_iff] at e ⊢
      obtain ⟨m1, e1, e2⟩ := e
      exact ⟨m1, saveAll_mono ih _ _ _ e1, saveAll_mono ih _ _ _ e2⟩

theorem save_mono (p : Nat) (H : Id → Obj) {n n' : Nat} (hn : n ≤ n') {x m m'} (e : save p H n x m = some m') :
    save p H n' x m = some m' := by
  induction hn with
  | refl => exact e
  | step _ ih => exact save_succ p H _ _ _ _ ih

/-- what holds of the memo after saving `l` from `m` -/
structure Good (p : Nat) (H : Id → Obj) (l : List Id) (m m' : List Id) : Prop where
  sub : m ⊆ m'
  all : l ⊆ m'
  nodup : m.Nodup → m'.Nodup
  inv : (∀ x ∈ m, ∀ y ∈ before p (H x), m.idxOf y < m.idxOf x) → ∀ x ∈ m', ∀ y ∈ before p (H x), m'.idxOf y < m'.idxOf x
  closed : ∀ y ∈ m', y ∈ m ∨ parts (H y) ⊆ m'
  from_ : ∀ y ∈ m', y ∈ m ∨ ∃ x ∈ l, Reach H x y

theorem good_nil (p H m) : Good p H [] m m :=
  ⟨fun _ h => h, by simp, id, id, fun _ h => .inl h, fun _ h => .inl h⟩

theorem Good.trans {p H l1 l2 m m1 m2} (a : Good p H l1 m m1) (b : Good p H l2 m1 m2) : Good p H (l1 ++ l2) m m2 := by
  refine ⟨fun _ h => b.sub (a.sub h), ?_, fun h => b.nodup (a.nodup h), fun h => b.inv (a.inv h), ?_, ?_⟩
  · intro y h
    rcases List.mem_append.1 h with h | h
    · exact b.sub (a.all h)
    · exact b.all h
  · intro y h
    rcases b.closed y h with h | h
    · rcases a.closed y h with h | h
      · exact .inl h
      · exact .inr (fun _ hz => b.sub (h hz))
    · exact .inr h
  · intro y h
    rcases b.from_ y h with h | ⟨x, hx, hr⟩
    · rcases a.from_ y h with h | ⟨x, hx, hr⟩
      · exact .inl h
      · exact .inr ⟨x, List.mem_append.2 (.inl hx), hr⟩
    · exact .inr ⟨x, List.mem_append.2 (.inr hx), hr⟩

theorem saveAll_good {p H} {f : Id → List Id → Option (List Id)} (hf : ∀ x m m', f x m = some m' → Good p H [x] m m') :
    ∀ (l : List Id) m m', saveAll f l m = some m' → Good p H l m m' := by
  intro l
  induction l with
  | nil => intro m m' e; simp only [saveAll, Option.some.injEq] at e; subst e; exact good_nil _ _ _
  | cons x xs ih =>
    intro m m' e
    simp only [saveAll, Option.bind_eq_some_iff] at e
    obtain ⟨m1, e1, e2⟩ := e
    exact (hf _ _ _ e1).trans (ih _ _ e2)

theorem Reach.trans {H x y z} (a : Reach H x y) (b : Reach H y z) : Reach H x z := by
  induction b with
  | here => exact a
  | step _ h ih => exact .step ih h

theorem idxOf_lt_mem {m : List Id} {x y : Id} (hx : x ∈ m) (h : m.idxOf y < m.idxOf x) : y ∈ m :=
  List.idxOf_lt_length_iff.1 (Nat.lt_trans h (List.idxOf_lt_length_iff.2 hx))

theorem save_good (p : Nat) (H : Id → Obj) : ∀ n x m m', save p H n x m = some m' → Good p H [x] m m' := by
  intro n
  induction n with
  | zero => intro x m m' e; simp [save] at e
  | succ n ih =>
    intro x m m' e
    rw [save] at e
    split at e
    · next h =>
      cases e
      exact ⟨fun _ h => h, (by intro y hy; rw [List.mem_singleton.1 hy]; exact h), id, id, fun _ h => .inl h, fun _ h => .inl h⟩
    · next hx =>
      simp only [Option.bind_eq_some_iff] at e
      obtain ⟨m1, e1, e2⟩ := e
      have g1 := saveAll_good ih _ _ _ e1
      have g2 := saveAll_good ih _ _ _ e2
      -- the memo with x in it
      generalize hm2 : (if x ∈ m1 then m1 else m1 ++ [x]) = m2 at e2 g2
      have s12 : m1 ⊆ m2 := by subst hm2; split <;> simp
      have hx2 : x ∈ m2 := by subst hm2; split <;> simp_all
      have in2 : ∀ y ∈ m2, y ∈ m1 ∨ y = x := by
        subst hm2; split
        · intro y h; exact .inl h
        · intro y h; simpa using h
      have hparts : parts (H x) ⊆ m' := by
        intro y hy
        rcases (parts_iff p _ _).1 hy with h | h
        · exact g2.sub (s12 (g1.all h))
        · exact g2.all h
      have lift : ∀ l : List Id, (∀ z ∈ l, z ∈ parts (H x)) → ∀ y, (∃ z ∈ l, Reach H z y) → Reach H x y := by
        intro l hl y ⟨z, hz, hr⟩
        exact Reach.trans (.step .here (hl z hz)) hr
      refine ⟨fun _ h => g2.sub (s12 (g1.sub h)), ?_, ?_, ?_, ?_, ?_⟩
      · intro y hy; rw [List.mem_singleton.1 hy]; exact g2.sub hx2
      · intro h
        refine g2.nodup ?_
        have h1 := g1.nodup h
        subst hm2; split
        · exact h1
        · next hn => exact List.nodup_append.2 ⟨h1, by simp, by
            intro a ha b hb e; rw [List.mem_singleton.1 hb] at e; exact hn (e ▸ ha)⟩
      · intro h
        refine g2.inv ?_
        have h1 := g1.inv h
        subst hm2; split
        · exact h1
        · next hn =>
          intro a ha y hy
          rcases List.mem_append.1 ha with ha | ha
          · have hlt := h1 a ha y hy
            rw [List.idxOf_append_of_mem ha, List.idxOf_append_of_mem (idxOf_lt_mem ha hlt)]
            exact hlt
          · have ha := List.mem_singleton.1 ha
            subst ha
            have hy1 := g1.all hy
            rw [List.idxOf_append_of_mem hy1, List.idxOf_append_of_notMem hn]
            exact Nat.lt_of_lt_of_le (List.idxOf_lt_length_iff.2 hy1) (Nat.le_add_right _ _)
      · intro y hy
        rcases g2.closed y hy with h | h
        · rcases in2 y h with h | h
          · rcases g1.closed y h with h | h
            · exact .inl h
            · exact .inr (fun _ hz => g2.sub (s12 (h hz)))
          · subst h; exact .inr hparts
        · exact .inr h
      · intro y hy
        rcases g2.from_ y hy with h | h
        · rcases in2 y h with h | h
          · rcases g1.from_ y h with h | h
            · exact .inl h
            · exact .inr ⟨x, by simp, lift _ (fun z hz => (parts_iff p _ _).2 (.inl hz)) y h⟩
          · subst h; exact .inr ⟨y, by simp, .here⟩
        · exact .inr ⟨x, by simp, lift _ (fun z hz => (parts_iff p _ _).2 (.inr hz)) y h⟩

/-- Everything that can be reached is in the pickle's memo, once, and nothing else is. -/
theorem C113_everything_once (p : Nat) (H : Id → Obj) (n : Nat) (root : Id) (m : List Id) (h : dumps p H n root = some m) :
    m.Nodup ∧ ∀ y, y ∈ m ↔ Reach H root y := by
  have g := save_good p H n root [] m h
  refine ⟨g.nodup List.nodup_nil, fun y => ⟨fun hy => ?_, fun hy => ?_⟩⟩
  · rcases g.from_ y hy with h | ⟨x, hx, hr⟩
    · cases h
    · rw [List.mem_singleton.1 hx] at hr; exact hr
  · induction hy with
    | here => exact g.all (List.mem_singleton.2 rfl)
    | step _ hz ih =>
      rcases g.closed _ ih with h | h
      · cases h
      · exact h hz

/-- Each object is in the memo after everything that is needed to make it. -/
theorem C113_made_in_order (p : Nat) (H : Id → Obj) (n : Nat) (root : Id) (m : List Id) (h : dumps p H n root = some m)
    (x y : Id) (hx : Reach H root x) (hy : Needs p H x y) : m.idxOf y < m.idxOf x := by
  have g := save_good p H n root [] m h
  exact g.inv (by intro x hx; cases hx) x ((C113_everything_once p H n root m h).2 x |>.2 hx) y ((needs_iff p H x y).1 hy)

theorem saveAll_ok (p : Nat) (H : Id → Obj) (n : Nat) (Q : List Id → Prop) (hQ : ∀ x m m', Q m → save p H n x m = some m' → Q m') :
    ∀ (l : List Id), (∀ x ∈ l, ∀ m, Q m → ∃ m', save p H n x m = some m') →
    ∀ m, Q m → ∃ m', saveAll (save p H n) l m = some m' := by
  intro l
  induction l with
  | nil => intro _ m _; exact ⟨m, rfl⟩
  | cons x xs ih =>
    intro h m hm
    obtain ⟨m1, e1⟩ := h x (by simp) m hm
    obtain ⟨m2, e2⟩ := ih (fun y hy => h y (by simp [hy])) m1 (hQ _ _ _ hm e1)
    exact ⟨m2, by simp only [saveAll, Option.bind_eq_some_iff]; exact ⟨m1, e1, e2⟩⟩

open Classical in
/-- the number of objects of `dom` that are needed, perhaps indirectly, to make `x` -/
noncomputable def depth (p : Nat) (H : Id → Obj) (dom : List Id) (x : Id) : Nat :=
  (dom.toFinset.filter fun y => Relation.TransGen (Needs p H) x y).card

open Classical in
theorem depth_le (p : Nat) (H : Id → Obj) (dom : List Id) (x : Id) : depth p H dom x ≤ dom.length :=
  Nat.le_trans (Finset.card_filter_le _ _) (List.toFinset_card_le _)

open Classical in
theorem depth_lt {p : Nat} {H : Id → Obj} {root : Id} {dom : List Id} (hdom : ∀ x, Reach H root x → x ∈ dom)
    (hk : ¬ Knot p H root) {x y : Id} (hx : Reach H root x) (h : Needs p H x y) : depth p H dom y < depth p H dom x := by
  have hy : Reach H root y := hx.step ((parts_iff p _ _).2 (.inl ((needs_iff p H _ _).1 h)))
  apply Finset.card_lt_card
  rw [Finset.ssubset_iff_of_subset]
  · refine ⟨y, by simp [hdom y hy]; exact .single h, ?_⟩
    simp only [Finset.mem_filter, not_and]
    exact fun _ hc => hk ⟨y, hy, hc⟩
  · intro z hz
    simp only [Finset.mem_filter] at hz ⊢
    exact ⟨hz.1, .head h hz.2⟩

theorem terminates (p : Nat) (H : Id → Obj) (root : Id) (dom : List Id) (hdom : ∀ x, Reach H root x → x ∈ dom)
    (hk : ¬ Knot p H root) : ∀ k m, (dom.toFinset \ m.toFinset).card ≤ k → ∀ x, Reach H root x →
      ∃ m', save p H (k * (dom.length + 1) + depth p H dom x + 1) x m = some m' := by
  have left : ∀ n x m m' k, (dom.toFinset \ m.toFinset).card ≤ k → save p H n x m = some m' → (dom.toFinset \ m'.toFinset).card ≤ k := by
    intro n x m m' k h e
    refine Nat.le_trans (Finset.card_le_card ?_) h
    intro y hy; simp only [Finset.mem_sdiff, List.mem_toFinset] at hy ⊢
    exact ⟨hy.1, fun h => hy.2 ((save_good p H n x m m' e).sub h)⟩
  intro k
  induction k with
  | zero =>
    intro m hm x hx
    have : x ∈ m := by
      by_contra hn
      have : x ∈ dom.toFinset \ m.toFinset := by simp [hdom x hx, hn]
      have := Finset.card_pos.2 ⟨x, this⟩
      omega
    exact ⟨m, by rw [save, if_pos this]⟩
  | succ k ih =>
    suffices ∀ d m, (dom.toFinset \ m.toFinset).card ≤ k + 1 → ∀ x, Reach H root x → depth p H dom x = d →
        ∃ m', save p H ((k + 1) * (dom.length + 1) + d + 1) x m = some m' from
      fun m hm x hx => this _ m hm x hx rfl
    intro d
    induction d using Nat.strongRecOn with
    | _ d ihd =>
    intro m hm x hx hd
    by_cases ha : x ∈ m
    · exact ⟨m, by rw [save, if_pos ha]⟩
    obtain ⟨m1, e1⟩ := saveAll_ok p H ((k + 1) * (dom.length + 1) + d) (fun m => (dom.toFinset \ m.toFinset).card ≤ k + 1)
      (fun x m m' h e => left _ x m m' _ h e) (before p (H x))
      (fun y hy m hm => by
        have hn := (needs_iff p H x y).2 hy
        have hlt := depth_lt hdom hk hx hn
        obtain ⟨m', e⟩ := ihd (depth p H dom y) (by omega) m hm y (hx.step ((parts_iff p _ _).2 (.inl hy))) rfl
        exact ⟨m', save_mono p H (by omega) e⟩) m hm
    have g1 := saveAll_good (save_good p H _) _ _ _ e1
    obtain ⟨m2, e2⟩ := saveAll_ok p H ((k + 1) * (dom.length + 1) + d) (fun m => (dom.toFinset \ m.toFinset).card ≤ k)
      (fun x m m' h e => left _ x m m' _ h e) (after p (H x))
      (fun y hy m hm => by
        obtain ⟨m', e⟩ := ih m hm y (hx.step ((parts_iff p _ _).2 (.inr hy)))
        have := depth_le p H dom y
        exact ⟨m', save_mono p H (by rw [Nat.succ_mul]; omega) e⟩)
      (if x ∈ m1 then m1 else m1 ++ [x]) (by
        have hlt : (dom.toFinset \ (if x ∈ m1 then m1 else m1 ++ [x]).toFinset).card < (dom.toFinset \ m.toFinset).card := by
          apply Finset.card_lt_card
          rw [Finset.ssubset_iff_of_subset]
          · refine ⟨x, by simp [hdom x hx, ha], ?_⟩
            simp only [Finset.mem_sdiff, List.mem_toFinset, not_and, not_not]
            intro _; split <;> simp_all
          · intro y hy
            simp only [Finset.mem_sdiff, List.mem_toFinset] at hy ⊢
            refine ⟨hy.1, fun h => hy.2 ?_⟩
            have := g1.sub h
            split <;> simp [this]
        omega)
    refine ⟨m2, ?_⟩
    rw [save, if_neg ha]
    simp only [Option.bind_eq_some_iff]
    exact ⟨m1, e1, e2⟩

/-- A recursion limit of `(N+1)²` nested saves is enough, `N` being the number of objects, if any limit is. -/
theorem C113_limit_enough (p : Nat) (H : Id → Obj) (root : Id) (dom : List Id) (hdom : ∀ x, Reach H root x → x ∈ dom)
    (hk : ¬ Knot p H root) : ∃ m, ∀ n, (dom.length + 1) ^ 2 ≤ n → dumps p H n root = some m := by
  obtain ⟨m, e⟩ := terminates p H root dom hdom hk dom.length []
    (by simp only [List.toFinset_nil, Finset.sdiff_empty]; exact List.toFinset_card_le _) root .here
  refine ⟨m, fun n hn => save_mono p H (Nat.le_trans ?_ hn) e⟩
  have := depth_le p H dom root
  rw [Nat.pow_two, Nat.succ_mul]; omega

/-- C113, exactly: at protocol `p` a finite graph can be pickled, with a high enough recursion limit, if and only if nothing in it is
needed to make itself, where up to protocol 3 a set needs its elements. -/
theorem C113_can_dump_iff (p : Nat) (H : Id → Obj) (root : Id) (hf : FiniteGraph H root) : CanDump p H root ↔ ¬ Knot p H root := by
  constructor
  · rintro ⟨n, m, h⟩ ⟨x, hx, hc⟩
    have : ∀ y, Relation.TransGen (Needs p H) x y → Reach H root y ∧ m.idxOf y < m.idxOf x := by
      intro y hy
      induction hy with
      | single h1 =>
        exact ⟨hx.step ((parts_iff p _ _).2 (.inl ((needs_iff p H _ _).1 h1))), C113_made_in_order p H n root m h _ _ hx h1⟩
      | tail _ h1 ih =>
        exact ⟨ih.1.step ((parts_iff p _ _).2 (.inl ((needs_iff p H _ _).1 h1))),
          Nat.lt_trans (C113_made_in_order p H n root m h _ _ ih.1 h1) ih.2⟩
    exact Nat.lt_irrefl _ (this x hc).2
  · intro hk
    obtain ⟨dom, hdom⟩ := hf
    obtain ⟨m, h⟩ := C113_limit_enough p H root dom hdom hk
    exact ⟨_, m, h _ (Nat.le_refl _)⟩

/-- A higher recursion limit does not change the pickle. -/
theorem C113_limit_irrelevant (p : Nat) (H : Id → Obj) (n n' : Nat) (root : Id) (m : List Id) (hn : n ≤ n')
    (h : dumps p H n root = some m) : dumps p H n' root = some m := save_mono p H hn h

theorem Needs.weaken {p q : Nat} (hpq : q < 4 → p < 4) {H x y} (h : Needs q H x y) : Needs p H x y := by
  rcases h with h | h | ⟨h1, h2⟩
  · exact .inl h
  · exact .inr (.inl h)
  · exact .inr (.inr ⟨hpq h1, h2⟩)

/-- What can be pickled at some protocol can be pickled at every higher one, and at the default protocol, which is 4. -/
theorem C113_higher_protocols (p q : Nat) (h : p ≤ q ∨ q = 4) (H : Id → Obj) (root : Id) (hf : FiniteGraph H root)
    (hd : CanDump p H root) : CanDump q H root := by
  rw [C113_can_dump_iff _ _ _ hf] at hd ⊢
  rintro ⟨x, hx, hc⟩
  have hpq : q < 4 → p < 4 := by omega
  exact hd ⟨x, hx, Relation.TransGen.lift id (fun a b (h1 : Needs q H a b) => h1.weaken hpq) _ _ hc⟩

/-- C113 for the graphs in which no set is needed, at protocol 3, to make itself: whether they can be pickled does not depend on the protocol. -/
theorem C113_any_protocol_partial (H : Id → Obj) (root : Id) (hf : FiniteGraph H root)
    (hs : ∀ x els, Reach H root x → H x = .set els → ¬ Relation.TransGen (Needs 3 H) x x) (p q : Nat) (hd : CanDump p H root) :
    CanDump q H root := by
  rw [C113_can_dump_iff _ _ _ hf] at hd ⊢
  rintro ⟨x, hx, hc⟩
  refine hd ⟨x, hx, ?_⟩
  -- no set lies on the cycle, so all of its steps are there at every protocol
  have key : ∀ a b, Relation.TransGen (Needs q H) a b → Relation.ReflTransGen (Needs q H) b x → Reach H root a →
      Relation.TransGen (Needs q H) x b → Relation.ReflTransGen (Needs q H) x a → Relation.TransGen (Needs p H) a b := by
    have one : ∀ a b, Needs q H a b → Relation.ReflTransGen (Needs q H) b x → Relation.ReflTransGen (Needs q H) x a → Reach H root a →
        Needs p H a b := by
      intro a b h h1 h2 ha
      rcases h with h | h | ⟨h3, els, he, hb⟩
      · exact .inl h
      · exact .inr (.inl h)
      · exfalso
        refine hs a els ha he ?_
        have hw : q < 4 → 3 < 4 := by omega
        refine Relation.TransGen.lift id (fun a b (h : Needs q H a b) => h.weaken hw) _ _ ?_
        exact Relation.TransGen.trans_left (Relation.TransGen.head' (.inr (.inr ⟨h3, els, he, hb⟩)) h1) h2
    intro a b hab
    induction hab with
    | single h => intro h1 ha _ h2; exact .single (one _ _ h h1 h2 ha)
    | tail hac h ih =>
      intro h1 ha hxb h2
      have hxc := Relation.TransGen.trans_right h2 hac
      have hreach : ∀ c, Relation.ReflTransGen (Needs q H) x c → Reach H root c := by
        intro c hc
        induction hc with
        | refl => exact hx
        | tail _ h ih => exact ih.step ((parts_iff q _ _).2 (.inl ((needs_iff q H _ _).1 h)))
      exact .tail (ih (.head h h1) ha hxc h2) (one _ _ h h1 hxc.to_reflTransGen (hreach _ hxc.to_reflTransGen))
  exact key x x hc .refl hx hc .refl

/-- … and no protocol of 0 to 3 differs from another of them, nor one of those from 4 up. -/
theorem C113_two_kinds (p q : Nat) (h : p < 4 ↔ q < 4) (H : Id → Obj) (n : Nat) (root : Id) : dumps p H n root = dumps q H n root := by
  have hb : ∀ o, before p o = before q o := by intro o; cases o <;> simp [before, h]
  have ha : ∀ o, after p o = after q o := by intro o; cases o <;> simp [after, h]
  have : ∀ n, save p H n = save q H n := by
    intro n
    induction n with
    | zero => rfl
    | succ n ih => funext x m; simp only [save, ih, hb, ha]
  unfold dumps; rw [this]

/-! ### concrete cases -/

/-- 0: a set whose element 1 is an instance of the class 2 that `__reduce__` makes from the set: `class Node` with
`def __reduce__(self): return Node, (self.peers,)`, in the set of its peers -/
def peers : Id → Obj
  | 0 => .set [1]
  | 1 => .plain [2, 0] []
  | _ => .plain [] []

theorem peers_finite : FiniteGraph peers 0 := by
  refine ⟨[0, 1, 2], ?_⟩
  intro x h
  induction h with
  | here => decide
  | step _ hz ih =>
    simp only [List.mem_cons, List.not_mem_nil, or_false] at ih
    rcases ih with rfl | rfl | rfl <;> simp [parts, peers] at hz <;> (try rcases hz with rfl | rfl) <;> simp_all

example : dumps 4 peers 5 0 = some [0, 2, 1] := by decide
example : dumps 3 peers 50 0 = none := by decide

/-- C113 is false: such a set can be pickled at protocol 4, and at protocol 3 no recursion limit is high enough. -/
theorem C113_full_false : ¬ C113_full := by
  intro H
  have h := H peers 0 peers_finite 4 3 ⟨5, [0, 2, 1], by decide⟩
  rw [C113_can_dump_iff _ _ _ peers_finite] at h
  refine h ⟨0, .here, .tail (.single (b := 1) ?_) ?_⟩
  · exact .inr (.inr ⟨by decide, [1], rfl, by simp⟩)
  · exact .inl ⟨[2, 0], [], rfl, by simp⟩

/-- the same with the set in the state of the instance, which is pickled after the instance is in the memo: every protocol will do, and the hypothesis
of C113_any_protocol_partial is met by a graph with a cycle through a set -/
def friends : Id → Obj
  | 0 => .set [1]
  | 1 => .plain [2] [0]
  | _ => .plain [] []

example : dumps 4 friends 5 0 = some [0, 2, 1] ∧ dumps 2 friends 5 0 = some [2, 1, 0] := by decide

theorem friends_no_knot : ∀ x, ¬ Relation.TransGen (Needs 3 friends) x x := by
  let r : Nat → Nat := fun x => match x with
    | 0 => 2 | 1 => 1 | _ => 0
  have step : ∀ x y : Nat, Needs 3 friends x y → r y < r x := by
    intro x y h
    rw [needs_iff] at h
    match x with
    | 0 => simp [before, friends] at h; subst h; decide
    | 1 => simp [before, friends] at h; subst h; decide
    | _ + 2 => simp [before, friends] at h
  intro x h
  have : ∀ y : Nat, Relation.TransGen (Needs 3 friends) x y → r y < r x := by
    intro y h
    induction h with
    | single h => exact step _ _ h
    | tail _ h ih => exact Nat.lt_trans (step _ _ h) ih
  exact absurd (this x h) (Nat.lt_irrefl _)

example : (∀ x els, Reach friends 0 x → friends x = .set els → ¬ Relation.TransGen (Needs 3 friends) x x) ∧
    Reach friends 0 1 ∧ Reach friends 1 0 :=
  ⟨fun x _ _ _ => friends_no_knot x, .step .here (by simp [parts, friends]), .step .here (by simp [parts, friends])⟩

end Verif.OldSets
