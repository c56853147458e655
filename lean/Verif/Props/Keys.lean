import Verif.Model.Keys

/-!
# C106: keys are whole when they are hashed

Loading a dict, set or frozenset hashes its keys or elements, which may run the `__hash__` of instances and read their
attributes.  The claims are about the log of these hashings in `loads(dumps(root))`.
-/

set_option linter.unusedSimpArgs false

namespace Verif.Keys

/-- The objects directly in an object. -/
def parts : Obj → List Id
  | .atom => []
  | .list items => items
  | .tuple items => items
  | .set items => items
  | .fset items => items
  | .oset items => items
  | .dict items => items.flatMap (fun kv => [kv.1, kv.2])
  | .inst args litems ditems state =>
    args ++ litems ++ ditems.flatMap (fun kv => [kv.1, kv.2]) ++ state.toList

/-- The objects that are hashed when an object is made. -/
def keysOf : Obj → List Id
  | .set items => items
  | .fset items => items
  | .oset items => items
  | .dict items => items.map (·.1)
  | .inst _ _ ditems _ => ditems.map (·.1)
  | _ => []

/-- `y` can be reached from `x`. -/
inductive Reach (H : Id → Obj) : Id → Id → Prop
  | refl (x : Id) : Reach H x x
  | step {x y z : Id} : Reach H x y → z ∈ parts (H y) → Reach H x z

theorem Reach.trans {H : Id → Obj} {x y z : Id} (h1 : Reach H x y) (h2 : Reach H y z) : Reach H x z := by
  induction h2 with
  | refl => exact h1
  | step _ h ih => exact .step ih h

/-! ## Plans and parts -/

theorem mem_chunks {α : Type} {B : Nat} (hB : 0 < B) : ∀ (n : Nat) (l : List α), l.length ≤ n → ∀ a,
    (∃ c ∈ chunks B n l, a ∈ c) ↔ a ∈ l
  | 0, l, h, a => by
      have : l = [] := by cases l <;> simp_all
      subst this
      simp [chunks]
  | n + 1, l, h, a => by
      cases l with
      | nil => simp [chunks]
      | cons b l =>
        have hlen : ((b :: l).drop B).length ≤ n := by
          rw [List.length_drop, List.length_cons]
          rw [List.length_cons] at h
          omega
        have ih := mem_chunks hB n ((b :: l).drop B) hlen a
        have hsplit : a ∈ (b :: l) ↔ a ∈ (b :: l).take B ∨ a ∈ (b :: l).drop B := by
          rw [← List.mem_append, List.take_append_drop]
        rw [hsplit, ← ih]
        simp [chunks]

theorem mem_parts {B : Nat} (hB : 0 < B) (o : Obj) (z : Id) :
    z ∈ parts o ↔ z ∈ (plan B o).pre ∨ ∃ b ∈ (plan B o).post, z ∈ b.1 := by
  have hl : ∀ items : List Id, (∃ b ∈ listBatches B items, z ∈ b.1) ↔ z ∈ items := by
    intro items
    rw [← mem_chunks hB items.length items (Nat.le_refl _) z]
    constructor
    · rintro ⟨b, hb, hz⟩
      obtain ⟨c, hc, rfl⟩ := List.mem_map.1 hb
      exact ⟨c, hc, hz⟩
    · rintro ⟨c, hc, hz⟩
      exact ⟨_, List.mem_map.2 ⟨c, hc, rfl⟩, hz⟩
  have hd : ∀ items : List (Id × Id), (∃ b ∈ dictBatches B items, z ∈ b.1) ↔
      z ∈ items.flatMap (fun kv => [kv.1, kv.2]) := by
    intro items
    constructor
    · rintro ⟨b, hb, hz⟩
      obtain ⟨c, hc, rfl⟩ := List.mem_map.1 hb
      obtain ⟨kv, hkv, hz⟩ := List.mem_flatMap.1 hz
      exact List.mem_flatMap.2 ⟨kv, (mem_chunks hB items.length items (Nat.le_refl _) kv).1 ⟨c, hc, hkv⟩, hz⟩
    · intro hz
      obtain ⟨kv, hkv, hz⟩ := List.mem_flatMap.1 hz
      obtain ⟨c, hc, hkv⟩ := (mem_chunks hB items.length items (Nat.le_refl _) kv).2 hkv
      exact ⟨_, List.mem_map.2 ⟨c, hc, rfl⟩, List.mem_flatMap.2 ⟨kv, hkv, hz⟩⟩
  cases o with
  | atom => simp [parts, plan]
  | list items => simp only [parts, plan, List.not_mem_nil, false_or]; exact (hl items).symm
  | tuple items => simp [parts, plan]
  | set items =>
    simp only [parts, plan, List.not_mem_nil, false_or]
    rw [← mem_chunks hB items.length items (Nat.le_refl _) z]
    simp
  | fset items => simp [parts, plan]
  | oset items => simp [parts, plan]
  | dict items => simp only [parts, plan, List.not_mem_nil, false_or]; exact (hd items).symm
  | inst args litems ditems state =>
    have key : (∃ b ∈ listBatches B litems ++ dictBatches B ditems ++
        state.toList.map (fun s => (([s], []) : List Id × List Id)), z ∈ b.1) ↔
        z ∈ litems ∨ z ∈ ditems.flatMap (fun kv => [kv.1, kv.2]) ∨ z ∈ state.toList := by
      rw [← hl litems, ← hd ditems]
      constructor
      · rintro ⟨b, hb, hz⟩
        rcases List.mem_append.1 hb with hb | hb
        · rcases List.mem_append.1 hb with hb | hb
          · exact Or.inl ⟨b, hb, hz⟩
          · exact Or.inr (Or.inl ⟨b, hb, hz⟩)
        · obtain ⟨s, hs, rfl⟩ := List.mem_map.1 hb
          have : z = s := by simpa using hz
          subst this
          exact Or.inr (Or.inr hs)
      · rintro (⟨b, hb, hz⟩ | ⟨b, hb, hz⟩ | hz)
        · exact ⟨b, by simp [hb], hz⟩
        · exact ⟨b, by simp [hb], hz⟩
        · exact ⟨([z], []), List.mem_append.2 (Or.inr (List.mem_map.2 ⟨z, hz, rfl⟩)), by simp⟩
    simp only [parts, plan]
    rw [key]
    simp only [List.mem_append]
    grind

/-- Keys are saved in the batch that hashes them. -/
theorem keys_saved (B : Nat) (o : Obj) :
    (∀ k ∈ (plan B o).preKeys, k ∈ (plan B o).pre) ∧ ∀ b ∈ (plan B o).post, ∀ k ∈ b.2, k ∈ b.1 := by
  have hl : ∀ items : List Id, ∀ b ∈ listBatches B items, ∀ k ∈ b.2, k ∈ b.1 := by
    intro items b hb k hk
    obtain ⟨c, _, rfl⟩ := List.mem_map.1 hb
    cases hk
  have hd : ∀ items : List (Id × Id), ∀ b ∈ dictBatches B items, ∀ k ∈ b.2, k ∈ b.1 := by
    intro items b hb k hk
    obtain ⟨c, _, rfl⟩ := List.mem_map.1 hb
    obtain ⟨kv, hkv, rfl⟩ := List.mem_map.1 hk
    exact List.mem_flatMap.2 ⟨kv, hkv, by simp⟩
  cases o with
  | atom => simp [plan]
  | list items => exact ⟨by simp [plan], hl items⟩
  | tuple items => simp [plan]
  | set items =>
    refine ⟨by simp [plan], ?_⟩
    intro b hb k hk
    obtain ⟨c, _, rfl⟩ := List.mem_map.1 hb
    exact hk
  | fset items => simp [plan]
  | oset items => simp [plan]
  | dict items => exact ⟨by simp [plan], hd items⟩
  | inst args litems ditems state =>
    refine ⟨by simp [plan], ?_⟩
    intro b hb k hk
    simp only [plan] at hb
    rcases List.mem_append.1 hb with hb | hb
    · rcases List.mem_append.1 hb with hb | hb
      · exact hl litems b hb k hk
      · exact hd ditems b hb k hk
    · obtain ⟨s, _, rfl⟩ := List.mem_map.1 hb
      cases hk

/-! ## The invariant -/

/-- The object a task is about. -/
def Task.on : Task → Id
  | .save x => x
  | .make x => x
  | .hash x _ => x
  | .done x => x

/-- The object is being made: one of its tasks other than `save` is pending. -/
def Busy (w : List Task) (x : Id) : Prop := Task.make x ∈ w ∨ (∃ ks, Task.hash x ks ∈ w) ∨ Task.done x ∈ w

/-- The objects a pending task will want to be there. -/
def wants (B : Nat) (H : Id → Obj) : Task → List Id
  | .save _ => []
  | .make x => (plan B (H x)).pre
  | .hash _ ks => ks
  | .done x => parts (H x)

/-- The invariant. -/
structure Inv (B : Nat) (H : Id → Obj) (s : S) : Prop where
  memo : ∀ x ∈ s.memo, x ∈ s.built ∨ Task.done x ∈ s.work
  built : ∀ y ∈ s.built, ∀ z ∈ parts (H y), z ∈ s.built ∨ Busy s.work z
  wants : ∀ a t b, s.work = a ++ t :: b → ∀ z ∈ wants B H t,
    z ∈ s.built ∨ Busy s.work z ∨ Task.save z ∈ a
  chain : ∀ a t b, s.work = a ++ t :: b → ∀ p, Busy b p → Reach H p t.on
  ends : ∀ a y ks b, s.work = a ++ Task.hash y ks :: b → Task.done y ∈ b
  log : ∀ e ∈ s.log, ¬ Reach H e.key e.container → ∀ y, Reach H e.key y → y ∈ e.built

theorem busy_append {a b : List Task} {x : Id} : Busy (a ++ b) x ↔ Busy a x ∨ Busy b x := by
  simp only [Busy, List.mem_append]
  constructor
  · rintro ((h | h) | ⟨ks, h | h⟩ | (h | h))
    · exact Or.inl (Or.inl h)
    · exact Or.inr (Or.inl h)
    · exact Or.inl (Or.inr (Or.inl ⟨ks, h⟩))
    · exact Or.inr (Or.inr (Or.inl ⟨ks, h⟩))
    · exact Or.inl (Or.inr (Or.inr h))
    · exact Or.inr (Or.inr (Or.inr h))
  · rintro ((h | ⟨ks, h⟩ | h) | (h | ⟨ks, h⟩ | h))
    · exact Or.inl (Or.inl h)
    · exact Or.inr (Or.inl ⟨ks, Or.inl h⟩)
    · exact Or.inr (Or.inr (Or.inl h))
    · exact Or.inl (Or.inr h)
    · exact Or.inr (Or.inl ⟨ks, Or.inr h⟩)
    · exact Or.inr (Or.inr (Or.inr h))

theorem busy_saves {l : List Id} {x : Id} : ¬ Busy (l.map .save) x := by
  rintro (h | ⟨ks, h⟩ | h) <;> simp at h

theorem busy_rest {x y : Id} {post : List (List Id × List Id)} : Busy (rest y post) x ↔ x = y := by
  constructor
  · rintro (h | ⟨ks, h⟩ | h)
    · simp [rest] at h
    · simp only [rest, List.mem_append, List.mem_flatMap, List.mem_map, List.mem_singleton] at h
      rcases h with ⟨b, _, h | h⟩ | h
      · obtain ⟨_, _, h⟩ := h; cases h
      · cases h; rfl
      · cases h
    · simp only [rest, List.mem_append, List.mem_flatMap, List.mem_map, List.mem_singleton] at h
      rcases h with ⟨b, _, h | h⟩ | h
      · obtain ⟨_, _, h⟩ := h; cases h
      · cases h
      · cases h; rfl
  · rintro rfl
    exact Or.inr (Or.inr (by simp [rest]))

/-- Splitting an appended stack. -/
theorem split_append {a b c d : List Task} {t : Task} (h : a ++ b = c ++ t :: d) :
    (∃ e, a = c ++ t :: e ∧ d = e ++ b) ∨ ∃ e, c = a ++ e ∧ b = e ++ t :: d := by
  rcases List.append_eq_append_iff.1 h with ⟨e, h1, h2⟩ | ⟨e, h1, h2⟩
  · exact Or.inr ⟨e, h1, h2⟩
  · cases e with
    | nil => exact Or.inr ⟨[], by simpa using h1.symm, by simpa using h2.symm⟩
    | cons u e =>
      simp only [List.cons_append, List.cons.injEq] at h2
      obtain ⟨rfl, rfl⟩ := h2
      exact Or.inl ⟨e, h1, rfl⟩

variable {B : Nat} {H : Id → Obj}

/-- When the keys are hashed, what can be reached from one that does not reach the container is there. -/
theorem whole {built : List Id} {w : List Task} {c k : Id}
    (hb : ∀ y ∈ built, ∀ z ∈ parts (H y), z ∈ built ∨ Busy w z)
    (hc : ∀ p, Busy w p → Reach H p c) (hk : k ∈ built ∨ Busy w k) (hn : ¬ Reach H k c) :
    ∀ y, Reach H k y → y ∈ built := by
  intro y hy
  induction hy with
  | refl => exact hk.resolve_right (fun h => hn (hc _ h))
  | step h1 h2 ih =>
    rcases hb _ ih _ h2 with h | h
    · exact h
    · exact absurd ((h1.step h2).trans (hc _ h)) hn

theorem busy_cons_save {w : List Task} {x z : Id} : Busy (.save x :: w) z ↔ Busy w z := by
  simp [Busy]

theorem busy_cons_make {w : List Task} {x z : Id} : Busy (.make x :: w) z ↔ z = x ∨ Busy w z := by
  simp [Busy]; grind

theorem busy_cons_hash {w : List Task} {x z : Id} {ks : List Id} :
    Busy (.hash x ks :: w) z ↔ z = x ∨ Busy w z := by
  simp only [Busy, List.mem_cons]
  constructor
  · rintro (h | ⟨ks', h | h⟩ | h)
    · simp at h; exact Or.inr (Or.inl h)
    · cases h; exact Or.inl rfl
    · exact Or.inr (Or.inr (Or.inl ⟨ks', h⟩))
    · simp at h; exact Or.inr (Or.inr (Or.inr h))
  · rintro (rfl | h | ⟨ks', h⟩ | h)
    · exact Or.inr (Or.inl ⟨ks, Or.inl rfl⟩)
    · exact Or.inl (Or.inr h)
    · exact Or.inr (Or.inl ⟨ks', Or.inr h⟩)
    · exact Or.inr (Or.inr (Or.inr h))

theorem busy_cons_done {w : List Task} {x z : Id} : Busy (.done x :: w) z ↔ z = x ∨ Busy w z := by
  simp [Busy]; grind

/-- Inside the rest of a plan everything wanted is saved before, except what was saved before the creation. -/
theorem rest_split (x : Id) : ∀ (post : List (List Id × List Id)), (∀ b ∈ post, ∀ k ∈ b.2, k ∈ b.1) →
    ∀ (a : List Task) (t : Task) (e : List Task), rest x post = a ++ t :: e →
    (t = .done x ∧ e = [] ∧ ∀ b ∈ post, ∀ z ∈ b.1, Task.save z ∈ a) ∨
    (∃ ks, t = .hash x ks ∧ Task.done x ∈ e ∧ ∀ z ∈ ks, Task.save z ∈ a) ∨
    ∃ b ∈ post, ∃ z ∈ b.1, t = .save z
  | [], _, a, t, e, h => by
      have h : [Task.done x] = a ++ t :: e := h
      cases a with
      | nil => cases h; exact Or.inl ⟨rfl, rfl, by simp⟩
      | cons u a => cases a <;> simp at h
  | b :: post, hk, a, t, e, h => by
      have h : (b.1.map .save ++ [.hash x b.2]) ++ rest x post = a ++ t :: e := by
        rw [← h]; simp [rest]
      rcases split_append h with ⟨f, h1, h2⟩ | ⟨f, h1, h2⟩
      · rcases split_append h1 with ⟨g, h3, h4⟩ | ⟨g, h3, h4⟩
        · right; right
          refine ⟨b, List.mem_cons_self .., ?_⟩
          have : t ∈ b.1.map Task.save := by rw [h3]; simp
          obtain ⟨z, hz, rfl⟩ := List.mem_map.1 this
          exact ⟨z, hz, rfl⟩
        · right; left
          cases g with
          | nil =>
            simp at h4
            obtain ⟨rfl, rfl⟩ := h4
            refine ⟨b.2, rfl, ?_, ?_⟩
            · rw [h2]; simp [rest]
            · intro z hz
              rw [h3]
              have := hk b (List.mem_cons_self ..) z hz
              simp [this]
          | cons u g => cases g <;> simp at h4
      · rcases rest_split x post (fun b' hb' => hk b' (List.mem_cons_of_mem _ hb')) f t e h2 with
          ⟨rfl, rfl, h3⟩ | ⟨ks, rfl, h3, h4⟩ | ⟨b', hb', z, hz, rfl⟩
        · left
          refine ⟨rfl, rfl, ?_⟩
          intro b' hb' z hz
          rw [h1]
          rcases List.mem_cons.1 hb' with rfl | hb'
          · simp [hz]
          · simp [h3 b' hb' z hz]
        · right; left
          exact ⟨ks, rfl, h3, fun z hz => by rw [h1]; simp [h4 z hz]⟩
        · right; right
          exact ⟨b', List.mem_cons_of_mem _ hb', z, hz, rfl⟩

theorem done_mem_rest (x : Id) (post : List (List Id × List Id)) : Task.done x ∈ rest x post := by
  simp [rest]

theorem inv_step (hB : 0 < B) {s : S} (hi : Inv B H s) : Inv B H (step B H s) := by
  obtain ⟨w, memo, built, log⟩ := s
  obtain ⟨h1, h2, h3, h4, h5, h6⟩ := hi
  dsimp only at h1 h2 h3 h4 h5 h6
  cases w with
  | nil => exact ⟨h1, h2, h3, h4, h5, h6⟩
  | cons t0 w =>
    cases t0 with
    | save x =>
      by_cases hx : x ∈ memo
      · have hs : step B H ⟨.save x :: w, memo, built, log⟩ = ⟨w, memo, built, log⟩ := by simp [step, hx]
        rw [hs]
        have hm : ∀ y ∈ memo, y ∈ built ∨ Task.done y ∈ w := fun y hy => by simpa using h1 y hy
        refine ⟨hm, ?_, ?_, ?_, ?_, h6⟩
        · intro y hy z hz
          simpa [busy_cons_save] using h2 y hy z hz
        · intro a t b hw z hz
          have hw : w = a ++ t :: b := hw
          rcases h3 (.save x :: a) t b (by rw [hw]; rfl) z hz with h | h | h
          · exact Or.inl h
          · exact Or.inr (Or.inl (busy_cons_save.1 h))
          · rcases List.mem_cons.1 h with h | h
            · cases h
              rcases hm x hx with h | h
              · exact Or.inl h
              · exact Or.inr (Or.inl (Or.inr (Or.inr h)))
            · exact Or.inr (Or.inr h)
        · intro a t b hw
          exact h4 (.save x :: a) t b (by rw [show w = a ++ t :: b from hw]; rfl)
        · intro a y ks b hw
          exact h5 (.save x :: a) y ks b (by rw [show w = a ++ _ :: b from hw]; rfl)
      · have hs : step B H ⟨.save x :: w, memo, built, log⟩ =
            ⟨(plan B (H x)).pre.map .save ++ .make x :: w, memo, built, log⟩ := by simp [step, hx]
        rw [hs]
        have hbusy : ∀ z, Busy (Task.save x :: w) z →
            Busy ((plan B (H x)).pre.map .save ++ .make x :: w) z := by
          intro z h
          rw [busy_cons_save] at h
          exact busy_append.2 (Or.inr (busy_cons_make.2 (Or.inr h)))
        have hbx : Busy ((plan B (H x)).pre.map .save ++ .make x :: w) x :=
          busy_append.2 (Or.inr (busy_cons_make.2 (Or.inl rfl)))
        have hdown : ∀ p, Busy w p → Reach H p x := h4 [] (.save x) w rfl
        refine ⟨?_, ?_, ?_, ?_, ?_, h6⟩
        · intro y hy
          rcases h1 y hy with h | h
          · exact Or.inl h
          · right
            have : Task.done y ∈ w := by simpa using h
            exact List.mem_append.2 (Or.inr (List.mem_cons_of_mem _ this))
        · intro y hy z hz
          rcases h2 y hy z hz with h | h
          · exact Or.inl h
          · exact Or.inr (hbusy z h)
        · intro a t b hw z hz
          have hw : (plan B (H x)).pre.map Task.save ++ Task.make x :: w = a ++ t :: b := hw
          rcases split_append hw with ⟨e, e1, e2⟩ | ⟨e, e1, e2⟩
          · have : t ∈ (plan B (H x)).pre.map Task.save := by rw [e1]; simp
            obtain ⟨y, _, rfl⟩ := List.mem_map.1 this
            simp [wants] at hz
          · cases e with
            | nil =>
              simp at e2
              obtain ⟨rfl, rfl⟩ := e2
              right; right
              have hz : z ∈ (plan B (H x)).pre := hz
              rw [e1]; simp [hz]
            | cons u e =>
              simp only [List.cons_append, List.cons.injEq] at e2
              obtain ⟨rfl, e2⟩ := e2
              rcases h3 (.save x :: e) t b (by rw [e2]; rfl) z hz with h | h | h
              · exact Or.inl h
              · exact Or.inr (Or.inl (hbusy z h))
              · rcases List.mem_cons.1 h with h | h
                · cases h; exact Or.inr (Or.inl hbx)
                · right; right; rw [e1]; simp [h]
        · intro a t b hw p hp
          have hw : (plan B (H x)).pre.map Task.save ++ Task.make x :: w = a ++ t :: b := hw
          rcases split_append hw with ⟨e, e1, e2⟩ | ⟨e, e1, e2⟩
          · have : t ∈ (plan B (H x)).pre.map Task.save := by rw [e1]; simp
            obtain ⟨y, hy, rfl⟩ := List.mem_map.1 this
            have hpx : Reach H p x := by
              rw [e2] at hp
              rcases busy_append.1 hp with h | h
              · exfalso
                refine busy_saves (l := (plan B (H x)).pre) (x := p) ?_
                rw [e1]
                exact busy_append.2 (Or.inr (busy_cons_save.2 h))
              · rcases busy_cons_make.1 h with rfl | h
                · exact .refl _
                · exact hdown p h
            exact hpx.step ((mem_parts hB _ _).2 (Or.inl hy))
          · cases e with
            | nil =>
              simp at e2
              obtain ⟨rfl, rfl⟩ := e2
              exact hdown p hp
            | cons u e =>
              simp only [List.cons_append, List.cons.injEq] at e2
              obtain ⟨rfl, e2⟩ := e2
              exact h4 (.save x :: e) t b (by rw [e2]; rfl) p hp
        · intro a y ks b hw
          have hw : (plan B (H x)).pre.map Task.save ++ Task.make x :: w = a ++ Task.hash y ks :: b := hw
          rcases split_append hw with ⟨e, e1, e2⟩ | ⟨e, e1, e2⟩
          · have : Task.hash y ks ∈ (plan B (H x)).pre.map Task.save := by rw [e1]; simp
            simp at this
          · cases e with
            | nil => simp at e2
            | cons u e =>
              simp only [List.cons_append, List.cons.injEq] at e2
              obtain ⟨rfl, e2⟩ := e2
              exact h5 (.save x :: e) y ks b (by rw [e2]; rfl)
    | make x =>
      -- both branches leave the same stack
      have hdown : ∀ p, Busy w p → Reach H p x := h4 [] (.make x) w rfl
      have hpre : ∀ z ∈ (plan B (H x)).pre, z ∈ built ∨ Busy (Task.make x :: w) z := by
        intro z hz
        rcases h3 [] (.make x) w rfl z hz with h | h | h
        · exact Or.inl h
        · exact Or.inr h
        · cases h
      have hbusy : ∀ z, Busy (Task.make x :: w) z → Busy (rest x (plan B (H x)).post ++ w) z := by
        intro z h
        rcases busy_cons_make.1 h with rfl | h
        · exact busy_append.2 (Or.inl (busy_rest.2 rfl))
        · exact busy_append.2 (Or.inr h)
      have hks := (keys_saved B (H x)).2
      have hwants : ∀ a t b, rest x (plan B (H x)).post ++ w = a ++ t :: b → ∀ z ∈ wants B H t,
          z ∈ built ∨ Busy (rest x (plan B (H x)).post ++ w) z ∨ Task.save z ∈ a := by
        intro a t b hw z hz
        rcases split_append hw with ⟨e, e1, e2⟩ | ⟨e, e1, e2⟩
        · rcases rest_split x _ hks a t e e1 with ⟨rfl, rfl, g⟩ | ⟨ks, rfl, _, g⟩ | ⟨b', _, y, _, rfl⟩
          · have hz : z ∈ parts (H x) := hz
            rcases (mem_parts hB _ _).1 hz with hz | ⟨b', hb', hz⟩
            · rcases hpre z hz with h | h
              · exact Or.inl h
              · exact Or.inr (Or.inl (hbusy z h))
            · exact Or.inr (Or.inr (g b' hb' z hz))
          · exact Or.inr (Or.inr (g z hz))
          · simp [wants] at hz
        · rcases h3 (.make x :: e) t b (by rw [e2]; rfl) z hz with h | h | h
          · exact Or.inl h
          · exact Or.inr (Or.inl (hbusy z h))
          · right; right
            have : Task.save z ∈ e := by simpa using h
            rw [e1]; simp [this]
      have hchain : ∀ a t b, rest x (plan B (H x)).post ++ w = a ++ t :: b → ∀ p, Busy b p →
          Reach H p t.on := by
        intro a t b hw p hp
        rcases split_append hw with ⟨e, e1, e2⟩ | ⟨e, e1, e2⟩
        · have hpx : Reach H p x := by
            rw [e2] at hp
            rcases busy_append.1 hp with h | h
            · have hr : Busy (rest x (plan B (H x)).post) p := by
                rw [e1]
                refine busy_append.2 (Or.inr ?_)
                rcases h with h | ⟨ks, h⟩ | h
                · exact Or.inl (List.mem_cons_of_mem _ h)
                · exact Or.inr (Or.inl ⟨ks, List.mem_cons_of_mem _ h⟩)
                · exact Or.inr (Or.inr (List.mem_cons_of_mem _ h))
              rw [busy_rest.1 hr]; exact .refl _
            · exact hdown p h
          rcases rest_split x _ hks a t e e1 with ⟨rfl, _, _⟩ | ⟨ks, rfl, _, _⟩ | ⟨b', hb', y, hy, rfl⟩
          · exact hpx
          · exact hpx
          · exact hpx.step ((mem_parts hB _ _).2 (Or.inr ⟨b', hb', hy⟩))
        · exact h4 (.make x :: e) t b (by rw [e2]; rfl) p hp
      have hends : ∀ a y ks b, rest x (plan B (H x)).post ++ w = a ++ Task.hash y ks :: b →
          Task.done y ∈ b := by
        intro a y ks b hw
        rcases split_append hw with ⟨e, e1, e2⟩ | ⟨e, e1, e2⟩
        · rcases rest_split x _ hks a _ e e1 with ⟨h, _, _⟩ | ⟨ks', h, g, _⟩ | ⟨b', hb', y', hy, h⟩
          · cases h
          · cases h
            rw [e2]; simp [g]
          · cases h
        · exact h5 (.make x :: e) y ks b (by rw [e2]; rfl)
      have hbuilt : ∀ y ∈ built, ∀ z ∈ parts (H y), z ∈ built ∨
          Busy (rest x (plan B (H x)).post ++ w) z := by
        intro y hy z hz
        rcases h2 y hy z hz with h | h
        · exact Or.inl h
        · exact Or.inr (hbusy z h)
      have hmemo : ∀ y ∈ memo, y ∈ built ∨ Task.done y ∈ rest x (plan B (H x)).post ++ w := by
        intro y hy
        rcases h1 y hy with h | h
        · exact Or.inl h
        · right
          have : Task.done y ∈ w := by simpa using h
          exact List.mem_append.2 (Or.inr this)
      by_cases hx : x ∈ memo
      · have hs : step B H ⟨.make x :: w, memo, built, log⟩ =
            ⟨rest x (plan B (H x)).post ++ w, memo, built, log⟩ := by simp [step, hx]
        rw [hs]
        exact ⟨hmemo, hbuilt, hwants, hchain, hends, h6⟩
      · have hs : step B H ⟨.make x :: w, memo, built, log⟩ =
            ⟨rest x (plan B (H x)).post ++ w, x :: memo, built,
              log ++ (plan B (H x)).preKeys.map (fun k => ⟨x, k, built⟩)⟩ := by simp [step, hx]
        rw [hs]
        refine ⟨?_, hbuilt, hwants, hchain, hends, ?_⟩
        · intro y hy
          rcases List.mem_cons.1 hy with rfl | hy
          · exact Or.inr (List.mem_append.2 (Or.inl (done_mem_rest _ _)))
          · exact hmemo y hy
        · intro e he hn
          rcases List.mem_append.1 he with he | he
          · exact h6 e he hn
          · obtain ⟨k, hk, rfl⟩ := List.mem_map.1 he
            refine whole (w := Task.make x :: w) h2 ?_ (hpre k ((keys_saved B (H x)).1 k hk)) hn
            intro p hp
            rcases busy_cons_make.1 hp with rfl | hp
            · exact .refl _
            · exact hdown p hp
    | hash x ks =>
      have hs : step B H ⟨.hash x ks :: w, memo, built, log⟩ =
          ⟨w, memo, built, log ++ ks.map (fun k => ⟨x, k, built⟩)⟩ := rfl
      rw [hs]
      have hdown : ∀ p, Busy w p → Reach H p x := h4 [] (.hash x ks) w rfl
      have hbusy : ∀ z, Busy (Task.hash x ks :: w) z → Busy w z := by
        intro z h
        rcases busy_cons_hash.1 h with rfl | h
        · exact Or.inr (Or.inr (h5 [] _ ks w rfl))
        · exact h
      refine ⟨?_, ?_, ?_, ?_, ?_, ?_⟩
      · intro y hy
        simpa using h1 y hy
      · intro y hy z hz
        rcases h2 y hy z hz with h | h
        · exact Or.inl h
        · exact Or.inr (hbusy z h)
      · intro a t b hw z hz
        rcases h3 (.hash x ks :: a) t b (by rw [show w = a ++ t :: b from hw]; rfl) z hz with h | h | h
        · exact Or.inl h
        · exact Or.inr (Or.inl (hbusy z h))
        · exact Or.inr (Or.inr (by simpa using h))
      · intro a t b hw
        exact h4 (.hash x ks :: a) t b (by rw [show w = a ++ t :: b from hw]; rfl)
      · intro a y ks' b hw
        exact h5 (.hash x ks :: a) y ks' b (by rw [show w = a ++ _ :: b from hw]; rfl)
      · intro e he hn
        rcases List.mem_append.1 he with he | he
        · exact h6 e he hn
        · obtain ⟨k, hk, rfl⟩ := List.mem_map.1 he
          refine whole (w := Task.hash x ks :: w) h2 ?_ ?_ hn
          · intro p hp
            exact hdown p (hbusy p hp)
          · rcases h3 [] (.hash x ks) w rfl k hk with h | h | h
            · exact Or.inl h
            · exact Or.inr h
            · cases h
    | done x =>
      have hs : step B H ⟨.done x :: w, memo, built, log⟩ = ⟨w, memo, x :: built, log⟩ := rfl
      rw [hs]
      have hbusy : ∀ z, z ∈ built ∨ Busy (Task.done x :: w) z → z ∈ x :: built ∨ Busy w z := by
        rintro z (h | h)
        · exact Or.inl (List.mem_cons_of_mem _ h)
        · rcases busy_cons_done.1 h with rfl | h
          · exact Or.inl (List.mem_cons_self ..)
          · exact Or.inr h
      refine ⟨?_, ?_, ?_, ?_, ?_, h6⟩
      · intro y hy
        rcases h1 y hy with h | h
        · exact Or.inl (List.mem_cons_of_mem _ h)
        · rcases List.mem_cons.1 h with h | h
          · cases h; exact Or.inl (List.mem_cons_self ..)
          · exact Or.inr h
      · intro y hy z hz
        rcases List.mem_cons.1 hy with rfl | hy
        · rcases h3 [] (.done y) w rfl z hz with h | h | h
          · exact hbusy z (Or.inl h)
          · exact hbusy z (Or.inr h)
          · cases h
        · exact hbusy z (h2 y hy z hz)
      · intro a t b hw z hz
        rcases h3 (.done x :: a) t b (by rw [show w = a ++ t :: b from hw]; rfl) z hz with h | h | h
        · exact Or.inl (List.mem_cons_of_mem _ h)
        · rcases hbusy z (Or.inr h) with h | h
          · exact Or.inl h
          · exact Or.inr (Or.inl h)
        · exact Or.inr (Or.inr (by simpa using h))
      · intro a t b hw
        exact h4 (.done x :: a) t b (by rw [show w = a ++ t :: b from hw]; rfl)
      · intro a y ks' b hw
        exact h5 (.done x :: a) y ks' b (by rw [show w = a ++ _ :: b from hw]; rfl)

theorem inv_run (hB : 0 < B) (root : Id) : ∀ n, Inv B H (run B H root n)
  | 0 => by
      refine ⟨by simp [run], by simp [run], ?_, ?_, ?_, by simp [run]⟩
      · intro a t b hw z hz
        have hw : [Task.save root] = a ++ t :: b := hw
        cases a with
        | nil => cases hw; simp [wants] at hz
        | cons u a => cases a <;> simp at hw
      · intro a t b hw p hp
        have hw : [Task.save root] = a ++ t :: b := hw
        cases a with
        | nil => cases hw; simp [Busy] at hp
        | cons u a => cases a <;> simp at hw
      · intro a y ks b hw
        have hw : [Task.save root] = a ++ Task.hash y ks :: b := hw
        cases a with
        | nil => cases hw
        | cons u a => cases a <;> simp at hw
  | n + 1 => inv_step hB (inv_run hB root n)

/-! ## Every key is hashed -/

theorem mem_keysOf {B : Nat} (hB : 0 < B) (o : Obj) (k : Id) :
    k ∈ keysOf o ↔ k ∈ (plan B o).preKeys ∨ ∃ b ∈ (plan B o).post, k ∈ b.2 := by
  have hl : ∀ items : List Id, ¬ ∃ b ∈ listBatches B items, k ∈ b.2 := by
    rintro items ⟨b, hb, hk⟩
    obtain ⟨c, _, rfl⟩ := List.mem_map.1 hb
    cases hk
  have hd : ∀ items : List (Id × Id), (∃ b ∈ dictBatches B items, k ∈ b.2) ↔ k ∈ items.map (·.1) := by
    intro items
    constructor
    · rintro ⟨b, hb, hk⟩
      obtain ⟨c, hc, rfl⟩ := List.mem_map.1 hb
      obtain ⟨kv, hkv, rfl⟩ := List.mem_map.1 hk
      exact List.mem_map.2 ⟨kv, (mem_chunks hB items.length items (Nat.le_refl _) kv).1 ⟨c, hc, hkv⟩, rfl⟩
    · intro hk
      obtain ⟨kv, hkv, rfl⟩ := List.mem_map.1 hk
      obtain ⟨c, hc, hkv⟩ := (mem_chunks hB items.length items (Nat.le_refl _) kv).2 hkv
      exact ⟨_, List.mem_map.2 ⟨c, hc, rfl⟩, List.mem_map.2 ⟨kv, hkv, rfl⟩⟩
  cases o with
  | atom => simp [keysOf, plan]
  | list items =>
    simp only [keysOf, plan, List.not_mem_nil, false_or, false_iff]
    exact hl items
  | tuple items => simp [keysOf, plan]
  | set items =>
    simp only [keysOf, plan, List.not_mem_nil, false_or]
    rw [← mem_chunks hB items.length items (Nat.le_refl _) k]
    constructor
    · rintro ⟨c, hc, hk⟩
      exact ⟨(c, c), List.mem_map.2 ⟨c, hc, rfl⟩, hk⟩
    · rintro ⟨b, hb, hk⟩
      obtain ⟨c, hc, rfl⟩ := List.mem_map.1 hb
      exact ⟨c, hc, hk⟩
  | fset items => simp [keysOf, plan]
  | oset items => simp [keysOf, plan]
  | dict items => simp only [keysOf, plan, List.not_mem_nil, false_or]; exact (hd items).symm
  | inst args litems ditems state =>
    simp only [keysOf, plan, List.not_mem_nil, false_or]
    rw [← hd ditems]
    constructor
    · rintro ⟨b, hb, hk⟩
      exact ⟨b, by simp [hb], hk⟩
    · rintro ⟨b, hb, hk⟩
      rcases List.mem_append.1 hb with hb | hb
      · rcases List.mem_append.1 hb with hb | hb
        · exact absurd ⟨b, hb, hk⟩ (hl litems)
        · exact ⟨b, hb, hk⟩
      · obtain ⟨s, _, rfl⟩ := List.mem_map.1 hb
        cases hk

theorem hash_mem_rest {x y : Id} {ks : List Id} {post : List (List Id × List Id)} :
    Task.hash y ks ∈ rest x post ↔ y = x ∧ ∃ b ∈ post, ks = b.2 := by
  simp only [rest, List.mem_append, List.mem_flatMap, List.mem_map, List.mem_singleton]
  constructor
  · rintro (⟨b, hb, ⟨_, _, h⟩ | h⟩ | h)
    · cases h
    · cases h; exact ⟨rfl, b, hb, rfl⟩
    · cases h
  · rintro ⟨rfl, b, hb, rfl⟩
    exact Or.inl ⟨b, hb, Or.inr rfl⟩

/-- What is known of the log: the keys of every object that exists have been hashed or will be, and nothing else. -/
structure LogInv (H : Id → Obj) (root : Id) (s : S) : Prop where
  keys : ∀ c ∈ s.memo, ∀ k ∈ keysOf (H c),
    (∃ e ∈ s.log, e.container = c ∧ e.key = k) ∨ ∃ ks, Task.hash c ks ∈ s.work ∧ k ∈ ks
  work : ∀ c ks, Task.hash c ks ∈ s.work → ∀ k ∈ ks, k ∈ keysOf (H c)
  log : ∀ e ∈ s.log, e.key ∈ keysOf (H e.container)
  root : root ∈ s.built ∨ Busy s.work root ∨ Task.save root ∈ s.work
  made : ∀ x ∈ s.built, x ∈ s.memo
  done : ∀ x, Task.done x ∈ s.work → x ∈ s.memo

theorem done_mem_rest_iff {x y : Id} {post : List (List Id × List Id)} :
    Task.done y ∈ rest x post ↔ y = x := by
  constructor
  · intro h
    exact busy_rest.1 (Or.inr (Or.inr h))
  · rintro rfl
    exact done_mem_rest _ _

theorem logInv_step (hB : 0 < B) {root : Id} {s : S} (hi : Inv B H s) (hl : LogInv H root s) :
    LogInv H root (step B H s) := by
  obtain ⟨w, memo, built, log⟩ := s
  obtain ⟨h1, h2, h3, h4, h5, h6⟩ := hl
  have i1 := hi.memo
  have i5 := hi.ends
  dsimp only at h1 h2 h3 h4 h5 h6 i1 i5
  cases w with
  | nil => exact ⟨h1, h2, h3, h4, h5, h6⟩
  | cons t0 w =>
    cases t0 with
    | save x =>
      by_cases hx : x ∈ memo
      · have hs : step B H ⟨.save x :: w, memo, built, log⟩ = ⟨w, memo, built, log⟩ := by simp [step, hx]
        rw [hs]
        refine ⟨?_, ?_, h3, ?_, h5, ?_⟩
        · intro c hc k hk
          simpa using h1 c hc k hk
        · intro c ks hc
          exact h2 c ks (List.mem_cons_of_mem _ hc)
        · rcases h4 with h | h | h
          · exact Or.inl h
          · exact Or.inr (Or.inl (busy_cons_save.1 h))
          · rcases List.mem_cons.1 h with h | h
            · cases h
              rcases i1 root hx with h | h
              · exact Or.inl h
              · exact Or.inr (Or.inl (Or.inr (Or.inr (by simpa using h))))
            · exact Or.inr (Or.inr h)
        · intro y hy
          exact h6 y (List.mem_cons_of_mem _ hy)
      · have hs : step B H ⟨.save x :: w, memo, built, log⟩ =
            ⟨(plan B (H x)).pre.map .save ++ .make x :: w, memo, built, log⟩ := by simp [step, hx]
        rw [hs]
        have hh : ∀ c ks, Task.hash c ks ∈ (plan B (H x)).pre.map Task.save ++ Task.make x :: w ↔
            Task.hash c ks ∈ w := by simp
        refine ⟨?_, ?_, h3, ?_, h5, ?_⟩
        · intro c hc k hk
          rcases h1 c hc k hk with h | ⟨ks, h, hk⟩
          · exact Or.inl h
          · exact Or.inr ⟨ks, (hh c ks).2 (by simpa using h), hk⟩
        · intro c ks hc
          exact h2 c ks (List.mem_cons_of_mem _ ((hh c ks).1 hc))
        · rcases h4 with h | h | h
          · exact Or.inl h
          · exact Or.inr (Or.inl (busy_append.2 (Or.inr (busy_cons_make.2 (Or.inr (busy_cons_save.1 h))))))
          · rcases List.mem_cons.1 h with h | h
            · cases h
              exact Or.inr (Or.inl (busy_append.2 (Or.inr (busy_cons_make.2 (Or.inl rfl)))))
            · exact Or.inr (Or.inr (by simp [h]))
        · intro y hy
          have hy : Task.done y ∈ w := by simpa using hy
          exact h6 y (List.mem_cons_of_mem _ hy)
    | make x =>
      have hroot : root ∈ built ∨ Busy (rest x (plan B (H x)).post ++ w) root ∨
          Task.save root ∈ rest x (plan B (H x)).post ++ w := by
        rcases h4 with h | h | h
        · exact Or.inl h
        · rcases busy_cons_make.1 h with rfl | h
          · exact Or.inr (Or.inl (busy_append.2 (Or.inl (busy_rest.2 rfl))))
          · exact Or.inr (Or.inl (busy_append.2 (Or.inr h)))
        · have h : Task.save root ∈ w := by simpa using h
          exact Or.inr (Or.inr (by simp [h]))
      have hwork : ∀ c ks, Task.hash c ks ∈ rest x (plan B (H x)).post ++ w → ∀ k ∈ ks, k ∈ keysOf (H c) := by
        intro c ks hc k hk
        rcases List.mem_append.1 hc with hc | hc
        · obtain ⟨rfl, b, hb, rfl⟩ := hash_mem_rest.1 hc
          exact (mem_keysOf hB _ _).2 (Or.inr ⟨b, hb, hk⟩)
        · exact h2 c ks (List.mem_cons_of_mem _ hc) k hk
      by_cases hx : x ∈ memo
      · have hs : step B H ⟨.make x :: w, memo, built, log⟩ =
            ⟨rest x (plan B (H x)).post ++ w, memo, built, log⟩ := by simp [step, hx]
        rw [hs]
        refine ⟨?_, hwork, h3, hroot, h5, ?_⟩
        · intro c hc k hk
          rcases h1 c hc k hk with h | ⟨ks, h, hk⟩
          · exact Or.inl h
          · have h : Task.hash c ks ∈ w := by simpa using h
            exact Or.inr ⟨ks, List.mem_append.2 (Or.inr h), hk⟩
        · intro y hy
          rcases List.mem_append.1 hy with hy | hy
          · rw [done_mem_rest_iff.1 hy]; exact hx
          · exact h6 y (List.mem_cons_of_mem _ hy)
      · have hs : step B H ⟨.make x :: w, memo, built, log⟩ =
            ⟨rest x (plan B (H x)).post ++ w, x :: memo, built,
              log ++ (plan B (H x)).preKeys.map (fun k => ⟨x, k, built⟩)⟩ := by simp [step, hx]
        rw [hs]
        refine ⟨?_, hwork, ?_, hroot, fun y hy => List.mem_cons_of_mem _ (h5 y hy), ?_⟩
        · intro c hc k hk
          rcases List.mem_cons.1 hc with rfl | hc
          · rcases (mem_keysOf hB _ _).1 hk with hk | ⟨b, hb, hk⟩
            · exact Or.inl ⟨⟨c, k, built⟩, List.mem_append.2 (Or.inr (List.mem_map.2 ⟨k, hk, rfl⟩)), rfl, rfl⟩
            · exact Or.inr ⟨b.2, List.mem_append.2 (Or.inl (hash_mem_rest.2 ⟨rfl, b, hb, rfl⟩)), hk⟩
          · rcases h1 c hc k hk with ⟨e, he, h⟩ | ⟨ks, h, hk⟩
            · exact Or.inl ⟨e, List.mem_append.2 (Or.inl he), h⟩
            · have h : Task.hash c ks ∈ w := by simpa using h
              exact Or.inr ⟨ks, List.mem_append.2 (Or.inr h), hk⟩
        · intro e he
          rcases List.mem_append.1 he with he | he
          · exact h3 e he
          · obtain ⟨k, hk, rfl⟩ := List.mem_map.1 he
            exact (mem_keysOf hB _ _).2 (Or.inl hk)
        · intro y hy
          rcases List.mem_append.1 hy with hy | hy
          · rw [done_mem_rest_iff.1 hy]; exact List.mem_cons_self ..
          · exact List.mem_cons_of_mem _ (h6 y (List.mem_cons_of_mem _ hy))
    | hash x ks =>
      have hs : step B H ⟨.hash x ks :: w, memo, built, log⟩ =
          ⟨w, memo, built, log ++ ks.map (fun k => ⟨x, k, built⟩)⟩ := rfl
      rw [hs]
      refine ⟨?_, ?_, ?_, ?_, h5, ?_⟩
      · intro c hc k hk
        rcases h1 c hc k hk with ⟨e, he, h⟩ | ⟨ks', h, hk⟩
        · exact Or.inl ⟨e, List.mem_append.2 (Or.inl he), h⟩
        · rcases List.mem_cons.1 h with h | h
          · cases h
            exact Or.inl ⟨⟨x, k, built⟩, List.mem_append.2 (Or.inr (List.mem_map.2 ⟨k, hk, rfl⟩)), rfl, rfl⟩
          · exact Or.inr ⟨ks', h, hk⟩
      · intro c ks' hc
        exact h2 c ks' (List.mem_cons_of_mem _ hc)
      · intro e he
        rcases List.mem_append.1 he with he | he
        · exact h3 e he
        · obtain ⟨k, hk, rfl⟩ := List.mem_map.1 he
          exact h2 x ks (List.mem_cons_self ..) k hk
      · rcases h4 with h | h | h
        · exact Or.inl h
        · rcases busy_cons_hash.1 h with rfl | h
          · exact Or.inr (Or.inl (Or.inr (Or.inr (i5 [] _ ks w rfl))))
          · exact Or.inr (Or.inl h)
        · exact Or.inr (Or.inr (by simpa using h))
      · intro y hy
        exact h6 y (List.mem_cons_of_mem _ hy)
    | done x =>
      have hs : step B H ⟨.done x :: w, memo, built, log⟩ = ⟨w, memo, x :: built, log⟩ := rfl
      rw [hs]
      refine ⟨?_, ?_, h3, ?_, ?_, ?_⟩
      · intro c hc k hk
        simpa using h1 c hc k hk
      · intro c ks hc
        exact h2 c ks (List.mem_cons_of_mem _ hc)
      · rcases h4 with h | h | h
        · exact Or.inl (List.mem_cons_of_mem _ h)
        · rcases busy_cons_done.1 h with rfl | h
          · exact Or.inl (List.mem_cons_self ..)
          · exact Or.inr (Or.inl h)
        · exact Or.inr (Or.inr (by simpa using h))
      · intro y hy
        rcases List.mem_cons.1 hy with rfl | hy
        · exact h6 y (List.mem_cons_self ..)
        · exact h5 y hy
      · intro y hy
        exact h6 y (List.mem_cons_of_mem _ hy)

theorem logInv_run (hB : 0 < B) (root : Id) : ∀ n, LogInv H root (run B H root n)
  | 0 => ⟨by simp [run], by simp [run], by simp [run], by simp [run], by simp [run], by simp [run]⟩
  | n + 1 => logInv_step hB (inv_run hB root n) (logInv_run hB root n)

theorem run_built (hB : 0 < B) (root : Id) (n : Nat) (hf : (run B H root n).work = []) (y : Id)
    (hy : Reach H root y) : y ∈ (run B H root n).built := by
  have hno : ∀ z, ¬ Busy (run B H root n).work z := by
    intro z h
    rw [hf] at h
    rcases h with h | ⟨ks, h⟩ | h <;> cases h
  induction hy with
  | refl =>
    rcases (logInv_run hB root n).root with h | h | h
    · exact h
    · exact absurd h (hno _)
    · rw [hf] at h; cases h
  | step _ h2 ih => exact ((inv_run hB root n).built _ ih _ h2).resolve_right (hno _)

/-! ## The container is what is dumped -/

/-- `y` can be reached from `x` on a path that does not go through `r`. -/
inductive Avoid (H : Id → Obj) (r : Id) : Id → Id → Prop
  | refl {x : Id} : x ≠ r → Avoid H r x x
  | step {x y z : Id} : Avoid H r x y → z ∈ parts (H y) → z ≠ r → Avoid H r x z

/-- The objects under construction below the tasks of the root are the root. -/
structure RootInv (H : Id → Obj) (root : Id) (s : S) : Prop where
  memo : root ∈ s.memo
  make : Task.make root ∉ s.work
  below : ∀ a ks b, s.work = a ++ Task.hash root ks :: b → ∀ p, Busy b p → p = root
  log : ∀ e ∈ s.log, e.container = root → ∀ y, Avoid H root e.key y → y ∈ e.built

theorem avoid_ne {r x y : Id} (h : Avoid H r x y) : y ≠ r := by
  cases h with
  | refl h => exact h
  | step _ _ h => exact h

theorem rootInv_step (hB : 0 < B) {root : Id} {s : S} (hi : Inv B H s) (hr : RootInv H root s) :
    RootInv H root (step B H s) := by
  obtain ⟨w, memo, built, log⟩ := s
  obtain ⟨h1, h2, h3, h4⟩ := hr
  have i2 := hi.built
  have i3 := hi.wants
  dsimp only at h1 h2 h3 h4 i2 i3
  cases w with
  | nil => exact ⟨h1, h2, h3, h4⟩
  | cons t0 w =>
    have htail : ∀ a ks b, w = a ++ Task.hash root ks :: b → ∀ p, Busy b p → p = root := by
      intro a ks b hw
      exact h3 (t0 :: a) ks b (by rw [hw]; rfl)
    cases t0 with
    | save x =>
      by_cases hx : x ∈ memo
      · have hs : step B H ⟨.save x :: w, memo, built, log⟩ = ⟨w, memo, built, log⟩ := by simp [step, hx]
        rw [hs]
        exact ⟨h1, fun h => h2 (List.mem_cons_of_mem _ h), htail, h4⟩
      · have hs : step B H ⟨.save x :: w, memo, built, log⟩ =
            ⟨(plan B (H x)).pre.map .save ++ .make x :: w, memo, built, log⟩ := by simp [step, hx]
        rw [hs]
        have hne : root ≠ x := fun h => hx (h ▸ h1)
        refine ⟨h1, ?_, ?_, h4⟩
        · intro h
          rcases List.mem_append.1 h with h | h
          · simp at h
          · rcases List.mem_cons.1 h with h | h
            · cases h; exact hne rfl
            · exact h2 (List.mem_cons_of_mem _ h)
        · intro a ks b hw
          have hw : (plan B (H x)).pre.map Task.save ++ Task.make x :: w = a ++ Task.hash root ks :: b := hw
          rcases split_append hw with ⟨e, e1, e2⟩ | ⟨e, e1, e2⟩
          · have : Task.hash root ks ∈ (plan B (H x)).pre.map Task.save := by rw [e1]; simp
            simp at this
          · cases e with
            | nil => simp at e2
            | cons u e =>
              simp only [List.cons_append, List.cons.injEq] at e2
              obtain ⟨rfl, e2⟩ := e2
              exact htail e ks b e2
    | make x =>
      have hne : x ≠ root := by
        rintro rfl
        exact h2 (List.mem_cons_self ..)
      have hmake : Task.make root ∉ rest x (plan B (H x)).post ++ w := by
        intro h
        rcases List.mem_append.1 h with h | h
        · simp [rest] at h
        · exact h2 (List.mem_cons_of_mem _ h)
      have hbelow : ∀ a ks b, rest x (plan B (H x)).post ++ w = a ++ Task.hash root ks :: b →
          ∀ p, Busy b p → p = root := by
        intro a ks b hw
        rcases split_append hw with ⟨e, e1, e2⟩ | ⟨e, e1, e2⟩
        · have : Task.hash root ks ∈ rest x (plan B (H x)).post := by rw [e1]; simp
          exact absurd (hash_mem_rest.1 this).1.symm hne
        · exact htail e ks b e2
      by_cases hx : x ∈ memo
      · have hs : step B H ⟨.make x :: w, memo, built, log⟩ =
            ⟨rest x (plan B (H x)).post ++ w, memo, built, log⟩ := by simp [step, hx]
        rw [hs]
        exact ⟨h1, hmake, hbelow, h4⟩
      · have hs : step B H ⟨.make x :: w, memo, built, log⟩ =
            ⟨rest x (plan B (H x)).post ++ w, x :: memo, built,
              log ++ (plan B (H x)).preKeys.map (fun k => ⟨x, k, built⟩)⟩ := by simp [step, hx]
        rw [hs]
        refine ⟨List.mem_cons_of_mem _ h1, hmake, hbelow, ?_⟩
        intro e he hc
        rcases List.mem_append.1 he with he | he
        · exact h4 e he hc
        · obtain ⟨k, hk, rfl⟩ := List.mem_map.1 he
          exact absurd hc hne
    | hash x ks =>
      have hs : step B H ⟨.hash x ks :: w, memo, built, log⟩ =
          ⟨w, memo, built, log ++ ks.map (fun k => ⟨x, k, built⟩)⟩ := rfl
      rw [hs]
      refine ⟨h1, fun h => h2 (List.mem_cons_of_mem _ h), htail, ?_⟩
      intro e he hc
      rcases List.mem_append.1 he with he | he
      · exact h4 e he hc
      · obtain ⟨k, hk, rfl⟩ := List.mem_map.1 he
        have hc : x = root := hc
        subst hc
        have hb : ∀ p, Busy (Task.hash x ks :: w) p → p = x := by
          intro p hp
          rcases busy_cons_hash.1 hp with h | h
          · exact h
          · exact h3 [] ks w rfl p h
        have key : ∀ y, Avoid H x k y → y ∈ built := by
          clear he
          intro y hy
          induction hy with
          | refl hne =>
            rcases i3 [] (.hash x ks) w rfl _ hk with h | h | h
            · exact h
            · exact absurd (hb _ h) hne
            · cases h
          | step h1 h2 hne ih =>
            rcases i2 _ ih _ h2 with h | h
            · exact h
            · exact absurd (hb _ h) hne
        exact key
    | done x =>
      have hs : step B H ⟨.done x :: w, memo, built, log⟩ = ⟨w, memo, x :: built, log⟩ := rfl
      rw [hs]
      exact ⟨h1, fun h => h2 (List.mem_cons_of_mem _ h), htail, h4⟩

theorem rootInv_run (hB : 0 < B) (root : Id) (hpre : (plan B (H root)).pre = [])
    (hk : (plan B (H root)).preKeys = []) : ∀ n, RootInv H root (run B H root (n + 2))
  | 0 => by
      have hs : run B H root 2 = ⟨rest root (plan B (H root)).post, [root], [], []⟩ := by
        simp [run, step, hpre, hk]
      rw [hs]
      refine ⟨by simp, by simp [rest], ?_, by simp⟩
      intro a ks b hw p hp
      have hw : rest root (plan B (H root)).post = a ++ Task.hash root ks :: b := hw
      have : Busy (rest root (plan B (H root)).post) p := by
        rw [hw]
        exact busy_append.2 (Or.inr (busy_cons_hash.2 (Or.inr hp)))
      exact busy_rest.1 this
  | n + 1 => rootInv_step hB (inv_run hB root (n + 2)) (rootInv_run hB root hpre hk n)

/-- Objects that are made empty and filled afterwards: lists, sets, dicts, and instances made without arguments. -/
def MadeEmpty : Obj → Prop
  | .list _ => True
  | .set _ => True
  | .dict _ => True
  | .inst args _ _ _ => args = []
  | _ => False

/-! ## The theorems -/

/-- Whenever loading hashes a key (or set element) from which the container cannot be reached, the key and everything that
can be reached from it are complete. -/
theorem C106_keys_whole_partial (hB : 0 < B) (root : Id) (n : Nat) (e : Event)
    (he : e ∈ (run B H root n).log) (hn : ¬ Reach H e.key e.container) :
    ∀ y, Reach H e.key y → y ∈ e.built :=
  (inv_run hB root n).log e he hn

/-- The log is complete: when the load is over everything that can be reached from the object is complete, and for every dict,
set, frozenset or dict subclass instance among that exactly its keys have been hashed. -/
theorem C106_every_key (hB : 0 < B) (root : Id) (n : Nat) (hf : (run B H root n).work = []) :
    (∀ y, Reach H root y → y ∈ (run B H root n).built) ∧
    (∀ c, Reach H root c → ∀ k ∈ keysOf (H c), ∃ e ∈ (run B H root n).log, e.container = c ∧ e.key = k) ∧
    ∀ e ∈ (run B H root n).log, e.key ∈ keysOf (H e.container) := by
  refine ⟨run_built hB root n hf, ?_, (logInv_run hB root n).log⟩
  intro c hc k hk
  have hl := logInv_run (H := H) hB root n
  rcases hl.keys c (hl.made c (run_built hB root n hf c hc)) k hk with h | ⟨ks, h, _⟩
  · exact h
  · rw [hf] at h; cases h

/-- If the object dumped is the dict or set itself (a set of protocol 4 or 5: `Obj.set`), its keys are complete when they are hashed even if they refer back to it, and
so is everything that can be reached from them without going through it. -/
theorem C106_top_container (hB : 0 < B) (root : Id) (hm : MadeEmpty (H root)) (n : Nat) (e : Event)
    (he : e ∈ (run B H root n).log) (hc : e.container = root) :
    ∀ y, Avoid H root e.key y → y ∈ e.built := by
  have hpre : (plan B (H root)).pre = [] ∧ (plan B (H root)).preKeys = [] := by
    cases h : H root <;> simp_all [MadeEmpty, plan]
  match n with
  | 0 => simp [run] at he
  | 1 => simp [run, step] at he
  | n + 2 => exact (rootInv_run hB root hpre.1 hpre.2 n).log e he hc

/-! ## A key that refers back to its container -/

/-- An instance `0` whose `__dict__` `1` holds a set `2` with the instance in it. -/
def backRef : Id → Obj
  | 0 => .inst [] [] [] (some 1)
  | 1 => .dict [(3, 2)]
  | 2 => .set [0]
  | _ => .atom

/-- Dumping the instance: on load it is hashed for the set before its attributes are there. -/
theorem C106_early_hash : (run 1000 backRef 0 40).work = [] ∧
    (⟨2, 0, [3]⟩ : Event) ∈ (run 1000 backRef 0 40).log ∧
    0 ∉ ([3] : List Id) ∧ 1 ∉ ([3] : List Id) := by
  decide +kernel

/-- Dumping the set instead: the same instance is complete when it is hashed. -/
theorem C106_depends_on_root : (run 1000 backRef 2 40).work = [] ∧
    (∃ e ∈ (run 1000 backRef 2 40).log, e.container = 2 ∧ e.key = 0) ∧
    ∀ e ∈ (run 1000 backRef 2 40).log, e.container = 2 → 0 ∈ e.built := by
  decide +kernel

/-- A frozenset cannot be made before its elements, so even as the object dumped it is hashed too early. -/
def backRefF : Id → Obj
  | 0 => .inst [] [] [] (some 1)
  | 1 => .dict [(3, 2)]
  | 2 => .fset [0]
  | _ => .atom

theorem C106_frozenset : (run 1000 backRefF 2 40).work = [] ∧
    ∃ e ∈ (run 1000 backRefF 2 40).log, e.container = 2 ∧ e.key = 0 ∧ 0 ∉ e.built := by
  decide +kernel

/-! ## Every protocol -/

theorem parts_atProtocol (p : Nat) (H : Id → Obj) (x : Id) : parts (atProtocol p H x) = parts (H x) := by
  unfold atProtocol; cases H x <;> first | rfl | (dsimp only; split <;> rfl)

theorem reach_atProtocol {p : Nat} {H : Id → Obj} {x y : Id} (h : Reach H x y) : Reach (atProtocol p H) x y := by
  induction h with
  | refl => exact .refl _
  | step _ hz ih => exact ih.step (by rw [parts_atProtocol]; exact hz)

theorem reach_of_atProtocol {p : Nat} {H : Id → Obj} {x y : Id} (h : Reach (atProtocol p H) x y) : Reach H x y := by
  induction h with
  | refl => exact .refl _
  | step _ hz ih => exact ih.step (by rw [parts_atProtocol] at hz; exact hz)

/-- C106_keys_whole_partial for pickles of every protocol. -/
theorem C106_every_protocol_partial (p : Nat) (H : Id → Obj) (hB : 0 < B) (root : Id) (n : Nat) (e : Event)
    (he : e ∈ (run B (atProtocol p H) root n).log) (hn : ¬ Reach H e.key e.container) :
    ∀ y, Reach H e.key y → y ∈ e.built := fun y hy =>
  C106_keys_whole_partial hB root n e he (fun h => hn (reach_of_atProtocol h)) y (reach_atProtocol hy)

theorem keysOf_atProtocol (p : Nat) (H : Id → Obj) (x : Id) : keysOf (atProtocol p H x) = keysOf (H x) := by
  unfold atProtocol; cases H x <;> first | rfl | (dsimp only; split <;> rfl)

/-- C106_every_key for pickles of every protocol: the same keys are hashed, and no others. -/
theorem C106_every_key_every_protocol (p : Nat) (H : Id → Obj) (hB : 0 < B) (root : Id) (n : Nat)
    (hf : (run B (atProtocol p H) root n).work = []) :
    (∀ y, Reach H root y → y ∈ (run B (atProtocol p H) root n).built) ∧
    (∀ c, Reach H root c → ∀ k ∈ keysOf (H c), ∃ e ∈ (run B (atProtocol p H) root n).log, e.container = c ∧ e.key = k) ∧
    ∀ e ∈ (run B (atProtocol p H) root n).log, e.key ∈ keysOf (H e.container) := by
  obtain ⟨h1, h2, h3⟩ := C106_every_key hB root n hf
  refine ⟨fun y hy => h1 y (reach_atProtocol hy), fun c hc k hk => ?_, fun e he => ?_⟩
  · exact h2 c (reach_atProtocol hc) k (by rw [keysOf_atProtocol]; exact hk)
  · have := h3 e he; rwa [keysOf_atProtocol] at this

/-- Up to protocol 3 a set is made from its elements, so even as the object dumped its elements are hashed too early if they refer back to it: first
when the set inside is made, and then again for the one outside, which is dropped. -/
theorem C106_old_sets : (run 1000 (atProtocol 3 backRef) 2 40).work = [] ∧
    (∃ e ∈ (run 1000 (atProtocol 3 backRef) 2 40).log, e.container = 2 ∧ e.key = 0 ∧ 0 ∉ e.built) ∧
    (((run 1000 (atProtocol 3 backRef) 2 40).log.filter fun e => e.container = 2).map (·.key)) = [0, 0] := by
  decide +kernel

/-! ## The hypotheses are met -/

/-- `{(a, b): [..], c: ..}` with instances as keys and values. -/
def sample : Id → Obj
  | 0 => .dict [(1, 2), (3, 0)]
  | 1 => .tuple [3, 4]
  | 2 => .list [0, 1]
  | 3 => .inst [4] [] [] (some 5)
  | 5 => .dict [(6, 7)]
  | 7 => .fset [6, 4]
  | _ => .atom

example : (run 1000 sample 0 60).work = [] ∧ (run 1000 sample 0 60).log.length = 5 := by decide +kernel

example : (run 1000 (atProtocol 2 sample) 0 60).work = [] ∧
    ∃ e ∈ (run 1000 (atProtocol 2 sample) 0 60).log, e.container = 7 ∧ e.key = 6 := by decide +kernel

/-- With batches of one, the second key is hashed after the first value is complete. -/
example : (run 1 sample 0 60).work = [] ∧ (run 1 sample 0 60).log.length = 5 := by decide +kernel

/-- The tuple key of the sample does not reach its dict: only 1, 3, 4, 5, 6, 7 can be reached from it. -/
theorem sample_closed : ∀ y, Reach sample 1 y → y ∈ [1, 3, 4, 5, 6, 7] := by
  intro y hy
  induction hy with
  | refl => decide
  | step _ h2 ih =>
    simp only [List.mem_cons, List.not_mem_nil, or_false] at ih
    rcases ih with rfl | rfl | rfl | rfl | rfl | rfl <;> simp_all [sample, parts] <;> grind

example : ∃ e ∈ (run 1000 sample 0 60).log, e.container = 0 ∧ e.key = 1 ∧ ¬ Reach sample e.key e.container ∧
    Reach sample e.key 7 := by
  have : ∃ e ∈ (run 1000 sample 0 60).log, e.container = 0 ∧ e.key = 1 := by decide +kernel
  obtain ⟨e, he, h1, h2⟩ := this
  refine ⟨e, he, h1, h2, ?_, ?_⟩
  · rw [h1, h2]
    intro h
    have := sample_closed 0 h
    simp at this
  · rw [h2]
    refine ((Reach.refl 1).step (y := 1) (z := 3) (by decide)).step (z := 5) (by decide) |>.step (by decide)

example : MadeEmpty (backRef 2) ∧ Avoid backRef 2 0 1 :=
  ⟨trivial, (Avoid.refl (by decide)).step (by decide) (by decide)⟩

end Verif.Keys
