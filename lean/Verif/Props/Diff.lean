import Verif.Model.Diff
/-! Properties C37, C38 and C51 of `dill/__diff.py`: what `memorise` records and what `has_changed` reports. -/
set_option linter.unusedSimpArgs false
set_option linter.unusedVariables false
namespace Verif.Diff

/-! ### specification -/

/-- `y` is the value of an attribute of `r`, an item of it, or a key of it -/
def Link (r : Rec) (y : Id) : Prop :=
  (∃ a k, r.attrs = some a ∧ (k, y) ∈ a) ∨ (∃ l, r.seq = .list l ∧ y ∈ l) ∨
  (∃ l k v, r.seq = .dict l ∧ (k, v) ∈ l ∧ (y = k ∨ y = v))

/-- `y` is an item of `r`, or a key of it -/
def Item (r : Rec) (y : Id) : Prop :=
  (∃ l, r.seq = .list l ∧ y ∈ l) ∨ (∃ l k v, r.seq = .dict l ∧ (k, v) ∈ l ∧ (y = k ∨ y = v))

/-- reachable in a graph of objects, not passing through an excluded object -/
inductive Reach (G : Graph) (excl : Id → Bool) : Id → Id → Prop where
  | refl (x : Id) : Reach G excl x x
  | step {x y z : Id} : excl x = false → Link (G x) y → Reach G excl y z → Reach G excl x z

/-- what the name `k` is bound to -/
def attrOf (r : Rec) (k : String) : Option Id :=
  match r.attrs with
  | none => none
  | some a => a.lookup k

/-- the same items: equal sequences, or dictionaries binding the same keys to the same values -/
def SameItems : Seq → Seq → Prop
  | .none, .none => True
  | .list l, .list l' => l = l'
  | .dict d, .dict d' => ∀ k, d.lookup k = d'.lookup k
  | _, _ => False

/-- an attribute or item was gained, lost or rebound -/
def Differs (before after : Rec) : Prop :=
  (∃ k, attrOf before k ≠ attrOf after k) ∨ ¬ SameItems before.seq after.seq

/-- an object does not change its kind: it keeps having or not having attributes, and stays a sequence, a mapping or
neither -/
def SameKind (r r' : Rec) : Prop :=
  (r.attrs.isSome = r'.attrs.isSome) ∧
  (match r.seq, r'.seq with
    | .none, .none => True
    | .list _, .list _ => True
    | .dict _, .dict _ => True
    | _, _ => False)

/-- dictionaries have distinct keys -/
def WF (r : Rec) : Prop :=
  (∀ a, r.attrs = some a → (a.map (·.1)).Nodup) ∧ (∀ l, r.seq = .dict l → (l.map (·.1)).Nodup)

/-- reachable by the memorised records -/
inductive MReach (m : Memo) : Id → Id → Prop where
  | refl (x : Id) : MReach m x x
  | step {x y z : Id} {r : Rec} : m x = some r → Link r y → MReach m y z → MReach m x z

def emptyMemo : Memo := fun _ => none
def noSeen : Seen := fun _ => none

/-! ### lemmas on association lists -/

section
variable {α β : Type} [BEq α] [LawfulBEq α]

theorem mem_of_lookup {l : List (α × β)} {k : α} {v : β} (h : l.lookup k = some v) : (k, v) ∈ l := by
  induction l with
  | nil => simp at h
  | cons p l ih =>
    obtain ⟨a, b⟩ := p
    rw [List.lookup_cons] at h
    by_cases hk : k == a
    · rw [hk] at h; simp at h; simp [eq_of_beq hk, h]
    · simp only [hk] at h; exact List.mem_cons_of_mem _ (ih h)

theorem lookup_of_mem {l : List (α × β)} {k : α} {v : β} (hn : (l.map (·.1)).Nodup) (h : (k, v) ∈ l) :
    l.lookup k = some v := by
  induction l with
  | nil => cases h
  | cons p l ih =>
    obtain ⟨a, b⟩ := p
    rw [List.map_cons, List.nodup_cons] at hn
    rw [List.lookup_cons]
    by_cases hk : k == a
    · rw [hk]
      have := eq_of_beq hk
      rcases List.mem_cons.1 h with e | e
      · cases e; rfl
      · exact absurd (List.mem_map.2 ⟨_, e, by simp [this]⟩) hn.1
    · have hk' : (k == a) = false := by simpa using hk
      rw [hk']
      rcases List.mem_cons.1 h with e | e
      · cases e; simp at hk
      · exact ih hn.2 e

theorem lookup_none_iff {l : List (α × β)} {k : α} : l.lookup k = none ↔ k ∉ l.map (·.1) := by
  constructor
  · intro h hm
    obtain ⟨⟨a, b⟩, hp, e⟩ := List.mem_map.1 hm
    simp at e; subst e
    induction l with
    | nil => cases hp
    | cons p l ih =>
      obtain ⟨a', b'⟩ := p
      rw [List.lookup_cons] at h
      by_cases hk : a == a'
      · rw [hk] at h; simp at h
      · simp only [hk] at h
        rcases List.mem_cons.1 hp with e | e
        · cases e; simp at hk
        · exact ih e h (List.mem_map.2 ⟨_, e, rfl⟩)
  · intro h
    cases hl : l.lookup k with
    | none => rfl
    | some v => exact absurd (List.mem_map.2 ⟨_, mem_of_lookup hl, rfl⟩) h

end

theorem nodup_incl_length {l l' : List Id} (hn : l.Nodup) (h : ∀ x ∈ l, x ∈ l') : l.length ≤ l'.length := by
  induction l generalizing l' with
  | nil => simp
  | cons a l ih =>
    rw [List.nodup_cons] at hn
    have ha := h a (by simp)
    have := ih (l' := l'.erase a) hn.2 (fun x hx => (List.mem_erase_of_ne (by rintro rfl; exact hn.1 hx)).2 (h x (by simp [hx])))
    rw [List.length_erase_of_mem ha] at this
    have : 0 < l'.length := List.length_pos_of_mem ha
    simp; omega

/-- equal sizes and every present entry recorded: the same dictionary -/
theorem dict_same {d d' : List (Id × Id)} (hn : (d.map (·.1)).Nodup) (hn' : (d'.map (·.1)).Nodup)
    (hl : d'.length = d.length) (h : ∀ k v, (k, v) ∈ d' → d.lookup k = some v) : ∀ k, d.lookup k = d'.lookup k := by
  intro k
  cases hk : d'.lookup k with
  | some v => exact h k v (mem_of_lookup hk)
  | none =>
    rw [lookup_none_iff] at hk
    rw [lookup_none_iff]
    intro hm
    have hnd : (k :: d'.map (·.1)).Nodup := List.nodup_cons.2 ⟨hk, hn'⟩
    have := nodup_incl_length hnd (l' := d.map (·.1)) (by
      intro x hx
      rcases List.mem_cons.1 hx with e | e
      · exact e ▸ hm
      · obtain ⟨⟨a, b⟩, hp, e⟩ := List.mem_map.1 e
        simp at e; subst e
        exact List.mem_map.2 ⟨_, mem_of_lookup (h _ _ hp), rfl⟩)
    simp at this; omega

theorem mem_children {r : Rec} {y : Id} : y ∈ children r ↔ Link r y := by
  unfold children Link
  obtain ⟨a, s⟩ := r
  rw [List.mem_append]
  constructor
  · rintro (h | h)
    · cases a with
      | none => simp at h
      | some a =>
        left
        obtain ⟨⟨k, v⟩, hp, e⟩ := List.mem_map.1 h
        simp at e; subst e
        exact ⟨a, k, rfl, hp⟩
    · cases s with
      | none => simp at h
      | list l => exact Or.inr (Or.inl ⟨l, rfl, h⟩)
      | dict l =>
        right; right
        simp only [List.mem_flatMap] at h
        obtain ⟨⟨k, v⟩, hp, e⟩ := h
        simp at e
        exact ⟨l, k, v, rfl, hp, e⟩
  · rintro (⟨a', k, e, h⟩ | ⟨l, e, h⟩ | ⟨l, k, v, e, h, h'⟩)
    · left; simp at e; subst e
      exact List.mem_map.2 ⟨_, h, rfl⟩
    · right; simp at e; subst e; exact h
    · right; simp at e; subst e
      simp only [List.mem_flatMap]
      exact ⟨_, h, by simpa using h'⟩

/-! ### memorise -/

theorem Reach.trans {G : Graph} {excl : Id → Bool} {x y z : Id} (h : Reach G excl x y) (h' : Reach G excl y z) :
    Reach G excl x z := by
  induction h with
  | refl => exact h'
  | step a b _ ih => exact .step a b (ih h')

/-- what one `memorise` call does to the memo -/
structure MemOk (G : Graph) (excl : Id → Bool) (from_ : Id → Prop) (m m' : Memo) : Prop where
  keep : ∀ y r, m y = some r → m' y = some r
  fresh : ∀ y r, m' y = some r → m y = some r ∨ (m y = none ∧ r = G y ∧ excl y = false ∧ ∃ x, from_ x ∧ Reach G excl x y)
  closed : ∀ y, m y = none → (m' y).isSome = true → ∀ c, Link (G y) c → excl c = true ∨ (m' c).isSome = true
  roots : ∀ x, from_ x → excl x = true ∨ (m' x).isSome = true

theorem isSome_keep {m m' : Memo} (h : ∀ y r, m y = some r → m' y = some r) {y : Id} (hy : (m y).isSome = true) :
    (m' y).isSome = true := by
  cases hm : m y with
  | none => rw [hm] at hy; cases hy
  | some r => rw [h y r hm]; rfl

theorem forAll_ok {G : Graph} {excl : Id → Bool} {f : Id → Memo → Except Err Memo}
    (hf : ∀ v m m', f v m = .ok m' → MemOk G excl (· = v) m m') :
    ∀ (l : List Id) (m m' : Memo), forAll f l m = .ok m' → MemOk G excl (· ∈ l) m m' := by
  intro l
  induction l with
  | nil =>
    intro m m' h
    cases h
    exact ⟨fun _ _ h => h, fun _ _ h => Or.inl h, fun y h1 h2 => absurd h2 (by rw [h1]; decide), fun _ h => by cases h⟩
  | cons v vs ih =>
    intro m m' h
    rw [forAll] at h
    cases h1 : f v m with
    | error e => rw [h1] at h; cases h
    | ok m1 =>
      rw [h1] at h
      have A := hf v m m1 h1
      have B := ih m1 m' h
      refine ⟨fun y r hy => B.keep y r (A.keep y r hy), ?_, ?_, ?_⟩
      · intro y r hy
        rcases B.fresh y r hy with e | ⟨e1, e2, e3, x, e4, e5⟩
        · rcases A.fresh y r e with e | ⟨e1, e2, e3, x, e4, e5⟩
          · exact Or.inl e
          · exact Or.inr ⟨e1, e2, e3, x, by simp [e4], e5⟩
        · refine Or.inr ⟨?_, e2, e3, x, List.mem_cons_of_mem _ e4, e5⟩
          cases hm : m y with
          | none => rfl
          | some r' => rw [A.keep y r' hm] at e1; cases e1
      · intro y h1 h2 c hc
        cases hm1 : m1 y with
        | none => exact B.closed y hm1 h2 c hc
        | some r =>
          rcases A.closed y h1 (by rw [hm1]; rfl) c hc with e | e
          · exact Or.inl e
          · exact Or.inr (isSome_keep B.keep e)
      · intro x hx
        rcases List.mem_cons.1 hx with e | e
        · rcases A.roots x e with e | e
          · exact Or.inl e
          · exact Or.inr (isSome_keep B.keep e)
        · exact B.roots x e

theorem memorise_ok (G : Graph) (excl : Id → Bool) (n : Nat) :
    ∀ (x : Id) (m m' : Memo), memorise G excl n false x m = .ok m' → MemOk G excl (· = x) m m' := by
  induction n with
  | zero => intro x m m' h; cases h
  | succ n ih =>
    intro x m m' h
    rw [memorise] at h
    by_cases c : ((m x).isSome = true ∧ (false : Bool) = false) ∨ excl x = true
    · rw [if_pos c] at h
      cases h
      refine ⟨fun _ _ h => h, fun _ _ h => Or.inl h, fun y h1 h2 => absurd h2 (by rw [h1]; decide), ?_⟩
      rintro _ rfl
      rcases c with c | c
      · exact Or.inr c.1
      · exact Or.inl c
    · rw [if_neg c] at h
      have hx : m x = none := by
        cases hm : m x with
        | none => rfl
        | some r => exact absurd (Or.inl ⟨by rw [hm]; rfl, rfl⟩) c
      have he : excl x = false := by
        cases hx : excl x with
        | false => rfl
        | true => exact absurd (Or.inr hx) c
      have A := forAll_ok (fun v m m' h => ih v m m' h) _ _ _ h
      have k0 : ∀ y r, m y = some r → m' y = some r := by
        intro y r hy
        refine A.keep y r ?_
        have : y ≠ x := by rintro rfl; rw [hx] at hy; cases hy
        simp [Memo.set, this, hy]
      have kx : m' x = some (G x) := A.keep x _ (by simp [Memo.set])
      refine ⟨k0, ?_, ?_, ?_⟩
      · intro y r hy
        rcases A.fresh y r hy with e | ⟨e1, e2, e3, z, e4, e5⟩
        · by_cases hyx : y = x
          · subst hyx
            simp [Memo.set] at e
            exact Or.inr ⟨hx, e.symm, he, y, rfl, .refl _⟩
          · simp [Memo.set, hyx] at e
            exact Or.inl e
        · have hyx : y ≠ x := by rintro rfl; simp [Memo.set] at e1
          simp [Memo.set, hyx] at e1
          exact Or.inr ⟨e1, e2, e3, x, rfl, .step he (mem_children.1 e4) e5⟩
      · intro y h1 h2 d hd
        by_cases hyx : y = x
        · subst hyx
          exact A.roots d (mem_children.2 hd)
        · exact A.closed y (by simp [Memo.set, hyx, h1]) h2 d hd
      · rintro _ rfl; exact Or.inr (by rw [kx]; rfl)

/-! ### C38 -/

/-- `memorise(obj)` on an empty memo records exactly the objects reachable from `obj`, not passing through excluded
ones and not themselves excluded, each with its current attributes and items. -/
theorem C38_records_reachable (G : Graph) (excl : Id → Bool) (n : Nat) (x : Id) (force : Bool) (m : Memo)
    (h : memorise G excl n force x emptyMemo = .ok m) (y : Id) (r : Rec) :
    m y = some r ↔ Reach G excl x y ∧ excl y = false ∧ r = G y := by
  have h' : memorise G excl n false x emptyMemo = .ok m := by
    cases n with
    | zero => cases h
    | succ n => simpa [memorise, emptyMemo] using h
  have A := memorise_ok G excl n x emptyMemo m h'
  constructor
  · intro hy
    rcases A.fresh y r hy with e | ⟨-, e1, e2, z, rfl, e3⟩
    · cases e
    · exact ⟨e3, e2, e1⟩
  · rintro ⟨h1, h2, rfl⟩
    have key : ∀ z y, Reach G excl z y → excl z = true ∨ (m z).isSome = true → excl y = true ∨ (m y).isSome = true := by
      intro z y hr
      induction hr with
      | refl => exact id
      | step he hl _ ih =>
        intro hz
        apply ih
        rcases hz with hz | hz
        · rw [he] at hz; cases hz
        · exact A.closed _ rfl hz _ hl
    have := key x y h1 (A.roots x rfl)
    rw [h2] at this
    cases hm : m y with
    | none => rw [hm] at this; simp at this
    | some r =>
      rcases A.fresh y r hm with e | ⟨-, e, -⟩
      · cases e
      · rw [e]

/-- Memorising again, whatever has happened to the objects meanwhile, changes nothing unless forced. -/
theorem C38_second_noop (G G' : Graph) (excl : Id → Bool) (n k : Nat) (x : Id) (force : Bool) (m m' : Memo)
    (h : memorise G excl n force x m = .ok m') : memorise G' excl (k + 1) false x m' = .ok m' := by
  cases n with
  | zero => cases h
  | succ n =>
    rw [memorise]
    rw [memorise] at h
    by_cases c : ((m x).isSome = true ∧ force = false) ∨ excl x = true
    · rw [if_pos c] at h
      cases h
      rw [if_pos]
      rcases c with c | c
      · exact Or.inl ⟨c.1, rfl⟩
      · exact Or.inr c
    · rw [if_neg c] at h
      have A := forAll_ok (fun v m m' h => memorise_ok G excl n v m m' h) _ _ _ h
      rw [if_pos]
      left
      refine ⟨?_, rfl⟩
      rw [A.keep x (G x) (by simp [Memo.set])]; rfl

/-- `memorise(obj, force=True)` updates the record of `obj`, and of no other object already recorded. -/
theorem C38_force_updates_one (G : Graph) (excl : Id → Bool) (n : Nat) (x : Id) (m m' : Memo) (hx : excl x = false)
    (h : memorise G excl n true x m = .ok m') :
    m' x = some (G x) ∧ ∀ y r, y ≠ x → m y = some r → m' y = some r := by
  cases n with
  | zero => cases h
  | succ n =>
    rw [memorise] at h
    rw [if_neg (by simp [hx])] at h
    have A := forAll_ok (fun v m m' h => memorise_ok G excl n v m m' h) _ _ _ h
    exact ⟨A.keep x _ (by simp [Memo.set]), fun y r hy h => A.keep y r (by simp [Memo.set, hy, h])⟩

/-- how many of the objects `U` are not recorded -/
def missing {α : Type} (U : List Id) (m : Id → Option α) : Nat := (U.filter (fun y => (m y).isNone)).length

theorem missing_mono {α : Type} {U : List Id} {m m' : Id → Option α}
    (h : ∀ y, (m y).isSome = true → (m' y).isSome = true) : missing U m' ≤ missing U m := by
  unfold missing
  induction U with
  | nil => simp
  | cons u U ih =>
    simp only [List.filter_cons]
    cases h1 : m u with
    | none =>
      cases h2 : m' u with
      | none => simp; omega
      | some _ => simp; omega
    | some a =>
      have := h u (by rw [h1]; rfl)
      cases h2 : m' u with
      | none => rw [h2] at this; cases this
      | some _ => simpa using ih

theorem missing_lt {α : Type} {U : List Id} {m m' : Id → Option α} {x : Id}
    (h : ∀ y, (m y).isSome = true → (m' y).isSome = true) (hx : x ∈ U) (h1 : m x = none)
    (h2 : (m' x).isSome = true) : missing U m' < missing U m := by
  unfold missing
  induction U with
  | nil => cases hx
  | cons u U ih =>
    simp only [List.filter_cons]
    by_cases hu : u = x
    · subst hu
      have := missing_mono (U := U) h
      unfold missing at this
      cases hm : m' u with
      | none => rw [hm] at h2; cases h2
      | some _ => rw [h1]; simp; omega
    · have ih := ih (by rcases List.mem_cons.1 hx with e | e; exact absurd e.symm hu; exact e)
      cases h3 : m u with
      | none =>
        cases h4 : m' u with
        | none => simpa using ih
        | some _ => simp; omega
      | some a =>
        have := h u (by rw [h3]; rfl)
        cases h4 : m' u with
        | none => rw [h4] at this; cases this
        | some _ => simpa using ih

theorem forAll_total {G : Graph} {excl : Id → Bool} {f : Id → Memo → Except Err Memo} {U : List Id} {b : Nat}
    (hf : ∀ v m, v ∈ U → missing U m < b → ∃ m', f v m = .ok m')
    (hk : ∀ v m m', f v m = .ok m' → MemOk G excl (· = v) m m') :
    ∀ (l : List Id) (m : Memo), (∀ v ∈ l, v ∈ U) → missing U m < b → ∃ m', forAll f l m = .ok m' := by
  intro l
  induction l with
  | nil => intro m _ _; exact ⟨m, rfl⟩
  | cons v vs ih =>
    intro m hl hb
    obtain ⟨m1, h1⟩ := hf v m (hl v (by simp)) hb
    have A := hk v m m1 h1
    have := missing_mono (U := U) (m := m) (m' := m1) (fun y hy => isSome_keep A.keep hy)
    obtain ⟨m2, h2⟩ := ih m1 (fun v hv => hl v (by simp [hv])) (by omega)
    exact ⟨m2, by rw [forAll, h1]; exact h2⟩

theorem memorise_total (G : Graph) (excl : Id → Bool) (U : List Id)
    (hU : ∀ y ∈ U, ∀ c, Link (G y) c → c ∈ U) (n : Nat) :
    ∀ (x : Id) (m : Memo), x ∈ U → missing U m < n → ∃ m', memorise G excl n false x m = .ok m' := by
  induction n with
  | zero => intro x m _ h; omega
  | succ n ih =>
    intro x m hx hn
    rw [memorise]
    by_cases c : ((m x).isSome = true ∧ (false : Bool) = false) ∨ excl x = true
    · rw [if_pos c]; exact ⟨m, rfl⟩
    · rw [if_neg c]
      have hxm : m x = none := by
        cases hm : m x with
        | none => rfl
        | some r => exact absurd (Or.inl ⟨by rw [hm]; rfl, rfl⟩) c
      have hlt := missing_lt (U := U) (m := m) (m' := m.set x (G x)) (x := x)
        (by intro y hy; by_cases hyx : y = x <;> simp [Memo.set, hyx, hy]) hx hxm (by simp [Memo.set])
      exact forAll_total (G := G) (excl := excl) (fun v m hv hm => ih v m hv hm)
        (fun v m m' h => memorise_ok G excl n v m m' h) _ _
        (fun v hv => hU x hx v (mem_children.1 hv)) (by omega)

/-- `memorise` terminates on every finite graph, cyclic or not, from every memo, forced or not: its nesting never
exceeds the number of objects by more than two. -/
theorem C38_terminates (G : Graph) (excl : Id → Bool) (U : List Id) (hU : ∀ y ∈ U, ∀ c, Link (G y) c → c ∈ U)
    (x : Id) (hx : x ∈ U) (m : Memo) (force : Bool) :
    ∃ m', memorise G excl (U.length + 2) force x m = .ok m' := by
  have hle : ∀ m : Memo, missing U m ≤ U.length := fun m => List.length_filter_le _ _
  cases force with
  | false => exact memorise_total G excl U hU _ x m hx (by have := hle m; omega)
  | true =>
    rw [memorise]
    by_cases c : ((m x).isSome = true ∧ (true : Bool) = false) ∨ excl x = true
    · rw [if_pos c]; exact ⟨m, rfl⟩
    · rw [if_neg c]
      exact forAll_total (G := G) (excl := excl) (b := U.length + 1)
        (fun v m hv hm => memorise_total G excl U hU _ v m hv hm)
        (fun v m m' h => memorise_ok G excl _ v m m' h) _ _ (fun v hv => hU x hx v (mem_children.1 hv))
        (by have := hle (m.set x (G x)); omega)

/-! ### has_changed -/

section
variable (G : Graph) (m : Memo) (excl : Id → Bool)

/-- an object reachable by the records from `x` differs from its record -/
def Bad (x : Id) : Prop := ∃ z r, MReach m x z ∧ m z = some r ∧ Differs r (G z)

def Known (x : Id) : Prop := excl x = true ∨ (m x).isSome = true

/-- checked and unchanged, with everything it refers to looked at -/
def Clean (s : Seen) (y : Id) : Prop :=
  excl y = true ∨ ∃ r, m y = some r ∧ ¬ Differs r (G y) ∧ ∀ c, Link r c → (s c).isSome = true

def Sound (s : Seen) : Prop := ∀ y v, s y = some v → truthy v = true → Bad G m y

def Mono (s s' : Seen) : Prop := ∀ y, (s y).isSome = true → (s' y).isSome = true

variable {G m excl}

theorem Mono.trans {a b c : Seen} (h : Mono a b) (h' : Mono b c) : Mono a c := fun y hy => h' y (h y hy)

theorem Clean.mono {s s' : Seen} {y : Id} (h : Mono s s') (hc : Clean G m excl s y) : Clean G m excl s' y := by
  rcases hc with hc | ⟨r, h1, h2, h3⟩
  · exact Or.inl hc
  · exact Or.inr ⟨r, h1, h2, fun c hc => h c (h3 c hc)⟩

theorem Bad.step {x y : Id} {r : Rec} (h1 : m x = some r) (h2 : Link r y) (h : Bad G m y) : Bad G m x := by
  obtain ⟨z, r', a, b, c⟩ := h
  exact ⟨z, r', .step h1 h2 a, b, c⟩

/-- new entries are clean -/
def NewClean (G : Graph) (m : Memo) (excl : Id → Bool) (s s' : Seen) : Prop :=
  ∀ y, (s' y).isSome = true → s y = none → Clean G m excl s' y

theorem NewClean.trans {a b c : Seen} (h1 : NewClean G m excl a b) (h2 : NewClean G m excl b c) (hm : Mono b c) :
    NewClean G m excl a c := by
  intro y hy ha
  cases hb : b y with
  | none => exact h2 y hy hb
  | some v => exact (h1 y (by rw [hb]; rfl) ha).mono hm

/-- what the recursive call guarantees -/
def RcOk (G : Graph) (m : Memo) (excl : Id → Bool) (rc : Rc) : Prop := ∀ v s b s', rc v s = .ok (b, s') →
  Mono s s' ∧ (Known m excl v → Sound G m s → Sound G m s' ∧ (b = true → Bad G m v)) ∧
  (b = false → (s' v).isSome = true ∧ NewClean G m excl s s')

theorem attrLoop_ok {rc : Rc} (hrc : RcOk G m excl rc) (o : List (String × Id)) :
    ∀ (a : List (String × Id)) (ch : List (String × Option Id)) (s : Seen) (ch' : List (String × Option Id)) (s' : Seen),
    attrLoop rc o a ch s = .ok (ch', s') →
    Mono s s' ∧ (∀ p ∈ ch, p ∈ ch') ∧ (∀ k v, (k, v) ∈ a → o.lookup k ≠ some v → (k, some v) ∈ ch') ∧
    ((∀ k v, (k, v) ∈ a → o.lookup k = some v → Known m excl v) → Sound G m s → Sound G m s' ∧
      ∀ p ∈ ch', p ∈ ch ∨ ∃ v, p.2 = some v ∧ (p.1, v) ∈ a ∧ (o.lookup p.1 ≠ some v ∨ Bad G m v)) ∧
    (ch' = [] → (∀ k v, (k, v) ∈ a → o.lookup k = some v ∧ (s' v).isSome = true) ∧ NewClean G m excl s s') := by
  intro a
  induction a with
  | nil =>
    intro ch s ch' s' h
    cases h
    refine ⟨fun _ h => h, fun _ h => h, fun k v h => (by cases h), fun _ hs => ⟨hs, fun p hp => Or.inl hp⟩, fun _ => ⟨fun k v h => (by cases h), ?_⟩⟩
    intro y h1 h2; rw [h2] at h1; cases h1
  | cons p a ih =>
    obtain ⟨k, v⟩ := p
    intro ch s ch' s' h
    rw [attrLoop] at h
    by_cases c : o.lookup k ≠ some v
    · rw [if_pos c] at h
      obtain ⟨i1, i2, i3, i4, i5⟩ := ih _ _ _ _ h
      have hin : (k, some v) ∈ ch' := i2 _ (by simp)
      refine ⟨i1, fun p hp => i2 p (by simp [hp]), ?_, ?_, ?_⟩
      · intro k' v' hm hne
        rcases List.mem_cons.1 hm with e | e
        · cases e; exact hin
        · exact i3 k' v' e hne
      · intro hk hs
        obtain ⟨j1, j2⟩ := i4 (fun k' v' hm => hk k' v' (by simp [hm])) hs
        refine ⟨j1, fun p hp => ?_⟩
        rcases j2 p hp with e | ⟨w, e1, e2, e3⟩
        · rcases List.mem_append.1 e with e | e
          · exact Or.inl e
          · simp at e; subst e; exact Or.inr ⟨v, rfl, by simp, Or.inl c⟩
        · exact Or.inr ⟨w, e1, by simp [e2], e3⟩
      · intro he; rw [he] at hin; cases hin
    · rw [if_neg c] at h
      have c' : o.lookup k = some v := Classical.not_not.1 c
      cases hr : rc v s with
      | error e => rw [hr] at h; cases h
      | ok q =>
        obtain ⟨b, s1⟩ := q
        rw [hr] at h
        obtain ⟨r1, r2, r3⟩ := hrc _ _ _ _ hr
        cases b with
        | true =>
          simp only at h
          obtain ⟨i1, i2, i3, i4, i5⟩ := ih _ _ _ _ h
          have hin : (k, some v) ∈ ch' := i2 _ (by simp)
          refine ⟨r1.trans i1, fun p hp => i2 p (by simp [hp]), ?_, ?_, ?_⟩
          · intro k' v' hm hne
            rcases List.mem_cons.1 hm with e | e
            · cases e; exact hin
            · exact i3 k' v' e hne
          · intro hk hs
            obtain ⟨r21, r22⟩ := r2 (hk k v (by simp) c') hs
            obtain ⟨j1, j2⟩ := i4 (fun k' v' hm => hk k' v' (by simp [hm])) r21
            refine ⟨j1, fun p hp => ?_⟩
            rcases j2 p hp with e | ⟨w, e1, e2, e3⟩
            · rcases List.mem_append.1 e with e | e
              · exact Or.inl e
              · simp at e; subst e; exact Or.inr ⟨v, rfl, by simp, Or.inr (r22 rfl)⟩
            · exact Or.inr ⟨w, e1, by simp [e2], e3⟩
          · intro he; rw [he] at hin; cases hin
        | false =>
          simp only at h
          obtain ⟨i1, i2, i3, i4, i5⟩ := ih _ _ _ _ h
          refine ⟨r1.trans i1, i2, ?_, ?_, ?_⟩
          · intro k' v' hm hne
            rcases List.mem_cons.1 hm with e | e
            · cases e; exact absurd c' hne
            · exact i3 k' v' e hne
          · intro hk hs
            obtain ⟨r21, -⟩ := r2 (hk k v (by simp) c') hs
            obtain ⟨j1, j2⟩ := i4 (fun k' v' hm => hk k' v' (by simp [hm])) r21
            refine ⟨j1, fun p hp => ?_⟩
            rcases j2 p hp with e | ⟨w, e1, e2, e3⟩
            · exact Or.inl e
            · exact Or.inr ⟨w, e1, by simp [e2], e3⟩
          · intro he
            obtain ⟨q1, q2⟩ := i5 he
            obtain ⟨r31, r32⟩ := r3 rfl
            refine ⟨?_, r32.trans q2 i1⟩
            intro k' v' hm
            rcases List.mem_cons.1 hm with e | e
            · cases e; exact ⟨c', i1 v r31⟩
            · exact q1 k' v' e

theorem NewClean.refl (s : Seen) : NewClean G m excl s s := by
  intro y h1 h2; rw [h2] at h1; cases h1

theorem dictLoop_ok {rc : Rc} (hrc : RcOk G m excl rc) (o : List (Id × Id)) :
    ∀ (a : List (Id × Id)) (s : Seen) (b : Bool) (s' : Seen), dictLoop rc o a s = .ok (b, s') →
    Mono s s' ∧
    ((∀ k v, (k, v) ∈ a → o.lookup k = some v → Known m excl k ∧ Known m excl v) → Sound G m s → Sound G m s' ∧
      (b = true → ∃ k v, (k, v) ∈ a ∧ (o.lookup k ≠ some v ∨ (o.lookup k = some v ∧ (Bad G m k ∨ Bad G m v))))) ∧
    (b = false → (∀ k v, (k, v) ∈ a → o.lookup k = some v ∧ (s' k).isSome = true ∧ (s' v).isSome = true) ∧
      NewClean G m excl s s') := by
  intro a
  induction a with
  | nil =>
    intro s b s' h
    cases h
    exact ⟨fun _ h => h, fun _ hs => ⟨hs, fun h => by cases h⟩, fun _ => ⟨fun k v h => (by cases h), .refl _⟩⟩
  | cons p a ih =>
    obtain ⟨k, v⟩ := p
    intro s b s' h
    rw [dictLoop] at h
    by_cases c : o.lookup k ≠ some v
    · rw [if_pos c] at h
      cases h
      exact ⟨fun _ h => h, fun _ hs => ⟨hs, fun _ => ⟨k, v, by simp, Or.inl c⟩⟩, fun h => by cases h⟩
    · rw [if_neg c] at h
      have c' : o.lookup k = some v := Classical.not_not.1 c
      cases hr : rc k s with
      | error e => rw [hr] at h; cases h
      | ok q =>
        obtain ⟨b1, s1⟩ := q
        rw [hr] at h
        obtain ⟨r1, r2, r3⟩ := hrc _ _ _ _ hr
        cases b1 with
        | true =>
          cases h
          refine ⟨r1, fun hk hs => ?_, fun h => by cases h⟩
          obtain ⟨x1, x2⟩ := r2 (hk k v (by simp) c').1 hs
          exact ⟨x1, fun _ => ⟨k, v, by simp, Or.inr ⟨c', Or.inl (x2 rfl)⟩⟩⟩
        | false =>
          simp only at h
          cases hr2 : rc v s1 with
          | error e => rw [hr2] at h; cases h
          | ok q =>
            obtain ⟨b2, s2⟩ := q
            rw [hr2] at h
            obtain ⟨t1, t2, t3⟩ := hrc _ _ _ _ hr2
            cases b2 with
            | true =>
              cases h
              refine ⟨r1.trans t1, fun hk hs => ?_, fun h => by cases h⟩
              obtain ⟨x1, -⟩ := r2 (hk k v (by simp) c').1 hs
              obtain ⟨y1, y2⟩ := t2 (hk k v (by simp) c').2 x1
              exact ⟨y1, fun _ => ⟨k, v, by simp, Or.inr ⟨c', Or.inr (y2 rfl)⟩⟩⟩
            | false =>
              simp only at h
              obtain ⟨i1, i2, i3⟩ := ih _ _ _ h
              refine ⟨(r1.trans t1).trans i1, fun hk hs => ?_, fun hb => ?_⟩
              · obtain ⟨x1, -⟩ := r2 (hk k v (by simp) c').1 hs
                obtain ⟨y1, -⟩ := t2 (hk k v (by simp) c').2 x1
                obtain ⟨z1, z2⟩ := i2 (fun k' v' hm => hk k' v' (by simp [hm])) y1
                refine ⟨z1, fun hb => ?_⟩
                obtain ⟨k', v', e1, e2⟩ := z2 hb
                exact ⟨k', v', by simp [e1], e2⟩
              · obtain ⟨x1, x2⟩ := i3 hb
                obtain ⟨a1, a2⟩ := r3 rfl
                obtain ⟨b1, b2⟩ := t3 rfl
                refine ⟨?_, (a2.trans b2 t1).trans x2 i1⟩
                intro k' v' hm
                rcases List.mem_cons.1 hm with e | e
                · cases e; exact ⟨c', i1 _ (t1 _ a1), i1 _ b1⟩
                · exact x1 k' v' e

theorem listLoop_ok {rc : Rc} (hrc : RcOk G m excl rc) :
    ∀ (l o : List Id) (s : Seen) (b : Bool) (s' : Seen), listLoop rc l o s = .ok (b, s') → l.length = o.length →
    Mono s s' ∧
    ((∀ v ∈ o, Known m excl v) → Sound G m s → Sound G m s' ∧
      (b = true → l ≠ o ∨ ∃ v ∈ o, Bad G m v)) ∧
    (b = false → l = o ∧ (∀ v ∈ o, (s' v).isSome = true) ∧ NewClean G m excl s s') := by
  intro l
  induction l with
  | nil =>
    intro o s b s' h hl
    cases o with
    | cons => cases hl
    | nil =>
      cases h
      exact ⟨fun _ h => h, fun _ hs => ⟨hs, fun h => by cases h⟩, fun _ => ⟨rfl, fun v h => (by cases h), .refl _⟩⟩
  | cons i l ih =>
    intro o s b s' h hl
    cases o with
    | nil => cases hl
    | cons j o =>
      rw [listLoop] at h
      by_cases c : i ≠ j
      · rw [if_pos c] at h
        cases h
        refine ⟨fun _ h => h, fun _ hs => ⟨hs, fun _ => Or.inl ?_⟩, fun h => by cases h⟩
        intro e; cases e; exact c rfl
      · rw [if_neg c] at h
        have c' : i = j := Classical.not_not.1 c
        subst c'
        cases hr : rc i s with
        | error e => rw [hr] at h; cases h
        | ok q =>
          obtain ⟨b1, s1⟩ := q
          rw [hr] at h
          obtain ⟨r1, r2, r3⟩ := hrc _ _ _ _ hr
          cases b1 with
          | true =>
            cases h
            refine ⟨r1, fun hk hs => ?_, fun h => by cases h⟩
            obtain ⟨x1, x2⟩ := r2 (hk i (by simp)) hs
            exact ⟨x1, fun _ => Or.inr ⟨i, by simp, x2 rfl⟩⟩
          | false =>
            simp only at h
            obtain ⟨i1, i2, i3⟩ := ih o _ _ _ h (by simpa using hl)
            refine ⟨r1.trans i1, fun hk hs => ?_, fun hb => ?_⟩
            · obtain ⟨x1, -⟩ := r2 (hk i (by simp)) hs
              obtain ⟨z1, z2⟩ := i2 (fun v hv => hk v (by simp [hv])) x1
              refine ⟨z1, fun hb => ?_⟩
              rcases z2 hb with e | ⟨v, e1, e2⟩
              · left; intro e'; cases e'; exact e rfl
              · exact Or.inr ⟨v, by simp [e1], e2⟩
            · obtain ⟨x0, x1, x2⟩ := i3 hb
              obtain ⟨a1, a2⟩ := r3 rfl
              refine ⟨by rw [x0], ?_, a2.trans x2 i1⟩
              intro v hv
              rcases List.mem_cons.1 hv with e | e
              · subst e; exact i1 _ a1
              · exact x1 v e

/-- the part of `Differs` that concerns items -/
theorem cmpSeq_ok {rc : Rc} (hrc : RcOk G m excl rc) (now old : Rec) (hk : SameKind old now) (hw : WF old)
    (hw' : WF now) (s : Seen) (b : Bool) (s' : Seen) (h : cmpSeq rc now.seq old.seq s = .ok (b, s')) :
    Mono s s' ∧
    ((∀ c, Link old c → Known m excl c) → Sound G m s → Sound G m s' ∧
      (b = true → ¬ SameItems old.seq now.seq ∨ ∃ c, Item old c ∧ Bad G m c)) ∧
    (b = false → SameItems old.seq now.seq ∧
      (∀ c, (∀ a k, old.attrs = some a → (k, c) ∉ a) → Link old c → (s' c).isSome = true) ∧ NewClean G m excl s s') := by
  obtain ⟨oa, os⟩ := old
  obtain ⟨na, ns⟩ := now
  obtain ⟨hk1, hk2⟩ := hk
  have hw2 := hw.2
  have hw2' := hw'.2
  simp only at hk2 h hw2 hw2'
  cases ns with
  | none =>
    cases os with
    | none =>
      cases h
      refine ⟨fun _ h => h, fun _ hs => ⟨hs, fun h => by cases h⟩, fun _ => ⟨trivial, ?_, .refl _⟩⟩
      rintro c hc (⟨a, k, e1, e2⟩ | ⟨l, e, -⟩ | ⟨l, k, v, e, -⟩)
      · exact absurd e2 (hc a k e1)
      · cases e
      · cases e
    | list l => cases hk2
    | dict l => cases hk2
  | list l =>
    cases os with
    | none => cases hk2
    | dict o => cases hk2
    | list o =>
      rw [cmpSeq] at h
      by_cases c : l.length ≠ o.length
      · rw [if_pos c] at h
        cases h
        refine ⟨fun _ h => h, fun _ hs => ⟨hs, fun _ => Or.inl ?_⟩, fun h => by cases h⟩
        intro e
        exact c (by have : o = l := e; rw [this])
      · rw [if_neg c] at h
        obtain ⟨i1, i2, i3⟩ := listLoop_ok hrc l o s b s' h (Classical.not_not.1 c)
        refine ⟨i1, fun hk hs => ?_, fun hb => ?_⟩
        · obtain ⟨x1, x2⟩ := i2 (fun v hv => hk v (Or.inr (Or.inl ⟨o, rfl, hv⟩))) hs
          refine ⟨x1, fun hb => ?_⟩
          rcases x2 hb with e | ⟨v, e1, e2⟩
          · exact Or.inl (fun e' => e (Eq.symm e'))
          · exact Or.inr ⟨v, Or.inl ⟨o, rfl, e1⟩, e2⟩
        · obtain ⟨x0, x1, x2⟩ := i3 hb
          refine ⟨x0.symm, ?_, x2⟩
          rintro c hc (⟨a, k, e1, e2⟩ | ⟨l', e, h'⟩ | ⟨l', k, v, e, -⟩)
          · exact absurd e2 (hc a k e1)
          · cases e; exact x1 c h'
          · cases e
  | dict l =>
    cases os with
    | none => cases hk2
    | list o => cases hk2
    | dict o =>
      rw [cmpSeq] at h
      have wo := hw2 o rfl
      have wl := hw2' l rfl
      by_cases c : l.length ≠ o.length
      · rw [if_pos c] at h
        cases h
        refine ⟨fun _ h => h, fun _ hs => ⟨hs, fun _ => Or.inl ?_⟩, fun h => by cases h⟩
        intro e
        have e : ∀ k, o.lookup k = l.lookup k := e
        apply c
        have hsub : ∀ (p q : List (Id × Id)), (∀ k, p.lookup k = q.lookup k) → ∀ x ∈ p.map (·.1), x ∈ q.map (·.1) := by
          intro p q hpq x hx
          refine Classical.byContradiction fun hn => ?_
          rw [← lookup_none_iff, ← hpq, lookup_none_iff] at hn
          exact hn hx
        have a1 := nodup_incl_length wo (hsub o l e)
        have a2 := nodup_incl_length wl (hsub l o (fun k => (e k).symm))
        simp at a1 a2; omega
      · rw [if_neg c] at h
        obtain ⟨i1, i2, i3⟩ := dictLoop_ok hrc o l s b s' h
        refine ⟨i1, fun hk hs => ?_, fun hb => ?_⟩
        · obtain ⟨x1, x2⟩ := i2 (fun k v hv hl =>
            ⟨hk k (Or.inr (Or.inr ⟨o, k, v, rfl, mem_of_lookup hl, Or.inl rfl⟩)),
             hk v (Or.inr (Or.inr ⟨o, k, v, rfl, mem_of_lookup hl, Or.inr rfl⟩))⟩) hs
          refine ⟨x1, fun hb => ?_⟩
          obtain ⟨k, v, e1, e2⟩ := x2 hb
          rcases e2 with e2 | ⟨e2, e3 | e3⟩
          · left
            intro e'
            have e' : ∀ k, o.lookup k = l.lookup k := e'
            exact e2 (by rw [e', lookup_of_mem wl e1])
          · exact Or.inr ⟨k, Or.inr ⟨o, k, v, rfl, mem_of_lookup e2, Or.inl rfl⟩, e3⟩
          · exact Or.inr ⟨v, Or.inr ⟨o, k, v, rfl, mem_of_lookup e2, Or.inr rfl⟩, e3⟩
        · obtain ⟨x1, x2⟩ := i3 hb
          have same := dict_same wo wl (Classical.not_not.1 c) (fun k v hv => (x1 k v hv).1)
          refine ⟨same, ?_, x2⟩
          rintro c hc (⟨a, k, e1, e2⟩ | ⟨l', e, h'⟩ | ⟨l', k, v, e, h1, h2⟩)
          · exact absurd e2 (hc a k e1)
          · cases e
          · cases e
            have hl := lookup_of_mem wo h1
            rw [same] at hl
            have := x1 k v (mem_of_lookup hl)
            rcases h2 with rfl | rfl
            · exact this.2.1
            · exact this.2.2

/-- attributes: lost, gained or rebound -/
theorem cmpAttrs_ok {rc : Rc} (hrc : RcOk G m excl rc) (now old : Rec) (hk : SameKind old now) (hw : WF old)
    (hw' : WF now) (s : Seen) (ch : List (String × Option Id)) (s' : Seen)
    (h : cmpAttrs rc now.attrs old.attrs s = .ok (ch, s')) :
    Mono s s' ∧
    (∀ k, attrOf old k ≠ attrOf now k → (k, attrOf now k) ∈ ch) ∧
    ((∀ c, Link old c → Known m excl c) → Sound G m s → Sound G m s' ∧
      ∀ p ∈ ch, p.2 = attrOf now p.1 ∧ (attrOf old p.1 ≠ attrOf now p.1 ∨
        ∃ v, attrOf old p.1 = some v ∧ attrOf now p.1 = some v ∧ Bad G m v)) ∧
    (ch = [] → (∀ k, attrOf old k = attrOf now k) ∧
      (∀ a k c, old.attrs = some a → (k, c) ∈ a → (s' c).isSome = true) ∧ NewClean G m excl s s') := by
  obtain ⟨oa, os⟩ := old
  obtain ⟨na, ns⟩ := now
  have hk1 := hk.1
  have hw1 := hw.1
  have hw1' := hw'.1
  simp only [attrOf] at *
  cases na with
  | none =>
    cases oa with
    | some => cases hk1
    | none =>
      cases h
      exact ⟨fun _ h => h, fun k hk => absurd rfl hk, fun _ hs => ⟨hs, fun p hp => by cases hp⟩,
        fun _ => ⟨fun _ => rfl, fun a k c e => (by cases e), .refl _⟩⟩
  | some a =>
    cases oa with
    | none => cases hk1
    | some o =>
      have wo := hw1 o rfl
      have wa := hw1' a rfl
      rw [cmpAttrs] at h
      obtain ⟨i1, i2, i3, i4, i5⟩ := attrLoop_ok hrc o _ _ _ _ _ h
      have lost : ∀ k, o.lookup k ≠ none → a.lookup k = none → (k, none) ∈ ch := by
        intro k h1 h2
        cases hl : o.lookup k with
        | none => exact absurd hl h1
        | some v =>
          refine i2 _ (List.mem_map.2 ⟨(k, v), List.mem_filter.2 ⟨mem_of_lookup hl, by simp [h2]⟩, rfl⟩)
      have all : ∀ k, o.lookup k ≠ a.lookup k → (k, a.lookup k) ∈ ch := by
        intro k hne
        cases ha : a.lookup k with
        | none => exact lost k (by rw [ha] at hne; exact hne) ha
        | some v => exact i3 k v (mem_of_lookup ha) (by rw [← ha]; exact hne)
      refine ⟨i1, all, fun hkn hs => ?_, fun he => ?_⟩
      · obtain ⟨x1, x2⟩ := i4 (fun k v hv hl => hkn v (Or.inl ⟨o, k, rfl, mem_of_lookup hl⟩)) hs
        refine ⟨x1, fun p hp => ?_⟩
        rcases x2 p hp with e | ⟨v, e1, e2, e3⟩
        · obtain ⟨⟨k, v⟩, q1, q2⟩ := List.mem_map.1 e
          obtain ⟨q3, q4⟩ := List.mem_filter.1 q1
          cases q2
          simp only [Option.isNone_iff_eq_none] at q4
          simp only [q4, lookup_of_mem wo q3]
          exact ⟨trivial, Or.inl (by simp)⟩
        · have hl := lookup_of_mem wa e2
          simp only [hl]
          refine ⟨e1, ?_⟩
          rcases e3 with e3 | e3
          · exact Or.inl e3
          · by_cases hc : o.lookup p.1 = some v
            · exact Or.inr ⟨v, hc, rfl, e3⟩
            · exact Or.inl hc
      · obtain ⟨x1, x2⟩ := i5 he
        have same : ∀ k, o.lookup k = a.lookup k := by
          intro k
          refine Classical.byContradiction fun hne => ?_
          have := all k hne
          rw [he] at this; cases this
        refine ⟨same, ?_, x2⟩
        intro a' k c e hc
        cases e
        have hl := lookup_of_mem wo hc
        rw [same] at hl
        exact (x1 k c (mem_of_lookup hl)).2

theorem compare_ok {rc : Rc} (hrc : RcOk G m excl rc) (now old : Rec) (hk : SameKind old now) (hw : WF old)
    (hw' : WF now) (s : Seen) (v : Val) (s' : Seen) (h : compare rc now old s = .ok (v, s')) :
    Mono s s' ∧
    (∀ k, attrOf old k ≠ attrOf now k → (k, attrOf now k) ∈ v.1) ∧
    (¬ SameItems old.seq now.seq → v.2 = true) ∧
    ((∀ c, Link old c → Known m excl c) → Sound G m s → Sound G m s' ∧
      (∀ p ∈ v.1, p.2 = attrOf now p.1 ∧ (attrOf old p.1 ≠ attrOf now p.1 ∨
        ∃ w, attrOf old p.1 = some w ∧ attrOf now p.1 = some w ∧ Bad G m w)) ∧
      (v.2 = true → ¬ SameItems old.seq now.seq ∨ ∃ c, Item old c ∧ Bad G m c)) ∧
    (truthy v = false → ¬ Differs old now ∧ (∀ c, Link old c → (s' c).isSome = true) ∧ NewClean G m excl s s') := by
  unfold compare at h
  cases h1 : cmpAttrs rc now.attrs old.attrs s with
  | error e => rw [h1] at h; cases h
  | ok q =>
    obtain ⟨ch, s1⟩ := q
    rw [h1] at h
    simp only at h
    cases h2 : cmpSeq rc now.seq old.seq s1 with
    | error e => rw [h2] at h; cases h
    | ok q =>
      obtain ⟨d, s2⟩ := q
      rw [h2] at h
      cases h
      obtain ⟨a1, a2, a3, a4⟩ := cmpAttrs_ok hrc now old hk hw hw' _ _ _ h1
      obtain ⟨b1, b2, b3⟩ := cmpSeq_ok hrc now old hk hw hw' _ _ _ h2
      refine ⟨a1.trans b1, a2, ?_, ?_, ?_⟩
      · intro hd
        cases d with
        | true => rfl
        | false => exact absurd (b3 rfl).1 hd
      · intro hkn hs
        obtain ⟨x1, x2⟩ := a3 hkn hs
        obtain ⟨y1, y2⟩ := b2 hkn x1
        exact ⟨y1, x2, y2⟩
      · intro ht
        have hch : ch = [] ∧ d = false := by
          unfold truthy at ht; simp only at ht
          cases ch with
          | nil => exact ⟨rfl, by simpa using ht⟩
          | cons p ch => simp at ht
        obtain ⟨rfl, rfl⟩ := hch
        obtain ⟨x1, x2, x3⟩ := a4 rfl
        obtain ⟨y1, y2, y3⟩ := b3 rfl
        refine ⟨?_, ?_, x3.trans y3 b1⟩
        · rintro (⟨k, hk⟩ | hd)
          · exact hk (x1 k)
          · exact hd y1
        · intro c hc
          by_cases hin : ∃ a k, old.attrs = some a ∧ (k, c) ∈ a
          · obtain ⟨a, k, e1, e2⟩ := hin
            exact b1 c (x2 a k c e1 e2)
          · exact y2 c (fun a k e1 e2 => hin ⟨a, k, e1, e2⟩) hc

/-- the records are those of objects whose references are recorded too -/
def ClosedMemo (m : Memo) (excl : Id → Bool) : Prop := ∀ y r, m y = some r → ∀ c, Link r c → Known m excl c

/-- facts about the memo and the present graph -/
structure Setting (G : Graph) (m : Memo) : Prop where
  kind : ∀ y r, m y = some r → SameKind r (G y)
  wfOld : ∀ y r, m y = some r → WF r
  wfNow : ∀ y, WF (G y)

theorem hasChanged_ok (hS : Setting G m) (hC : ClosedMemo m excl) (n : Nat) : RcOk G m excl (hasChanged G m excl n) := by
  induction n with
  | zero => intro v s b s' h; cases h
  | succ n ih =>
    intro x s b s' h
    rw [hasChanged] at h
    cases hs : s x with
    | some v =>
      rw [hs] at h; cases h
      exact ⟨fun _ h => h, fun _ hS => ⟨hS, fun hb => hS x v hs hb⟩, fun _ => ⟨by rw [hs]; rfl, .refl _⟩⟩
    | none =>
      rw [hs] at h
      simp only at h
      have hmono : ∀ v : Val, Mono s (s.set x v) := by
        intro v y hy
        by_cases e : y = x <;> simp [Seen.set, e, hy]
      have hsound : Sound G m s → Sound G m (s.set x ([], false)) := by
        intro hs y v hv ht
        by_cases e : y = x
        · simp [Seen.set, e] at hv
          rw [← hv] at ht; simp [truthy] at ht
        · simp [Seen.set, e] at hv; exact hs y v hv ht
      by_cases he : excl x = true
      · rw [if_pos he] at h
        cases h
        refine ⟨hmono _, fun _ hS => ⟨hsound hS, fun h => by cases h⟩, fun _ => ⟨by simp [Seen.set], ?_⟩⟩
        intro y h1 h2
        by_cases e : y = x
        · exact Or.inl (e ▸ he)
        · simp [Seen.set, e, h2] at h1
      · rw [if_neg he] at h
        cases hm : m x with
        | none =>
          rw [hm] at h; cases h
          refine ⟨fun _ h => h, fun hk hS => ?_, fun h => by cases h⟩
          rcases hk with hk | hk
          · exact absurd hk he
          · rw [hm] at hk; cases hk
        | some r =>
          rw [hm] at h
          simp only at h
          cases hc : compare (hasChanged G m excl n) (G x) r (s.set x ([], false)) with
          | error e => rw [hc] at h; cases h
          | ok q =>
            obtain ⟨v, s1⟩ := q
            rw [hc] at h
            cases h
            obtain ⟨c1, c2, c3, c4, c5⟩ := compare_ok ih (G x) r (hS.kind x r hm) (hS.wfOld x r hm) (hS.wfNow x) _ _ _ hc
            have hmono1 : Mono s1 (s1.set x v) := by
              intro y hy
              by_cases e : y = x <;> simp [Seen.set, e, hy]
            refine ⟨((hmono _).trans c1).trans hmono1, fun _ hSo => ?_, fun hb => ?_⟩
            · obtain ⟨d1, d2, d3⟩ := c4 (hC x r hm) (hsound hSo)
              have hbad : truthy v = true → Bad G m x := by
                intro ht
                unfold truthy at ht
                rw [Bool.or_eq_true] at ht
                rcases ht with ht | ht
                · cases hv : v.1 with
                  | nil => rw [hv] at ht; simp at ht
                  | cons p l =>
                    obtain ⟨-, hp⟩ := d2 p (by rw [hv]; simp)
                    rcases hp with hp | ⟨w, e1, e2, e3⟩
                    · exact ⟨x, r, .refl _, hm, Or.inl ⟨_, hp⟩⟩
                    · refine Bad.step hm ?_ e3
                      unfold attrOf at e1
                      cases ha : r.attrs with
                      | none => rw [ha] at e1; cases e1
                      | some a => rw [ha] at e1; exact Or.inl ⟨a, p.1, ha, mem_of_lookup e1⟩
                · rcases d3 ht with e | ⟨c, e1, e2⟩
                  · exact ⟨x, r, .refl _, hm, Or.inr e⟩
                  · exact Bad.step hm (Or.inr e1) e2
              refine ⟨?_, hbad⟩
              intro y w hw ht
              by_cases e : y = x
              · subst e
                simp [Seen.set] at hw
                subst hw
                exact hbad ht
              · simp [Seen.set, e] at hw; exact d1 y w hw ht
            · obtain ⟨e1, e2, e3⟩ := c5 hb
              refine ⟨by simp [Seen.set], ?_⟩
              intro y h1 h2
              by_cases e : y = x
              · subst e
                exact Or.inr ⟨r, hm, e1, fun c hc => hmono1 c (e2 c hc)⟩
              · simp [Seen.set, e] at h1
                exact (e3 y h1 (by simp [Seen.set, e, h2])).mono hmono1

end

/-! ### C37 -/

/-- For every memo closed under reference: `has_changed` answers exactly whether some object reachable by the records
differs from its record. -/
theorem hasChanged_iff {G : Graph} {m : Memo} {excl : Id → Bool} (hS : Setting G m) (hC : ClosedMemo m excl) {n : Nat}
    {x : Id} (hx : Known m excl x) (hxm : ∀ y, excl y = true → m y = none) {b : Bool} {s : Seen}
    (h : hasChanged G m excl n x noSeen = .ok (b, s)) :
    b = true ↔ ∃ y r, MReach m x y ∧ m y = some r ∧ Differs r (G y) := by
  obtain ⟨-, h2, h3⟩ := hasChanged_ok hS hC n x noSeen b s h
  constructor
  · intro hb
    exact (h2 hx (fun y v hv => by cases hv)).2 hb
  · rintro ⟨y, r, hr, hm, hd⟩
    cases b with
    | true => rfl
    | false =>
      exfalso
      obtain ⟨k1, k2⟩ := h3 rfl
      have key : ∀ x y, MReach m x y → (s x).isSome = true → (s y).isSome = true := by
        intro x y hr
        induction hr with
        | refl => exact id
        | step hm hl _ ih =>
          intro hsx
          apply ih
          rcases k2 _ hsx rfl with e | ⟨r', e1, e2, e3⟩
          · rw [hxm _ e] at hm; cases hm
          · rw [hm] at e1; cases e1; exact e3 _ hl
      rcases k2 y (key x y hr k1) rfl with e | ⟨r', e1, e2, e3⟩
      · rw [hxm _ e] at hm; cases hm
      · rw [hm] at e1; cases e1; exact e2 hd

/-- After `memorise(obj)` on an empty memo, `has_changed(obj)` is true exactly when some object that was reachable
from `obj` (not through excluded ones) has gained, lost or been rebound an attribute or item. -/
theorem C37_fresh (G₀ G₁ : Graph) (excl : Id → Bool) (n n' : Nat) (x : Id) (force : Bool) (m : Memo) (b : Bool)
    (s : Seen) (wf₀ : ∀ y, WF (G₀ y)) (wf₁ : ∀ y, WF (G₁ y)) (kind : ∀ y, SameKind (G₀ y) (G₁ y))
    (h : memorise G₀ excl n force x emptyMemo = .ok m) (h' : hasChanged G₁ m excl n' x noSeen = .ok (b, s)) :
    b = true ↔ ∃ y, Reach G₀ excl x y ∧ excl y = false ∧ Differs (G₀ y) (G₁ y) := by
  have R := C38_records_reachable G₀ excl n x force m h
  have hval : ∀ y r, m y = some r → r = G₀ y := fun y r hy => ((R y r).1 hy).2.2
  have hS : Setting G₁ m := ⟨fun y r hy => hval y r hy ▸ kind y, fun y r hy => hval y r hy ▸ wf₀ y, wf₁⟩
  have hrec : ∀ y, Reach G₀ excl x y → Known m excl y := by
    intro y hy
    cases he : excl y with
    | true => exact Or.inl he
    | false => exact Or.inr (by rw [(R y (G₀ y)).2 ⟨hy, he, rfl⟩]; rfl)
  have hC : ClosedMemo m excl := by
    intro y r hy c hc
    obtain ⟨a1, a2, rfl⟩ := (R y r).1 hy
    exact hrec c (a1.trans (.step a2 hc (.refl _)))
  have hxm : ∀ y, excl y = true → m y = none := by
    intro y hy
    cases hm : m y with
    | none => rfl
    | some r => have := ((R y r).1 hm).2.1; rw [hy] at this; cases this
  have back : ∀ a y, MReach m a y → Reach G₀ excl a y := by
    intro a y hr
    induction hr with
    | refl => exact .refl _
    | step hm hl _ ih =>
      obtain ⟨-, e2, rfl⟩ := (R _ _).1 hm
      exact .step e2 hl ih
  have forth : ∀ a y, Reach G₀ excl a y → Reach G₀ excl x a → MReach m a y := by
    intro a y hr
    induction hr with
    | refl => intro _; exact .refl _
    | step he hl _ ih =>
      intro hxa
      exact .step ((R _ _).2 ⟨hxa, he, rfl⟩) hl (ih (hxa.trans (.step he hl (.refl _))))
  rw [hasChanged_iff hS hC (hrec x (.refl _)) hxm h']
  constructor
  · rintro ⟨y, r, h1, h2, h3⟩
    obtain ⟨a1, a2, rfl⟩ := (R y r).1 h2
    exact ⟨y, a1, a2, h3⟩
  · rintro ⟨y, h1, h2, h3⟩
    exact ⟨y, G₀ y, forth x y h1 (.refl _), (R y _).2 ⟨h1, h2, rfl⟩, h3⟩

/-- the memos that arise: start empty, memorise any objects, forced or not, at any moments -/
inductive History (excl : Id → Bool) : Memo → Prop where
  | start : History excl emptyMemo
  | memo {m m' : Memo} (G : Graph) (n : Nat) (force : Bool) (x : Id) : History excl m → (∀ y, WF (G y)) →
      memorise G excl n force x m = .ok m' → History excl m'

theorem history_inv {excl : Id → Bool} {m : Memo} (h : History excl m) :
    ClosedMemo m excl ∧ (∀ y, excl y = true → m y = none) ∧ (∀ y r, m y = some r → WF r) := by
  induction h with
  | start => exact ⟨fun y r h => (by cases h), fun _ _ => rfl, fun y r h => by cases h⟩
  | @memo m m' G n force x _ hw hm ih =>
    obtain ⟨i1, i2, i3⟩ := ih
    -- the memo before the recursive calls, and what they do
    have mid : ∃ m1 : Memo, (∃ P, MemOk G excl P m1 m' ∧ ∀ c, Link (G x) c → m1 ≠ m → P c) ∧
        (m1 = m ∨ (excl x = false ∧ m1 = m.set x (G x))) := by
      cases n with
      | zero => cases hm
      | succ n =>
        rw [memorise] at hm
        by_cases c : ((m x).isSome = true ∧ force = false) ∨ excl x = true
        · rw [if_pos c] at hm
          cases hm
          refine ⟨m, ⟨fun _ => False, ⟨fun _ _ h => h, fun _ _ h => Or.inl h, fun y h1 h2 => absurd h2 (by rw [h1]; decide), fun _ h => by cases h⟩, fun c _ h => absurd rfl h⟩, Or.inl rfl⟩
        · rw [if_neg c] at hm
          refine ⟨m.set x (G x), ⟨(· ∈ children (G x)), forAll_ok (fun v m m' h => memorise_ok G excl n v m m' h) _ _ _ hm,
            fun c hc _ => mem_children.2 hc⟩, Or.inr ⟨?_, rfl⟩⟩
          cases he : excl x with
          | false => rfl
          | true => exact absurd (Or.inr he) c
    obtain ⟨m1, ⟨P, A, hP⟩, hm1⟩ := mid
    have old : ∀ y r, m1 y = some r → m y = some r ∨ (y = x ∧ r = G x ∧ excl x = false ∧ m1 ≠ m) ∨ (m y = some r) := by
      intro y r hy
      rcases hm1 with e | ⟨e0, e⟩
      · rw [e] at hy; exact Or.inl hy
      · by_cases hyx : y = x
        · by_cases hmm : m1 = m
          · rw [hmm] at hy; exact Or.inl hy
          · rw [e] at hy
            simp [Memo.set, hyx] at hy
            exact Or.inr (Or.inl ⟨hyx, hy.symm, e0, hmm⟩)
        · rw [e] at hy
          simp [Memo.set, hyx] at hy
          exact Or.inl hy
    have up : ∀ c, Known m excl c → Known m' excl c := by
      rintro c (hc | hc)
      · exact Or.inl hc
      · right
        apply isSome_keep A.keep
        rcases hm1 with e | ⟨e0, e⟩
        · rw [e]; exact hc
        · rw [e]; by_cases hcx : c = x <;> simp [Memo.set, hcx, hc]
    refine ⟨?_, ?_, ?_⟩
    · intro y r hy c hc
      rcases A.fresh y r hy with e | ⟨e1, e2, e3, z, e4, e5⟩
      · rcases old y r e with e | ⟨rfl, rfl, -, e⟩ | e
        · exact up c (i1 y r e c hc)
        · exact A.roots c (hP c hc e)
        · exact up c (i1 y r e c hc)
      · subst e2
        exact A.closed y e1 (by rw [hy]; rfl) c hc
    · intro y hy
      cases hm' : m' y with
      | none => rfl
      | some r =>
        exfalso
        rcases A.fresh y r hm' with e | ⟨e1, e2, e3, -⟩
        · rcases old y r e with e | ⟨rfl, -, e, -⟩ | e
          · rw [i2 y hy] at e; cases e
          · rw [hy] at e; cases e
          · rw [i2 y hy] at e; cases e
        · rw [hy] at e3; cases e3
    · intro y r hy
      rcases A.fresh y r hy with e | ⟨e1, e2, -⟩
      · rcases old y r e with e | ⟨rfl, rfl, -⟩ | e
        · exact i3 y r e
        · exact hw _
        · exact i3 y r e
      · exact e2 ▸ hw y

/-- After any history of `memorise` calls at any moments (forced or not), `has_changed(obj)` of a memorised object is
true exactly when some object reachable from it by the recorded references differs now from its own record. -/
theorem C37_history (G : Graph) (m : Memo) (excl : Id → Bool) (n : Nat) (x : Id) (b : Bool) (s : Seen) (r : Rec)
    (hm : History excl m) (hx : m x = some r) (wf : ∀ y, WF (G y)) (kind : ∀ y r, m y = some r → SameKind r (G y))
    (h : hasChanged G m excl n x noSeen = .ok (b, s)) :
    b = true ↔ ∃ y r, MReach m x y ∧ m y = some r ∧ Differs r (G y) := by
  obtain ⟨i1, i2, i3⟩ := history_inv hm
  exact hasChanged_iff ⟨kind, i3, wf⟩ i1 (Or.inr (by rw [hx]; rfl)) i2 h

/-- Objects that were never memorised count as changed, excluded ones never do. -/
theorem C37_unknown (G : Graph) (m : Memo) (excl : Id → Bool) (n : Nat) (x : Id) :
    (excl x = true → ∃ s, hasChanged G m excl (n + 1) x noSeen = .ok (false, s)) ∧
    (excl x = false → m x = none → hasChanged G m excl (n + 1) x noSeen = .ok (true, noSeen)) := by
  constructor
  · intro h; exact ⟨_, by simp [hasChanged, noSeen, h]; rfl⟩
  · intro h h'; simp [hasChanged, noSeen, h, h']

/-! ### termination -/

section
variable {G : Graph} {m : Memo} {excl : Id → Bool} {U : List Id}

def RcTotal (U : List Id) (b : Nat) (rc : Rc) : Prop := ∀ v s, missing U s < b → ∃ q, rc v s = .ok q

theorem attrLoop_total {rc : Rc} {b : Nat} (hrc : RcOk G m excl rc) (ht : RcTotal U b rc) (o : List (String × Id)) :
    ∀ (a : List (String × Id)) (ch : List (String × Option Id)) (s : Seen), missing U s < b →
    ∃ q, attrLoop rc o a ch s = .ok q := by
  intro a
  induction a with
  | nil => intro ch s _; exact ⟨_, rfl⟩
  | cons p a ih =>
    obtain ⟨k, v⟩ := p
    intro ch s hb
    rw [attrLoop]
    by_cases c : o.lookup k ≠ some v
    · rw [if_pos c]; exact ih _ _ hb
    · rw [if_neg c]
      obtain ⟨⟨b1, s1⟩, hr⟩ := ht v s hb
      have := missing_mono (U := U) (hrc _ _ _ _ hr).1
      rw [hr]
      cases b1 with
      | true => exact ih _ _ (by omega)
      | false => exact ih _ _ (by omega)

theorem dictLoop_total {rc : Rc} {b : Nat} (hrc : RcOk G m excl rc) (ht : RcTotal U b rc) (o : List (Id × Id)) :
    ∀ (a : List (Id × Id)) (s : Seen), missing U s < b → ∃ q, dictLoop rc o a s = .ok q := by
  intro a
  induction a with
  | nil => intro s _; exact ⟨_, rfl⟩
  | cons p a ih =>
    obtain ⟨k, v⟩ := p
    intro s hb
    rw [dictLoop]
    by_cases c : o.lookup k ≠ some v
    · rw [if_pos c]; exact ⟨_, rfl⟩
    · rw [if_neg c]
      obtain ⟨⟨b1, s1⟩, hr⟩ := ht k s hb
      have h1 := missing_mono (U := U) (hrc _ _ _ _ hr).1
      rw [hr]
      cases b1 with
      | true => exact ⟨_, rfl⟩
      | false =>
        simp only
        obtain ⟨⟨b2, s2⟩, hr2⟩ := ht v s1 (by omega)
        have h2 := missing_mono (U := U) (hrc _ _ _ _ hr2).1
        rw [hr2]
        cases b2 with
        | true => exact ⟨_, rfl⟩
        | false => exact ih _ (by omega)

theorem listLoop_total {rc : Rc} {b : Nat} (hrc : RcOk G m excl rc) (ht : RcTotal U b rc) :
    ∀ (l o : List Id) (s : Seen), missing U s < b → ∃ q, listLoop rc l o s = .ok q := by
  intro l
  induction l with
  | nil => intro o s _; exact ⟨_, rfl⟩
  | cons i l ih =>
    intro o s hb
    cases o with
    | nil => exact ⟨_, rfl⟩
    | cons j o =>
      rw [listLoop]
      by_cases c : i ≠ j
      · rw [if_pos c]; exact ⟨_, rfl⟩
      · rw [if_neg c]
        obtain ⟨⟨b1, s1⟩, hr⟩ := ht i s hb
        have h1 := missing_mono (U := U) (hrc _ _ _ _ hr).1
        rw [hr]
        cases b1 with
        | true => exact ⟨_, rfl⟩
        | false => exact ih _ _ (by omega)

theorem compare_total {rc : Rc} {b : Nat} (hrc : RcOk G m excl rc) (ht : RcTotal U b rc) (now old : Rec)
    (hk : SameKind old now) (hw : WF old) (hw' : WF now) (s : Seen) (hb : missing U s < b) :
    ∃ q, compare rc now old s = .ok q := by
  have h1 : ∃ q, cmpAttrs rc now.attrs old.attrs s = .ok q := by
    have := hk.1
    cases hn : now.attrs with
    | none => exact ⟨_, rfl⟩
    | some a =>
      cases ho : old.attrs with
      | none => rw [hn, ho] at this; cases this
      | some o => exact attrLoop_total hrc ht o _ _ _ hb
  obtain ⟨⟨ch, s1⟩, h1⟩ := h1
  have hmn := missing_mono (U := U) (cmpAttrs_ok hrc now old hk hw hw' _ _ _ h1).1
  have h2 : ∃ q, cmpSeq rc now.seq old.seq s1 = .ok q := by
    have := hk.2
    cases hn : now.seq with
    | none => exact ⟨_, rfl⟩
    | list l =>
      cases ho : old.seq with
      | none => rw [hn, ho] at this; cases this
      | dict _ => rw [hn, ho] at this; cases this
      | list o =>
        rw [cmpSeq]
        by_cases c : l.length ≠ o.length
        · rw [if_pos c]; exact ⟨_, rfl⟩
        · rw [if_neg c]; exact listLoop_total hrc ht _ _ _ (by omega)
    | dict l =>
      cases ho : old.seq with
      | none => rw [hn, ho] at this; cases this
      | list _ => rw [hn, ho] at this; cases this
      | dict o =>
        rw [cmpSeq]
        by_cases c : l.length ≠ o.length
        · rw [if_pos c]; exact ⟨_, rfl⟩
        · rw [if_neg c]; exact dictLoop_total hrc ht _ _ _ (by omega)
  obtain ⟨⟨d, s2⟩, h2⟩ := h2
  exact ⟨((ch, d), s2), by simp only [compare, h1, h2]⟩

theorem hasChanged_total (hS : Setting G m) (hC : ClosedMemo m excl) (hU : ∀ y, (m y).isSome = true → y ∈ U) (n : Nat) :
    RcTotal U n (hasChanged G m excl n) := by
  induction n with
  | zero => intro v s h; omega
  | succ n ih =>
    intro x s hn
    rw [hasChanged]
    cases hs : s x with
    | some v => exact ⟨_, rfl⟩
    | none =>
      simp only
      by_cases he : excl x = true
      · rw [if_pos he]; exact ⟨_, rfl⟩
      · rw [if_neg he]
        cases hm : m x with
        | none => exact ⟨_, rfl⟩
        | some r =>
          simp only
          have hlt := missing_lt (U := U) (m := s) (m' := Seen.set s x ([], false)) (x := x)
            (by intro y hy; by_cases hyx : y = x <;> simp [Seen.set, hyx, hy]) (hU x (by rw [hm]; rfl)) hs
            (by simp [Seen.set])
          obtain ⟨⟨v, s1⟩, hc⟩ := compare_total (hasChanged_ok hS hC n) ih (G x) r (hS.kind x r hm) (hS.wfOld x r hm)
            (hS.wfNow x) (Seen.set s x ([], false)) (by omega)
          rw [hc]; exact ⟨_, rfl⟩

end

/-- `has_changed` terminates and raises nothing, on every cyclic or acyclic graph: its nesting never exceeds the
number `U.length` of memorised objects by more than one. -/
theorem C37_terminates (G : Graph) (m : Memo) (excl : Id → Bool) (U : List Id) (x : Id)
    (hm : History excl m) (hU : ∀ y, (m y).isSome = true → y ∈ U) (wf : ∀ y, WF (G y))
    (kind : ∀ y r, m y = some r → SameKind r (G y)) :
    ∃ b s, hasChanged G m excl (U.length + 1) x noSeen = .ok (b, s) := by
  obtain ⟨i1, i2, i3⟩ := history_inv hm
  obtain ⟨⟨b, s⟩, h⟩ := hasChanged_total (U := U) ⟨kind, i3, wf⟩ i1 hU (U.length + 1) x noSeen
    (Nat.lt_succ_of_le (List.length_filter_le _ _))
  exact ⟨b, s, h⟩

/-! ### C51: what `whats_changed` lists -/

/-- What `whats_changed(obj)` lists, after any history of `memorise` calls.  Every attribute gained, lost or rebound is
listed with its present value (`None` if lost), and changed items are flagged; conversely a listed attribute was
gained, lost or rebound, or an object reachable from its value changed; and flagged items differ, or an object
reachable from one changed. -/
theorem C51_listed_partial (G : Graph) (m : Memo) (excl : Id → Bool) (n : Nat) (x : Id) (v : Val) (r : Rec)
    (hm : History excl m) (hx : m x = some r) (wf : ∀ y, WF (G y)) (kind : ∀ y r, m y = some r → SameKind r (G y))
    (h : whatsChanged G m excl n x = .ok v) :
    (∀ k, attrOf r k ≠ attrOf (G x) k → (k, attrOf (G x) k) ∈ v.1) ∧
    (¬ SameItems r.seq (G x).seq → v.2 = true) ∧
    (∀ k w, (k, w) ∈ v.1 → w = attrOf (G x) k ∧ (attrOf r k ≠ attrOf (G x) k ∨
      ∃ c y r', attrOf (G x) k = some c ∧ MReach m c y ∧ m y = some r' ∧ Differs r' (G y))) ∧
    (v.2 = true → ¬ SameItems r.seq (G x).seq ∨
      ∃ c y r', Item r c ∧ MReach m c y ∧ m y = some r' ∧ Differs r' (G y)) := by
  obtain ⟨i1, i2, i3⟩ := history_inv hm
  have hS : Setting G m := ⟨kind, i3, wf⟩
  unfold whatsChanged at h
  have he : ¬ excl x = true := fun e => by rw [i2 x e] at hx; cases hx
  rw [if_neg he, hx] at h
  simp only at h
  cases hc : compare (hasChanged G m excl n) (G x) r (Seen.set (fun _ => none) x ([], false)) with
  | error e => rw [hc] at h; cases h
  | ok q =>
    obtain ⟨v', s'⟩ := q
    rw [hc] at h
    cases h
    obtain ⟨c1, c2, c3, c4, -⟩ := compare_ok (hasChanged_ok hS i1 n) (G x) r (kind x r hx) (i3 x r hx) (wf x) _ _ _ hc
    have hs0 : Sound G m (Seen.set (fun _ => none) x ([], false)) := by
      intro y w hw ht
      by_cases e : y = x
      · simp [Seen.set, e] at hw
        rw [← hw] at ht; simp [truthy] at ht
      · simp [Seen.set, e] at hw
    obtain ⟨-, d2, d3⟩ := c4 (i1 x r hx) hs0
    refine ⟨c2, c3, ?_, ?_⟩
    · intro k w hkw
      obtain ⟨e1, e2⟩ := d2 _ hkw
      refine ⟨e1, ?_⟩
      rcases e2 with e2 | ⟨c, e2, e3, y, r', e4, e5, e6⟩
      · exact Or.inl e2
      · exact Or.inr ⟨c, y, r', e3, e4, e5, e6⟩
    · intro hb
      rcases d3 hb with e | ⟨c, e1, y, r', e4, e5, e6⟩
      · exact Or.inl e
      · exact Or.inr ⟨c, y, r', e1, e4, e5, e6⟩

deriving instance DecidableEq for Except

/-- `0` has attributes `a` (object 1) and `b` (object 2); 1 refers to 2 and then to 3, 2 refers back to 1; 3 is a
list, empty at first -/
def ring (last : List Id) : Graph := fun x =>
  if x = 0 then ⟨some [("a", 1), ("b", 2)], .none⟩
  else if x = 1 then ⟨some [("y", 2), ("z", 3)], .none⟩
  else if x = 2 then ⟨some [("x", 1)], .none⟩
  else if x = 3 then ⟨none, .list last⟩
  else ⟨none, .none⟩

def ringMemo : Memo := fun x => if x ≤ 3 then some (ring [] x) else none

theorem ring_memorised : memorise (ring []) (fun _ => false) 10 false 0 emptyMemo = .ok ringMemo := by
  have : memorise (ring []) (fun _ => false) 10 false 0 emptyMemo =
      .ok ((((emptyMemo.set 0 (ring [] 0)).set 1 (ring [] 1)).set 2 (ring [] 2)).set 3 (ring [] 3)) := by rfl
  rw [this]
  congr 1
  funext x
  simp only [Memo.set, emptyMemo, ringMemo]
  by_cases h3 : x = 3
  · subst h3; rfl
  by_cases h2 : x = 2
  · subst h2; rfl
  by_cases h1 : x = 1
  · subst h1; rfl
  by_cases h0 : x = 0
  · subst h0; rfl
  rw [if_neg h3, if_neg h2, if_neg h1, if_neg h0, if_neg]
  intro h
  have : x = 0 ∨ x = 1 ∨ x = 2 ∨ x = 3 := by
    have h : (x : Nat) ≤ 3 := h
    match x, h with
    | 0, _ => simp
    | 1, _ => simp
    | 2, _ => simp
    | 3, _ => simp
  simp [h3, h2, h1, h0] at this

/-- Modules and excluded classes are never reported: nothing is listed for them, whatever they hold. -/
theorem C51_excluded (G : Graph) (m : Memo) (excl : Id → Bool) (n : Nat) (x : Id) (h : excl x = true) :
    whatsChanged G m excl n x = .ok ([], false) ∧
    ∀ s, s x = none → (hasChanged G m excl (n + 1) x s).map (·.1) = .ok false := by
  refine ⟨by simp [whatsChanged, h], ?_⟩
  intro s hs
  simp [hasChanged, hs, h, Except.map]

/-- The converse fails: attribute `b` of object 0 leads to a changed object (3, through 1), and yet `whats_changed`
lists only `a`, because object 2 was judged while object 1 was still provisionally "unchanged". -/
theorem C51_missed_attribute :
    whatsChanged (ring [4]) ringMemo (fun _ => false) 10 0 = .ok ([("a", some 1)], false) ∧
    attrOf (ring [4] 0) "b" = some 2 ∧
    ∃ y r', MReach ringMemo 2 y ∧ ringMemo y = some r' ∧ Differs r' (ring [4] y) := by
  refine ⟨by decide +kernel, by decide, 3, ring [] 3, ?_, rfl, Or.inr (by simp [ring, SameItems])⟩
  refine .step (y := 1) (r := ring [] 2) rfl (Or.inl ⟨[("x", 1)], "x", rfl, by simp⟩) ?_
  refine .step (y := 3) (r := ring [] 1) rfl (Or.inl ⟨[("y", 2), ("z", 3)], "z", rfl, by simp⟩) (.refl _)

/-! ### examples: a cyclic graph, changed and unchanged -/

example : History (fun _ => false) ringMemo :=
  .memo (ring []) 10 false 0 .start (by
    intro y
    unfold ring
    repeat' split
    all_goals refine ⟨?_, ?_⟩ <;> intro a h <;> cases h <;> decide) ring_memorised

example : (hasChanged (ring [4]) ringMemo (fun _ => false) 10 0 noSeen).map (·.1) = .ok true := by decide +kernel
example : (hasChanged (ring []) ringMemo (fun _ => false) 10 0 noSeen).map (·.1) = .ok false := by decide +kernel
example : ∀ y, SameKind (ring [] y) (ring [4] y) := by
  intro y
  unfold ring
  repeat' split
  all_goals simp [SameKind]
example : ∀ y ∈ [0, 1, 2, 3], ∀ c, Link (ring [] y) c → c ∈ [0, 1, 2, 3] := by
  intro y hy c hc
  rw [← mem_children] at hc
  simp at hy
  rcases hy with rfl | rfl | rfl | rfl <;> simp [ring, children] at hc <;> simp [hc] <;> rcases hc with rfl | rfl <;> simp

end Verif.Diff
