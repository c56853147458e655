import Verif.Props.OldSetsCopy
/-! C113, generations: the copy can be pickled at the same protocols as the original. -/
set_option linter.unusedSimpArgs false
namespace Verif.OldSets

/-! ### specification -/

/-- the loaded objects as a graph that can be pickled again: a loaded tuple or instance is made from and filled with what it has; a set or frozenset has its
elements, whether it was made from them or filled with them -/
def asGraph (heap : List Loaded) (i : Id) : Obj :=
  match heap[i]? with
  | some ⟨.plain, made, filled⟩ => .plain made filled
  | some ⟨.set, made, filled⟩ => .set (made ++ filled)
  | some ⟨.fset, made, filled⟩ => .fset (made ++ filled)
  | none => .plain [] []

/-! ### proofs -/

def mapObj (φ : Id → Nat) : Obj → Obj
  | .plain b a => .plain (b.map φ) (a.map φ)
  | .set els => .set (els.map φ)
  | .fset els => .fset (els.map φ)

theorem IsCopy.asGraph {H root t heap φ} (h : IsCopy H root t heap φ) {x : Id} (hx : Reach H root x) :
    asGraph heap (φ x) = mapObj φ (H x) := by
  obtain ⟨⟨k, md, fl⟩, a, b⟩ := h.objs x hx
  unfold OldSets.asGraph
  rw [a]
  cases e : H x with
  | plain bs as => rw [e] at b; obtain ⟨rfl, c, d⟩ := b; unfold CopiedAs at c d; simp only [mapObj] at *; rw [← c, ← d]
  | set els => rw [e] at b; obtain ⟨rfl, c⟩ := b; unfold CopiedAs at c; simp only [mapObj] at *; rw [← c]
  | fset els => rw [e] at b; obtain ⟨rfl, c⟩ := b; unfold CopiedAs at c; simp only [mapObj] at *; rw [← c]

theorem parts_map (φ : Id → Nat) (o : Obj) : parts (mapObj φ o) = (parts o).map φ := by
  cases o <;> simp [parts, mapObj]

theorem before_map (p : Nat) (φ : Id → Nat) (o : Obj) : before p (mapObj φ o) = (before p o).map φ := by
  cases o <;> simp only [before, mapObj] <;> (try split) <;> simp

theorem IsCopy.reach {H root t heap φ} (h : IsCopy H root t heap φ) (i : Id) :
    Reach (OldSets.asGraph heap) t i ↔ ∃ x, Reach H root x ∧ φ x = i := by
  constructor
  · intro hi
    induction hi with
    | here => exact ⟨root, .here, h.start.symm⟩
    | step _ hz ih =>
      obtain ⟨x, hx, rfl⟩ := ih
      rw [h.asGraph hx, parts_map] at hz
      obtain ⟨y, hy, rfl⟩ := List.mem_map.1 hz
      exact ⟨y, .step hx hy, rfl⟩
  · rintro ⟨x, hx, rfl⟩
    induction hx with
    | here => rw [← h.start]; exact .here
    | step hy hz ih =>
      refine .step ih ?_
      rw [h.asGraph hy, parts_map]
      exact List.mem_map_of_mem hz

theorem IsCopy.knot {H root t heap φ} (h : IsCopy H root t heap φ) (q : Nat) : Knot q (OldSets.asGraph heap) t ↔ Knot q H root := by
  have sub : ∀ {x y}, Reach H root x → y ∈ before q (H x) → Reach H root y := fun hx hy =>
    .step hx ((parts_iff q _ _).2 (.inl hy))
  constructor
  · rintro ⟨i, hi, hk⟩
    obtain ⟨x, hx, rfl⟩ := (h.reach i).1 hi
    have : ∀ j, Relation.TransGen (Needs q (OldSets.asGraph heap)) (φ x) j →
        ∃ y, Reach H root y ∧ Relation.TransGen (Needs q H) x y ∧ φ y = j := by
      intro j hj
      induction hj with
      | single hn =>
        rw [needs_iff, h.asGraph hx, before_map] at hn
        obtain ⟨y, hy, rfl⟩ := List.mem_map.1 hn
        exact ⟨y, sub hx hy, .single ((needs_iff ..).2 hy), rfl⟩
      | tail _ hn ih =>
        obtain ⟨z, hz, hxz, rfl⟩ := ih
        rw [needs_iff, h.asGraph hz, before_map] at hn
        obtain ⟨y, hy, rfl⟩ := List.mem_map.1 hn
        exact ⟨y, sub hz hy, hxz.tail ((needs_iff ..).2 hy), rfl⟩
    obtain ⟨y, hy, hxy, e⟩ := this _ hk
    exact ⟨x, hx, by rw [h.inj y x hy hx e] at hxy; exact hxy⟩
  · rintro ⟨x, hx, hk⟩
    refine ⟨φ x, (h.reach _).2 ⟨x, hx, rfl⟩, ?_⟩
    have : ∀ y, Relation.TransGen (Needs q H) x y → Reach H root y ∧ Relation.TransGen (Needs q (OldSets.asGraph heap)) (φ x) (φ y) := by
      intro y hy
      induction hy with
      | single hn =>
        have hb := (needs_iff ..).1 hn
        refine ⟨sub hx hb, .single ?_⟩
        rw [needs_iff, h.asGraph hx, before_map]
        exact List.mem_map_of_mem hb
      | tail _ hn ih =>
        have hb := (needs_iff ..).1 hn
        refine ⟨sub ih.1 hb, ih.2.tail ?_⟩
        rw [needs_iff, h.asGraph ih.1, before_map]
        exact List.mem_map_of_mem hb
    exact (this x hk).2

theorem IsCopy.trans {H root t heap φ t' heap' φ'} (h : IsCopy H root t heap φ) (h' : IsCopy (OldSets.asGraph heap) t t' heap' φ') :
    IsCopy H root t' heap' (φ' ∘ φ) := by
  have hr : ∀ x, Reach H root x → Reach (OldSets.asGraph heap) t (φ x) := fun x hx => (h.reach _).2 ⟨x, hx, rfl⟩
  refine ⟨?_, ?_, ?_⟩
  · rw [h'.start, h.start]; rfl
  · intro x y hx hy e
    exact h.inj x y hx hy (h'.inj _ _ (hr x hx) (hr y hy) e)
  · intro x hx
    obtain ⟨o, a, b⟩ := h'.objs _ (hr x hx)
    rw [h.asGraph hx] at b
    refine ⟨o, a, ?_⟩
    cases e : H x with
    | plain bs as =>
      rw [e] at b; obtain ⟨k, c, d⟩ := b; unfold CopiedAs at c d ⊢
      exact ⟨k, by rw [c, List.map_map], by rw [d, List.map_map]⟩
    | set els => rw [e] at b; obtain ⟨k, c⟩ := b; unfold CopiedAs at c ⊢; exact ⟨k, by rw [c, List.map_map]⟩
    | fset els => rw [e] at b; obtain ⟨k, c⟩ := b; unfold CopiedAs at c ⊢; exact ⟨k, by rw [c, List.map_map]⟩

/-- C113, generations: what has been loaded from a pickle of protocol `p` can be pickled at protocol `q` exactly when the original can. -/
theorem C113_copy_can_dump (p q : Nat) (H : Id → Obj) (n : Nat) (root : Id) (hf : FiniteGraph H root) (ops : List Op)
    (h : pickleOf p H n root = some ops) :
    ∃ t heap, loads ops = some (t, heap) ∧ (CanDump q (asGraph heap) t ↔ CanDump q H root) := by
  obtain ⟨t, heap, φ, h1, c⟩ := C113_same_copy p H n root ops h
  refine ⟨t, heap, h1, ?_⟩
  obtain ⟨dom, hd⟩ := hf
  have hf' : FiniteGraph (asGraph heap) t := ⟨dom.map φ, fun i hi => by
    obtain ⟨x, hx, rfl⟩ := (c.reach i).1 hi
    exact List.mem_map_of_mem (hd x hx)⟩
  rw [C113_can_dump_iff q _ t hf', C113_can_dump_iff q H root ⟨dom, hd⟩, c.knot q]

/-- the graph that is left after pickling and loading at the protocols of the list, one after the other -/
inductive Copied (H : Id → Obj) (root : Id) : List Nat → Nat → (Id → Obj) → Prop
  | none : Copied H root [] root H
  | again {ps p t G n ops t' heap'} : Copied H root ps t G → pickleOf p G n t = some ops → loads ops = some (t', heap') →
      Copied H root (p :: ps) t' (asGraph heap')

/-- C113, any number of generations, with a protocol of its own for each: the last copy is a copy of the first object, and can be pickled at the protocols the
first object can be pickled at. -/
theorem C113_generations (H : Id → Obj) (root : Id) (hf : FiniteGraph H root) (ps : List Nat) (t : Nat) (G : Id → Obj)
    (h : Copied H root ps t G) :
    (∃ φ : Id → Nat, φ root = t ∧ (∀ x y, Reach H root x → Reach H root y → φ x = φ y → x = y) ∧
      ∀ x, Reach H root x → match H x with
        | .plain b a => G (φ x) = .plain (b.map φ) (a.map φ)
        | .set els => G (φ x) = .set (els.map φ)
        | .fset els => G (φ x) = .fset (els.map φ)) ∧
    ∀ q, CanDump q G t ↔ CanDump q H root := by
  suffices hs : (∃ φ : Id → Nat, φ root = t ∧ (∀ x y, Reach H root x → Reach H root y → φ x = φ y → x = y) ∧
      (∀ x, Reach H root x → G (φ x) = mapObj φ (H x)) ∧ ∀ i, Reach G t i → ∃ x, Reach H root x ∧ φ x = i) ∧
      FiniteGraph G t ∧ ∀ q, CanDump q G t ↔ CanDump q H root by
    obtain ⟨⟨φ, a, b, c, -⟩, -, d⟩ := hs
    refine ⟨⟨φ, a, b, fun x hx => ?_⟩, d⟩
    have := c x hx
    cases e : H x <;> rw [e] at this <;> exact this
  induction h with
  | none => exact ⟨⟨id, rfl, fun _ _ _ _ h => h, fun x _ => by cases e : H x <;> simp [mapObj, e], fun i hi => ⟨i, hi, rfl⟩⟩, hf, fun _ => Iff.rfl⟩
  | again hc hp hl ih =>
    obtain ⟨⟨φ, a, b, c, d⟩, hfg, hq⟩ := ih
    rename_i ps p t G n ops t' heap'
    obtain ⟨t2, heap2, ψ, h1, c2⟩ := C113_same_copy p G n t ops hp
    rw [hl] at h1; cases h1
    have hr : ∀ x, Reach H root x → Reach G t (φ x) := by
      intro x hx
      induction hx with
      | here => rw [a]; exact .here
      | step hy hz ih =>
        refine .step ih ?_
        rw [c _ hy, parts_map]; exact List.mem_map_of_mem hz
    refine ⟨⟨ψ ∘ φ, ?_, ?_, ?_, ?_⟩, ?_, ?_⟩
    · show ψ (φ root) = _; rw [a, c2.start]
    · intro x y hx hy e; exact b x y hx hy (c2.inj _ _ (hr x hx) (hr y hy) e)
    · intro x hx
      show asGraph heap' (ψ (φ x)) = _
      rw [c2.asGraph (hr x hx), c x hx]
      cases H x <;> simp [mapObj]
    · intro i hi
      obtain ⟨j, hj, rfl⟩ := (c2.reach i).1 hi
      obtain ⟨x, hx, rfl⟩ := d j hj
      exact ⟨x, hx, rfl⟩
    · obtain ⟨dom, hd⟩ := hfg
      exact ⟨dom.map ψ, fun i hi => by obtain ⟨x, hx, rfl⟩ := (c2.reach i).1 hi; exact List.mem_map_of_mem (hd x hx)⟩
    · intro q
      obtain ⟨t3, heap3, h3, e3⟩ := C113_copy_can_dump p q G n t hfg ops hp
      rw [hl] at h3; cases h3
      exact e3.trans (hq q)

/-! ### concrete cases -/

/-- the friends, pickled at protocol 4, loaded, pickled at protocol 2, loaded -/
example : ∃ t G, Copied friends 0 [2, 4] t G := ⟨_, _, .again (n := 6) (.again (n := 6) .none rfl rfl) rfl rfl⟩

end Verif.OldSets
