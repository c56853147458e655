import Verif.Props.OldSets
/-! C113, what is loaded: at every protocol, the same copy. -/
set_option linter.unusedSimpArgs false
namespace Verif.OldSets

/-! ### specification -/

/-- `l` and `ts` have the same length, and each object of `l` has its copy, by `φ`, at the same place of `ts` -/
def CopiedAs (φ : Id → Nat) (l : List Id) (ts : List Nat) : Prop := ts = l.map φ

/-- The loaded object `t` with everything around it is a copy of `root` with everything around it: no two objects have the same copy; kinds,
order and sharing are as they were.  A tuple, an instance and so on is made from the copies of what it was made from and filled with the
copies of what it was filled with; a set or frozenset has the copies of its elements, in order. -/
structure IsCopy (H : Id → Obj) (root : Id) (t : Nat) (heap : List Loaded) (φ : Id → Nat) : Prop where
  start : t = φ root
  inj : ∀ x y, Reach H root x → Reach H root y → φ x = φ y → x = y
  objs : ∀ x, Reach H root x → ∃ o, heap[φ x]? = some o ∧
    match H x with
    | .plain b a => o.kind = .plain ∧ CopiedAs φ b o.made ∧ CopiedAs φ a o.filled
    | .set els => o.kind = .set ∧ CopiedAs φ els (o.made ++ o.filled)
    | .fset els => o.kind = .fset ∧ CopiedAs φ els (o.made ++ o.filled)

/-! ### proofs -/

/-- `t` is the copy of `y` -/
def At (m : List Id) (memo : List Nat) (y : Id) (t : Nat) : Prop := ∃ i : Nat, m[i]? = some y ∧ memo[i]? = some t

theorem At.mono {m m' memo memo' y t} (h1 : m <+: m') (h2 : memo <+: memo') (h : At m memo y t) : At m' memo' y t := by
  obtain ⟨i, a, b⟩ := h
  obtain ⟨r1, rfl⟩ := h1
  obtain ⟨r2, rfl⟩ := h2
  have hi : i < m.length := (List.getElem?_eq_some_iff.1 a).1
  have hj : i < memo.length := (List.getElem?_eq_some_iff.1 b).1
  exact ⟨i, by rw [List.getElem?_append_left hi]; exact a, by rw [List.getElem?_append_left hj]; exact b⟩

theorem nodup_idx {α : Type} {l : List α} (h : l.Nodup) {i j : Nat} {a : α} (hi : l[i]? = some a) (hj : l[j]? = some a) : i = j := by
  have := (List.getElem?_eq_some_iff.1 hi).1
  exact (List.getElem?_inj this h).1 (by rw [hi, hj])

theorem At.fun {m memo y t t'} (h : m.Nodup) (a : At m memo y t) (b : At m memo y t') : t = t' := by
  obtain ⟨i, a1, a2⟩ := a
  obtain ⟨j, b1, b2⟩ := b
  have := nodup_idx h a1 b1
  subst this
  rw [a2] at b2; exact Option.some.inj b2

theorem At.inj {m memo y y' t} (h : memo.Nodup) (a : At m memo y t) (b : At m memo y' t) : y = y' := by
  obtain ⟨i, a1, a2⟩ := a
  obtain ⟨j, b1, b2⟩ := b
  have := nodup_idx h a2 b2
  subst this
  rw [a1] at b1; exact Option.some.inj b1

theorem At.mem {m memo y t} (a : At m memo y t) : y ∈ m ∧ t ∈ memo := by
  obtain ⟨i, a1, a2⟩ := a
  exact ⟨List.mem_of_getElem? a1, List.mem_of_getElem? a2⟩

theorem at_of_mem {m : List Id} {memo : List Nat} (hl : memo.length = m.length) {y : Id} (h : y ∈ m) : ∃ t, At m memo y t := by
  obtain ⟨i, hi, e⟩ := List.mem_iff_getElem.1 h
  exact ⟨memo[i], i, by rw [List.getElem?_eq_getElem hi, e], List.getElem?_eq_getElem (by omega)⟩

structure Inv (p : Nat) (H : Id → Obj) (m : List Id) (memo : List Nat) (heap : List Loaded) : Prop where
  len : memo.length = m.length
  nd : m.Nodup
  ndM : memo.Nodup
  lt : ∀ t ∈ memo, t < heap.length
  made : ∀ y t, At m memo y t → ∃ o, heap[t]? = some o ∧ o.kind = kind (H y) ∧ List.Forall₂ (At m memo) (before p (H y)) o.made

/-- `t`, the copy of `y`, has been filled -/
def Full (p : Nat) (H : Id → Obj) (m : List Id) (memo : List Nat) (heap : List Loaded) (y : Id) (t : Nat) : Prop :=
  ∃ o, heap[t]? = some o ∧ List.Forall₂ (At m memo) (after p (H y)) o.filled

/-- running `ops` has pushed the copies of `l` -/
structure Sim (p : Nat) (H : Id → Obj) (l : List Id) (m : List Id) (s : M) (m' : List Id) (s' : M) : Prop where
  inv : Inv p H m' s'.memo s'.heap
  stack : ∃ ts, s'.stack = ts.reverse ++ s.stack ∧ List.Forall₂ (At m' s'.memo) l ts
  pre : m <+: m'
  preM : s.memo <+: s'.memo
  grow : s.heap.length ≤ s'.heap.length
  same : ∀ t ∈ s.memo, s'.heap[t]? = s.heap[t]?
  full : ∀ y t, At m' s'.memo y t → t ∈ s.memo ∨ Full p H m' s'.memo s'.heap y t

theorem exec_append (a b : List Op) (s : M) : exec (a ++ b) s = (exec a s).bind (exec b) := by
  induction a generalizing s with
  | nil => rfl
  | cons op a ih =>
    simp only [List.cons_append, exec]
    cases step op s with
    | none => rfl
    | some s1 => exact ih s1

theorem Full.mono {p H m m' memo memo' heap heap' y t} (h1 : m <+: m') (h2 : memo <+: memo') (h3 : heap'[t]? = heap[t]?)
    (h : Full p H m memo heap y t) : Full p H m' memo' heap' y t := by
  obtain ⟨o, a, b⟩ := h
  exact ⟨o, by rw [h3]; exact a, b.imp fun _ _ => At.mono h1 h2⟩

theorem Sim.trans {p H l1 l2 m s m1 s1 m2 s2} (a : Sim p H l1 m s m1 s1) (b : Sim p H l2 m1 s1 m2 s2) :
    Sim p H (l1 ++ l2) m s m2 s2 := by
  obtain ⟨ts1, e1, f1⟩ := a.stack
  obtain ⟨ts2, e2, f2⟩ := b.stack
  refine ⟨b.inv, ⟨ts1 ++ ts2, by rw [e2, e1]; simp, List.rel_append (f1.imp fun _ _ => At.mono b.pre b.preM) f2⟩, a.pre.trans b.pre,
    a.preM.trans b.preM, Nat.le_trans a.grow b.grow, ?_, ?_⟩
  · intro t ht
    rw [b.same t (a.preM.subset ht), a.same t ht]
  · intro y t h
    rcases b.full y t h with h' | h'
    · obtain ⟨i, c1, c2⟩ := h
      -- an old entry of the memo
      have hlt : i < s1.memo.length := by
        obtain ⟨j, hj, ej⟩ := List.mem_iff_getElem.1 h'
        have hj' : s2.memo[j]? = some t := by
          obtain ⟨r, hr⟩ := b.preM
          rw [← hr, List.getElem?_append_left hj, List.getElem?_eq_getElem hj, ej]
        have := nodup_idx b.inv.ndM c2 hj'
        omega
      have hA : At m1 s1.memo y t := by
        refine ⟨i, ?_, ?_⟩
        · obtain ⟨r, hr⟩ := b.pre
          rw [← hr, List.getElem?_append_left (by rw [← a.inv.len]; exact hlt)] at c1; exact c1
        · obtain ⟨r, hr⟩ := b.preM
          rw [← hr, List.getElem?_append_left hlt] at c2; exact c2
      rcases a.full y t hA with h | h
      · exact .inl h
      · exact .inr (h.mono b.pre b.preM (b.same t h'))
    · exact .inr h'

theorem sim_nil {p H m s} (hi : Inv p H m s.memo s.heap) : Sim p H [] m s m s :=
  ⟨hi, ⟨[], rfl, .nil⟩, List.prefix_rfl, List.prefix_rfl, Nat.le_refl _, fun _ _ => rfl, fun _ _ h => .inl h.mem.2⟩

theorem writeAll_sim {p H} {f : Id → List Id → Option (List Id × List Op)}
    (hf : ∀ x m m' ops, f x m = some (m', ops) → ∀ s, Inv p H m s.memo s.heap → ∃ s', exec ops s = some s' ∧ Sim p H [x] m s m' s') :
    ∀ (l : List Id) m m' ops, writeAll f l m = some (m', ops) → ∀ s, Inv p H m s.memo s.heap →
      ∃ s', exec ops s = some s' ∧ Sim p H l m s m' s' := by
  intro l
  induction l with
  | nil => intro m m' ops e s hi; simp only [writeAll, Option.some.injEq, Prod.mk.injEq] at e; obtain ⟨rfl, rfl⟩ := e; exact ⟨s, rfl, sim_nil hi⟩
  | cons x xs ih =>
    intro m m' ops e s hi
    simp only [writeAll] at e
    split at e
    · cases e
    · next m1 o1 e1 =>
      split at e
      · cases e
      · next m2 o2 e2 =>
        cases e
        obtain ⟨s1, x1, g1⟩ := hf _ _ _ _ e1 s hi
        obtain ⟨s2, x2, g2⟩ := ih _ _ _ e2 s1 g1.inv
        exact ⟨s2, by rw [exec_append, x1]; exact x2, g1.trans g2⟩

/-- the second half of saving `x`: what it is filled with, once it is in the memo as `t0` and on top of the stack -/
theorem fill_sim {p H m s m2 st t0 x m3 s3} {memo2 : List Nat} {heap2 : List Loaded} (hst : st = s.stack)
    (hinv : Inv p H m2 memo2 heap2) (hpre : m <+: m2) (hpreM : s.memo <+: memo2) (hgrow : s.heap.length ≤ heap2.length)
    (hsame : ∀ t ∈ s.memo, heap2[t]? = s.heap[t]?) (hx : At m2 memo2 x t0) (hnew : t0 ∉ s.memo)
    (hfull : ∀ y t, At m2 memo2 y t → t ∈ s.memo ∨ t = t0 ∨ Full p H m2 memo2 heap2 y t)
    (g : Sim p H (after p (H x)) m2 ⟨t0 :: st, memo2, heap2⟩ m3 s3) :
    ∃ s', step (.fill (after p (H x)).length) s3 = some s' ∧ Sim p H [x] m s m3 s' := by
  subst hst
  obtain ⟨ts, e, f⟩ := g.stack
  have hlen : (after p (H x)).length = ts.length := f.length_eq
  have ht0 : t0 ∈ memo2 := hx.mem.2
  have hx3 : At m3 s3.memo x t0 := hx.mono g.pre g.preM
  obtain ⟨o, ho, hk, hm⟩ := g.inv.made x t0 hx3
  have hlt : t0 < s3.heap.length := g.inv.lt t0 hx3.mem.2
  have hd : s3.stack.drop (after p (H x)).length = t0 :: s.stack := by
    rw [e, hlen, List.drop_append_of_le_length (by simp)]
    simp
  have htk : (s3.stack.take (after p (H x)).length).reverse = ts := by
    rw [e, hlen, List.take_append_of_le_length (by simp), List.take_of_length_le (by simp), List.reverse_reverse]
  have hstep : step (.fill (after p (H x)).length) s3 =
      some ⟨t0 :: s.stack, s3.memo, s3.heap.set t0 { o with filled := ts }⟩ := by
    simp only [step, hd, htk, ho]
  refine ⟨_, hstep, ?_⟩
  have hget : ∀ t, t ≠ t0 → (s3.heap.set t0 { o with filled := ts })[t]? = s3.heap[t]? := by
    intro t ht; rw [List.getElem?_set_ne (Ne.symm ht)]
  have hget0 : (s3.heap.set t0 { o with filled := ts })[t0]? = some { o with filled := ts } := by
    rw [List.getElem?_set_self hlt]
  refine ⟨⟨g.inv.len, g.inv.nd, g.inv.ndM, ?_, ?_⟩, ⟨[t0], rfl, .cons hx3 .nil⟩, hpre.trans g.pre, hpreM.trans g.preM, ?_, ?_, ?_⟩
  · intro t ht; rw [List.length_set]; exact g.inv.lt t ht
  · intro y t h
    by_cases ht : t = t0
    · subst ht
      obtain ⟨o', h1, h2, h3⟩ := g.inv.made y t h
      rw [ho] at h1; cases h1
      exact ⟨_, hget0, h2, h3⟩
    · rw [hget t ht]; exact g.inv.made y t h
  · rw [List.length_set]; exact Nat.le_trans hgrow g.grow
  · intro t ht
    have hne : t ≠ t0 := fun h => hnew (h ▸ ht)
    rw [hget t hne, g.same t (hpreM.subset ht), hsame t ht]
  · intro y t h
    by_cases ht : t = t0
    · subst ht
      have : y = x := At.inj g.inv.ndM h hx3
      subst this
      exact .inr ⟨_, hget0, f⟩
    · rcases g.full y t h with h' | ⟨o', h1, h2⟩
      · have hA : At m2 memo2 y t := by
          obtain ⟨i, c1, c2⟩ := h
          have hi : i < memo2.length := by
            obtain ⟨j, hj, ej⟩ := List.mem_iff_getElem.1 h'
            have hj' : s3.memo[j]? = some t := by
              obtain ⟨r, hr⟩ := g.preM
              rw [← hr, List.getElem?_append_left hj, List.getElem?_eq_getElem hj, ej]
            have := nodup_idx g.inv.ndM c2 hj'
            exact this ▸ hj
          refine ⟨i, ?_, ?_⟩
          · obtain ⟨r, hr⟩ := g.pre
            rw [← hr, List.getElem?_append_left (by rw [← hinv.len]; exact hi)] at c1; exact c1
          · obtain ⟨r, hr⟩ := g.preM
            rw [← hr] at c2
            rw [List.getElem?_append_left hi] at c2; exact c2
        rcases hfull y t hA with h | h | h
        · exact .inl h
        · exact absurd h ht
        · exact .inr (h.mono g.pre g.preM (by rw [hget t ht]; exact g.same t h'))
      · exact .inr ⟨o', by rw [hget t ht]; exact h1, h2⟩

theorem write_sim (p : Nat) (H : Id → Obj) : ∀ n x m m' ops, write p H n x m = some (m', ops) → ∀ s, Inv p H m s.memo s.heap →
    ∃ s', exec ops s = some s' ∧ Sim p H [x] m s m' s' := by
  intro n
  induction n with
  | zero => intro x m m' ops e; simp [write] at e
  | succ n ih =>
    intro x m m' ops e s hi
    rw [write] at e
    split at e
    · next hx =>
      cases e
      obtain ⟨t, ht⟩ := at_of_mem hi.len hx
      have hidx : s.memo[m.idxOf x]? = some t := by
        obtain ⟨i, a, b⟩ := ht
        have h2 : m[m.idxOf x]? = some x := by
          rw [List.getElem?_eq_getElem (List.idxOf_lt_length_iff.2 hx), List.getElem_idxOf]
        rw [← nodup_idx hi.nd a h2]; exact b
      refine ⟨⟨t :: s.stack, s.memo, s.heap⟩, by simp [exec, step, hidx], ?_⟩
      exact ⟨hi, ⟨[t], rfl, .cons ht .nil⟩, List.prefix_rfl, List.prefix_rfl, Nat.le_refl _, fun _ _ => rfl, fun _ _ h => .inl h.mem.2⟩
    · next hxm =>
      split at e
      · cases e
      · next m1 o1 e1 =>
        split at e
        · cases e
        · next m2 o2 e2 =>
          simp only [Option.some.injEq, Prod.mk.injEq] at e
          obtain ⟨rfl, rfl⟩ := e
          obtain ⟨s1, x1, g1⟩ := writeAll_sim ih _ _ _ _ e1 s hi
          obtain ⟨ts, est, f⟩ := g1.stack
          have hlen : (before p (H x)).length = ts.length := f.length_eq
          -- the object is made
          have hmake : step (.make (kind (H x)) (before p (H x)).length) s1 =
              some ⟨s1.heap.length :: s.stack, s1.memo, s1.heap ++ [⟨kind (H x), ts, []⟩]⟩ := by
            simp only [step, est, hlen]
            rw [if_pos (by simp), List.take_append_of_le_length (by simp), List.take_of_length_le (by simp), List.reverse_reverse,
              List.drop_append_of_le_length (by simp)]
            simp
          have hold : ∀ t ∈ s1.memo, (s1.heap ++ [⟨kind (H x), ts, []⟩])[t]? = s1.heap[t]? := fun t ht =>
            List.getElem?_append_left (g1.inv.lt t ht)
          by_cases hx1 : x ∈ m1
          · rw [if_pos hx1] at e2 ⊢
            obtain ⟨t0, ht0⟩ := at_of_mem g1.inv.len hx1
            have hidx : s1.memo[m1.idxOf x]? = some t0 := by
              obtain ⟨i, a, b⟩ := ht0
              have h2 : m1[m1.idxOf x]? = some x := by
                rw [List.getElem?_eq_getElem (List.idxOf_lt_length_iff.2 hx1), List.getElem_idxOf]
              rw [← nodup_idx g1.inv.nd a h2]; exact b
            have hinv2 : Inv p H m1 s1.memo (s1.heap ++ [⟨kind (H x), ts, []⟩]) := by
              refine ⟨g1.inv.len, g1.inv.nd, g1.inv.ndM, ?_, ?_⟩
              · intro t ht; have := g1.inv.lt t ht; simp; omega
              · intro y t h
                rw [hold t h.mem.2]; exact g1.inv.made y t h
            obtain ⟨s3, x3, g3⟩ := writeAll_sim ih _ _ _ _ e2 ⟨t0 :: s.stack, s1.memo, s1.heap ++ [⟨kind (H x), ts, []⟩]⟩ hinv2
            have hnew : t0 ∉ s.memo := by
              intro h
              obtain ⟨j, hj, ej⟩ := List.mem_iff_getElem.1 h
              obtain ⟨i, a, b⟩ := ht0
              have hj' : s1.memo[j]? = some t0 := by
                obtain ⟨r, hr⟩ := g1.preM
                rw [← hr, List.getElem?_append_left hj, List.getElem?_eq_getElem hj, ej]
              have := nodup_idx g1.inv.ndM b hj'
              subst this
              obtain ⟨r, hr⟩ := g1.pre
              rw [← hr, List.getElem?_append_left (by rw [← hi.len]; exact hj)] at a
              exact hxm (List.mem_of_getElem? a)
            obtain ⟨s4, x4, g4⟩ := fill_sim rfl hinv2 g1.pre g1.preM
              (by have := g1.grow; simp; omega) (fun t ht => by rw [hold t (g1.preM.subset ht)]; exact g1.same t ht) ht0 hnew
              (fun y t h => (g1.full y t h).imp id fun h' => .inr (h'.mono List.prefix_rfl List.prefix_rfl (hold t h.mem.2))) g3
            refine ⟨s4, ?_, g4⟩
            rw [exec_append, x1]
            simp only [Option.bind_some, List.cons_append, List.nil_append, exec, hmake]
            simp only [step, hidx]
            rw [exec_append, x3]
            simp only [Option.bind_some, exec, x4]
          · rw [if_neg hx1] at e2 ⊢
            have hnd : (m1 ++ [x]).Nodup := List.nodup_append.2 ⟨g1.inv.nd, by simp, by
              intro a ha b hb e; rw [List.mem_singleton.1 hb] at e; exact hx1 (e ▸ ha)⟩
            have hfresh : s1.heap.length ∉ s1.memo := fun h => Nat.lt_irrefl _ (g1.inv.lt _ h)
            have hp1 : m1 <+: m1 ++ [x] := List.prefix_append _ _
            have hp2 : s1.memo <+: s1.memo ++ [s1.heap.length] := List.prefix_append _ _
            have hAx : At (m1 ++ [x]) (s1.memo ++ [s1.heap.length]) x s1.heap.length :=
              ⟨m1.length, by simp, by rw [← g1.inv.len]; simp⟩
            have hsplit : ∀ y t, At (m1 ++ [x]) (s1.memo ++ [s1.heap.length]) y t → At m1 s1.memo y t ∨ (y = x ∧ t = s1.heap.length) := by
              rintro y t ⟨i, a, b⟩
              have hi1 : i < m1.length + 1 := by have := (List.getElem?_eq_some_iff.1 a).1; simpa using this
              by_cases hlt : i < m1.length
              · left
                rw [List.getElem?_append_left hlt] at a
                rw [List.getElem?_append_left (by rw [g1.inv.len]; exact hlt)] at b
                exact ⟨i, a, b⟩
              · right
                have : i = m1.length := by omega
                subst this
                simp at a
                rw [← g1.inv.len] at b
                simp at b
                exact ⟨a.symm, b.symm⟩
            have hinv2 : Inv p H (m1 ++ [x]) (s1.memo ++ [s1.heap.length]) (s1.heap ++ [⟨kind (H x), ts, []⟩]) := by
              refine ⟨by simp [g1.inv.len], hnd, ?_, ?_, ?_⟩
              · exact List.nodup_append.2 ⟨g1.inv.ndM, by simp, by
                  intro a ha b hb e; rw [List.mem_singleton.1 hb] at e; exact hfresh (e ▸ ha)⟩
              · intro t ht
                rcases List.mem_append.1 ht with h | h
                · have := g1.inv.lt t h; simp; omega
                · rw [List.mem_singleton.1 h]; simp
              · intro y t h
                rcases hsplit y t h with h | ⟨rfl, rfl⟩
                · rw [hold t h.mem.2]
                  obtain ⟨o, a, b, c⟩ := g1.inv.made y t h
                  exact ⟨o, a, b, c.imp fun _ _ => At.mono hp1 hp2⟩
                · exact ⟨⟨kind (H y), ts, []⟩, by simp, rfl, f.imp fun _ _ => At.mono hp1 hp2⟩
            obtain ⟨s3, x3, g3⟩ := writeAll_sim ih _ _ _ _ e2
              ⟨s1.heap.length :: s.stack, s1.memo ++ [s1.heap.length], s1.heap ++ [⟨kind (H x), ts, []⟩]⟩ hinv2
            obtain ⟨s4, x4, g4⟩ := fill_sim rfl hinv2 (g1.pre.trans hp1) (g1.preM.trans hp2)
              (by have := g1.grow; simp; omega) (fun t ht => by rw [hold t (g1.preM.subset ht)]; exact g1.same t ht) hAx
              (fun h => hfresh (g1.preM.subset h))
              (fun y t h => by
                rcases hsplit y t h with h | ⟨_, h⟩
                · exact (g1.full y t h).imp id fun h' => .inr (h'.mono hp1 hp2 (hold t h.mem.2))
                · exact .inr (.inl h)) g3
            refine ⟨s4, ?_, g4⟩
            rw [exec_append, x1]
            simp only [Option.bind_some, List.cons_append, List.nil_append, exec, hmake]
            simp only [step]
            rw [exec_append, x3]
            simp only [Option.bind_some, exec, x4]

/-- `write` is `save`: the same objects in the memo -/
theorem writeAll_save {f : Id → List Id → Option (List Id × List Op)} {g : Id → List Id → Option (List Id)}
    (h : ∀ x m, (f x m).map (·.1) = g x m) : ∀ (l : List Id) m, (writeAll f l m).map (·.1) = saveAll g l m := by
  intro l
  induction l with
  | nil => intro m; rfl
  | cons x xs ih =>
    intro m
    simp only [writeAll, saveAll, ← h]
    cases f x m with
    | none => rfl
    | some r =>
      simp only [Option.map_some, Option.bind_some, ← ih]
      cases writeAll f xs r.1 <;> rfl

theorem write_save (p : Nat) (H : Id → Obj) : ∀ n x m, (write p H n x m).map (·.1) = save p H n x m := by
  intro n
  induction n with
  | zero => intro x m; rfl
  | succ n ih =>
    intro x m
    rw [write, save]
    split
    · rfl
    · rw [← writeAll_save ih]
      cases writeAll (write p H n) (before p (H x)) m with
      | none => rfl
      | some r =>
        simp only [Option.map_some, Option.bind_some, ← writeAll_save ih]
        cases writeAll (write p H n) (after p (H x)) (if x ∈ r.1 then r.1 else r.1 ++ [x]) <;> rfl

theorem forall2_map {m memo} {φ : Id → Nat} (hφ : ∀ y t, At m memo y t → t = φ y) {l : List Id} {ts : List Nat}
    (h : List.Forall₂ (At m memo) l ts) : ts = l.map φ := by
  induction h with
  | nil => rfl
  | cons a _ ih => rw [List.map_cons, ← ih, ← hφ _ _ a]

/-- `dumps` and `pickleOf` are about the same runs -/
theorem C113_pickle_iff (p : Nat) (H : Id → Obj) (n : Nat) (root : Id) :
    (∃ ops, pickleOf p H n root = some ops) ↔ ∃ m, dumps p H n root = some m := by
  unfold pickleOf dumps
  rw [← write_save]
  cases write p H n root [] <;> simp

/-- C113, the copy: whatever the protocol, a pickle loads to an exact copy of the graph, with the elements of its sets in the order they were in. -/
theorem C113_same_copy (p : Nat) (H : Id → Obj) (n : Nat) (root : Id) (ops : List Op) (h : pickleOf p H n root = some ops) :
    ∃ t heap φ, loads ops = some (t, heap) ∧ IsCopy H root t heap φ := by
  unfold pickleOf at h
  simp only [Option.map_eq_some_iff] at h
  obtain ⟨⟨m, ops'⟩, hw, rfl⟩ := h
  have hd : dumps p H n root = some m := by unfold dumps; rw [← write_save, hw]; rfl
  obtain ⟨-, hmem⟩ := C113_everything_once p H n root m hd
  obtain ⟨s, hx, g⟩ := write_sim p H n root [] m ops' hw ⟨[], [], []⟩
    ⟨rfl, .nil, .nil, by simp, by rintro y t ⟨i, a, b⟩; simp at a⟩
  obtain ⟨ts, est, f⟩ := g.stack
  cases f with
  | cons ha hn =>
  cases hn
  rename_i t
  let φ : Id → Nat := fun y => (s.memo[m.idxOf y]?).getD 0
  have hφ : ∀ y t, At m s.memo y t → t = φ y := by
    intro y t h
    obtain ⟨i, a, b⟩ := h
    have hy : y ∈ m := List.mem_of_getElem? a
    have h2 : m[m.idxOf y]? = some y := by
      rw [List.getElem?_eq_getElem (List.idxOf_lt_length_iff.2 hy), List.getElem_idxOf]
    have := nodup_idx g.inv.nd a h2
    subst this
    show t = (s.memo[_]?).getD 0
    rw [b]; rfl
  have hat : ∀ y, Reach H root y → At m s.memo y (φ y) := by
    intro y hy
    obtain ⟨t, ht⟩ := at_of_mem g.inv.len ((hmem y).2 hy)
    rw [← hφ y t ht]; exact ht
  refine ⟨t, s.heap, φ, ?_, hφ _ _ ha, ?_, ?_⟩
  · unfold loads; rw [hx]
    obtain ⟨st, me, he⟩ := s
    simp only [List.reverse_cons, List.reverse_nil, List.nil_append, List.append_nil] at est
    subst est; rfl
  · intro x y h1 h2 e
    exact At.inj g.inv.ndM (hat x h1) (e ▸ hat y h2)
  · intro x hr
    obtain ⟨o, h1, h2, h3⟩ := g.inv.made x _ (hat x hr)
    rcases g.full x _ (hat x hr) with h | ⟨o', h4, h5⟩
    · cases h
    rw [h1] at h4; cases h4
    refine ⟨o, h1, ?_⟩
    have b := forall2_map hφ h3
    have a := forall2_map hφ h5
    cases e : H x with
    | plain bs as => rw [e] at a b h2; exact ⟨h2, b, a⟩
    | set els =>
      rw [e] at a b h2
      refine ⟨h2, ?_⟩
      unfold CopiedAs
      rw [a, b, ← List.map_append]
      simp only [before, after]
      split <;> simp
    | fset els =>
      rw [e] at a b h2
      refine ⟨h2, ?_⟩
      unfold CopiedAs
      rw [a, b, ← List.map_append]
      simp [before, after]

/-- together: a graph in which nothing is needed to make itself has a pickle at protocol `p`, with every recursion limit from `(N+1)²` nested saves, and it
loads to a copy -/
theorem C113_round_trip (p : Nat) (H : Id → Obj) (root : Id) (dom : List Id) (hdom : ∀ x, Reach H root x → x ∈ dom)
    (hk : ¬ Knot p H root) (n : Nat) (hn : (dom.length + 1) ^ 2 ≤ n) :
    ∃ ops t heap φ, pickleOf p H n root = some ops ∧ loads ops = some (t, heap) ∧ IsCopy H root t heap φ := by
  obtain ⟨m, h⟩ := C113_limit_enough p H root dom hdom hk
  obtain ⟨ops, e⟩ := (C113_pickle_iff p H n root).2 ⟨m, h n hn⟩
  obtain ⟨t, heap, φ, h1, h2⟩ := C113_same_copy p H n root ops e
  exact ⟨ops, t, heap, φ, e, h1, h2⟩

/-- the loaded objects around `t` -/
inductive Around (heap : List Loaded) (t : Nat) : Nat → Prop
  | here : Around heap t t
  | next {i j : Nat} {o : Loaded} : Around heap t i → heap[i]? = some o → j ∈ o.made ++ o.filled → Around heap t j

theorem IsCopy.contents {H root t heap φ} (h : IsCopy H root t heap φ) {x : Id} (hx : Reach H root x) :
    ∃ o, heap[φ x]? = some o ∧ o.kind = kind (H x) ∧ o.made ++ o.filled = (parts (H x)).map φ := by
  obtain ⟨o, a, b⟩ := h.objs x hx
  refine ⟨o, a, ?_⟩
  cases e : H x with
  | plain bs as => rw [e] at b; obtain ⟨k, c, d⟩ := b; refine ⟨k, ?_⟩; unfold CopiedAs at c d; rw [c, d]; simp [parts]
  | set els => rw [e] at b; obtain ⟨k, c⟩ := b; exact ⟨k, c⟩
  | fset els => rw [e] at b; obtain ⟨k, c⟩ := b; exact ⟨k, c⟩

/-- C113, two protocols: what is loaded from the pickle of one protocol and from that of another are copies of each other, as far as can be seen from the
loaded object: `ψ` takes each object around the one to the object at the same place around the other. -/
theorem C113_protocols_agree (p q : Nat) (H : Id → Obj) (n k : Nat) (root : Id) (ops ops' : List Op) (h : pickleOf p H n root = some ops)
    (h' : pickleOf q H k root = some ops') :
    ∃ t heap t' heap', loads ops = some (t, heap) ∧ loads ops' = some (t', heap') ∧ ∃ ψ : Nat → Nat, ψ t = t' ∧
      (∀ i j, Around heap t i → Around heap t j → ψ i = ψ j → i = j) ∧
      ∀ i, Around heap t i → ∃ o o', heap[i]? = some o ∧ heap'[ψ i]? = some o' ∧ o'.kind = o.kind ∧
        o'.made ++ o'.filled = (o.made ++ o.filled).map ψ := by
  obtain ⟨t, heap, φ, h1, c1⟩ := C113_same_copy p H n root ops h
  obtain ⟨t', heap', φ', h2, c2⟩ := C113_same_copy q H k root ops' h'
  have hpre : ∀ i, Around heap t i → ∃ x, Reach H root x ∧ φ x = i := by
    intro i hi
    induction hi with
    | here => exact ⟨root, .here, c1.start.symm⟩
    | next _ ho hj ih =>
      obtain ⟨x, hx, rfl⟩ := ih
      obtain ⟨o, a, _, b⟩ := c1.contents hx
      rw [a] at ho; cases ho
      rw [b] at hj
      obtain ⟨y, hy, rfl⟩ := List.mem_map.1 hj
      exact ⟨y, .step hx hy, rfl⟩
  classical
  let ψ : Nat → Nat := fun i => if hi : ∃ x, Reach H root x ∧ φ x = i then φ' hi.choose else 0
  have hψ : ∀ x, Reach H root x → ψ (φ x) = φ' x := by
    intro x hx
    have hi : ∃ y, Reach H root y ∧ φ y = φ x := ⟨x, hx, rfl⟩
    have : hi.choose = x := c1.inj _ _ hi.choose_spec.1 hx hi.choose_spec.2
    show (if hi : ∃ y, Reach H root y ∧ φ y = φ x then φ' hi.choose else 0) = _
    rw [dif_pos hi, this]
  refine ⟨t, heap, t', heap', h1, h2, ψ, ?_, ?_, ?_⟩
  · rw [c1.start, hψ root .here, c2.start]
  · intro i j hi hj e
    obtain ⟨x, hx, rfl⟩ := hpre i hi
    obtain ⟨y, hy, rfl⟩ := hpre j hj
    rw [hψ x hx, hψ y hy] at e
    rw [c2.inj x y hx hy e]
  · intro i hi
    obtain ⟨x, hx, rfl⟩ := hpre i hi
    obtain ⟨o, a, b, c⟩ := c1.contents hx
    obtain ⟨o', a', b', c'⟩ := c2.contents hx
    refine ⟨o, o', a, by rw [hψ x hx]; exact a', by rw [b, b'], ?_⟩
    rw [c, c', List.map_map]
    apply List.map_congr_left
    intro y hy
    exact (hψ y (.step hx hy)).symm

/-! ### concrete cases -/

example : (pickleOf 4 friends 6 0).map loads = some (some (0, [⟨.set, [], [2]⟩, ⟨.plain, [], []⟩, ⟨.plain, [1], [0]⟩])) := by decide

/-- at protocol 2 the set is made inside (as 2), and the one outside (3) is dropped -/
example : (pickleOf 2 friends 6 0).map loads =
    some (some (2, [⟨.plain, [], []⟩, ⟨.plain, [0], [2]⟩, ⟨.set, [1], []⟩, ⟨.set, [1], []⟩])) := by decide

end Verif.OldSets
