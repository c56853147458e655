import Verif.Model.Outermost
set_option linter.unusedSimpArgs false
/-! C83: `dill.detect.outermost`; C84: `dill.detect.referrednested`. -/
namespace Verif.Outermost
open Source

/-! ### C83 -/

theorem firstMatch_some (W : World) (block : Option (List Str × Nat)) (l : List (Str × Obj)) (o : Obj)
    (h : firstMatch W block l = some o) : ∃ (n : Str) (b : List Str × Nat), (n, o) ∈ l ∧ W.source o = some b ∧ block = some b := by
  induction l with
  | nil => simp [firstMatch] at h
  | cons p l ih =>
    obtain ⟨n, x⟩ := p
    unfold firstMatch at h
    cases hs : W.source x with
    | none =>
      rw [hs] at h
      obtain ⟨n', b, h1, h2⟩ := ih h
      exact ⟨n', b, by simp [h1], h2⟩
    | some b =>
      cases hb : block with
      | none =>
        rw [hs, hb] at h
        obtain ⟨n', b, h1, h2, h3⟩ := ih (hb ▸ h)
        rw [hb] at h3; cases h3
      | some b' =>
        rw [hs, hb] at h
        dsimp only at h
        by_cases he : b = b'
        · rw [if_pos he] at h; cases h; exact ⟨n, b, by simp, hs, by rw [he]⟩
        · rw [if_neg he] at h
          obtain ⟨n', b, h1, h2, h3⟩ := ih (hb ▸ h)
          exact ⟨n', b, by simp [h1], h2, hb ▸ h3⟩

theorem firstMatch_isSome (W : World) (b : List Str × Nat) (l : List (Str × Obj)) (n : Str) (o : Obj) (hm : (n, o) ∈ l)
    (hs : W.source o = some b) : (firstMatch W (some b) l).isSome = true := by
  induction l with
  | nil => cases hm
  | cons p l ih =>
    obtain ⟨n', x⟩ := p
    unfold firstMatch
    rcases List.mem_cons.mp hm with h | h
    · cases h; simp [hs]
    · cases hx : W.source x with
      | none => exact ih h
      | some b' =>
        dsimp only
        by_cases he : b' = b
        · simp [he]
        · rw [if_neg he]; exact ih h

theorem contains_iff (needle s : Str) : contains needle s = true ↔ ∃ a b : Str, s = a ++ needle ++ b := by
  induction s with
  | nil =>
    simp only [contains, List.isPrefixOf_iff_prefix, List.prefix_nil]
    constructor
    · rintro rfl; exact ⟨[], [], rfl⟩
    · rintro ⟨a, b, h⟩
      have := congrArg List.length h
      simp at this
      exact List.eq_nil_of_length_eq_zero (by omega)
  | cons c s ih =>
    simp only [contains, Bool.or_eq_true, ih, List.isPrefixOf_iff_prefix]
    constructor
    · rintro (⟨b, h⟩ | ⟨a, b, h⟩)
      · exact ⟨[], b, by simpa using h.symm⟩
      · exact ⟨c :: a, b, by simp [h]⟩
    · rintro ⟨a, b, h⟩
      cases a with
      | nil => exact .inl ⟨b, by simpa using h.symm⟩
      | cons d a =>
        right
        simp only [List.cons_append, List.cons.injEq] at h
        exact ⟨a, b, h.2⟩

/-- C83, soundness: the answer is bound in the global namespace of the function, and its source block is the block that
encloses the function (the same lines at the same place). -/
theorem C83_sound (W : World) (f o : Obj) (h : outermost W f = some o) :
    ∃ (g : List (Str × Obj)) (n : Str) (b : List Str × Nat), W.globals f = some g ∧ (n, o) ∈ g ∧
      W.enclosing f = some b ∧ W.source o = some b := by
  unfold outermost at h
  cases hg : W.globals f with
  | none => rw [hg] at h; cases h
  | some g =>
    rw [hg] at h
    obtain ⟨n, b, h1, h2, h3⟩ := firstMatch_some W _ _ o h
    exact ⟨g, n, b, rfl, (List.mem_filter.mp h1).1, h3, h2⟩

/-- C83, completeness as far as it goes: an enclosing function or class bound in the global namespace under a name that occurs
in its own text is found. -/
theorem C83_found_partial (W : World) (f o : Obj) (g : List (Str × Obj)) (n pre post : Str) (lines : List Str) (k : Nat)
    (hg : W.globals f = some g) (hm : (n, o) ∈ g) (he : W.enclosing f = some (lines, k)) (hs : W.source o = some (lines, k))
    (hn : lines.flatten = pre ++ n ++ post) :
    ∃ o' : Obj, outermost W f = some o' ∧ W.source o' = some (lines, k) := by
  have hc : contains n lines.flatten = true := (contains_iff _ _).mpr ⟨pre, post, hn⟩
  have h1 : (outermost W f).isSome = true := by
    unfold outermost
    rw [hg, he]
    exact firstMatch_isSome W (lines, k) _ n o (List.mem_filter.mpr ⟨hm, hc⟩) hs
  obtain ⟨o', ho⟩ := Option.isSome_iff_exists.mp h1
  obtain ⟨_, _, b, _, _, h2, h3⟩ := C83_sound W f o' ho
  rw [he] at h2; cases h2
  exact ⟨o', ho, h3⟩

/-- C83, exactly when there is an answer: when an object with the enclosing block is bound in the global namespace under a name that
occurs, as text, in that block. -/
theorem C83_answer_iff (W : World) (f : Obj) :
    (∃ o, outermost W f = some o) ↔
      ∃ (g : List (Str × Obj)) (n : Str) (o : Obj) (lines : List Str) (k : Nat) (pre post : Str),
        W.globals f = some g ∧ (n, o) ∈ g ∧ W.enclosing f = some (lines, k) ∧ W.source o = some (lines, k) ∧
        lines.flatten = pre ++ n ++ post := by
  constructor
  · rintro ⟨o, h⟩
    unfold outermost at h
    cases hg : W.globals f with
    | none => rw [hg] at h; cases h
    | some g =>
      rw [hg] at h
      obtain ⟨n, b, h1, h2, h3⟩ := firstMatch_some W _ _ o h
      obtain ⟨lines, k⟩ := b
      obtain ⟨h4, h5⟩ := List.mem_filter.mp h1
      rw [h3] at h5
      obtain ⟨pre, post, h6⟩ := (contains_iff _ _).1 h5
      exact ⟨g, n, o, lines, k, pre, post, rfl, h4, h3, h2, h6⟩
  · rintro ⟨g, n, o, lines, k, pre, post, h1, h2, h3, h4, h5⟩
    obtain ⟨o', h, _⟩ := C83_found_partial W f o g n pre post lines k h1 h2 h3 h4 h5
    exact ⟨o', h⟩

/-- C83, the very object: if one object of the namespace only has this block, it is the answer. -/
theorem C83_exact_partial (W : World) (f o : Obj) (g : List (Str × Obj)) (n pre post : Str) (lines : List Str) (k : Nat)
    (hg : W.globals f = some g) (hm : (n, o) ∈ g) (he : W.enclosing f = some (lines, k)) (hs : W.source o = some (lines, k))
    (hn : lines.flatten = pre ++ n ++ post)
    (hu : ∀ (n' : Str) (o' : Obj), (n', o') ∈ g → W.source o' = some (lines, k) → o' = o) : outermost W f = some o := by
  obtain ⟨o', h1, h2⟩ := C83_found_partial W f o g n pre post lines k hg hm he hs hn
  obtain ⟨g', n', b, h3, h4, _, _⟩ := C83_sound W f o' h1
  rw [hg] at h3; cases h3
  rw [h1, hu n' o' h4 h2]

/-- C83, no answer: nothing in the namespace has the enclosing block, or its source is not to be had, or the object is no
function; then there is no answer rather than a wrong one. -/
theorem C83_none (W : World) (f : Obj)
    (h : ∀ (g : List (Str × Obj)) (b : List Str × Nat), W.globals f = some g → W.enclosing f = some b →
      ∀ p ∈ g, W.source p.2 ≠ some b) : outermost W f = none := by
  cases ho : outermost W f with
  | none => rfl
  | some o =>
    obtain ⟨g, n, b, h1, h2, h3, h4⟩ := C83_sound W f o ho
    exact absurd h4 (h g b h1 h3 (n, o) h2)

/-- `def _make(n):` / `    return lambda: n`; the inner lambda is object 0, `_make` is object 1 -/
def factory (g : List (Str × Obj)) : World where
  globals := fun o => if o = 2 then none else some g
  enclosing := fun _ => some (["def _make(n):\n".toList, "    return lambda: n\n".toList], 3)
  source := fun o =>
    if o = 1 then some (["def _make(n):\n".toList, "    return lambda: n\n".toList], 3)
    else some (["    return lambda: n\n".toList], 4)

example : outermost (factory [("a".toList, 0), ("_make".toList, 1)]) 0 = some 1 :=
  C83_exact_partial (factory [("a".toList, 0), ("_make".toList, 1)]) 0 1 [("a".toList, 0), ("_make".toList, 1)] "_make".toList "def ".toList
    "(n):\n    return lambda: n\n".toList _ 3 rfl (by decide) rfl rfl (by decide +kernel) (by
      intro n' o' h1 h2
      rcases List.mem_cons.mp h1 with h | h
      · cases h; revert h2; decide +kernel
      · rw [List.mem_singleton] at h; cases h; rfl)

/-- C83 is false for an enclosing function that the module knows under another name only (`factory = _make; del _make`): there
is no answer although the object is there. -/
theorem C83_renamed : outermost (factory [("a".toList, 0), ("factory".toList, 1)]) 0 = none ∧
    (factory []).source 1 = (factory []).enclosing 0 := by decide +kernel

/-! ### C84 -/

mutual
/-- `d` is a code object nested in `c`, directly or (with `recurse`) at any depth -/
inductive In (recurse : Bool) (d : Elem) : Code → Prop
  | mk (i k : Nat) {kids : Kids} : InKids recurse d kids → In recurse d (.mk i k kids)
inductive InKids (recurse : Bool) (d : Elem) : Kids → Prop
  | here {c : Code} {rest : Kids} : d = (c.id, c.key) → InKids recurse d (.cons c rest)
  | deep {c : Code} {rest : Kids} : recurse = true → In recurse d c → InKids recurse d (.cons c rest)
  | later {c : Code} {rest : Kids} : InKids recurse d rest → InKids recurse d (.cons c rest)
end

theorem mem_addKey {s : List Elem} {c d : Elem} (h : d ∈ addKey s c) : d ∈ s ∨ d = c := by
  unfold addKey at h
  split at h
  · exact .inl h
  · simpa using h

theorem keys_addKey {s : List Elem} {c : Elem} : ∀ k : Nat, k ∈ (addKey s c).map Prod.snd ↔ k ∈ s.map Prod.snd ∨ k = c.2 := by
  intro k
  unfold addKey
  split
  · rename_i h
    constructor
    · exact .inl
    · rintro (h' | rfl)
      · exact h'
      · exact h
  · simp only [List.map_append, List.mem_append, List.map_cons, List.map_nil, List.mem_singleton]

theorem mem_foldl_addKey (t : List Elem) : ∀ (s : List Elem) (d : Elem), d ∈ t.foldl addKey s → d ∈ s ∨ d ∈ t := by
  induction t with
  | nil => intro s d h; exact .inl h
  | cons c t ih =>
    intro s d h
    rcases ih _ _ h with h | h
    · rcases mem_addKey h with h | h
      · exact .inl h
      · exact .inr (by simp [h])
    · exact .inr (by simp [h])

theorem keys_foldl_addKey (t : List Elem) : ∀ (s : List Elem) (k : Nat),
    k ∈ (t.foldl addKey s).map Prod.snd ↔ k ∈ s.map Prod.snd ∨ k ∈ t.map Prod.snd := by
  induction t with
  | nil => intro s k; simp
  | cons c t ih =>
    intro s k
    rw [List.foldl_cons, ih, keys_addKey, List.map_cons, List.mem_cons, or_assoc]

mutual
theorem nested_spec (recurse : Bool) (c : Code) :
    (∀ d ∈ nested recurse c, In recurse d c) ∧
    (∀ d, In recurse d c → d.2 ∈ (nested recurse c).map Prod.snd) := by
  match c with
  | .mk i k kids =>
    obtain ⟨h1, h2⟩ := nestedKids_spec recurse kids []
    constructor
    · intro d hd
      rcases h1 d (by simpa [nested] using hd) with h | h
      · cases h
      · exact .mk i k h
    · intro d hd
      cases hd with
      | mk _ _ h => simpa [nested] using h2 d (.inr h)
theorem nestedKids_spec (recurse : Bool) (kids : Kids) (s : List Elem) :
    (∀ d ∈ nestedKids recurse kids s, d ∈ s ∨ InKids recurse d kids) ∧
    (∀ d, d ∈ s ∨ InKids recurse d kids → d.2 ∈ (nestedKids recurse kids s).map Prod.snd) := by
  match kids with
  | .nil =>
    constructor
    · intro d hd; exact .inl (by simpa [nestedKids] using hd)
    · rintro d (h | h)
      · simp only [nestedKids]; exact List.mem_map_of_mem h
      · cases h
  | .cons c rest =>
    obtain ⟨c1, c2⟩ := nested_spec recurse c
    obtain ⟨r1, r2⟩ := nestedKids_spec recurse rest
      (if recurse then (nested recurse c).foldl addKey (addKey s (c.id, c.key)) else addKey s (c.id, c.key))
    rw [nestedKids]
    constructor
    · intro d hd
      rcases r1 d hd with h | h
      · cases recurse with
        | false =>
          simp only [Bool.false_eq_true, if_false] at h
          rcases mem_addKey h with h | h
          · exact .inl h
          · exact .inr (.here h)
        | true =>
          simp only [if_true] at h
          rcases mem_foldl_addKey _ _ _ h with h | h
          · rcases mem_addKey h with h | h
            · exact .inl h
            · exact .inr (.here h)
          · exact .inr (.deep rfl (c1 d h))
      · exact .inr (.later h)
    · -- every key that was there stays
      have keep : ∀ k : Nat, k ∈ (if recurse then (nested recurse c).foldl addKey (addKey s (c.id, c.key))
          else addKey s (c.id, c.key)).map Prod.snd → k ∈ (nestedKids recurse rest
          (if recurse then (nested recurse c).foldl addKey (addKey s (c.id, c.key)) else addKey s (c.id, c.key))).map Prod.snd := by
        intro k hk
        obtain ⟨e, he, rfl⟩ := List.mem_map.mp hk
        exact r2 e (.inl he)
      rintro d (h | h)
      · apply keep
        cases recurse with
        | false => simp only [Bool.false_eq_true, if_false]; rw [keys_addKey]; exact .inl (List.mem_map_of_mem h)
        | true =>
          simp only [if_true]; rw [keys_foldl_addKey, keys_addKey]; exact .inl (.inl (List.mem_map_of_mem h))
      · cases h with
        | here h =>
          apply keep
          subst h
          cases recurse with
          | false => simp only [Bool.false_eq_true, if_false]; rw [keys_addKey]; exact .inr rfl
          | true => simp only [if_true]; rw [keys_foldl_addKey, keys_addKey]; exact .inl (.inr rfl)
        | deep hr h =>
          apply keep
          subst hr
          simp only [if_true]; rw [keys_foldl_addKey]; exact .inr (c2 d h)
        | later h => exact r2 d (.inr h)
end

/-- the object has this code object: it is a method, function or frame with it, or the code object itself -/
def HasCode (H : Heap) (o : Obj) (co : Nat) : Prop :=
  H.methodCode o = some co ∨ H.code o = some co ∨ H.frameCode o = some co ∨ H.isCode o = some co

theorem refersTo_iff (H : Heap) (co : Nat) (o : Obj) : refersTo H co o = true ↔ HasCode H o co := by
  unfold refersTo HasCode
  by_cases h1 : H.methodCode o = some co
  · simp [h1]
  · by_cases h2 : H.code o = some co
    · simp [h1, h2]
    · by_cases h3 : H.frameCode o = some co
      · simp [h1, h2, h3]
      · simp [h1, h2, h3]

/-- C84, soundness: everything returned is a live object made from a code object nested in the function. -/
theorem C84_sound (H : Heap) (recurse : Bool) (c : Code) (o : Obj) (h : o ∈ referrednested H recurse c) :
    ∃ d : Elem, In recurse d c ∧ o ∈ H.referrers d.1 ∧ HasCode H o d.1 := by
  simp only [referrednested, List.mem_flatMap, List.mem_filter] at h
  obtain ⟨d, h1, h2, h3⟩ := h
  exact ⟨d, (nested_spec recurse c).1 d h1, h2, (refersTo_iff H d.1 o).mp h3⟩

/-- C84, completeness when no two different nested code objects are equal: every live function, method or frame that belongs to
a nested code object (and that the collector knows) is returned. -/
theorem C84_complete_partial (H : Heap) (recurse : Bool) (c : Code) (d : Elem) (o : Obj)
    (hd : ∀ e e' : Elem, In recurse e c → In recurse e' c → e.2 = e'.2 → e = e')
    (hin : In recurse d c) (hr : o ∈ H.referrers d.1) (hc : HasCode H o d.1) : o ∈ referrednested H recurse c := by
  obtain ⟨h1, h2⟩ := nested_spec recurse c
  obtain ⟨e, he, hk⟩ := List.mem_map.mp (h2 d hin)
  have := hd e d (h1 e he) hin hk
  subst this
  simp only [referrednested, List.mem_flatMap, List.mem_filter]
  exact ⟨e, he, hr, (refersTo_iff H e.1 o).mpr hc⟩

/-- `def f(): return (lambda: 1), (lambda: 1)`: two equal code objects 1 and 2; `f()` was called, functions 11 and 12 live -/
def twoLambdas : Code := .mk 0 0 (.cons (.mk 1 5 .nil) (.cons (.mk 2 5 .nil) .nil))
def lambdaHeap : Heap where
  referrers := fun co => [co + 10, 99]
  methodCode := fun _ => none
  code := fun o => if o = 11 then some 1 else if o = 12 then some 2 else none
  frameCode := fun _ => none
  isCode := fun _ => none

/-- C84 is false for two equal nested code objects: the function made from the second one is missing. -/
theorem C84_equal_code_missed : (12 : Nat) ∉ referrednested lambdaHeap true twoLambdas ∧
    In true (2, 5) twoLambdas ∧ (12 : Nat) ∈ lambdaHeap.referrers 2 ∧ HasCode lambdaHeap 12 2 :=
  ⟨by decide +kernel, .mk _ _ (.later (.here rfl)), by decide, .inr (.inl rfl)⟩

/-- with different code objects (here one nested in the other) both are found -/
def deeper : Code := .mk 0 0 (.cons (.mk 1 5 (.cons (.mk 2 6 .nil) .nil)) .nil)

example : referrednested lambdaHeap true deeper = [11, 12] ∧ referrednested lambdaHeap false deeper = [11] := by decide +kernel

example : (12 : Nat) ∈ referrednested lambdaHeap true deeper := by
  have hin : ∀ e : Elem, In true e deeper → e = (1, 5) ∨ e = (2, 6) := by
    intro e h
    cases h with
    | mk _ _ h =>
      cases h with
      | here h => exact .inl h
      | deep _ h =>
        cases h with
        | mk _ _ h =>
          cases h with
          | here h => exact .inr h
          | deep _ h => cases h with | mk _ _ h => cases h
          | later h => cases h
      | later h => cases h
  refine C84_complete_partial lambdaHeap true deeper (2, 6) 12 ?_ (.mk _ _ (.deep rfl (.mk _ _ (.here rfl)))) (by decide)
    (.inr (.inl rfl))
  intro e e' h1 h2 hk
  rcases hin e h1 with rfl | rfl <;> rcases hin e' h2 with rfl | rfl <;> first | rfl | (simp at hk)

end Verif.Outermost
