import Verif.Model.Identify
set_option linter.unusedSimpArgs false
set_option linter.unusedVariables false
namespace Verif.Identify

/-! ### the codecs round-trip -/

/-- a Python string: code points below 0x110000. -/
def IsStr (s : Str) : Prop := ∀ c ∈ s, c < 0x110000

instance (s : Str) : Decidable (IsStr s) := by unfold IsStr; infer_instance

theorem utf8Dec_cons (c : Nat) (hc : c < 0x110000) (bs : Bytes) :
    utf8Dec (utf8Enc1 c ++ bs) = (utf8Dec bs).map (c :: ·) := by
  have hcont : ∀ x, cont (0x80 + x % 64) = true := by
    intro x; simp [cont]; omega
  unfold utf8Enc1
  split
  · rename_i h
    simp only [List.cons_append, List.nil_append]
    conv => lhs; unfold utf8Dec
    simp only [h, if_true]
  split
  · rename_i h1 h2
    have a1 : ¬ (0xC0 + c / 64 < 0x80) := by omega
    have a2 : (decide (0xC2 ≤ 0xC0 + c / 64) && decide (0xC0 + c / 64 < 0xE0)) = true := by
      simp; omega
    have a3 : (0xC0 + c / 64 - 0xC0) * 64 + (0x80 + c % 64 - 0x80) = c := by omega
    simp only [List.cons_append, List.nil_append]
    conv => lhs; unfold utf8Dec
    simp only [a1, if_false, hcont, Bool.not_true,
      Bool.false_eq_true, a2, if_true, a3]
  split
  · rename_i h1 h2 h3
    have a1 : ¬ (0xE0 + c / 4096 < 0x80) := by omega
    have a2 : (decide (0xC2 ≤ 0xE0 + c / 4096) && decide (0xE0 + c / 4096 < 0xE0)) = false := by
      simp
    have a2' : (decide (0xE0 ≤ 0xE0 + c / 4096) && decide (0xE0 + c / 4096 < 0xF0)) = true := by
      simp; omega
    have a3 : (0xE0 + c / 4096 - 0xE0) * 4096 + (0x80 + c / 64 % 64 - 0x80) * 64 + (0x80 + c % 64 - 0x80) = c := by
      omega
    have a4 : ¬ c < 0x800 := h2
    simp only [List.cons_append, List.nil_append]
    conv => lhs; unfold utf8Dec
    simp only [a1, if_false, hcont, Bool.not_true,
      Bool.false_eq_true, a2, a2', if_true, a3, a4]
  · rename_i h1 h2 h3
    have a1 : ¬ (0xF0 + c / 262144 < 0x80) := by omega
    have a2 : (decide (0xC2 ≤ 0xF0 + c / 262144) && decide (0xF0 + c / 262144 < 0xE0)) = false := by
      simp; omega
    have a2' : (decide (0xE0 ≤ 0xF0 + c / 262144) && decide (0xF0 + c / 262144 < 0xF0)) = false := by
      simp
    have a2'' : (decide (0xF0 ≤ 0xF0 + c / 262144) && decide (0xF0 + c / 262144 < 0xF5)) = true := by
      simp; omega
    have a3 : (0xF0 + c / 262144 - 0xF0) * 262144 + (0x80 + c / 4096 % 64 - 0x80) * 4096 +
        (0x80 + c / 64 % 64 - 0x80) * 64 + (0x80 + c % 64 - 0x80) = c := by
      omega
    have a4 : (decide (c < 0x10000) || decide (0x110000 ≤ c)) = false := by
      simp; omega
    simp only [List.cons_append, List.nil_append]
    conv => lhs; unfold utf8Dec
    simp only [a1, if_false, hcont, Bool.not_true,
      Bool.false_eq_true, a2, a2', a2'', if_true, a3, a4]

theorem utf8_roundtrip : ∀ (s : Str), IsStr s → utf8Dec (utf8Enc s) = some s
  | [], _ => by simp [utf8Enc, utf8Dec]
  | c :: s, h => by
    have := utf8_roundtrip s (fun x hx => h x (List.mem_cons_of_mem _ hx))
    simp only [utf8Enc, List.flatMap_cons] at this ⊢
    rw [utf8Dec_cons c (h c (by simp)), this]; rfl

theorem unhex_hex (d : Nat) (h : d < 16) : unhex (hex d) = some d := by
  unfold hex unhex
  split
  · rename_i h1
    have : 48 ≤ 48 + d ∧ 48 + d < 58 := by omega
    simp only [this, if_true]; simp
  · rename_i h1
    have a : ¬ (48 ≤ 87 + d ∧ 87 + d < 58) := by omega
    have b : 97 ≤ 87 + d ∧ 87 + d < 103 := by omega
    simp only [a, b, if_false, if_true]; simp

theorem rawDecN_mono : ∀ (k k' : Nat) (bs : Bytes) (s : Str), k ≤ k' → rawDecN k bs = some s →
    rawDecN k' bs = some s
  | 0, k', [], s, _, h => by cases k' <;> simpa [rawDecN] using h
  | 0, k', b :: bs, s, _, h => by simp [rawDecN] at h
  | k + 1, k', [], s, _, h => by cases k' <;> simpa [rawDecN] using h
  | k + 1, 0, b :: bs, s, hk, h => by omega
  | k + 1, k' + 1, b :: bs, s, hk, h => by
    have ih : ∀ bs s, rawDecN k bs = some s → rawDecN k' bs = some s :=
      fun bs s => rawDecN_mono k k' bs s (by omega)
    have ihm : ∀ (f : Str → Str) bs s, (rawDecN k bs).map f = some s → (rawDecN k' bs).map f = some s := by
      intro f bs s h
      simp only [Option.map_eq_some_iff] at h ⊢
      obtain ⟨a, h1, h2⟩ := h
      exact ⟨a, ih _ _ h1, h2⟩
    simp only [rawDecN] at h ⊢
    by_cases hb : b ≠ 92
    · simp only [hb, ne_eq, not_false_eq_true, if_true] at h ⊢; exact ihm _ _ _ h
    · simp only [hb, if_false] at h ⊢
      cases bs with
      | nil => exact h
      | cons e bs =>
        simp only at h ⊢
        by_cases he : e = 117
        · simp only [he, if_true] at h ⊢
          cases hu : unhexN 4 0 bs with
          | none => simp [hu] at h
          | some p => simp only [hu] at h ⊢; exact ihm _ _ _ h
        · simp only [he, if_false] at h ⊢
          by_cases he' : e = 85
          · simp only [he', if_true] at h ⊢
            cases hu : unhexN 8 0 bs with
            | none => simp [hu] at h
            | some p =>
              simp only [hu] at h ⊢
              by_cases hc : p.1 < 0x110000
              · simp only [hc, if_true] at h ⊢; exact ihm _ _ _ h
              · simp [hc] at h
          · simp only [he', if_false] at h ⊢; exact ihm _ _ _ h

theorem rawDecN_cons (c : Nat) (hc : c < 0x110000) (k : Nat) (bs : Bytes) :
    rawDecN (k + 1) (rawEnc1 c ++ bs) = (rawDecN k bs).map (c :: ·) := by
  have u := unhex_hex
  have m16 : ∀ x, x % 16 < 16 := fun x => Nat.mod_lt _ (by decide)
  have e4 : c < 0x10000 → rawDecN (k + 1) (esc4 c ++ bs) = (rawDecN k bs).map (c :: ·) := by
    intro h
    have a : (((0 * 16 + c / 4096 % 16) * 16 + c / 256 % 16) * 16 + c / 16 % 16) * 16 + c % 16 = c := by omega
    simp only [esc4, List.cons_append, List.nil_append, rawDecN, ne_eq, not_true_eq_false, if_false, if_true,
      unhexN, u _ (m16 _), a]
  have e8 : rawDecN (k + 1) (esc8 c ++ bs) = (rawDecN k bs).map (c :: ·) := by
    have a : (((((((0 * 16 + c / 268435456 % 16) * 16 + c / 16777216 % 16) * 16 + c / 1048576 % 16) * 16 +
      c / 65536 % 16) * 16 + c / 4096 % 16) * 16 + c / 256 % 16) * 16 + c / 16 % 16) * 16 + c % 16 = c := by omega
    simp only [esc8, List.cons_append, List.nil_append, rawDecN, ne_eq, not_true_eq_false, if_false, if_true,
      unhexN, u _ (m16 _), a, hc, show (85 = 117) = False from by simp]
  unfold rawEnc1
  split
  · rename_i h; exact e4 (by omega)
  split
  · rename_i h1 h2
    have : c ≠ 92 := by omega
    simp only [List.cons_append, List.nil_append, rawDecN, this, ne_eq, not_false_eq_true, if_true]
  split
  · rename_i h3; exact e4 h3
  · exact e8

theorem rawEnc1_pos (c : Nat) : 1 ≤ (rawEnc1 c).length := by
  unfold rawEnc1; split
  · simp [esc4]
  split
  · simp
  split <;> simp [esc4, esc8]

theorem raw_roundtrip : ∀ (s : Str), IsStr s → rawDec (rawEnc s) = some s
  | [], _ => by simp [rawEnc, rawDec, rawDecN]
  | c :: s, h => by
    have ih := raw_roundtrip s (fun x hx => h x (List.mem_cons_of_mem _ hx))
    unfold rawDec at ih ⊢
    have hlen : (rawEnc (c :: s)).length = (rawEnc1 c).length + (rawEnc s).length := by
      simp [rawEnc, List.flatMap_cons]
    have h1 := rawEnc1_pos c
    obtain ⟨j, hj⟩ : ∃ j, (rawEnc (c :: s)).length = j + 1 := ⟨(rawEnc (c :: s)).length - 1, by omega⟩
    rw [hj]
    have : rawEnc (c :: s) = rawEnc1 c ++ rawEnc s := by simp [rawEnc, List.flatMap_cons]
    rw [this, rawDecN_cons c (h c (by simp)), rawDecN_mono _ j _ _ (by omega) ih]; rfl

theorem hex_ne (d : Nat) : hex d ≠ 10 := by unfold hex; split <;> omega

theorem rawEnc_noNL (s : Str) : 10 ∉ rawEnc s := by
  have hh : ∀ d, 10 ≠ hex d := fun d h => hex_ne d h.symm
  simp only [rawEnc, List.mem_flatMap, not_exists, not_and]
  intro c _
  unfold rawEnc1
  split
  · simp [esc4, hh]
  split
  · rename_i h1 _
    simp only [List.mem_singleton]; omega
  split <;> simp [esc4, esc8, hh]

/-! ### one operation -/

/-- `bs` is exactly one operation: read whatever follows it, and an error if cut short. -/
structure Reads (L : Nat → Bytes → Bool) (bs : Bytes) (op : Nat) (s : Str) : Prop where
  full : ∀ rest, readOp L (bs ++ rest) = some (op, s, rest)
  short : ∀ p q, bs = p ++ q → q ≠ [] → readOp L p = none

theorem cons_split {a : Nat} {X p q : Bytes} (h : a :: X = p ++ q) : p = [] ∨ ∃ p', p = a :: p' ∧ X = p' ++ q := by
  cases p with
  | nil => exact .inl rfl
  | cons b p => simp only [List.cons_append, List.cons.injEq] at h; exact .inr ⟨p, by rw [h.1], h.2⟩

theorem readN_full (raw rest : Bytes) : readN raw.length (raw ++ rest) = some (raw, rest) := by
  simp [readN]

theorem readN_short {raw p q : Bytes} (h : raw = p ++ q) (hq : q ≠ []) : readN raw.length p = none := by
  have : 0 < q.length := List.length_pos_iff.2 hq
  subst h
  simp only [readN, List.length_append]
  rw [if_neg (by omega)]

theorem readLine_full : ∀ (l rest : Bytes), 10 ∉ l → readLine (l ++ 10 :: rest) = some (l, rest)
  | [], rest, _ => by simp [readLine]
  | b :: l, rest, h => by
    simp only [List.mem_cons, not_or] at h
    have : b ≠ 10 := fun e => h.1 e.symm
    simp only [List.cons_append, readLine, this, if_false, readLine_full l rest h.2]

theorem readLine_none : ∀ (l : Bytes), 10 ∉ l → readLine l = none
  | [], _ => rfl
  | b :: l, h => by
    simp only [List.mem_cons, not_or] at h
    have : b ≠ 10 := fun e => h.1 e.symm
    simp only [readLine, this, if_false, readLine_none l h.2]

/-- a proper prefix of a newline-terminated line has no newline. -/
theorem line_prefix {l p q : Bytes} (h : l ++ [10] = p ++ q) (hq : q ≠ []) (hl : 10 ∉ l) : 10 ∉ p := by
  have hle : p.length ≤ l.length := by
    have h1 := congrArg List.length h
    have : 0 < q.length := List.length_pos_iff.2 hq
    simp at h1; omega
  have hp : p = l.take p.length := by
    have := congrArg (List.take p.length) h
    rw [List.take_left, List.take_append_of_le_length hle] at this
    exact this.symm
  rw [hp]; exact fun hm => hl (List.mem_of_mem_take hm)

variable {L : Nat → Bytes → Bool}

theorem reads_none {op : Nat} (h : argKind op = some .none) : Reads L [op] op [] where
  full rest := by simp only [List.cons_append, List.nil_append, readOp, h]
  short p q hp hq := by
    rcases cons_split hp with rfl | ⟨p', rfl, hx⟩
    · rfl
    · exact absurd (List.append_eq_nil_iff.1 hx.symm).2 hq

theorem reads_fixed {op : Nat} {raw : Bytes} (h : argKind op = some (.fixed raw.length)) :
    Reads L (op :: raw) op [] where
  full rest := by
    simp only [List.cons_append, readOp, h, readN_full, Option.map_some]
  short p q hp hq := by
    rcases cons_split hp with rfl | ⟨p', rfl, hx⟩
    · rfl
    · simp only [readOp, h, readN_short hx hq, Option.map_none]

theorem reads_line {op : Nat} {l : Bytes} {s : Str} (h : argKind op = some .line) (hl : 10 ∉ l)
    (hd : decodeArg L op l = some s) : Reads L (op :: (l ++ [10])) op s where
  full rest := by
    simp only [List.cons_append, List.append_assoc, readOp, h, readArg, readLine_full l rest hl, hd,
      List.nil_append]
  short p q hp hq := by
    rcases cons_split hp with rfl | ⟨p', rfl, hx⟩
    · rfl
    · simp only [readOp, h, readArg, readLine_none _ (line_prefix hx hq hl)]

theorem reads_line2 {op : Nat} {l1 l2 : Bytes} {s : Str} (h : argKind op = some .line2) (h1 : 10 ∉ l1)
    (h2 : 10 ∉ l2) (hd : decodeArg L op (l1 ++ [32] ++ l2) = some s) :
    Reads L (op :: (l1 ++ [10] ++ (l2 ++ [10]))) op s where
  full rest := by
    have e : l1 ++ [10] ++ (l2 ++ [10]) ++ rest = l1 ++ 10 :: (l2 ++ 10 :: rest) := by simp
    simp only [List.cons_append, e, readOp, h, readArg, readLine_full l1 _ h1, readLine_full l2 _ h2, hd]
  short p q hp hq := by
    rcases cons_split hp with rfl | ⟨p', rfl, hx⟩
    · rfl
    · simp only [readOp, h, readArg]
      by_cases hlen : p'.length < (l1 ++ [10]).length
      · -- cut inside the first line
        have : p' = (l1 ++ [10]).take p'.length := by
          have := congrArg (List.take p'.length) hx
          rw [List.take_left, List.take_append_of_le_length (by omega)] at this
          exact this.symm
        have hx' : l1 ++ [10] = p' ++ (l1 ++ [10]).drop p'.length := by
          conv => rhs; lhs; rw [this]
          rw [List.take_append_drop]
        have hne : (l1 ++ [10]).drop p'.length ≠ [] := by
          rw [ne_eq, List.drop_eq_nil_iff]; omega
        rw [readLine_none _ (line_prefix hx' hne h1)]
      · obtain ⟨p'', rfl⟩ : ∃ p'', p' = l1 ++ [10] ++ p'' := by
          refine ⟨p'.drop (l1 ++ [10]).length, ?_⟩
          have := congrArg (List.take (l1 ++ [10]).length) hx
          rw [List.take_left, List.take_append_of_le_length (by omega)] at this
          conv => rhs; lhs; rw [this]
          rw [List.take_append_drop]
        rw [List.append_assoc (l1 ++ [10]) p'', List.append_cancel_left_eq] at hx
        simp only [List.append_assoc, List.cons_append, List.nil_append]
        rw [readLine_full _ _ h1]
        simp only [readLine_none _ (line_prefix hx hq h2)]

theorem reads_counted {op k : Nat} {len raw : Bytes} {s : Str} (h : argKind op = some (.counted k false))
    (hk : len.length = k) (hn : leNat len = raw.length) (hd : decodeArg L op raw = some s) :
    Reads L (op :: (len ++ raw)) op s where
  full rest := by
    subst hk
    simp only [List.cons_append, List.append_assoc, readOp, h, readArg, readN_full, Bool.false_and,
      Bool.false_eq_true, if_false, hn, hd]
  short p q hp hq := by
    subst hk
    rcases cons_split hp with rfl | ⟨p', rfl, hx⟩
    · rfl
    · simp only [readOp, h, readArg]
      by_cases hlen : p'.length < len.length
      · have : readN len.length p' = none := by
          simp only [readN]; rw [if_neg (by omega)]
        simp only [this]
      · obtain ⟨p'', rfl⟩ : ∃ p'', p' = len ++ p'' := by
          refine ⟨p'.drop len.length, ?_⟩
          have := congrArg (List.take len.length) hx
          rw [List.take_left, List.take_append_of_le_length (by omega)] at this
          conv => rhs; lhs; rw [this]
          rw [List.take_append_drop]
        rw [List.append_assoc, List.append_cancel_left_eq] at hx
        simp only [readN_full, Bool.false_and, Bool.false_eq_true, if_false, hn, readN_short hx hq]

/-! ### a sequence of operations -/

structure Item where
  bytes : Bytes
  op : Nat
  s : Str

/-- whether the import has been seen after these operations; `none` if a name would be returned or STOP met. -/
def scan : Bool → List Item → Option Bool
  | found, [] => some found
  | found, i :: is =>
    if i.op = 46 then none
    else if found then (if i.op = 86 ∨ i.op = 88 ∨ i.op = 140 then none else scan true is)
    else scan ((i.op = 99 ∨ i.op = 140) && endsImport i.s) is

theorem loop_items (name : Item) (hname : Reads L name.bytes name.op name.s)
    (hop : name.op = 86 ∨ name.op = 88 ∨ name.op = 140) (rest : Bytes) :
    ∀ (items : List Item) (found : Bool) (k fuel : Nat),
      (∀ i ∈ items, Reads L i.bytes i.op i.s) → scan found items = some true → k < fuel →
      identifyLoop L fuel found ((items.flatMap (·.bytes) ++ name.bytes ++ rest).take k) =
        if (items.flatMap (·.bytes) ++ name.bytes).length ≤ k then .name name.s else .unpicklingError := by
  have cut : ∀ (i : Item) (tail : Bytes) (k : Nat), Reads L i.bytes i.op i.s → k < i.bytes.length →
      readOp L ((i.bytes ++ tail).take k) = none := by
    intro i tail k hr hk
    rw [List.take_append_of_le_length (by omega)]
    refine hr.short _ (i.bytes.drop k) (List.take_append_drop _ _).symm ?_
    rw [ne_eq, List.drop_eq_nil_iff]; omega
  intro items
  induction items with
  | nil =>
    intro found k fuel _ hs hf
    simp only [scan, Option.some.injEq] at hs
    subst hs
    obtain ⟨fuel, rfl⟩ : ∃ f, fuel = f + 1 := ⟨fuel - 1, by omega⟩
    simp only [List.flatMap_nil, List.nil_append, identifyLoop]
    by_cases hk : k < name.bytes.length
    · rw [cut name rest k hname hk, if_neg (by omega)]
    · rw [if_pos (by omega)]
      have : (name.bytes ++ rest).take k = name.bytes ++ rest.take (k - name.bytes.length) := by
        rw [List.take_append, List.take_of_length_le (by omega)]
      rw [this, hname.full]
      simp only [Bool.not_true, Bool.false_eq_true, if_false, hop, if_true]
  | cons i is ih =>
    intro found k fuel hr hs hf
    have hri := hr i (by simp)
    have hris : ∀ j ∈ is, Reads L j.bytes j.op j.s := fun j hj => hr j (List.mem_cons_of_mem _ hj)
    obtain ⟨fuel, rfl⟩ : ∃ f, fuel = f + 1 := ⟨fuel - 1, by omega⟩
    have e : (i :: is).flatMap (·.bytes) ++ name.bytes ++ rest =
        i.bytes ++ (is.flatMap (·.bytes) ++ name.bytes ++ rest) := by simp [List.flatMap_cons]
    have el : ((i :: is).flatMap (·.bytes) ++ name.bytes).length =
        i.bytes.length + (is.flatMap (·.bytes) ++ name.bytes).length := by
      simp [List.flatMap_cons, List.length_append]
    rw [e, el]
    by_cases hk : k < i.bytes.length
    · simp only [identifyLoop, cut i _ k hri hk]
      rw [if_neg (by omega)]
    · have hpos : 1 ≤ i.bytes.length := by
        rcases Nat.eq_zero_or_pos i.bytes.length with h0 | h0
        · have := hri.full []
          rw [List.length_eq_zero_iff.1 h0] at this
          simp [readOp] at this
        · exact h0
      have ht : (i.bytes ++ (is.flatMap (·.bytes) ++ name.bytes ++ rest)).take k =
          i.bytes ++ (is.flatMap (·.bytes) ++ name.bytes ++ rest).take (k - i.bytes.length) := by
        rw [List.take_append, List.take_of_length_le (by omega)]
      rw [ht]
      simp only [identifyLoop, hri.full]
      simp only [scan] at hs
      by_cases h46 : i.op = 46
      · simp [h46] at hs
      simp only [h46, if_false] at hs ⊢
      have hcond : (i.bytes.length + (is.flatMap (·.bytes) ++ name.bytes).length ≤ k) ↔
          (is.flatMap (·.bytes) ++ name.bytes).length ≤ k - i.bytes.length := by omega
      cases found with
      | false =>
        simp only [Bool.false_eq_true, if_false] at hs
        simp only [Bool.not_false, if_true]
        rw [ih _ _ _ hris hs (by omega)]
        simp only [hcond]
      | true =>
        simp only [if_true] at hs
        by_cases hu : i.op = 86 ∨ i.op = 88 ∨ i.op = 140
        · simp [hu] at hs
        simp only [hu, if_false] at hs
        simp only [Bool.not_true, Bool.false_eq_true, if_false, hu]
        rw [ih _ _ _ hris hs (by omega)]
        simp only [hcond]

/-! ### the header -/

theorem leNat_le4 (n : Nat) (h : n < 2 ^ 32) : leNat (le4 n) = n := by
  simp only [le4, leNat]; omega

/-- the item for a string at each protocol. -/
def strItem (proto : Nat) (s : Str) : Item :=
  { bytes := saveStr proto s
    op := if 1 ≤ proto then (if (utf8Enc s).length ≤ 255 ∧ 4 ≤ proto then 140 else 88) else 86
    s := s }

theorem reads_str {proto : Nat} {s : Str} (hs : IsStr s) (hlen : (utf8Enc s).length < 2 ^ 32) :
    Reads L (strItem proto s).bytes (strItem proto s).op (strItem proto s).s := by
  simp only [strItem, saveStr]
  by_cases hp : 1 ≤ proto
  · simp only [hp, if_true]
    by_cases h4 : (utf8Enc s).length ≤ 255 ∧ 4 ≤ proto
    · simp only [h4, and_self, if_true]
      have := reads_counted (L := L) (op := 140) (k := 1) (len := [(utf8Enc s).length]) (raw := utf8Enc s) (s := s)
        rfl rfl (by simp [leNat]) (by simp [decodeArg, utf8_roundtrip s hs])
      simpa using this
    · simp only [h4, if_false]
      have := reads_counted (L := L) (op := 88) (k := 4) (len := le4 (utf8Enc s).length) (raw := utf8Enc s) (s := s)
        rfl rfl (leNat_le4 _ hlen) (by simp [decodeArg, utf8_roundtrip s hs])
      simpa using this
  · simp only [hp, if_false]
    have := reads_line (L := L) (op := 86) (l := rawEnc s) (s := s) rfl (rawEnc_noNL s)
      (by simp [decodeArg, raw_roundtrip s hs])
    simpa using this

theorem strItem_op (proto : Nat) (s : Str) :
    (strItem proto s).op = 86 ∨ (strItem proto s).op = 88 ∨ (strItem proto s).op = 140 := by
  simp only [strItem]; split
  · split <;> simp
  · simp

/-- the operations before the name. -/
def preItems (proto : Nat) (frame : Bytes) : List Item :=
  (if 2 ≤ proto then [⟨[128, proto], 128, []⟩] else []) ++
  (if 4 ≤ proto then [⟨149 :: frame, 149, []⟩] else []) ++
  (if 4 ≤ proto then
    [strItem proto (str "dill._dill"), ⟨[148], 148, []⟩, strItem proto (str "_import_module"), ⟨[148], 148, []⟩,
      ⟨[147], 147, []⟩]
  else [⟨99 :: (str "dill._dill" ++ [10] ++ (str "_import_module" ++ [10])), 99,
      str "dill._dill" ++ [32] ++ str "_import_module"⟩]) ++
  [⟨memo0 proto, (memo0 proto).head?.getD 0, []⟩] ++
  (if 2 ≤ proto then [] else [⟨[40], 40, []⟩])

theorem header_items (proto : Nat) (frame : Bytes) (name : Str) :
    header proto frame name = (preItems proto frame).flatMap (·.bytes) ++ (strItem proto name).bytes := by
  simp only [header, preItems, strItem, tupleStart]
  by_cases h2 : 2 ≤ proto <;> by_cases h4 : 4 ≤ proto <;> simp [h2, h4]

theorem preItems_reads {proto : Nat} {frame : Bytes} (hf : frame.length = 8) :
    ∀ i ∈ preItems proto frame, Reads L i.bytes i.op i.s := by
  have hp : Reads L [128, proto] 128 [] := reads_fixed (raw := [proto]) rfl
  have hfr : Reads L (149 :: frame) 149 [] := reads_fixed (raw := frame) (by rw [hf]; rfl)
  have hm : Reads L [148] 148 [] := reads_none rfl
  have hsg : Reads L [147] 147 [] := reads_none rfl
  have hma : Reads L [40] 40 [] := reads_none rfl
  have hg : Reads L (99 :: (str "dill._dill" ++ [10] ++ (str "_import_module" ++ [10]))) 99
      (str "dill._dill" ++ [32] ++ str "_import_module") :=
    reads_line2 rfl (by decide) (by decide) (by simp [decodeArg]; decide)
  have hm0 : Reads L (memo0 proto) ((memo0 proto).head?.getD 0) [] := by
    unfold memo0
    split
    · exact hm
    split
    · exact reads_fixed (raw := [0]) rfl
    · exact reads_line (op := 112) (l := [48]) rfl (by decide) (by simp [decodeArg])
  intro i hi
  simp only [preItems] at hi
  by_cases h2 : 2 ≤ proto <;> by_cases h4 : 4 ≤ proto <;>
    simp only [h2, h4, if_true, if_false, List.append_assoc, List.cons_append, List.nil_append, List.append_nil,
      List.mem_cons, List.not_mem_nil, or_false] at hi
  · rcases hi with rfl | rfl | rfl | rfl | rfl | rfl | rfl | rfl
    · exact hp
    · exact hfr
    · exact reads_str (by decide) (by decide)
    · exact hm
    · exact reads_str (by decide) (by decide)
    · exact hm
    · exact hsg
    · exact hm0
  · rcases hi with rfl | rfl | rfl
    · exact hp
    · simpa using hg
    · exact hm0
  · omega
  · rcases hi with rfl | rfl | rfl
    · simpa using hg
    · exact hm0
    · exact hma

theorem scan_pre (proto : Nat) (frame : Bytes) : scan false (preItems proto frame) = some true := by
  have e1 : endsImport (str "dill._dill") = false := by decide
  have e2 : endsImport (str "_import_module") = true := by decide
  have e3 : endsImport (str "dill._dill" ++ 32 :: str "_import_module") = true := by decide
  have l1 : (utf8Enc (str "dill._dill")).length ≤ 255 := by decide
  have l2 : (utf8Enc (str "_import_module")).length ≤ 255 := by decide
  by_cases h4 : 4 ≤ proto
  · have h2 : 2 ≤ proto := by omega
    have h1 : 1 ≤ proto := by omega
    simp [preItems, h4, h2, h1, scan, strItem, memo0, e1, e2, l1, l2]
  · by_cases h1 : 1 ≤ proto <;> by_cases h2 : 2 ≤ proto <;>
      simp [preItems, h4, h2, h1, scan, memo0, e3]

/-- C18: whatever follows in the file and however much of it is peeked, the module's name is found exactly
when the chunk reaches the end of the name, and otherwise the result is an UnpicklingError, for every
protocol. -/
theorem C18_identify_exact (proto : Nat) (frame : Bytes) (hf : frame.length = 8) (name : Str) (hn : IsStr name)
    (hlen : (utf8Enc name).length < 2 ^ 32) (rest : Bytes) (k : Nat) (mainGiven : Bool) :
    identify L (.chunk ((header proto frame name ++ rest).take k)) mainGiven =
      if (header proto frame name).length ≤ k then .name name else .unpicklingError := by
  simp only [identify]
  by_cases hk : k ≤ (header proto frame name ++ rest).length
  · have hl : ((header proto frame name ++ rest).take k).length = k := by
      rw [List.length_take]; omega
    rw [hl, header_items]
    exact loop_items (strItem proto name) (reads_str hn hlen) (strItem_op _ _) rest (preItems proto frame) false k
      (k + 1) (preItems_reads hf) (scan_pre _ _) (by omega)
  · rw [List.take_of_length_le (by omega)]
    have h1 : (header proto frame name).length ≤ k := by
      simp only [List.length_append] at hk; omega
    rw [if_pos h1]
    have := loop_items (L := L) (strItem proto name) (reads_str hn hlen) (strItem_op _ _) rest
      (preItems proto frame) false (header proto frame name ++ rest).length
      ((header proto frame name ++ rest).length + 1) (preItems_reads hf) (scan_pre _ _) (by omega)
    rw [← header_items, List.take_of_length_le (Nat.le_refl _), if_pos (by simp)] at this
    exact this

/-- In particular a peek of 256 bytes (`_PeekableReader`) is enough for every name of up to 190 bytes in
UTF-8 (protocols 1 to 5), whatever the protocol. -/
theorem C18_peek256 (proto : Nat) (frame : Bytes) (hf : frame.length = 8) (name : Str) (hn : IsStr name)
    (hp : 1 ≤ proto) (hlen : (utf8Enc name).length ≤ 190) (rest : Bytes) (mainGiven : Bool) :
    identify L (.chunk ((header proto frame name ++ rest).take 256)) mainGiven = .name name := by
  rw [C18_identify_exact proto frame hf name hn (by omega), if_pos]
  have l1 : (utf8Enc (str "dill._dill")).length = 10 := by decide
  have l2 : (utf8Enc (str "_import_module")).length = 14 := by decide
  have l3 : (str "dill._dill").length = 10 := by decide
  have l4 : (str "_import_module").length = 14 := by decide
  by_cases h4 : 4 ≤ proto
  · have h2 : 2 ≤ proto := by omega
    have h5 : (utf8Enc name).length ≤ 255 := by omega
    simp [header, saveStr, hp, h2, h4, l1, l2, memo0, tupleStart, hf, h5]; omega
  · by_cases h2 : 2 ≤ proto <;>
      simp [header, saveStr, hp, h2, h4, l3, l4, memo0, tupleStart, le4] <;> omega

/-- A stream that cannot be peeked: an error unless the caller names the module. -/
theorem C18_unpeekable (mainGiven : Bool) :
    identify L .notImplemented mainGiven = if mainGiven then .noName else .unpicklingError := rfl

/-- the name may itself end in `_import_module`, contain newlines, quotes or backslashes, or be empty. -/
example : identify L (.chunk ((header 0 (List.replicate 8 0) (str "a\n\\b_import_module") ++ [40, 46]).take 300))
    false = .name (str "a\n\\b_import_module") := by
  rw [C18_identify_exact 0 _ (by decide) _ (by decide) (by decide), if_pos (by decide)]

example : (header 4 (List.replicate 8 0) (str "__main__")).length = 53 := by decide

/-- Limitation: a module whose name is longer than fits in the chunk cannot be loaded back from such a stream
although dump_module wrote it (300 characters, 256 bytes peeked). -/
theorem C18_long_name_unloadable (rest : Bytes) :
    identify L (.chunk ((header 4 (List.replicate 8 0) (List.replicate 300 97) ++ rest).take 256)) false =
      .unpicklingError := by
  rw [C18_identify_exact 4 _ (by decide) _ (by decide +kernel) (by decide +kernel), if_neg (by decide +kernel)]

/-- Limitation: a session file of the module dill._dill itself (protocol 4) is identified as something else:
the first string after the header, here the first key `__name__` of its dictionary. -/
theorem C18_self_misidentified :
    identify L (.chunk ((headerSelf 4 (List.replicate 8 0) ++
      [133, 148, 82, 148, 125, 148, 40] ++ saveStr 4 (str "__name__") ++ [148, 104, 0]).take 256)) false =
      .name (str "__name__") := by
  simp [identify, headerSelf, saveStr, identifyLoop, readOp, argKind, readArg, readN, leNat, decodeArg, utf8Enc,
    utf8Enc1, str, utf8Dec, cont, endsImport]
  decide +kernel

/-- C18: a file that does not start with an opcode of pickle (text, an archive, an empty file, ...) is reported as no pickle. -/
theorem C18_not_a_pickle (lineOk : Nat → Bytes → Bool) (bs : Bytes) (mainGiven : Bool)
    (h : ∀ b, bs.head? = some b → b < 40 ∨ (58 ≤ b ∧ b ≤ 64) ∨ (118 ≤ b ∧ b ≤ 124) ∨ b = 126 ∨ b = 127 ∨ 153 ≤ b) :
    identify lineOk (.chunk bs) mainGiven = .unpicklingError := by
  have hr : readOp lineOk bs = none := by
    cases bs with
    | nil => rfl
    | cons b bs =>
      have hb := h b rfl
      have : argKind b = none := by
        unfold argKind
        split <;> first | rfl | omega
      simp only [readOp, this]
  simp only [identify, identifyLoop, hr]

example : ∀ b, (str "#!/bin/sh").head? = some b → b < 40 ∨ (58 ≤ b ∧ b ≤ 64) ∨ (118 ≤ b ∧ b ≤ 124) ∨ b = 126 ∨ b = 127 ∨ 153 ≤ b := by
  intro b h; left; have : b = 35 := by simpa [str] using h.symm
  omega

end Verif.Identify
