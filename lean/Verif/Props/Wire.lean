import Verif.Model.Wire
import Verif.Props.Core
/-! C68, C69: pickles as bytes: round trip, several pickles in one file, truncated files. -/
set_option linter.unusedSimpArgs false
namespace Verif.Wire
open Core Core.Spec

/-! ### numbers -/

theorem le_length (k n : Nat) : (le k n).length = k := by
  induction k generalizing n with
  | zero => rfl
  | succ k ih => simp [le, ih]

theorem unle_le (k n : Nat) (h : n < 256 ^ k) : unle (le k n) = n := by
  induction k generalizing n with
  | zero => simp at h; subst h; rfl
  | succ k ih =>
    have h' : n / 256 < 256 ^ k := by
      rw [Nat.div_lt_iff_lt_mul (by decide)]
      rwa [Nat.pow_succ] at h
    have hm : (UInt8.ofNat (n % 256)).toNat = n % 256 := UInt8.toNat_ofNat_of_lt' (Nat.mod_lt _ (by decide))
    simp only [le, unle, ih _ h', hm]
    omega

theorem fromBytes_toBytes (k : Nat) (x : Int) (h1 : -(256 ^ k : Int) ≤ 2 * x) (h2 : 2 * x < 256 ^ k) :
    fromBytes (toBytes k x) = x := by
  have hp : (0 : Int) < 256 ^ k := Int.pow_pos (by decide)
  have hc : ((256 ^ k : Nat) : Int) = (256 : Int) ^ k := by simp
  have hnn : 0 ≤ x % 256 ^ k := Int.emod_nonneg _ (Int.ne_of_gt hp)
  have hlt : x % 256 ^ k < 256 ^ k := Int.emod_lt_of_pos _ hp
  have hu : unle (toBytes k x) = (x % 256 ^ k).toNat := by
    unfold toBytes
    apply unle_le
    omega
  have hl : (toBytes k x).length = k := le_length _ _
  unfold fromBytes
  rw [hu, hl]
  by_cases hx : 0 ≤ x
  · have he : x % 256 ^ k = x := Int.emod_eq_of_lt hx (by omega)
    rw [he, if_neg (by omega)]
    omega
  · have he : x % 256 ^ k = x + 256 ^ k := by
      rw [← Int.add_emod_right]
      exact Int.emod_eq_of_lt (by omega) (by omega)
    rw [he, if_pos (by omega)]
    omega

theorem unle_append (a b : Bytes) : unle (a ++ b) = unle a + 256 ^ a.length * unle b := by
  induction a with
  | nil => simp [unle]
  | cons x a ih =>
    simp only [List.cons_append, unle, ih, List.length_cons, Nat.pow_succ]
    rw [Nat.mul_add, Nat.mul_comm (256 ^ a.length) 256, Nat.mul_assoc]
    omega

/-- a leading 0xff byte of a negative number carries no information -/
theorem fromBytes_trim (l : Bytes) (b : UInt8) (hb : b.toNat ≥ 128) : fromBytes (l ++ [b, 0xff]) = fromBytes (l ++ [b]) := by
  have h1 : unle (l ++ [b, 0xff]) = unle (l ++ [b]) + 256 ^ (l.length + 1) * 255 := by
    rw [show l ++ [b, 0xff] = (l ++ [b]) ++ [0xff] by simp, unle_append]
    simp [unle]
  have h2 : unle (l ++ [b]) = unle l + 256 ^ l.length * b.toNat := by rw [unle_append]; simp [unle]
  have hp : 0 < 256 ^ l.length := Nat.pow_pos (by decide)
  have hge : 256 ^ l.length * 128 ≤ 256 ^ l.length * b.toNat := Nat.mul_le_mul_left _ hb
  unfold fromBytes
  rw [h1]
  simp only [List.length_append, List.length_cons, List.length_nil, Nat.zero_add, Nat.reduceAdd]
  have e1 : 256 ^ (l.length + 1) = 256 ^ l.length * 256 := Nat.pow_succ ..
  have e2 : 256 ^ (l.length + 2) = 256 ^ l.length * 65536 := by rw [Nat.pow_add]
  have i1 : (256 : Int) ^ (l.length + 1) = ((256 ^ (l.length + 1) : Nat) : Int) := by simp
  have i2 : (256 : Int) ^ (l.length + 2) = ((256 ^ (l.length + 2) : Nat) : Int) := by simp
  rw [i1, i2, e1, e2, h2]
  generalize 256 ^ l.length = p at *
  generalize unle l = u at *
  rw [if_pos (by omega), if_pos (by omega)]
  omega

theorem bitLength_lt (x : Int) : x.natAbs < 2 ^ bitLength x := by
  unfold bitLength
  by_cases h : x = 0
  · simp [h]
  · rw [if_neg h]
    exact Nat.lt_log2_self

theorem fromBytes_encodeLong (x : Int) : fromBytes (encodeLong x) = x := by
  unfold encodeLong
  by_cases h0 : x = 0
  · simp [h0, fromBytes, unle]
  rw [if_neg h0]
  have hb := bitLength_lt x
  have hk : bitLength x + 1 ≤ 8 * (bitLength x / 8 + 1) := by omega
  have hpow : 2 * 2 ^ bitLength x ≤ 256 ^ (bitLength x / 8 + 1) := by
    have : (256 : Nat) = 2 ^ 8 := rfl
    rw [this, ← Nat.pow_mul, ← Nat.pow_succ']
    exact Nat.pow_le_pow_right (by decide) hk
  have hc : (((256 : Nat) ^ (bitLength x / 8 + 1) : Nat) : Int) = (256 : Int) ^ (bitLength x / 8 + 1) := by simp
  have hr : fromBytes (toBytes (bitLength x / 8 + 1) x) = x := fromBytes_toBytes _ _ (by omega) (by omega)
  generalize toBytes (bitLength x / 8 + 1) x = r at hr
  simp only []
  split
  · rename_i a b ha hb'
    by_cases hcnd : x < 0 ∧ a = 0xff ∧ b.toNat ≥ 128
    · rw [if_pos hcnd]
      obtain ⟨l, hl⟩ : ∃ l : Bytes, r.dropLast = l ++ [b] := by
        refine ⟨r.dropLast.dropLast, ?_⟩
        have hne : r.dropLast ≠ [] := by intro h; rw [h] at hb'; cases hb'
        rw [List.getLast?_eq_some_getLast hne] at hb'
        rw [← Option.some.inj hb']
        exact (List.dropLast_concat_getLast hne).symm
      have hr2 : r = l ++ [b, 0xff] := by
        have hne : r ≠ [] := by intro h; rw [h] at ha; cases ha
        rw [List.getLast?_eq_some_getLast hne] at ha
        have := List.dropLast_concat_getLast hne
        rw [hl, Option.some.inj ha, hcnd.2.1] at this
        rw [← this]; simp
      rw [hl, ← fromBytes_trim l b hcnd.2.2, ← hr2, hr]
    · rw [if_neg hcnd, hr]
  · exact hr

/-! ### reading back one opcode -/

theorem takeN_append (a r : Bytes) (n : Nat) (h : a.length = n) : takeN n (a ++ r) = some (a, r) := by
  subst h
  unfold takeN
  rw [if_neg (by simp)]
  simp

theorem takeN_mono {n : Nat} {bs a r : Bytes} (h : takeN n bs = some (a, r)) (x : Bytes) : takeN n (bs ++ x) = some (a, r ++ x) := by
  unfold takeN at h
  by_cases hl : bs.length < n
  · rw [if_pos hl] at h; cases h
  · rw [if_neg hl] at h
    simp only [Option.some.injEq, Prod.mk.injEq] at h
    unfold takeN
    rw [if_neg (by simp; omega), ← h.1, ← h.2, List.take_append_of_le_length (by omega), List.drop_append_of_le_length (by omega)]

theorem readLine_append (m r : Bytes) (h : (10 : UInt8) ∉ m) : readLine (m ++ 10 :: r) = some (m, r) := by
  induction m with
  | nil => simp [readLine]
  | cons b m ih =>
    simp only [List.mem_cons, not_or] at h
    simp only [List.cons_append, readLine, if_neg (Ne.symm h.1), ih h.2, Option.map_some]

theorem readLine_mono {bs a r : Bytes} (h : readLine bs = some (a, r)) (x : Bytes) : readLine (bs ++ x) = some (a, r ++ x) := by
  induction bs generalizing a r with
  | nil => cases h
  | cons b bs ih =>
    simp only [readLine] at h
    by_cases hb : b = 10
    · rw [if_pos hb] at h
      simp only [Option.some.injEq, Prod.mk.injEq] at h
      simp only [List.cons_append, readLine, if_pos hb, ← h.1, ← h.2]
    · rw [if_neg hb] at h
      cases hr : readLine bs with
      | none => rw [hr] at h; cases h
      | some p =>
        rw [hr] at h
        simp only [Option.map_some, Option.some.injEq, Prod.mk.injEq] at h
        simp only [List.cons_append, readLine, if_neg hb, ih hr, Option.map_some, h.1, h.2]

theorem ofUtf8_utf8 (s : String) : ofUtf8 (utf8 s) = some s := by
  unfold ofUtf8 utf8 String.fromUTF8?
  have hb : (⟨(s.toUTF8.data.toList).toArray⟩ : ByteArray) = s.toUTF8 := by simp
  rw [hb, dif_pos (show s.toUTF8.IsValidUTF8 from s.isValidUTF8)]
  rfl

/-! ### reading through frames -/

/-- reading exactly the bytes `b` takes the source from `s` to `t` -/
inductive Supply : Src → Bytes → Src → Prop
  | file (b r : Bytes) : Supply ⟨none, b ++ r⟩ b ⟨none, r⟩
  | frame (b f r : Bytes) : Supply ⟨some (b ++ f), r⟩ b ⟨some f, r⟩
  | edge (b r : Bytes) (h : b ≠ []) : Supply ⟨some [], b ++ r⟩ b ⟨none, r⟩

theorem supply_nil {s t : Src} (h : Supply s [] t) : s = t := by
  generalize hb : ([] : Bytes) = b at h
  cases h with
  | file b r => subst hb; rfl
  | frame b f r => subst hb; rfl
  | edge b r h => exact absurd hb.symm h

theorem supply_refl (s : Src) : Supply s [] s := by
  obtain ⟨c, f⟩ := s
  cases c with
  | none => exact .file [] f
  | some g => exact .frame [] g f

theorem supply_split {a b : Bytes} {s t : Src} (h : Supply s (a ++ b) t) : ∃ u, Supply s a u ∧ Supply u b t := by
  generalize hc : a ++ b = c at h
  cases h with
  | file c r => subst hc; rw [List.append_assoc]; exact ⟨⟨none, b ++ r⟩, .file a _, .file b r⟩
  | frame c f r => subst hc; rw [List.append_assoc]; exact ⟨⟨some (b ++ f), r⟩, .frame a _ r, .frame b f r⟩
  | edge c r h =>
    subst hc
    by_cases ha : a = []
    · subst ha; exact ⟨_, supply_refl _, .edge b r h⟩
    · rw [List.append_assoc]; exact ⟨⟨none, b ++ r⟩, .edge a _ ha, .file b r⟩

theorem takeS_supply {a : Bytes} {s t : Src} (h : Supply s a t) {n : Nat} (hn : a.length = n) : takeS n s = some (a, t) := by
  cases h with
  | file a r => simp only [takeS, takeN_append a r n hn, Option.map_some]
  | frame a f r =>
    have : ¬ (a ++ f = [] ∧ n ≠ 0) := by
      rintro ⟨h1, h2⟩
      rw [(List.append_eq_nil_iff.1 h1).1] at hn
      exact h2 hn.symm
    simp only [takeS, if_neg this, takeN_append a f n hn, Option.map_some]
  | edge a r ha =>
    have : n ≠ 0 := by
      rintro rfl
      exact ha (List.length_eq_zero_iff.1 hn)
    simp only [takeS, this, ne_eq, not_false_eq_true, and_self, if_true, takeN_append a r n hn, Option.map_some]

theorem lineS_supply {m : Bytes} {s t : Src} (h : Supply s (m ++ [10]) t) (hm : (10 : UInt8) ∉ m) : lineS s = some (m, t) := by
  generalize ha : m ++ [10] = a at h
  cases h with
  | file a r =>
    subst ha
    simp only [lineS, List.append_assoc, List.singleton_append, readLine_append m r hm, Option.map_some]
  | frame a f r =>
    subst ha
    have : ¬ (m ++ [10] ++ f = []) := by simp
    simp only [lineS, if_neg this]
    simp only [List.append_assoc, List.singleton_append, readLine_append m f hm, Option.map_some]
  | edge a r h =>
    subst ha
    simp only [lineS, if_true, List.append_assoc, List.singleton_append, readLine_append m r hm, Option.map_some]

theorem readOne_supply {b : UInt8} {a : Bytes} {s t : Src} {l : Layout} (h : Supply s (b :: a) t) (hl : layout b = some l) :
    ∃ u, readOne s = readArg l u ∧ Supply u a t := by
  obtain ⟨u, h1, h2⟩ := supply_split (a := [b]) (b := a) h
  refine ⟨u, ?_, h2⟩
  have h3 := takeS_supply h1 (n := 1) rfl
  unfold readOne
  rw [h3]
  simp only [hl]

theorem read_plain {b : UInt8} {i : Instr} {s t : Src} (h : Supply s [b] t) (hl : layout b = some (.plain i)) :
    readOne s = some (i, t) := by
  obtain ⟨u, h1, h2⟩ := readOne_supply h hl
  rw [h1, supply_nil h2]; rfl

theorem read_fixed {b : UInt8} {k : Nat} {f : Bytes → Option Instr} (hl : layout b = some (.fixed k f)) {a : Bytes} {s t : Src}
    (h : Supply s (b :: a) t) (ha : a.length = k) : readOne s = (f a).map fun i => (i, t) := by
  obtain ⟨u, h1, h2⟩ := readOne_supply h hl
  simp only [h1, readArg, takeS_supply h2 ha]

theorem read_counted {b : UInt8} {k mx : Nat} {f : Bytes → Option Instr} (hl : layout b = some (.counted k mx f)) {d : Bytes}
    {s t : Src} (h : Supply s (b :: le k d.length ++ d) t) (hd : d.length < 256 ^ k) (hm : d.length < mx) :
    readOne s = (f d).map fun i => (i, t) := by
  obtain ⟨u, h1, h2⟩ := readOne_supply (a := le k d.length ++ d) h hl
  obtain ⟨v, h3, h4⟩ := supply_split h2
  simp only [h1, readArg, takeS_supply h3 (le_length _ _), unle_le k _ hd, if_pos hm, takeS_supply h4 rfl]

theorem read_encInt {i : Int} {b : Bytes} (h : encInt i = some b) {s t : Src} (hs : Supply s b t) :
    readOne s = some (.op (.push (.int i)), t) := by
  unfold encInt at h
  by_cases h1 : 0 ≤ i ∧ i ≤ 0xff
  · rw [if_pos h1] at h; cases h
    rw [read_fixed (k := 1) (f := fun a => some (.op (.push (.int (unle a))))) rfl hs (le_length _ _), unle_le _ _ (by omega)]
    simp only [Option.map_some, Option.some.injEq, Prod.mk.injEq, and_true]
    congr 3; omega
  rw [if_neg h1] at h
  by_cases h2 : 0 ≤ i ∧ i ≤ 0xffff
  · rw [if_pos h2] at h; cases h
    rw [read_fixed (k := 2) (f := fun a => some (.op (.push (.int (unle a))))) rfl hs (le_length _ _), unle_le _ _ (by omega)]
    simp only [Option.map_some, Option.some.injEq, Prod.mk.injEq, and_true]
    congr 3; omega
  rw [if_neg h2] at h
  by_cases h3 : -0x80000000 ≤ i ∧ i ≤ 0x7fffffff
  · rw [if_pos h3] at h; cases h
    rw [read_fixed (k := 4) (f := fun a => some (.op (.push (.int (fromBytes a))))) rfl (a := toBytes 4 i) hs (le_length _ _),
      fromBytes_toBytes _ _ (by omega) (by omega)]
    rfl
  rw [if_neg h3] at h
  simp only [] at h
  by_cases h4 : (encodeLong i).length < 256
  · rw [if_pos h4] at h; cases h
    rw [read_counted (k := 1) (mx := 256) (f := fun a => some (.op (.push (.int (fromBytes a))))) rfl hs h4 h4,
      fromBytes_encodeLong]
    rfl
  rw [if_neg h4] at h
  by_cases h5 : (encodeLong i).length < 2 ^ 31
  · rw [if_pos h5] at h; cases h
    rw [read_counted (k := 4) (mx := 2 ^ 31) (f := fun a => some (.op (.push (.int (fromBytes a))))) rfl hs (by omega) h5,
      fromBytes_encodeLong]
    rfl
  rw [if_neg h5] at h; cases h

theorem read_str {k mx : Nat} {b : UInt8} {st : String} (hl : layout b = some (.counted k mx strInstr)) {s t : Src}
    (hs : Supply s (b :: le k (utf8 st).length ++ utf8 st) t) (h1 : (utf8 st).length < 256 ^ k) (h2 : (utf8 st).length < mx) :
    readOne s = some (.op (.push (.str st)), t) := by
  rw [read_counted hl hs h1 h2]
  simp [strInstr, ofUtf8_utf8]

theorem read_bytes {k mx : Nat} {b : UInt8} {d : Bytes} (hl : layout b = some (.counted k mx bytesInstr)) {s t : Src}
    (hs : Supply s (b :: le k d.length ++ d) t) (h1 : d.length < 256 ^ k) (h2 : d.length < mx) :
    readOne s = some (.op (.push (.bytes d)), t) := by
  rw [read_counted hl hs h1 h2]
  simp [bytesInstr]

theorem read_encBytes {d b : Bytes} (h : encBytes d = some b) {s t : Src} (hs : Supply s b t) :
    readOne s = some (.op (.push (.bytes d)), t) := by
  unfold encBytes at h
  by_cases h1 : d.length < 256
  · rw [if_pos h1] at h; cases h; exact read_bytes (k := 1) (mx := 256) rfl hs h1 h1
  rw [if_neg h1] at h
  by_cases h2 : d.length < 2 ^ 32
  · rw [if_pos h2] at h; cases h; exact read_bytes (k := 4) (mx := 2 ^ 32) rfl hs h2 h2
  rw [if_neg h2] at h; cases h

theorem read_float {x : UInt64} {s t : Src} (hs : Supply s (encFloat x) t) : readOne s = some (.op (.push (.float x)), t) := by
  have hl : (le 8 x.toNat).reverse.length = 8 := by rw [List.length_reverse, le_length]
  rw [read_fixed (k := 8) (f := fun a => some (.op (.push (.float (UInt64.ofNat (unle a.reverse)))))) rfl hs hl]
  have : x.toNat < 256 ^ 8 := x.toNat_lt
  simp only [List.reverse_reverse, unle_le 8 _ this, UInt64.ofNat_toNat, Option.map_some]

/-- the instruction a reader sees for an opcode -/
def instrOf (p c : Nat) : WOp → Instr
  | .stackGlobal => .stackGlobal
  | .op .memoize => if 4 ≤ p then .memo else .put c
  | .op .build => .build
  | .op .buildSet => .build
  | .op o => .op o

theorem read_put {c : Nat} {b : Bytes} (h : encOp c .memoize = some b) {s t : Src} (hs : Supply s b t) :
    readOne s = some (.put c, t) := by
  simp only [encOp] at h
  by_cases h1 : c < 256
  · rw [if_pos h1] at h; cases h
    rw [read_fixed (k := 1) (f := fun a => some (.put (unle a))) rfl hs (le_length _ _), unle_le _ _ (by omega)]
    rfl
  · rw [if_neg h1] at h
    by_cases h2 : c < 2 ^ 32
    · rw [if_pos h2] at h; cases h
      rw [read_fixed (k := 4) (f := fun a => some (.put (unle a))) rfl hs (le_length _ _), unle_le _ _ (by omega)]
      rfl
    · rw [if_neg h2] at h; cases h

theorem read_get {c i : Nat} {b : Bytes} (h : encOp c (.get i) = some b) {s t : Src} (hs : Supply s b t) :
    readOne s = some (.op (.get i), t) := by
  simp only [encOp] at h
  by_cases h1 : i < 256
  · rw [if_pos h1] at h; cases h
    rw [read_fixed (k := 1) (f := fun a => some (.op (.get (unle a)))) rfl hs (le_length _ _), unle_le _ _ (by omega)]
    rfl
  · rw [if_neg h1] at h
    by_cases h2 : i < 2 ^ 32
    · rw [if_pos h2] at h; cases h
      rw [read_fixed (k := 4) (f := fun a => some (.op (.get (unle a)))) rfl hs (le_length _ _), unle_le _ _ (by omega)]
      rfl
    · rw [if_neg h2] at h; cases h

theorem read_encW {p c : Nat} {w : WOp} {b : Bytes} (h : encW p c w = some b) {s t : Src} (hs : Supply s b t) :
    readOne s = some (instrOf p c w, t) := by
  cases w with
  | stackGlobal =>
    simp only [encW] at h
    by_cases hp : 4 ≤ p
    · rw [if_pos hp] at h; cases h; exact read_plain hs rfl
    · rw [if_neg hp] at h; cases h
  | op o =>
    cases o with
    | push a =>
      cases a with
      | none => cases h; exact read_plain hs rfl
      | bool x => cases x <;> · cases h; exact read_plain hs rfl
      | int i => exact read_encInt h hs
      | str st =>
        simp only [encW] at h
        by_cases hp : 4 ≤ p
        · rw [if_pos hp] at h
          unfold encStr4 at h
          by_cases h1 : (utf8 st).length < 256
          · rw [if_pos h1] at h; cases h; exact read_str (k := 1) (mx := 256) rfl hs h1 h1
          rw [if_neg h1] at h
          by_cases h2 : (utf8 st).length < 2 ^ 32
          · rw [if_pos h2] at h; cases h; exact read_str (k := 4) (mx := 2 ^ 32) rfl hs h2 h2
          rw [if_neg h2] at h
          by_cases h3 : (utf8 st).length < 2 ^ 63
          · rw [if_pos h3] at h; cases h; exact read_str (k := 8) (mx := 2 ^ 63) rfl hs (by omega) h3
          rw [if_neg h3] at h; cases h
        · rw [if_neg hp] at h
          unfold encStr at h
          by_cases h2 : (utf8 st).length < 2 ^ 32
          · rw [if_pos h2] at h; cases h; exact read_str (k := 4) (mx := 2 ^ 32) rfl hs h2 h2
          rw [if_neg h2] at h; cases h
      | float x => cases h; exact read_float hs
      | bytes d =>
        simp only [encW] at h
        by_cases hp : 4 ≤ p
        · rw [if_pos hp] at h
          unfold encBytes4 at h
          by_cases h2 : d.length < 2 ^ 32
          · rw [if_pos h2] at h; exact read_encBytes h hs
          rw [if_neg h2] at h
          by_cases h3 : d.length < 2 ^ 63
          · rw [if_pos h3] at h; cases h; exact read_bytes (k := 8) (mx := 2 ^ 63) rfl hs (by omega) h3
          rw [if_neg h3] at h; cases h
        · rw [if_neg hp] at h
          split at h
          · exact read_encBytes h hs
          · cases h
      | emptyTuple => cases h; exact read_plain hs rfl
      | glob m n =>
        simp only [encW] at h
        by_cases hp : 4 ≤ p
        · rw [if_pos hp] at h; cases h
        · rw [if_neg hp] at h
          split at h
          case isFalse => cases h
          unfold encGlob at h
          by_cases hl : (10 : UInt8) ∉ utf8 m ∧ (10 : UInt8) ∉ utf8 n
          · rw [if_pos hl] at h; cases h
            have e : (0x63 :: utf8 m ++ 10 :: utf8 n ++ [10] : Bytes) = 0x63 :: ((utf8 m ++ [10]) ++ (utf8 n ++ [10])) := by simp
            rw [e] at hs
            obtain ⟨u, h1, h2⟩ := readOne_supply hs (l := .twoLines globInstr) rfl
            obtain ⟨v, h3, h4⟩ := supply_split h2
            simp only [h1, readArg, lineS_supply h3 hl.1, lineS_supply h4 hl.2]
            simp [globInstr, ofUtf8_utf8, instrOf]
          · rw [if_neg hl] at h; cases h
    | tupleN n =>
      match n with
      | 0 => cases h
      | 1 => cases h; exact read_plain hs rfl
      | 2 => cases h; exact read_plain hs rfl
      | 3 => cases h; exact read_plain hs rfl
      | n + 4 => cases h
    | memoize =>
      simp only [encW] at h
      by_cases hp : 4 ≤ p
      · rw [if_pos hp] at h; cases h
        simp only [instrOf, if_pos hp]; exact read_plain hs rfl
      · rw [if_neg hp] at h
        simp only [instrOf, if_neg hp]; exact read_put h hs
    | get i => exact read_get (c := c) h hs
    | emptySet => simp only [encW] at h; split at h <;> cases h; exact read_plain hs rfl
    | additems => simp only [encW] at h; split at h <;> cases h; exact read_plain hs rfl
    | frozenset => simp only [encW] at h; split at h <;> cases h; exact read_plain hs rfl
    | _ => cases h; exact read_plain hs rfl

theorem encW_ne {p c : Nat} {w : WOp} {b : Bytes} (h : encW p c w = some b) : b ≠ [] := by
  rintro rfl
  have := read_encW h (s := ⟨none, []⟩) (supply_refl _)
  cases this

/-- an opcode is one of its protocol (and at least of protocol 2) -/
theorem encW_known {p c : Nat} {w : WOp} {b : Bytes} (h : encW p c w = some b) :
    ∃ o r, b = o :: r ∧ introduced o ≤ max p 2 := by
  have key : ∀ {o : UInt8} {r : Bytes}, introduced o ≤ 2 ∨ (introduced o ≤ 3 ∧ 3 ≤ p) ∨ (introduced o ≤ 4 ∧ 4 ≤ p) →
      ∃ o' r', o :: r = o' :: r' ∧ introduced o' ≤ max p 2 := by
    intro o r ho
    exact ⟨o, r, rfl, by omega⟩
  have key2 : ∀ {o : UInt8} {r : Bytes}, introduced o ≤ 2 → ∃ o' r', o :: r = o' :: r' ∧ introduced o' ≤ max p 2 :=
    fun ho => key (.inl ho)
  have bytes : ∀ {d b : Bytes}, encBytes d = some b → 3 ≤ p → ∃ o' r', b = o' :: r' ∧ introduced o' ≤ max p 2 := by
    intro d b hb hp
    unfold encBytes at hb
    split at hb
    · cases hb; exact key (.inr (.inl ⟨by decide, hp⟩))
    · split at hb
      · cases hb; exact key (.inr (.inl ⟨by decide, hp⟩))
      · cases hb
  have str : ∀ {t : String} {b : Bytes}, encStr t = some b → ∃ o' r', b = o' :: r' ∧ introduced o' ≤ max p 2 := by
    intro t b hb
    unfold encStr at hb
    split at hb
    · cases hb; exact key2 (by decide)
    · cases hb
  have opk : ∀ {c : Nat} {o : Op} {b : Bytes}, encOp c o = some b → o ≠ .emptySet → o ≠ .additems → o ≠ .frozenset →
      (∀ d, o ≠ .push (.bytes d)) → ∃ o' r', b = o' :: r' ∧ introduced o' ≤ max p 2 := by
    intro c o b hb n1 n2 n3 n4
    cases o with
    | push a =>
      cases a with
      | int i =>
        simp only [encOp, encAtom, encInt] at hb
        split at hb
        · cases hb; exact key2 (by decide)
        split at hb
        · cases hb; exact key2 (by decide)
        split at hb
        · cases hb; exact key2 (by decide)
        split at hb
        · cases hb; exact key2 (by decide)
        split at hb
        · cases hb; exact key2 (by decide)
        · cases hb
      | str t => exact str hb
      | bytes d => exact absurd rfl (n4 d)
      | glob m n =>
        simp only [encOp, encAtom, encGlob] at hb
        split at hb
        · cases hb; exact key2 (by decide)
        · cases hb
      | bool v => cases v <;> (cases hb; exact key2 (by decide))
      | _ => cases hb; exact key2 (by decide)
    | tupleN n =>
      match n, hb with
      | 1, hb => cases hb; exact key2 (by decide)
      | 2, hb => cases hb; exact key2 (by decide)
      | 3, hb => cases hb; exact key2 (by decide)
    | memoize =>
      simp only [encOp] at hb
      split at hb
      · cases hb; exact key2 (by decide)
      split at hb
      · cases hb; exact key2 (by decide)
      · cases hb
    | get i =>
      simp only [encOp] at hb
      split at hb
      · cases hb; exact key2 (by decide)
      split at hb
      · cases hb; exact key2 (by decide)
      · cases hb
    | emptySet => exact absurd rfl n1
    | additems => exact absurd rfl n2
    | frozenset => exact absurd rfl n3
    | _ => cases hb; exact key2 (by decide)
  by_cases hp : 4 ≤ p
  · have key4 : ∀ {o : UInt8} {r : Bytes}, introduced o ≤ 4 → ∃ o' r', o :: r = o' :: r' ∧ introduced o' ≤ max p 2 :=
      fun ho => key (.inr (.inr ⟨ho, hp⟩))
    cases w with
    | stackGlobal => simp only [encW, if_pos hp] at h; cases h; exact key4 (by decide)
    | op o =>
      cases o with
      | push a =>
        cases a with
        | str t =>
          simp only [encW, if_pos hp, encStr4] at h
          split at h
          · cases h; exact key4 (by decide)
          split at h
          · cases h; exact key4 (by decide)
          split at h
          · cases h; exact key4 (by decide)
          · cases h
        | bytes d =>
          simp only [encW, if_pos hp, encBytes4] at h
          split at h
          · exact bytes h (by omega)
          split at h
          · cases h; exact key4 (by decide)
          · cases h
        | glob m n => simp only [encW, if_pos hp] at h; cases h
        | _ => simp only [encW] at h; exact opk h (by simp) (by simp) (by simp) (by simp)
      | memoize => simp only [encW, if_pos hp] at h; cases h; exact key4 (by decide)
      | emptySet => simp only [encW, if_pos hp] at h; cases h; exact key4 (by decide)
      | additems => simp only [encW, if_pos hp] at h; cases h; exact key4 (by decide)
      | frozenset => simp only [encW, if_pos hp] at h; cases h; exact key4 (by decide)
      | _ => simp only [encW] at h; exact opk h (by simp) (by simp) (by simp) (by simp)
  · cases w with
    | stackGlobal => simp only [encW, if_neg hp] at h; cases h
    | op o =>
      cases o with
      | push a =>
        cases a with
        | str t => simp only [encW, if_neg hp] at h; exact str h
        | bytes d =>
          simp only [encW, if_neg hp] at h
          split at h
          · exact bytes h (by assumption)
          · cases h
        | glob m n =>
          simp only [encW, if_neg hp] at h
          split at h
          · exact opk (c := c) (o := .push (.glob m n)) h (by simp) (by simp) (by simp) (by simp)
          · cases h
        | _ => simp only [encW] at h; exact opk h (by simp) (by simp) (by simp) (by simp)
      | memoize => simp only [encW, if_neg hp] at h; exact opk h (by simp) (by simp) (by simp) (by simp)
      | emptySet => simp only [encW, if_neg hp] at h; cases h
      | additems => simp only [encW, if_neg hp] at h; cases h
      | frozenset => simp only [encW, if_neg hp] at h; cases h
      | _ => simp only [encW] at h; exact opk h (by simp) (by simp) (by simp) (by simp)

theorem readAt_supply {P : Nat} {b : UInt8} {a : Bytes} {s t : Src} (h : Supply s (b :: a) t) (hb : introduced b ≤ P) :
    readOneAt P s = readOne s := by
  obtain ⟨u, h1, _⟩ := supply_split (a := [b]) (b := a) h
  simp only [readOneAt, takeS_supply h1 (n := 1) rfl, if_pos hb]

theorem readAt_encW {P p c : Nat} (hP : max p 2 ≤ P) {w : WOp} {b : Bytes} (h : encW p c w = some b) {s t : Src} (hs : Supply s b t) :
    readOneAt P s = some (instrOf p c w, t) := by
  obtain ⟨o, r, rfl, ho⟩ := encW_known h
  rw [readAt_supply hs (by omega), read_encW h hs]

theorem readAt_some {P : Nat} {s s' : Src} {i : Instr} (h : readOneAt P s = some (i, s')) : readOne s = some (i, s') := by
  unfold readOneAt at h
  split at h
  · split at h
    · exact h
    · cases h
  · cases h

/-! ### whole pickles -/

/-- the BUILD decisions of one opcode -/
def kindW : WOp → List Bool
  | .op .build => [false]
  | .op .buildSet => [true]
  | _ => []

def kindsW (ws : List WOp) : List Bool := ws.flatMap kindW

def bumps (c : Nat) (ws : List WOp) : Nat := ws.foldl bumpW c

theorem decode_step {P p c n : Nat} (hP : max p 2 ≤ P) {w : WOp} {b : Bytes} (h : encW p c w = some b) {s t : Src} (hs : Supply s b t) (ks : List Bool) :
    decodeGo P (n + 1) c (kindW w ++ ks) s = (decodeGo P n (bumpW c w) ks t).map fun q => (w :: q.1, q.2) := by
  have hr := readAt_encW hP h hs
  cases w with
  | stackGlobal => simp only [decodeGo, hr, instrOf, kindW, List.nil_append, bumpW]
  | op o =>
    cases o with
    | memoize =>
      simp only [decodeGo, hr, instrOf, kindW, List.nil_append, bumpW, bump]
      by_cases hp : 4 ≤ p
      · simp only [if_pos hp]
      · simp only [if_neg hp, if_true]
    | build => simp only [decodeGo, hr, instrOf, kindW, List.singleton_append, bumpW, bump]; rfl
    | buildSet => simp only [decodeGo, hr, instrOf, kindW, List.singleton_append, bumpW, bump]; rfl
    | _ => simp only [decodeGo, hr, instrOf, kindW, List.nil_append, bumpW, bump]

theorem decode_chunk {P p : Nat} (hP : max p 2 ≤ P) (ws : List WOp) : ∀ {c n : Nat} {is : List Bytes} {s t : Src} (ks : List Bool),
    items p c ws = some is → Supply s is.flatten t →
    decodeGo P (n + is.length) c (kindsW ws ++ ks) s = (decodeGo P n (bumps c ws) ks t).map fun q => (ws ++ q.1, q.2) := by
  induction ws with
  | nil =>
    intro c n is s t ks h hs
    cases h
    rw [supply_nil hs]
    simp [kindsW, bumps]
  | cons w ws ih =>
    intro c n is s t ks h hs
    simp only [items] at h
    cases h1 : encW p c w with
    | none => rw [h1] at h; cases h
    | some a =>
      rw [h1] at h
      cases h2 : items p (bumpW c w) ws with
      | none => rw [h2] at h; cases h
      | some is2 =>
        rw [h2] at h; cases h
        obtain ⟨u, hs1, hs2⟩ := supply_split (a := a) (b := is2.flatten) (by simpa using hs)
        have hd := decode_step hP h1 hs1 (n := n + is2.length) (kindsW ws ++ ks)
        have hi := ih ks h2 hs2 (n := n)
        have e1 : kindsW (w :: ws) ++ ks = kindW w ++ (kindsW ws ++ ks) := by simp [kindsW]
        have e2 : n + (a :: is2).length = n + is2.length + 1 := by simp; omega
        rw [e1, e2, hd, hi]
        simp only [Option.map_map, bumps, List.foldl_cons]
        rfl

/-- the source is at the start of `r` in the file -/
def At (s : Src) (r : Bytes) : Prop := s = ⟨none, r⟩ ∨ s = ⟨some [], r⟩

theorem at_supply {s : Src} {d r : Bytes} (h : At s (d ++ r)) : ∃ t, Supply s d t ∧ At t r ∧ (d ≠ [] → t = ⟨none, r⟩) := by
  rcases h with rfl | rfl
  · exact ⟨_, .file d r, .inl rfl, fun _ => rfl⟩
  · by_cases hd : d = []
    · subst hd; exact ⟨_, supply_refl _, .inr rfl, fun h => absurd rfl h⟩
    · exact ⟨_, .edge d r hd, .inl rfl, fun _ => rfl⟩

theorem items_append {p : Nat} (xs ys : List WOp) : ∀ (c : Nat) (is : List Bytes), items p c (xs ++ ys) = some is →
    ∃ i1 i2, items p c xs = some i1 ∧ items p (bumps c xs) ys = some i2 ∧ is = i1 ++ i2 ∧ i1.length = xs.length := by
  induction xs with
  | nil => intro c is h; exact ⟨[], is, rfl, h, rfl, rfl⟩
  | cons x xs ih =>
    intro c is h
    simp only [List.cons_append, items] at h
    cases h1 : encW p c x with
    | none => rw [h1] at h; cases h
    | some a =>
      rw [h1] at h
      cases h2 : items p (bumpW c x) (xs ++ ys) with
      | none => rw [h2] at h; cases h
      | some is2 =>
        rw [h2] at h; cases h
        obtain ⟨i1, i2, g1, g2, g3, g4⟩ := ih _ _ h2
        exact ⟨a :: i1, i2, by simp only [items, h1, g1], by simpa [bumps] using g2, by simp [g3], by simp [g4]⟩

def framed (cuts : List (Bool × Nat)) : Nat := (cuts.filter (·.1)).length

theorem kindsW_append (xs ys : List WOp) : kindsW (xs ++ ys) = kindsW xs ++ kindsW ys := by simp [kindsW]

theorem items_length {p : Nat} (ws : List WOp) (c : Nat) (is : List Bytes) (h : items p c ws = some is) : is.length = ws.length := by
  obtain ⟨i1, i2, h1, h2, h3, h4⟩ := items_append (p := p) ws [] c is (by simpa using h)
  cases h2
  simp [h3, h4]

/-- reading a group of opcodes, then the rest -/
theorem decode_group {P p c n : Nat} (hP : max p 2 ≤ P) {ws : List WOp} {is : List Bytes} {k : Nat} {s t : Src} {r : Bytes}
    (hi : items p c ws = some is) (hs : Supply s ((is ++ [[0x2e]]).take k).flatten t)
    (hrest : k ≤ is.length → ∀ xs ys : List WOp, ws = xs ++ ys → xs.length = k →
      ∃ res, decodeGo P (ws.length + n + 1 - k) (bumps c xs) (kindsW ys) t = some (ys, res) ∧ At res r)
    (hend : is.length < k → At t r) :
    ∃ res, decodeGo P (ws.length + n + 1) c (kindsW ws) s = some (ws, res) ∧ At res r := by
  have hlen := items_length ws c is hi
  by_cases hk : k ≤ is.length
  · have hw : ws = ws.take k ++ ws.drop k := (List.take_append_drop k ws).symm
    obtain ⟨i1, i2, h1, h2, h3, h4⟩ := items_append (p := p) (ws.take k) (ws.drop k) c is (by rw [← hw]; exact hi)
    have hl1 : i1.length = k := by rw [h4, List.length_take]; omega
    have ht : (is ++ [[0x2e]]).take k = i1 := by
      rw [List.take_append_of_le_length hk, h3, ← hl1, List.take_left]
    rw [ht] at hs
    have hc := decode_chunk hP (n := ws.length + n + 1 - k) (ws.take k) (kindsW (ws.drop k)) h1 hs
    rw [← kindsW_append, ← hw, hl1, show ws.length + n + 1 - k + k = ws.length + n + 1 by omega] at hc
    obtain ⟨res, h5, h6⟩ := hrest hk _ _ hw (by rw [List.length_take]; omega)
    refine ⟨res, ?_, h6⟩
    rw [hc, h5]
    simp
  · have ht : (is ++ [[0x2e]]).take k = is ++ [[0x2e]] := List.take_of_length_le (by simp; omega)
    rw [ht, List.flatten_append] at hs
    obtain ⟨u, hs1, hs2⟩ := supply_split hs
    have hc := decode_chunk hP (n := n + 1) ws [] hi hs1
    rw [List.append_nil, hlen, show n + 1 + ws.length = ws.length + n + 1 by omega] at hc
    have hs3 : Supply u [0x2e] t := by simpa using hs2
    have hstop : readOneAt P u = some (.stop, t) := by
      rw [readAt_supply hs3 (show 1 ≤ P by omega)]; exact read_plain (b := 0x2e) hs3 rfl
    refine ⟨t, ?_, hend (by omega)⟩
    rw [hc]
    simp only [decodeGo, hstop, Option.map_some, List.append_nil]

theorem frameUp_raw {p k : Nat} {cuts : List (Bool × Nat)} {L : List Bytes} {b : Bytes} (hL : L ≠ [])
    (h : frameUp p ((false, k) :: cuts) L = some b) :
    ∃ b2, frameUp p cuts (L.drop k) = some b2 ∧ b = (L.take k).flatten ++ b2 := by
  cases L with
  | nil => exact absurd rfl hL
  | cons l L =>
    simp only [frameUp] at h
    obtain ⟨b2, h1, h2⟩ := Option.map_eq_some_iff.1 h
    exact ⟨b2, h1, h2.symm⟩

theorem frameUp_framed {p k : Nat} {cuts : List (Bool × Nat)} {L : List Bytes} {b : Bytes} (hL : L ≠ [])
    (h : frameUp p ((true, k) :: cuts) L = some b) :
    ∃ b2, frameUp p cuts (L.drop k) = some b2 ∧ (4 ≤ p ∧ (L.take k).flatten.length < 2 ^ 63) ∧
      b = 0x95 :: le 8 (L.take k).flatten.length ++ ((L.take k).flatten ++ b2) := by
  cases L with
  | nil => exact absurd rfl hL
  | cons l L =>
    simp only [frameUp] at h
    by_cases hc : 4 ≤ p ∧ ((l :: L).take k).flatten.length < 2 ^ 63
    · rw [if_pos hc] at h
      obtain ⟨b2, h1, h2⟩ := Option.map_eq_some_iff.1 h
      exact ⟨b2, h1, hc, h2.symm⟩
    · rw [if_neg hc] at h; cases h

theorem decode_frames {P p : Nat} (hP : max p 2 ≤ P) (cuts : List (Bool × Nat)) : ∀ (c n : Nat) (ws : List WOp) (is : List Bytes) (b r : Bytes) (s : Src),
    items p c ws = some is → frameUp p cuts (is ++ [[0x2e]]) = some b → At s (b ++ r) → ws.length + framed cuts + 1 ≤ n →
    ∃ t, decodeGo P n c (kindsW ws) s = some (ws, t) ∧ At t r := by
  induction cuts with
  | nil =>
    intro c n ws is b r s _ hf
    cases is <;> cases hf
  | cons cut cuts ih =>
    obtain ⟨fr, k⟩ := cut
    intro c n ws is b r s hi hf hat hn
    have hlen := items_length ws c is hi
    have hne : is ++ [[0x2e]] ≠ [] := by simp
    have hrec : ∀ (b2 : Bytes) (t : Src) (m : Nat), frameUp p cuts ((is ++ [[0x2e]]).drop k) = some b2 → At t (b2 ++ r) →
        framed cuts ≤ m →
        (k ≤ is.length → ∀ xs ys : List WOp, ws = xs ++ ys → xs.length = k →
          ∃ res, decodeGo P (ws.length + m + 1 - k) (bumps c xs) (kindsW ys) t = some (ys, res) ∧ At res r) ∧
        (is.length < k → At t r) := by
      intro b2 t m h2 hat2 hm
      constructor
      · intro hk xs ys hw hx
        subst hw
        obtain ⟨i1, i2, h1, h2', h3, h4⟩ := items_append (p := p) xs ys c is hi
        have hd : (is ++ [[0x2e]]).drop k = i2 ++ [[0x2e]] := by
          rw [List.drop_append_of_le_length hk, h3, ← hx, ← h4, List.drop_left]
        rw [hd] at h2
        exact ih (bumps c xs) _ ys i2 b2 r t h2' h2 hat2 (by simp; omega)
      · intro hk
        have hd : (is ++ [[0x2e]]).drop k = [] := List.drop_eq_nil_iff.2 (by simp; omega)
        rw [hd] at h2
        cases cuts with
        | cons _ _ => cases h2
        | nil => cases h2; exact hat2
    cases fr with
    | false =>
      obtain ⟨b2, h1, h2⟩ := frameUp_raw hne hf
      rw [h2, List.append_assoc] at hat
      obtain ⟨t, ht1, ht2, _⟩ := at_supply hat
      obtain ⟨g1, g2⟩ := hrec b2 t (n - 1 - ws.length) h1 ht2 (by simp [framed] at hn ⊢; omega)
      have := decode_group hP hi ht1 g1 g2
      rwa [show ws.length + (n - 1 - ws.length) + 1 = n by omega] at this
    | true =>
      obtain ⟨b2, h1, ⟨hp4, h2⟩, h3⟩ := frameUp_framed hne hf
      generalize hd : ((is ++ [[0x2e]]).take k).flatten = d at h2 h3
      rw [h3, List.append_assoc, List.append_assoc] at hat
      obtain ⟨t, ht1, _, ht3⟩ := at_supply hat
      have ht := ht3 (by simp)
      subst ht
      have hro := read_fixed (k := 8) (f := fun a => some (.frame (unle a))) rfl ht1 (le_length _ _)
      rw [unle_le _ _ (by omega)] at hro
      simp only [Option.map_some] at hro
      rw [← readAt_supply (P := P) (b := 0x95) ht1 (show 4 ≤ P by omega)] at hro
      have hlf : loadFrame d.length ⟨none, d ++ (b2 ++ r)⟩ = some ⟨some d, b2 ++ r⟩ := by
        unfold loadFrame
        rw [if_pos ⟨h2, .inl rfl⟩]
        simp
      have hsup : Supply ⟨some d, b2 ++ r⟩ ((is ++ [[0x2e]]).take k).flatten ⟨some [], b2 ++ r⟩ := by
        rw [hd]
        have := Supply.frame d [] (b2 ++ r)
        rwa [List.append_nil] at this
      have hfr : framed ((true, k) :: cuts) = framed cuts + 1 := by simp [framed]
      rw [hfr] at hn
      obtain ⟨g1, g2⟩ := hrec b2 ⟨some [], b2 ++ r⟩ (n - 2 - ws.length) h1 (.inr rfl) (by omega)
      have hg := decode_group hP hi hsup g1 g2
      rw [show ws.length + (n - 2 - ws.length) + 1 = n - 1 by omega] at hg
      obtain ⟨res, e1, e2⟩ := hg
      refine ⟨res, ?_, e2⟩
      rw [show n = n - 1 + 1 by omega]
      simp only [decodeGo, hro, hlf, e1]

/-- the bytes are at least as many as the opcodes and frames -/
theorem frameUp_length {p : Nat} (cuts : List (Bool × Nat)) : ∀ (L : List Bytes) (b : Bytes), (∀ i ∈ L, i ≠ []) →
    frameUp p cuts L = some b → L.length + framed cuts ≤ b.length := by
  have flat : ∀ L : List Bytes, (∀ i ∈ L, i ≠ []) → L.length ≤ L.flatten.length := by
    intro L
    induction L with
    | nil => intro _; simp
    | cons x L ih =>
      intro h
      have := ih fun i hi => h i (by simp [hi])
      have := List.length_pos_iff.2 (h x (by simp))
      rw [List.flatten_cons, List.length_append, List.length_cons]; omega
  induction cuts with
  | nil =>
    intro L b _ h
    cases L with
    | nil => simp [framed]
    | cons => cases h
  | cons cut cuts ih =>
    obtain ⟨fr, k⟩ := cut
    intro L b hL h
    have hsplit : L.length = (L.take k).length + (L.drop k).length := by rw [← List.length_append, List.take_append_drop]
    have hf := flat (L.take k) fun i hi => hL i (List.mem_of_mem_take hi)
    cases L with
    | nil => cases h
    | cons l L' =>
      cases fr with
      | false =>
        obtain ⟨b2, h1, h2⟩ := frameUp_raw (by simp) h
        have := ih _ _ (fun i hi => hL i (List.mem_of_mem_drop hi)) h1
        have e : framed ((false, k) :: cuts) = framed cuts := by simp [framed]
        rw [h2, List.length_append, e]
        omega
      | true =>
        obtain ⟨b2, h1, _, h2⟩ := frameUp_framed (by simp) h
        have := ih _ _ (fun i hi => hL i (List.mem_of_mem_drop hi)) h1
        have e : framed ((true, k) :: cuts) = framed cuts + 1 := by simp [framed]
        rw [h2, List.length_append, List.length_append, List.length_cons (a := (0x95 : UInt8)), e]
        omega

theorem items_ne {p : Nat} (ws : List WOp) : ∀ (c : Nat) (is : List Bytes), items p c ws = some is → ∀ i ∈ is, i ≠ [] := by
  induction ws with
  | nil => intro c is h; cases h; simp
  | cons w ws ih =>
    intro c is h
    simp only [items] at h
    cases h1 : encW p c w with
    | none => rw [h1] at h; cases h
    | some a =>
      rw [h1] at h
      cases h2 : items p (bumpW c w) ws with
      | none => rw [h2] at h; cases h
      | some is2 =>
        rw [h2] at h; cases h
        intro i hi
        rcases List.mem_cons.1 hi with rfl | hi
        · exact encW_ne h1
        · exact ih _ _ h2 i hi

theorem decodeGo_encode {P p : Nat} (hp : max p 2 ≤ P) (h256 : p < 256) (cuts : List (Bool × Nat)) (ws : List WOp) (b r : Bytes) (h : encode p cuts ws = some b) :
    ∃ t, decodeGo P ((b ++ r).length + 1) 0 (kindsW ws) ⟨none, b ++ r⟩ = some (ws, t) ∧ At t r := by
  unfold encode at h
  cases hi : items p 0 ws with
  | none => rw [hi] at h; cases h
  | some is =>
    rw [hi] at h
    obtain ⟨b2, h1, h2⟩ := Option.map_eq_some_iff.1 h
    have hl := frameUp_length cuts _ _ (by
      intro i hm
      rcases List.mem_append.1 hm with hm | hm
      · exact items_ne ws 0 is hi i hm
      · simp at hm; subst hm; simp) h1
    have hlen := items_length ws 0 is hi
    rw [List.length_append, hlen] at hl
    obtain ⟨t, e1, e2⟩ := decode_frames hp cuts 0 ((b ++ r).length) ws is b2 r ⟨none, b2 ++ r⟩ hi h1 (.inl rfl) (by
      rw [← h2]; simp at hl ⊢; omega)
    have hro : readOneAt P ⟨none, b ++ r⟩ = some (.proto p, ⟨none, b2 ++ r⟩) := by
      have := read_fixed (k := 1) (f := fun a => some (.proto (unle a))) (b := 0x80) rfl (a := [UInt8.ofNat p])
        (Supply.file (0x80 :: [UInt8.ofNat p]) (b2 ++ r)) rfl
      rw [← h2]
      rw [← readAt_supply (P := P) (b := 0x80) (Supply.file (0x80 :: [UInt8.ofNat p]) (b2 ++ r)) (show 2 ≤ P by omega)] at this
      simp only [List.cons_append, List.nil_append] at this ⊢
      rw [this]
      have : (UInt8.ofNat p).toNat = p := UInt8.toNat_ofNat_of_lt' (show p < 256 by omega)
      simp [unle, this]
    exact ⟨t, by simp only [decodeGo, hro, if_pos (show p ≤ P by omega), e1], e2⟩

/-- decoding the bytes of a pickle gives its opcodes, and leaves what follows it -/
theorem decode_encode {P p : Nat} (hp : max p 2 ≤ P) (h256 : p < 256) (cuts : List (Bool × Nat)) (ws : List WOp) (b r : Bytes) (h : encode p cuts ws = some b) :
    decode P (kindsW ws) (b ++ r) = some (ws, r) := by
  obtain ⟨t, h1, h2⟩ := decodeGo_encode hp h256 cuts ws b r h
  unfold decode
  rw [h1]
  rcases h2 with rfl | rfl <;> rfl

/-! ### a strict prefix of a pickle -/

/-- `s` is `t` with some of the bytes at the end missing -/
inductive Less : Src → Src → Prop
  | more (c : Option Bytes) (file x : Bytes) (h : x ≠ []) : Less ⟨c, file⟩ ⟨c, file ++ x⟩
  | short (f x rest : Bytes) (h : x ≠ []) : Less ⟨some f, []⟩ ⟨some (f ++ x), rest⟩

theorem less_at {s t : Src} (h : Less s t) : ¬ At t [] := by
  cases h with
  | more c file x h => rintro (h1 | h1) <;> cases c <;> simp_all
  | short f x rest h => rintro (h1 | h1) <;> simp_all

theorem takeS_less {n : Nat} {s t s' : Src} {a : Bytes} (h : Less s t) (hs : takeS n s = some (a, s')) :
    ∃ t', takeS n t = some (a, t') ∧ Less s' t' := by
  have key : ∀ (g x : Bytes) (mk mk' : Bytes → Src), (∀ r, Less (mk r) (mk' (r ++ x))) →
      (takeN n g).map (fun p => (p.1, mk p.2)) = some (a, s') →
      ∃ t', (takeN n (g ++ x)).map (fun p => (p.1, mk' p.2)) = some (a, t') ∧ Less s' t' := by
    intro g x mk mk' hl he
    obtain ⟨⟨a1, r1⟩, h1, h2⟩ := Option.map_eq_some_iff.1 he
    simp only [Prod.mk.injEq] at h2
    rw [← h2.1, ← h2.2, takeN_mono h1 x]
    exact ⟨_, rfl, hl r1⟩
  cases h with
  | more c file x hx =>
    cases c with
    | none => exact key file x (fun r => ⟨none, r⟩) (fun r => ⟨none, r⟩) (fun r => .more none r x hx) hs
    | some f =>
      simp only [takeS] at hs ⊢
      by_cases hf : f = [] ∧ n ≠ 0
      · rw [if_pos hf] at hs ⊢
        exact key file x (fun r => ⟨none, r⟩) (fun r => ⟨none, r⟩) (fun r => .more none r x hx) hs
      · rw [if_neg hf] at hs ⊢
        obtain ⟨⟨a1, r1⟩, h1, h2⟩ := Option.map_eq_some_iff.1 hs
        simp only [Prod.mk.injEq] at h2
        rw [h1, ← h2.1, ← h2.2]
        exact ⟨_, rfl, .more _ _ x hx⟩
  | short f x rest hx =>
    simp only [takeS] at hs ⊢
    have hne : ¬ (f ++ x = [] ∧ n ≠ 0) := by
      rintro ⟨h1, _⟩
      exact hx (List.append_eq_nil_iff.1 h1).2
    rw [if_neg hne]
    by_cases hf : f = [] ∧ n ≠ 0
    · rw [if_pos hf] at hs
      have : takeN n [] = none := by
        unfold takeN
        rw [if_pos (by simp; omega)]
      rw [this] at hs; cases hs
    · rw [if_neg hf] at hs
      exact key f x (fun r => ⟨some r, []⟩) (fun r => ⟨some r, rest⟩) (fun r => .short r x rest hx) hs

theorem lineS_less {s t s' : Src} {a : Bytes} (h : Less s t) (hs : lineS s = some (a, s')) :
    ∃ t', lineS t = some (a, t') ∧ Less s' t' := by
  have key : ∀ (g x : Bytes) (mk mk' : Bytes → Src), (∀ r, Less (mk r) (mk' (r ++ x))) →
      (readLine g).map (fun p => (p.1, mk p.2)) = some (a, s') →
      ∃ t', (readLine (g ++ x)).map (fun p => (p.1, mk' p.2)) = some (a, t') ∧ Less s' t' := by
    intro g x mk mk' hl he
    obtain ⟨⟨a1, r1⟩, h1, h2⟩ := Option.map_eq_some_iff.1 he
    simp only [Prod.mk.injEq] at h2
    rw [← h2.1, ← h2.2, readLine_mono h1 x]
    exact ⟨_, rfl, hl r1⟩
  cases h with
  | more c file x hx =>
    cases c with
    | none => exact key file x (fun r => ⟨none, r⟩) (fun r => ⟨none, r⟩) (fun r => .more none r x hx) hs
    | some f =>
      simp only [lineS] at hs ⊢
      by_cases hf : f = []
      · rw [if_pos hf] at hs ⊢
        exact key file x (fun r => ⟨none, r⟩) (fun r => ⟨none, r⟩) (fun r => .more none r x hx) hs
      · rw [if_neg hf] at hs ⊢
        obtain ⟨⟨a1, r1⟩, h1, h2⟩ := Option.map_eq_some_iff.1 hs
        simp only [Prod.mk.injEq] at h2
        rw [h1, ← h2.1, ← h2.2]
        exact ⟨_, rfl, .more _ _ x hx⟩
  | short f x rest hx =>
    simp only [lineS] at hs ⊢
    have hne : ¬ (f ++ x = []) := fun h1 => hx (List.append_eq_nil_iff.1 h1).2
    rw [if_neg hne]
    by_cases hf : f = []
    · rw [if_pos hf] at hs; cases hs
    · rw [if_neg hf] at hs
      exact key f x (fun r => ⟨some r, []⟩) (fun r => ⟨some r, rest⟩) (fun r => .short r x rest hx) hs

theorem readArg_less {l : Layout} {s t s' : Src} {i : Instr} (h : Less s t) (hs : readArg l s = some (i, s')) :
    ∃ t', readArg l t = some (i, t') ∧ Less s' t' := by
  have fin : ∀ (o : Option Instr) (u u' : Src), Less u u' → (o.map fun i => (i, u)) = some (i, s') →
      ∃ t', (o.map fun i => (i, u')) = some (i, t') ∧ Less s' t' := by
    intro o u u' hl he
    cases o with
    | none => cases he
    | some j => cases he; exact ⟨u', rfl, hl⟩
  cases l with
  | plain j => cases hs; exact ⟨t, rfl, h⟩
  | fixed k f =>
    simp only [readArg] at hs ⊢
    cases h1 : takeS k s with
    | none => rw [h1] at hs; cases hs
    | some q =>
      obtain ⟨a, u⟩ := q
      rw [h1] at hs
      obtain ⟨u', g1, g2⟩ := takeS_less h h1
      rw [g1]
      exact fin _ u u' g2 hs
  | counted k mx f =>
    simp only [readArg] at hs ⊢
    cases h1 : takeS k s with
    | none => rw [h1] at hs; cases hs
    | some q =>
      obtain ⟨a, u⟩ := q
      rw [h1] at hs
      obtain ⟨u', g1, g2⟩ := takeS_less h h1
      rw [g1]
      simp only [] at hs ⊢
      by_cases hm : unle a < mx
      · rw [if_pos hm] at hs ⊢
        cases h2 : takeS (unle a) u with
        | none => rw [h2] at hs; cases hs
        | some q =>
          obtain ⟨d, v⟩ := q
          rw [h2] at hs
          obtain ⟨v', g3, g4⟩ := takeS_less g2 h2
          rw [g3]
          exact fin _ v v' g4 hs
      · rw [if_neg hm] at hs; cases hs
  | twoLines f =>
    simp only [readArg] at hs ⊢
    cases h1 : lineS s with
    | none => rw [h1] at hs; cases hs
    | some q =>
      obtain ⟨a, u⟩ := q
      rw [h1] at hs
      obtain ⟨u', g1, g2⟩ := lineS_less h h1
      rw [g1]
      simp only [] at hs ⊢
      cases h2 : lineS u with
      | none => rw [h2] at hs; cases hs
      | some q =>
        obtain ⟨d, v⟩ := q
        rw [h2] at hs
        obtain ⟨v', g3, g4⟩ := lineS_less g2 h2
        rw [g3]
        exact fin _ v v' g4 hs

theorem readOne_less {s t s' : Src} {i : Instr} (h : Less s t) (hs : readOne s = some (i, s')) :
    ∃ t', readOne t = some (i, t') ∧ Less s' t' := by
  unfold readOne at hs ⊢
  cases h1 : takeS 1 s with
  | none => rw [h1] at hs; cases hs
  | some q =>
    obtain ⟨a, u⟩ := q
    rw [h1] at hs
    obtain ⟨u', g1, g2⟩ := takeS_less h h1
    rw [g1]
    match a with
    | [] => cases hs
    | [b] =>
      simp only [] at hs ⊢
      cases hl : layout b with
      | none => rw [hl] at hs; cases hs
      | some l => rw [hl] at hs; exact readArg_less g2 hs
    | _ :: _ :: _ => cases hs

theorem readAt_less {P : Nat} {s t s' : Src} {i : Instr} (h : Less s t) (hs : readOneAt P s = some (i, s')) :
    ∃ t', readOneAt P t = some (i, t') ∧ Less s' t' := by
  obtain ⟨t', h1, h2⟩ := readOne_less h (readAt_some hs)
  refine ⟨t', ?_, h2⟩
  unfold readOneAt at hs ⊢
  cases h3 : takeS 1 s with
  | none => rw [h3] at hs; cases hs
  | some q =>
    obtain ⟨a, u⟩ := q
    rw [h3] at hs
    obtain ⟨u', g1, _⟩ := takeS_less h h3
    rw [g1]
    match a with
    | [] => cases hs
    | [b] =>
      simp only [] at hs ⊢
      by_cases hb : introduced b ≤ P
      · rw [if_pos hb]; exact h1
      · rw [if_neg hb] at hs; cases hs
    | _ :: _ :: _ => cases hs

/-- what is loaded as a frame from a shorter file -/
theorem loadFrame_less {n : Nat} {s t s' : Src} (h : Less s t) (hs : loadFrame n s = some s') :
    s' = ⟨some [], []⟩ ∨ ∃ t', loadFrame n t = some t' ∧ Less s' t' := by
  unfold loadFrame at hs ⊢
  cases h with
  | more c file x hx =>
    by_cases hc : n < 2 ^ 63 ∧ (c = none ∨ c = some [])
    · rw [if_pos hc] at hs
      rw [if_pos hc]
      cases hs
      refine .inr ⟨_, rfl, ?_⟩
      by_cases hn : n ≤ file.length
      · rw [List.take_append_of_le_length hn, List.drop_append_of_le_length hn]
        exact .more _ _ x hx
      · simp only []
        rw [List.take_of_length_le (by omega : file.length ≤ n), List.drop_eq_nil_iff.2 (by omega : file.length ≤ n),
          List.take_append, List.take_of_length_le (by omega : file.length ≤ n)]
        refine .short _ _ _ ?_
        intro h0
        rcases List.take_eq_nil_iff.1 h0 with h1 | h1
        · omega
        · exact hx h1
    · rw [if_neg hc] at hs; cases hs
  | short f x rest hx =>
    by_cases hc : n < 2 ^ 63 ∧ (some f = none ∨ some f = some ([] : Bytes))
    · rw [if_pos hc] at hs
      cases hs
      exact .inl (by simp)
    · rw [if_neg hc] at hs; cases hs

theorem decodeGo_empty (P n c : Nat) (ks : List Bool) : decodeGo P n c ks ⟨some [], []⟩ = none := by
  cases n with
  | zero => rfl
  | succ n => rfl

theorem map_some_cons {o : Option (List WOp × Src)} {w0 : WOp} {w : List WOp} {t : Src}
    (h : (o.map fun q => (w0 :: q.1, q.2)) = some (w, t)) : ∃ a, o = some (a, t) := by
  obtain ⟨q, h1, h2⟩ := Option.map_eq_some_iff.1 h
  cases h2
  exact ⟨q.1, h1⟩

/-- if both decode, the shorter leaves less -/
theorem decodeGo_less (P n : Nat) : ∀ (m c : Nat) (ks ks' : List Bool) (s t s' t' : Src) (ws ws' : List WOp), Less s t →
    decodeGo P n c ks s = some (ws, s') → decodeGo P m c ks' t = some (ws', t') → Less s' t' := by
  induction n with
  | zero => intro m c ks ks' s t s' t' ws ws' _ h; cases h
  | succ n ih =>
    intro m c ks ks' s t s' t' ws ws' hl h h'
    cases m with
    | zero => cases h'
    | succ m =>
      simp only [decodeGo] at h h'
      cases hr : readOneAt P s with
      | none => rw [hr] at h; cases h
      | some q =>
        obtain ⟨i, u⟩ := q
        obtain ⟨u', hr', hl'⟩ := readAt_less hl hr
        rw [hr] at h
        rw [hr'] at h'
        cases i with
        | stop => cases h; cases h'; exact hl'
        | proto v =>
          simp only [] at h h'
          by_cases hv : v ≤ P
          · rw [if_pos hv] at h h'; exact ih m _ _ _ _ _ _ _ _ _ hl' h h'
          · rw [if_neg hv] at h; cases h
        | frame k =>
          simp only [] at h h'
          cases hf : loadFrame k u with
          | none => rw [hf] at h; cases h
          | some v =>
            rw [hf] at h
            simp only [] at h
            rcases loadFrame_less hl' hf with rfl | ⟨v', hf', hl2⟩
            · rw [decodeGo_empty] at h; cases h
            · rw [hf'] at h'
              exact ih m _ _ _ _ _ _ _ _ _ hl2 h h'
        | put j =>
          simp only [] at h h'
          by_cases hv : j = c
          · rw [if_pos hv] at h h'
            obtain ⟨_, e1⟩ := map_some_cons h
            obtain ⟨_, e2⟩ := map_some_cons h'
            exact ih m _ _ _ _ _ _ _ _ _ hl' e1 e2
          · rw [if_neg hv] at h; cases h
        | build =>
          cases ks with
          | nil => cases h
          | cons k ks =>
            cases ks' with
            | nil => cases h'
            | cons k' ks' =>
              obtain ⟨_, e1⟩ := map_some_cons h
              obtain ⟨_, e2⟩ := map_some_cons h'
              exact ih m _ _ _ _ _ _ _ _ _ hl' e1 e2
        | memo =>
          obtain ⟨_, e1⟩ := map_some_cons h
          obtain ⟨_, e2⟩ := map_some_cons h'
          exact ih m _ _ _ _ _ _ _ _ _ hl' e1 e2
        | stackGlobal =>
          obtain ⟨_, e1⟩ := map_some_cons h
          obtain ⟨_, e2⟩ := map_some_cons h'
          exact ih m _ _ _ _ _ _ _ _ _ hl' e1 e2
        | op o =>
          obtain ⟨_, e1⟩ := map_some_cons h
          obtain ⟨_, e2⟩ := map_some_cons h'
          exact ih m _ _ _ _ _ _ _ _ _ hl' e1 e2

theorem decode_prefix {P p : Nat} (hp : max p 2 ≤ P) (h256 : p < 256) {cuts : List (Bool × Nat)} {ws : List WOp} {pre cut : Bytes}
    (h : encode p cuts ws = some (pre ++ cut)) (hc : cut ≠ []) (kinds : List Bool) : decode P kinds pre = none := by
  unfold decode
  cases hd : decodeGo P (pre.length + 1) 0 kinds ⟨none, pre⟩ with
  | none => rfl
  | some q =>
    obtain ⟨t, h1, h2⟩ := decodeGo_encode hp h256 cuts ws (pre ++ cut) [] h
    rw [List.append_nil] at h1
    exact absurd h2 (less_at (decodeGo_less _ _ _ _ _ _ _ _ _ _ _ _ (.more none pre cut hc) hd h1))

/-! ### protocol 4 runs like Core -/

/-- the reader's state follows Core's: same stack and objects, the memo holds Core's entries at the places in `map` -/
structure Sim (st : CSt) (m m' : M) : Prop where
  stack : m'.stack = m.stack
  metas : m'.metas = m.metas
  heap : m'.heap = m.heap
  len : st.strs.length = m'.memo.length
  maplen : st.map.length = m.memo.length
  memo : ∀ (i : Nat) (v : TVal) (j : Nat), m.memo[i]? = some v → st.map[i]? = some j → m'.memo[j]? = some v
  strs : ∀ (j : Nat) (s : String), st.strs[j]? = some (some s) → m'.memo[j]? = some (.atom (.str s))
  last : ∀ s, st.last = some s → m.stack.head? = some (.atom (.str s))

/-- opcodes that neither read nor write the memo -/
def NoMemo : Op → Prop
  | .memoize => False
  | .get _ => False
  | _ => True

/-- the same state with another memo -/
def setMemo (x : List TVal) (m : M) : M := { m with memo := x }

theorem tupleOf_setMemo (x : List TVal) (m : M) (v : TVal) : (setMemo x m).tupleOf v = m.tupleOf v := rfl
theorem dictOf_setMemo (x : List TVal) (m : M) (v : TVal) : (setMemo x m).dictOf v = m.dictOf v := rfl
theorem stateOf_setMemo (x : List TVal) (m : M) (v : TVal) : (setMemo x m).stateOf v = m.stateOf v := rfl

theorem call_setMemo (x : List TVal) (m : M) (f : TVal) (as st : List TVal) :
    call (setMemo x m) f as st = (call m f as st).map (setMemo x) := by
  unfold call
  by_cases h1 : f = .atom aCreateFunction
  · simp only [if_pos h1]
    split
    · rename_i code g name defaults closure
      unfold mkFunction
      cases g with
      | atom a => rfl
      | ref t =>
        simp only [show (setMemo x m).heap = m.heap from rfl]
        cases m.heap[t]? with
        | none => rfl
        | some o =>
          cases o with
          | node con l d at' s =>
            cases con with
            | dict =>
              simp only []
              by_cases hd : d.isEmpty = true
              · simp only [if_pos hd]; rfl
              · simp only [if_neg hd]; rfl
            | _ => rfl
          | _ => rfl
    · rfl
  simp only [if_neg h1]
  by_cases h2 : f = .atom aCreateCell
  · simp only [if_pos h2]
    split <;> rfl
  simp only [if_neg h2]
  by_cases h3 : f = .atom aCreateType
  · simp only [if_pos h3]
    split
    · rw [dictOf_setMemo]
      rename_i d
      cases m.dictOf d <;> rfl
    · rfl
  simp only [if_neg h3]
  by_cases h4 : f = .atom aSetattr
  · simp only [if_pos h4, show (setMemo x m).heap = m.heap from rfl]
    split
    · rename_i t k v
      cases m.heap[t]? with
      | none => rfl
      | some o =>
        cases o with
        | cell c =>
          simp only []
          by_cases hk : k = .atom aContents
          · simp only [if_pos hk]; rfl
          · simp only [if_neg hk]; rfl
        | cls mt nm b es q =>
          simp only []
          by_cases hk : k = .atom aQualname
          · simp only [if_pos hk]; rfl
          · simp only [if_neg hk]; rfl
        | _ => rfl
    · rfl
    · rfl
  simp only [if_neg h4]
  by_cases h5 : f = .atom aDelattr
  · simp only [if_pos h5, show (setMemo x m).heap = m.heap from rfl]
    split
    · rename_i t k
      cases m.heap[t]? with
      | none => rfl
      | some o =>
        cases o with
        | cell c =>
          simp only []
          by_cases hk : k = .atom aContents
          · simp only [if_pos hk]; rfl
          · simp only [if_neg hk]; rfl
        | _ => rfl
    · rfl
  simp only [if_neg h5]
  rfl

theorem step_setMemo {o : Op} (ho : NoMemo o) (x : List TVal) (m : M) : step o (setMemo x m) = (step o m).map (setMemo x) := by
  obtain ⟨stack, metas, memo, heap⟩ := m
  cases o with
  | memoize => exact absurd ho id
  | get i => exact absurd ho id
  | reduce =>
    simp only [step, tupleOf_setMemo, show (setMemo x ⟨stack, metas, memo, heap⟩).stack = stack from rfl]
    match stack with
    | [] => rfl
    | [_] => rfl
    | args :: f :: s =>
      simp only []
      cases (M.tupleOf ⟨args :: f :: s, metas, memo, heap⟩ args) with
      | none => rfl
      | some as => exact call_setMemo x _ f as s
  | newobj =>
    simp only [step, tupleOf_setMemo, show (setMemo x ⟨stack, metas, memo, heap⟩).stack = stack from rfl]
    match stack with
    | [] => rfl
    | [_] => rfl
    | args :: f :: s =>
      simp only []
      cases (M.tupleOf ⟨args :: f :: s, metas, memo, heap⟩ args) with
      | none => rfl
      | some as => rfl
  | build =>
    simp only [step, stateOf_setMemo, show (setMemo x ⟨stack, metas, memo, heap⟩).stack = stack from rfl,
      show (setMemo x ⟨stack, metas, memo, heap⟩).heap = heap from rfl]
    match stack with
    | [] => rfl
    | [_] => rfl
    | st :: .atom a :: s =>
      simp only []
      cases (M.stateOf ⟨st :: .atom a :: s, metas, memo, heap⟩ st) <;> rfl
    | st :: .ref t :: s =>
      simp only []
      cases (M.stateOf ⟨st :: .ref t :: s, metas, memo, heap⟩ st) with
      | none => rfl
      | some q =>
        obtain ⟨a, b⟩ := q
        cases heap[t]? with
        | none => cases b <;> rfl
        | some ob => cases ob <;> cases b <;> rfl
  | buildSet =>
    simp only [step, show (setMemo x ⟨stack, metas, memo, heap⟩).stack = stack from rfl,
      show (setMemo x ⟨stack, metas, memo, heap⟩).heap = heap from rfl]
    match stack with
    | [] => rfl
    | [_] => rfl
    | st :: .atom _ :: s => rfl
    | st :: .ref t :: s =>
      simp only []
      cases heap[t]? with
      | none => rfl
      | some ob => cases ob <;> rfl
  | append =>
    simp only [step, show (setMemo x ⟨stack, metas, memo, heap⟩).stack = stack from rfl,
      show (setMemo x ⟨stack, metas, memo, heap⟩).heap = heap from rfl]
    match stack with
    | [] => rfl
    | [_] => rfl
    | st :: .atom _ :: s => rfl
    | st :: .ref t :: s =>
      simp only []
      cases heap[t]? with
      | none => rfl
      | some ob => cases ob <;> rfl
  | setitem =>
    simp only [step, show (setMemo x ⟨stack, metas, memo, heap⟩).stack = stack from rfl,
      show (setMemo x ⟨stack, metas, memo, heap⟩).heap = heap from rfl]
    match stack with
    | [] => rfl
    | [_] => rfl
    | [_, _] => rfl
    | st :: k :: .atom _ :: s => rfl
    | st :: k :: .ref t :: s =>
      simp only []
      cases heap[t]? with
      | none => rfl
      | some ob => cases ob <;> rfl
  | appends =>
    simp only [step, show (setMemo x ⟨stack, metas, memo, heap⟩).metas = metas from rfl,
      show (setMemo x ⟨stack, metas, memo, heap⟩).heap = heap from rfl]
    match metas with
    | [] => rfl
    | [] :: ms => rfl
    | (.atom _ :: s) :: ms => rfl
    | (.ref t :: s) :: ms =>
      simp only []
      cases heap[t]? with
      | none => rfl
      | some ob => cases ob <;> rfl
  | additems =>
    simp only [step, show (setMemo x ⟨stack, metas, memo, heap⟩).metas = metas from rfl,
      show (setMemo x ⟨stack, metas, memo, heap⟩).heap = heap from rfl]
    match metas with
    | [] => rfl
    | [] :: ms => rfl
    | (.atom _ :: s) :: ms => rfl
    | (.ref t :: s) :: ms =>
      simp only []
      cases heap[t]? with
      | none => rfl
      | some ob => cases ob <;> rfl
  | setitems =>
    simp only [step, show (setMemo x ⟨stack, metas, memo, heap⟩).metas = metas from rfl,
      show (setMemo x ⟨stack, metas, memo, heap⟩).heap = heap from rfl,
      show (setMemo x ⟨stack, metas, memo, heap⟩).stack = stack from rfl]
    match metas with
    | [] => rfl
    | [] :: ms => rfl
    | (.atom _ :: s) :: ms => rfl
    | (.ref t :: s) :: ms =>
      simp only []
      cases heap[t]? with
      | none => rfl
      | some ob => cases pairUp stack.reverse <;> cases ob <;> rfl
  | pop => cases stack <;> rfl
  | popMark => cases metas <;> rfl
  | tuple => cases metas <;> rfl
  | frozenset => cases metas <;> rfl
  | tupleN n =>
    simp only [step, show (setMemo x ⟨stack, metas, memo, heap⟩).stack = stack from rfl]
    by_cases h : n ≤ stack.length
    · simp only [if_pos h]; rfl
    · simp only [if_neg h]; rfl
  | _ => rfl

theorem call_memo {m m' : M} {f : TVal} {as st : List TVal} (h : call m f as st = some m') : m'.memo = m.memo := by
  have := call_setMemo m.memo m f as st
  rw [show setMemo m.memo m = m from rfl, h] at this
  simp only [Option.map_some, Option.some.injEq] at this
  rw [this]; rfl

theorem step_noMemo {o : Op} (ho : NoMemo o) {m m' : M} (h : step o m = some m') : m'.memo = m.memo := by
  have := step_setMemo ho m.memo m
  rw [show setMemo m.memo m = m from rfl, h] at this
  simp only [Option.map_some, Option.some.injEq] at this
  rw [this]; rfl

/-- an opcode that does not touch the memo -/
theorem sim_plain {st : CSt} {m m' m1 : M} (hs : Sim st m m') {o : Op} (ho : NoMemo o) (h : step o m = some m1)
    (l : Option String) (hl : ∀ s, l = some s → m1.stack.head? = some (.atom (.str s))) :
    ∃ m1', step o m' = some m1' ∧ Sim { st with last := l } m1 m1' := by
  have hm : m' = setMemo m'.memo m := by
    obtain ⟨a, b, c, d⟩ := m'
    have h1 := hs.stack; have h2 := hs.metas; have h3 := hs.heap
    simp only at h1 h2 h3
    simp only [setMemo, h1, h2, h3]
  have hmemo := step_noMemo ho h
  refine ⟨setMemo m'.memo m1, by rw [hm, step_setMemo ho, h]; rfl, ?_⟩
  exact ⟨rfl, rfl, rfl, hs.len, by rw [hmemo]; exact hs.maplen, by rw [hmemo]; exact hs.memo, hs.strs, hl⟩

theorem compStr_last {st st1 : CSt} {s : String} {ch : Option Nat} {ws : List WOp} (h : compStr st s ch = some (st1, ws)) :
    compStr { st with last := none } s ch = some ({ st1 with last := none }, ws) := by
  cases ch with
  | none => cases h; rfl
  | some j =>
    simp only [compStr] at h ⊢
    by_cases hj : st.strs[j]? = some (some s)
    · rw [if_pos hj] at h ⊢; cases h; rfl
    · rw [if_neg hj] at h; cases h

/-- one more entry in the reader's memo -/
theorem sim_entry {st : CSt} {m m' : M} (hs : Sim st m m') (v : TVal) (x : Option String)
    (hx : ∀ s, x = some s → v = .atom (.str s)) :
    (∀ (i : Nat) (w : TVal) (j : Nat), m.memo[i]? = some w → st.map[i]? = some j → (m'.memo ++ [v])[j]? = some w) ∧
    (∀ (j : Nat) (s : String), (st.strs ++ [x])[j]? = some (some s) → (m'.memo ++ [v])[j]? = some (.atom (.str s))) := by
  constructor
  · intro i w j h1 h2
    have := hs.memo i w j h1 h2
    have hlt := (List.getElem?_eq_some_iff.1 this).1
    rw [List.getElem?_append_left hlt, this]
  · intro j t h1
    by_cases hj : j < st.strs.length
    · rw [List.getElem?_append_left hj] at h1
      have := hs.strs j t h1
      rw [List.getElem?_append_left (hs.len ▸ hj), this]
    · have hlt := (List.getElem?_eq_some_iff.1 h1).1
      rw [List.length_append, List.length_singleton] at hlt
      have hje : j = st.strs.length := by omega
      subst hje
      rw [List.getElem?_append_right (Nat.le_refl _)] at h1
      simp only [Nat.sub_self, List.getElem?_cons_zero, Option.some.injEq] at h1
      rw [hs.len, List.getElem?_append_right (Nat.le_refl _), hx t h1]
      simp

theorem sim_str {st st1 : CSt} {m m' : M} (hs : Sim st m m') {s : String} {ch : Option Nat} {ws : List WOp}
    (h : compStr st s ch = some (st1, ws)) :
    ∃ m1', execW ws m' = some m1' ∧ Sim { st1 with last := none } { m with stack := .atom (.str s) :: m.stack } m1' := by
  cases ch with
  | none =>
    cases h
    refine ⟨⟨.atom (.str s) :: m'.stack, m'.metas, m'.memo ++ [.atom (.str s)], m'.heap⟩, rfl, ?_⟩
    obtain ⟨g1, g2⟩ := sim_entry hs (.atom (.str s)) (some s) (fun t h => by cases h; rfl)
    exact ⟨by simp [hs.stack], hs.metas, hs.heap, by simp [hs.len], hs.maplen, g1, g2, fun s h => by cases h⟩
  | some j =>
    simp only [compStr] at h
    by_cases hj : st.strs[j]? = some (some s)
    · rw [if_pos hj] at h
      cases h
      have := hs.strs j s hj
      refine ⟨⟨.atom (.str s) :: m'.stack, m'.metas, m'.memo, m'.heap⟩, ?_, ?_⟩
      · simp [execW, stepW, step, this]
      · exact ⟨by simp [hs.stack], hs.metas, hs.heap, hs.len, hs.maplen, hs.memo, hs.strs, fun s h => by cases h⟩
    · rw [if_neg hj] at h; cases h

theorem execW_append (a b : List WOp) (m : M) : execW (a ++ b) m = (execW a m).bind (execW b) := by
  induction a generalizing m with
  | nil => rfl
  | cons w a ih =>
    simp only [List.cons_append, execW]
    cases stepW w m with
    | none => rfl
    | some m1 => simp [ih]

theorem sim_exec (ops : List Op) : ∀ (st : CSt) (ch : List (Option Nat × Option Nat)) (ws : List WOp) (m m' m1 : M), Sim st m m' →
    compile st ch ops = some ws → exec ops m = some m1 →
    ∃ m1', execW ws m' = some m1' ∧ m1'.stack = m1.stack ∧ m1'.metas = m1.metas ∧ m1'.heap = m1.heap := by
  induction ops with
  | nil =>
    intro st ch ws m m' m1 hs hc he
    cases hc; cases he
    exact ⟨m', rfl, hs.stack, hs.metas, hs.heap⟩
  | cons o ops ih =>
    intro st ch ws m m' m1 hs hc he
    simp only [exec] at he
    obtain ⟨m2, he1, he2⟩ := Option.bind_eq_some_iff.1 he
    have generic : ∀ (l : Option String), NoMemo o → (∀ s, l = some s → m2.stack.head? = some (.atom (.str s))) →
        ((compile { st with last := l } ch ops).map fun ws => WOp.op o :: ws) = some ws →
        ∃ m1', execW ws m' = some m1' ∧ m1'.stack = m1.stack ∧ m1'.metas = m1.metas ∧ m1'.heap = m1.heap := by
      intro l ho hl hc
      obtain ⟨ws2, h1, h2⟩ := Option.map_eq_some_iff.1 hc
      obtain ⟨m2', g1, g2⟩ := sim_plain hs ho he1 l hl
      obtain ⟨m1', k1, k2⟩ := ih _ _ _ _ _ _ g2 h1 he2
      exact ⟨m1', by rw [← h2]; simp only [execW, stepW, g1, Option.bind_some, k1], k2⟩
    cases o with
    | push a =>
      cases a with
      | glob md n =>
        cases ch with
        | nil => cases hc
        | cons c cs =>
          obtain ⟨cm, cn⟩ := c
          simp only [compile] at hc
          cases h1 : compStr st md cm with
          | none => rw [h1] at hc; cases hc
          | some q =>
            obtain ⟨st1, w1⟩ := q
            rw [h1] at hc
            simp only [] at hc
            cases h2 : compStr st1 n cn with
            | none => rw [h2] at hc; cases hc
            | some q =>
              obtain ⟨st2, w2⟩ := q
              rw [h2] at hc
              simp only [] at hc
              obtain ⟨ws2, h3, h4⟩ := Option.map_eq_some_iff.1 hc
              obtain ⟨n1, a1, a2⟩ := sim_str hs h1
              obtain ⟨n2, b1, b2⟩ := sim_str a2 (compStr_last h2)
              cases he1
              have hg : stepW .stackGlobal n2 = some { n2 with stack := .atom (.glob md n) :: m.stack } := by
                simp only [stepW, b2.stack]
              have hsim : Sim { st2 with last := none } { m with stack := .atom (.glob md n) :: m.stack }
                  { n2 with stack := .atom (.glob md n) :: m.stack } :=
                ⟨rfl, b2.metas, b2.heap, b2.len, b2.maplen, b2.memo, b2.strs, fun s h => by cases h⟩
              obtain ⟨m1', k1, k2⟩ := ih _ _ _ _ _ _ hsim h3 he2
              refine ⟨m1', ?_, k2⟩
              rw [← h4, List.append_assoc, execW_append, a1, Option.bind_some, execW_append, b1, Option.bind_some]
              simp only [execW, hg, Option.bind_some, k1]
      | str s => exact generic (some s) trivial (by rintro t ⟨⟩; cases he1; rfl) hc
      | _ => exact generic none trivial (fun s h => by cases h) hc
    | memoize =>
      simp only [compile] at hc
      obtain ⟨ws2, h1, h2⟩ := Option.map_eq_some_iff.1 hc
      simp only [step] at he1
      cases hst : m.stack with
      | nil => rw [hst] at he1; cases he1
      | cons v s =>
        rw [hst] at he1
        cases he1
        obtain ⟨g1, g2⟩ := sim_entry hs v st.last (fun t h => by
          have := hs.last t h
          rw [hst] at this
          cases this; rfl)
        have hst' : step .memoize m' = some { m' with memo := m'.memo ++ [v] } := by
          simp only [step, hs.stack, hst]
        have hsim : Sim { map := st.map ++ [st.strs.length], strs := st.strs ++ [st.last], last := st.last }
            { m with memo := m.memo ++ [v] } { m' with memo := m'.memo ++ [v] } := by
          refine ⟨hs.stack, hs.metas, hs.heap, by simp [hs.len], by simp [hs.maplen], ?_, g2, hs.last⟩
          intro i w j h3 h4
          simp only [] at h3 h4
          by_cases hi : i < m.memo.length
          · rw [List.getElem?_append_left hi] at h3
            rw [List.getElem?_append_left (by rw [hs.maplen]; exact hi)] at h4
            exact g1 i w j h3 h4
          · have hlt := (List.getElem?_eq_some_iff.1 h3).1
            rw [List.length_append, List.length_singleton] at hlt
            have hie : i = m.memo.length := by omega
            subst hie
            rw [List.getElem?_append_right (Nat.le_refl _)] at h3
            rw [← hs.maplen, List.getElem?_append_right (Nat.le_refl _)] at h4
            simp only [Nat.sub_self, List.getElem?_cons_zero, Option.some.injEq] at h3 h4
            rw [← h4, hs.len, List.getElem?_append_right (Nat.le_refl _), ← h3]
            simp
        obtain ⟨m1', k1, k2⟩ := ih _ _ _ _ _ _ hsim h1 (by rw [hst]; exact he2)
        exact ⟨m1', by rw [← h2]; simp only [execW, stepW, hst', Option.bind_some, k1], k2⟩
    | get i =>
      simp only [compile] at hc
      cases hj : st.map[i]? with
      | none => rw [hj] at hc; cases hc
      | some j =>
        rw [hj] at hc
        obtain ⟨ws2, h1, h2⟩ := Option.map_eq_some_iff.1 hc
        simp only [step] at he1
        cases hv : m.memo[i]? with
        | none => rw [hv] at he1; cases he1
        | some v =>
          rw [hv] at he1
          cases he1
          have hst' : step (.get j) m' = some { m' with stack := v :: m'.stack } := by
            simp only [step, hs.memo i v j hv hj]
          have hsim : Sim { st with last := none } { m with stack := v :: m.stack } { m' with stack := v :: m'.stack } :=
            ⟨by simp [hs.stack], hs.metas, hs.heap, hs.len, hs.maplen, hs.memo, hs.strs, fun s h => by cases h⟩
          obtain ⟨m1', k1, k2⟩ := ih _ _ _ _ _ _ hsim h1 he2
          exact ⟨m1', by rw [← h2]; simp only [execW, stepW, hst', Option.bind_some, k1], k2⟩
    | _ => exact generic none trivial (fun s h => by cases h) hc

theorem load_compile {ops : List Op} {ch : List (Option Nat × Option Nat)} {ws : List WOp} {v : TVal × List TObj}
    (h : compile {} ch ops = some ws) (hl : load ops = some v) : loadW ws = some v := by
  unfold load at hl
  cases he : exec ops ⟨[], [], [], []⟩ with
  | none => rw [he] at hl; cases hl
  | some m1 =>
    rw [he] at hl
    obtain ⟨m1', h1, h2, h3, h4⟩ := sim_exec ops {} ch ws ⟨[], [], [], []⟩ ⟨[], [], [], []⟩ m1
      ⟨rfl, rfl, rfl, rfl, rfl, by intro i v j h; simp at h, by intro j s h; simp at h, fun s h => by cases h⟩ h he
    unfold loadW
    rw [h1]
    simp only [h2, h3, h4]
    exact hl

theorem execW_map (ops : List Op) (m : M) : execW (ops.map .op) m = exec ops m := by
  induction ops generalizing m with
  | nil => rfl
  | cons o ops ih =>
    simp only [List.map_cons, execW, exec, stepW]
    cases step o m with
    | none => rfl
    | some m1 => simp [ih]

theorem loadW_map (ops : List Op) : loadW (ops.map .op) = load ops := by
  unfold loadW load
  rw [execW_map]
  rfl

theorem kindsW_map (ops : List Op) : kindsW (ops.map .op) = kindsOf ops := by
  induction ops with
  | nil => rfl
  | cons o ops ih =>
    have e : kindsW ((o :: ops).map .op) = kindW (.op o) ++ kindsW (ops.map .op) := by simp [kindsW]
    rw [e, ih]
    cases o <;> rfl

theorem kinds_compStr {st st1 : CSt} {s : String} {ch : Option Nat} {ws : List WOp} (h : compStr st s ch = some (st1, ws)) :
    kindsW ws = [] := by
  cases ch with
  | none => cases h; rfl
  | some j =>
    simp only [compStr] at h
    by_cases hj : st.strs[j]? = some (some s)
    · rw [if_pos hj] at h; cases h; rfl
    · rw [if_neg hj] at h; cases h

theorem kinds_compile (ops : List Op) : ∀ (st : CSt) (ch : List (Option Nat × Option Nat)) (ws : List WOp),
    compile st ch ops = some ws → kindsW ws = kindsOf ops := by
  induction ops with
  | nil => intro st ch ws h; cases h; rfl
  | cons o ops ih =>
    intro st ch ws h
    have generic : ∀ (st' : CSt) (o' : Op), kindW (.op o') ++ kindsOf ops = kindsOf (o :: ops) →
        ((compile st' ch ops).map fun ws => WOp.op o' :: ws) = some ws → kindsW ws = kindsOf (o :: ops) := by
      intro st' o' hk hc
      obtain ⟨ws2, h1, h2⟩ := Option.map_eq_some_iff.1 hc
      rw [← h2, show kindsW (WOp.op o' :: ws2) = kindW (.op o') ++ kindsW ws2 by simp [kindsW], ih _ _ _ h1, hk]
    cases o with
    | push a =>
      cases a with
      | glob md n =>
        cases ch with
        | nil => cases h
        | cons c cs =>
          obtain ⟨cm, cn⟩ := c
          simp only [compile] at h
          cases h1 : compStr st md cm with
          | none => rw [h1] at h; cases h
          | some q =>
            obtain ⟨st1, w1⟩ := q
            rw [h1] at h
            simp only [] at h
            cases h2 : compStr st1 n cn with
            | none => rw [h2] at h; cases h
            | some q =>
              obtain ⟨st2, w2⟩ := q
              rw [h2] at h
              simp only [] at h
              obtain ⟨ws2, h3, h4⟩ := Option.map_eq_some_iff.1 h
              rw [← h4, kindsW_append, kindsW_append, kinds_compStr h1, kinds_compStr h2,
                show kindsW (WOp.stackGlobal :: ws2) = kindsW ws2 by simp [kindsW, kindW], ih _ _ _ h3]
              rfl
      | _ => exact generic _ _ rfl h
    | get i =>
      simp only [compile] at h
      cases hj : st.map[i]? with
      | none => rw [hj] at h; cases h
      | some j => rw [hj] at h; exact generic _ _ rfl h
    | _ => exact generic _ _ rfl h

/-! ### C01 and C05 on bytes -/

/-- what `dumpBytes` did -/
theorem dumpBytes_inv {h : How} {W : World} {n : Nat} {root : Val} {ops : List Op} {b : Bytes}
    (hd : dumpBytes h W n root = some (ops, b)) :
    dumps W n root = .ok ops ∧ ∃ ws, (2 ≤ h.proto ∧ h.proto ≤ 5) ∧ encode h.proto h.cuts ws = some b ∧ kindsW ws = kindsOf ops ∧
      ∀ v, load ops = some v → loadW ws = some v := by
  unfold dumpBytes at hd
  cases hs : dumps W n root with
  | error e => rw [hs] at hd; cases hd
  | ok o =>
    rw [hs] at hd
    simp only [] at hd
    by_cases h3 : h.proto = 2 ∨ h.proto = 3
    · rw [if_pos h3] at hd
      simp only [Option.map_eq_some_iff, Prod.mk.injEq] at hd
      obtain ⟨b', hb, rfl, rfl⟩ := hd
      exact ⟨rfl, o.map .op, by omega, hb, kindsW_map o, fun v hv => by rw [loadW_map]; exact hv⟩
    · rw [if_neg h3] at hd
      by_cases h4 : h.proto = 4 ∨ h.proto = 5
      · rw [if_pos h4] at hd
        cases hc : compile {} h.strings o with
        | none => rw [hc] at hd; cases hd
        | some ws =>
          rw [hc] at hd
          simp only [Option.map_eq_some_iff, Prod.mk.injEq] at hd
          obtain ⟨b', hb, rfl, rfl⟩ := hd
          exact ⟨rfl, ws, by omega, hb, kinds_compile _ _ _ _ hc, fun v hv => load_compile hc hv⟩
      · rw [if_neg h4] at hd; cases hd

/-- C01 for the bytes of a pickle, at any of the protocols 2 to 5, however it is cut into frames and whichever strings were
memoised: the bytes load, to an isomorphic copy, and nothing after the pickle is read. -/
theorem C01_bytes_partial (how : How) (W : World) (hw : WF W) (n : Nat) (root : Val) (ops : List Op) (b rest : Bytes)
    (h : dumpBytes how W n root = some (ops, b)) :
    ∃ tv heap φ, loadFile (kindsOf ops) (b ++ rest) = some ((tv, heap), rest) ∧ IsCopy W root tv heap φ := by
  obtain ⟨hd, ws, hp, he, hk, hl⟩ := dumpBytes_inv h
  obtain ⟨tv, heap, φ, hld, hc⟩ := C01_isomorphic_copy_partial W hw n root ops hd
  refine ⟨tv, heap, φ, ?_, hc⟩
  rw [← hk]
  simp only [loadFile, loadFileAt, decode_encode (P := 5) (p := how.proto) (by omega) (by omega) _ ws b rest he, hl _ hld, Option.map_some]

/-! ### C68: several pickles in one file -/

/-- `load(f)` once per entry -/
def loadMany : List (List Bool) → Bytes → Option (List (TVal × List TObj) × Bytes)
  | [], bs => some ([], bs)
  | k :: ks, bs =>
    match loadFile k bs with
    | none => none
    | some (v, r) => (loadMany ks r).map fun p => (v :: p.1, p.2)

/-- what one `dump(obj, f, protocol)` writes -/
structure Dumped where
  how : How
  W : World
  fuel : Nat
  root : Val
  ops : List Op
  bytes : Bytes
  wf : WF W
  ok : dumpBytes how W fuel root = some (ops, bytes)

/-- C68: any number of objects dumped to one file, one after the other, each at its own protocol, load back in order as copies,
and the rest of the file is left for whoever reads on. -/
theorem C68_consecutive (ds : List Dumped) (rest : Bytes) :
    ∃ vs : List (TVal × List TObj), loadMany (ds.map fun d => kindsOf d.ops) ((ds.map (·.bytes)).flatten ++ rest) = some (vs, rest) ∧
      vs.length = ds.length ∧
      ∀ (i : Nat) (d : Dumped) (v : TVal × List TObj), ds[i]? = some d → vs[i]? = some v →
        ∃ φ, IsCopy d.W d.root v.1 v.2 φ := by
  induction ds with
  | nil => exact ⟨[], rfl, rfl, by intro i d v h; simp at h⟩
  | cons d ds ih =>
    obtain ⟨vs, h1, h2, h3⟩ := ih
    obtain ⟨tv, heap, φ, hl, hc⟩ := C01_bytes_partial d.how d.W d.wf d.fuel d.root d.ops d.bytes ((ds.map (·.bytes)).flatten ++ rest) d.ok
    refine ⟨(tv, heap) :: vs, ?_, by simp [h2], ?_⟩
    · simp only [List.map_cons, List.flatten_cons, List.append_assoc, loadMany, hl, h1, Option.map_some]
    · intro i e v he hv
      cases i with
      | zero =>
        simp only [List.getElem?_cons_zero, Option.some.injEq] at he hv
        subst he; subst hv
        exact ⟨φ, hc⟩
      | succ i => exact h3 i e v (by simpa using he) (by simpa using hv)

/-! ### C69: truncated pickles -/

/-- C69: a file that holds only a part of a pickle (the writer was killed, the disk was full) never loads, wherever it was
cut. -/
theorem C69_truncated (how : How) (W : World) (n : Nat) (root : Val) (ops : List Op) (b pre cut : Bytes)
    (h : dumpBytes how W n root = some (ops, b)) (hb : b = pre ++ cut) (hc : cut ≠ []) (kinds : List Bool) :
    loadFile kinds pre = none := by
  obtain ⟨_, ws, hp, he, _, _⟩ := dumpBytes_inv h
  rw [hb] at he
  simp only [loadFile, loadFileAt, decode_prefix (P := 5) (by omega) (by omega) he hc kinds]

/-- one more opcode after the groups -/
theorem frameUp_snoc {p : Nat} (x : Bytes) (cuts : List (Bool × Nat)) : ∀ (L : List Bytes) (b : Bytes), frameUp p cuts L = some b →
    ∃ cuts', frameUp p cuts' (L ++ [x]) = some (b ++ x) := by
  induction cuts with
  | nil =>
    intro L b h
    cases L with
    | nil => cases h; exact ⟨[(false, 1)], by simp [frameUp]⟩
    | cons => cases h
  | cons cut cuts ih =>
    obtain ⟨fr, k⟩ := cut
    intro L b h
    cases L with
    | nil => cases h
    | cons l L' =>
      have hdt : ∀ L : List Bytes, (L ++ [x]).take (min k L.length) = L.take k ∧
          (L ++ [x]).drop (min k L.length) = L.drop k ++ [x] := by
        intro L
        have hm : min k L.length ≤ L.length := Nat.min_le_right _ _
        rw [List.take_append_of_le_length hm, List.drop_append_of_le_length hm]
        by_cases hk : k ≤ L.length
        · rw [Nat.min_eq_left hk]; exact ⟨rfl, rfl⟩
        · rw [Nat.min_eq_right (by omega), List.take_length, List.drop_length, List.take_of_length_le (by omega),
            List.drop_eq_nil_iff.2 (by omega : L.length ≤ k)]
          exact ⟨rfl, rfl⟩
      obtain ⟨t1, t2⟩ := hdt (l :: L')
      cases fr with
      | false =>
        obtain ⟨b2, h1, h2⟩ := frameUp_raw (by simp) h
        obtain ⟨cuts', hc⟩ := ih _ _ h1
        refine ⟨(false, min k (l :: L').length) :: cuts', ?_⟩
        rw [List.cons_append]
        simp only [frameUp]
        rw [← List.cons_append, t1, t2, hc, h2]
        simp
      | true =>
        obtain ⟨b2, h1, ⟨_, h3⟩, h2⟩ := frameUp_framed (by simp) h
        obtain ⟨cuts', hc⟩ := ih _ _ h1
        refine ⟨(true, min k (l :: L').length) :: cuts', ?_⟩
        have hp : 4 ≤ p := by
          simp only [frameUp] at h
          by_cases hc : 4 ≤ p ∧ ((l :: L').take k).flatten.length < 2 ^ 63
          · exact hc.1
          · rw [if_neg hc] at h; cases h
        rw [List.cons_append]
        simp only [frameUp]
        rw [← List.cons_append, t1, t2, if_pos ⟨hp, h3⟩, hc, h2]
        simp

/-- C69 for a dump that raised midway: whatever opcodes were written before the error, in whatever frames, and however many of
their bytes reached the file, the file does not load: there is no STOP. -/
theorem C69_interrupted (p : Nat) (hp : p ≤ 5) (ws : List WOp) (cuts : List (Bool × Nat)) (is : List Bytes) (b pre cut : Bytes)
    (hi : items p 0 ws = some is) (hf : frameUp p cuts is = some b) (hb : 0x80 :: UInt8.ofNat p :: b = pre ++ cut)
    (kinds : List Bool) : loadFile kinds pre = none := by
  obtain ⟨cuts', hc⟩ := frameUp_snoc [0x2e] cuts is b hf
  have he : encode p cuts' ws = some (pre ++ (cut ++ [0x2e])) := by
    simp only [encode, hi, hc, Option.map_some]
    rw [← List.append_assoc, ← hb]
    rfl
  simp only [loadFile, loadFileAt, decode_prefix (P := 5) (by omega) (by omega) he (by simp) kinds]

/-- C69 for a file of several pickles of which the last was cut: the complete ones load, the cut one does not. -/
theorem C69_truncated_last (ds : List Dumped) (d : Dumped) (pre cut : Bytes) (hb : d.bytes = pre ++ cut) (hc : cut ≠ [])
    (kinds : List Bool) :
    (∃ vs : List (TVal × List TObj), loadMany (ds.map fun d => kindsOf d.ops) ((ds.map (·.bytes)).flatten ++ pre) = some (vs, pre) ∧
      vs.length = ds.length) ∧ loadFile kinds pre = none := by
  obtain ⟨vs, h1, h2, _⟩ := C68_consecutive ds pre
  exact ⟨⟨vs, h1, h2⟩, C69_truncated d.how d.W d.fuel d.root d.ops d.bytes pre cut d.ok hb hc kinds⟩

end Verif.Wire
