import Verif.Props.WireFits
set_option linter.unusedSimpArgs false
/-! C109: a pickle written at protocol `p` is for every Python that knows protocol `p`. -/
namespace Verif.Wire
open Core Core.Spec

/-- C109: dill's pickle at protocol `p` (2 to 5), read in a Python that knows the protocols up to `P` and whose unpickler has only their
opcodes: it loads to a copy if `p ≤ P`, the rest of the file unread, whatever was chosen in writing it. -/
theorem C109_newer_loads (how : How) (W : World) (hw : WF W) (n : Nat) (root : Val) (ops : List Op) (b : Bytes)
    (h : dumpBytes how W n root = some (ops, b)) (P : Nat) (hP : how.proto ≤ P) (rest : Bytes) :
    ∃ tv heap φ, loadFileAt P (kindsOf ops) (b ++ rest) = some ((tv, heap), rest) ∧ IsCopy W root tv heap φ := by
  obtain ⟨hd, ws, hp, he, hk, hl⟩ := dumpBytes_inv h
  obtain ⟨tv, heap, φ, hld, hc⟩ := C01_isomorphic_copy_partial W hw n root ops hd
  refine ⟨tv, heap, φ, ?_, hc⟩
  rw [← hk]
  simp only [loadFileAt, decode_encode (P := P) (p := how.proto) (by omega) (by omega) _ ws b rest he, hl _ hld, Option.map_some]

/-- An older Python refuses it at the first opcode (`unsupported pickle protocol`; before protocol 2, an unknown opcode): it loads
nothing, and in particular nothing else. -/
theorem C109_older_refuses (how : How) (W : World) (n : Nat) (root : Val) (ops : List Op) (b : Bytes)
    (h : dumpBytes how W n root = some (ops, b)) (P : Nat) (hP : P < how.proto) (kinds : List Bool) (rest : Bytes) :
    loadFileAt P kinds (b ++ rest) = none := by
  obtain ⟨_, ws, hp, he, _, _⟩ := dumpBytes_inv h
  unfold encode at he
  cases hi : items how.proto 0 ws with
  | none => rw [hi] at he; cases he
  | some is =>
    rw [hi] at he
    obtain ⟨b2, _, h2⟩ := Option.map_eq_some_iff.1 he
    have hsup := Supply.file (0x80 :: [UInt8.ofNat how.proto]) (b2 ++ rest)
    have hb : b ++ rest = 0x80 :: UInt8.ofNat how.proto :: (b2 ++ rest) := by rw [← h2]; rfl
    have hr : readOne ⟨none, b ++ rest⟩ = some (.proto how.proto, ⟨none, b2 ++ rest⟩) := by
      have := read_fixed (k := 1) (f := fun a => some (.proto (unle a))) (b := 0x80) rfl (a := [UInt8.ofNat how.proto]) hsup rfl
      have e : (UInt8.ofNat how.proto).toNat = how.proto := UInt8.toNat_ofNat_of_lt' (show how.proto < 256 by omega)
      simp only [List.cons_append, List.nil_append] at this
      rw [hb, this]
      simp [unle, e]
    have hg : ∀ n, decodeGo P n 0 kinds ⟨none, b ++ rest⟩ = none := by
      intro n
      cases n with
      | zero => rfl
      | succ n =>
        by_cases h2 : 2 ≤ P
        · have ha : readOneAt P ⟨none, b ++ rest⟩ = some (.proto how.proto, ⟨none, b2 ++ rest⟩) := by
            rw [← hr, hb]
            exact readAt_supply (P := P) (b := 0x80) hsup (show 2 ≤ P by omega)
          simp only [decodeGo, ha, if_neg (show ¬ how.proto ≤ P by omega)]
        · have ha : readOneAt P ⟨none, b ++ rest⟩ = none := by
            rw [hb]
            unfold readOneAt
            obtain ⟨u, h1, _⟩ := supply_split (a := [0x80]) (b := [UInt8.ofNat how.proto]) hsup
            have h3 := takeS_supply h1 (n := 1) rfl
            simp only [List.cons_append, List.nil_append] at h3
            rw [h3]
            exact if_neg (show ¬ 2 ≤ P from h2)
          simp only [decodeGo, ha]
    simp only [loadFileAt, decode, hg, Option.map_none]

/-- together: the Pythons that load a pickle are those that know its protocol -/
theorem C109_exactly (how : How) (W : World) (hw : WF W) (n : Nat) (root : Val) (ops : List Op) (b : Bytes)
    (h : dumpBytes how W n root = some (ops, b)) (P : Nat) (rest : Bytes) :
    (loadFileAt P (kindsOf ops) (b ++ rest)).isSome = true ↔ how.proto ≤ P := by
  constructor
  · intro hs
    by_cases hP : how.proto ≤ P
    · exact hP
    · rw [C109_older_refuses how W n root ops b h P (by omega) _ rest] at hs; cases hs
  · intro hP
    obtain ⟨tv, heap, φ, h1, _⟩ := C109_newer_loads how W hw n root ops b h P hP rest
    rw [h1]; rfl

/-- a pickle of the cyclic list at protocol 2 for every reader from protocol 2 on, one at protocol 4 for Python 3.4 and not for 3.3 -/
example : ∃ d e : Dumped, d.how.proto = 2 ∧ e.how.proto = 4 ∧ d.root = .ref 7 ∧
    (∀ P, 2 ≤ P → (loadFileAt P (kindsOf d.ops) d.bytes).isSome = true) ∧ (loadFileAt 4 (kindsOf e.ops) e.bytes).isSome = true ∧
    (loadFileAt 3 (kindsOf e.ops) e.bytes).isSome = false := by
  obtain ⟨d, h1, h, _⟩ := ex_dumped 2 (.inl rfl)
  obtain ⟨e, g1, g, _⟩ := ex_dumped 4 (.inr (.inr (.inl rfl)))
  have kd := fun P => C109_exactly d.how d.W d.wf d.fuel d.root d.ops d.bytes d.ok P []
  have ke := fun P => C109_exactly e.how e.W e.wf e.fuel e.root e.ops e.bytes e.ok P []
  simp only [List.append_nil] at kd ke
  refine ⟨d, e, h1, g1, h, fun P hP => (kd P).2 (by omega), (ke 4).2 (by omega), ?_⟩
  cases hb : (loadFileAt 3 (kindsOf e.ops) e.bytes).isSome with
  | false => rfl
  | true => have := (ke 3).1 hb; omega

/-- an opcode of protocol 4 in a pickle that says protocol 3: SHORT_BINUNICODE is not read by a Python of protocol 3 -/
example : loadFileAt 3 [] [0x80, 3, 0x8c, 1, 0x61, 0x2e] = none ∧ (loadFileAt 4 [] [0x80, 3, 0x8c, 1, 0x61, 0x2e]).isSome = true := by decide +kernel

end Verif.Wire
