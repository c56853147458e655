import Verif.Model.Logger
/-! C31, C32, C33. -/
set_option linter.unusedSimpArgs false
namespace Verif.Logger

/-! ### C31: specification -/

mutual
/-- Bytes written by a save function. -/
def bytes : Act → Int
  | .write n => n
  | .fail => 0
  | .node _ body => bytesL body
def bytesL : List Act → Int
  | [] => 0
  | a :: as => bytes a + bytesL as
end

mutual
/-- No save function raises. -/
def ok : Act → Prop
  | .write _ => True
  | .fail => False
  | .node _ body => okL body
def okL : List Act → Prop
  | [] => True
  | a :: as => ok a ∧ okL as
end

/-- Well-nested traces at depth `d` that account for `total` bytes: a sequence of blocks, each an opening
line, a well-nested trace one level deeper, and a closing line with the same label and depth reporting a
number of bytes at least what the blocks inside account for. -/
inductive WellNested : Nat → List Line → Int → Prop
  | nil (d) (n : Nat) : WellNested d [] n
  | block (d label) (inner rest : List Line) (size total : Int) :
      1 ≤ d → WellNested (d + 1) inner size → WellNested d rest total →
      WellNested d (.opening label d :: inner ++ .closing label d (some size) :: rest) (size + total)

mutual
/-- The trace a save function should produce at depth `d`. -/
def expected (tellable : Bool) (d : Nat) : Act → List Line
  | .write _ => []
  | .fail => []
  | .node l body => .opening l d :: (expectedL tellable (d + 1) body ++
      [.closing l d (if tellable then some (bytesL body) else none)])
def expectedL (tellable : Bool) (d : Nat) : List Act → List Line
  | [] => []
  | a :: as => expected tellable d a ++ expectedL tellable d as
end

mutual
theorem run_ok (t : Bool) (a : Act) (ha : ok a) (p : PSt) (d : Nat) (hd : p.depth = some (d : Int)) :
    run t a p = .ok { p with pos := p.pos + bytes a, log := p.log ++ expected t d a } := by
  match a with
  | .write n => simp [run, bytes, expected]
  | .fail => simp [ok] at ha
  | .node l body =>
    have hb : okL body := by simpa [ok] using ha
    simp only [run, bytes, expected]
    have hopen : traceOpen t l p = { p with
        sizes := if t then p.pos :: p.sizes else p.sizes
        log := p.log ++ [.opening l d], depth := some ((d + 1 : Nat) : Int) } := by
      simp [traceOpen, hd]
    rw [hopen, runs_ok t body hb _ (d + 1) rfl]
    cases t
    · simp [traceClose, hd]
    · simp [traceClose, hd]; omega
theorem runs_ok (t : Bool) (as : List Act) (ha : okL as) (p : PSt) (d : Nat)
    (hd : p.depth = some (d : Int)) :
    runs t as p = .ok { p with pos := p.pos + bytesL as, log := p.log ++ expectedL t d as } := by
  match as with
  | [] => simp [runs, bytesL, expectedL]
  | a :: as =>
    obtain ⟨h1, h2⟩ : ok a ∧ okL as := by simpa [okL] using ha
    simp only [runs]
    rw [run_ok t a h1 p d hd]
    simp only
    rw [runs_ok t as h2 { p with pos := p.pos + bytes a, log := p.log ++ expected t d a } d hd]
    simp [bytesL, expectedL, Int.add_assoc]
end

mutual
theorem bytes_nonneg (a : Act) : 0 ≤ bytes a := by
  match a with
  | .write n => simp [bytes]
  | .fail => simp [bytes]
  | .node l b => simp only [bytes]; exact bytesL_nonneg b
theorem bytesL_nonneg (as : List Act) : 0 ≤ bytesL as := by
  match as with
  | [] => simp [bytesL]
  | a :: as => have := bytes_nonneg a; have := bytesL_nonneg as; simp only [bytesL]; omega
end

theorem WellNested.addBytes {d l t} (h : WellNested d l t) : ∀ n : Nat, WellNested d l (t + n) := by
  induction h with
  | nil d m => intro n; have := WellNested.nil d (m + n); simpa using this
  | block d label inner rest size total h1 h2 _ _ ih =>
    intro n
    have := WellNested.block d label inner rest size (total + n) h1 h2 (ih n)
    rw [Int.add_assoc]; exact this

theorem WellNested.append {d l t l' t'} (h : WellNested d l t) (h' : WellNested d l' t') :
    WellNested d (l ++ l') (t + t') := by
  induction h with
  | nil d n => simp; rw [Int.add_comm]; exact h'.addBytes n
  | block d label inner rest size total h1 h2 _ _ ih =>
    have := WellNested.block d label inner (rest ++ l') size (total + t') h1 h2 (ih h')
    rw [Int.add_assoc]
    simpa using this

mutual
theorem expected_wellNested (d : Nat) (hd : 1 ≤ d) (a : Act) :
    WellNested d (expected true d a) (bytes a) := by
  match a with
  | .write n => simp only [expected, bytes]; exact .nil d n
  | .fail => simp only [expected, bytes]; exact .nil d 0
  | .node l body =>
    have := WellNested.block d l _ [] _ 0 hd (expectedL_wellNested (d + 1) (by omega) body) (.nil d 0)
    simpa [expected, bytes] using this
theorem expectedL_wellNested (d : Nat) (hd : 1 ≤ d) (as : List Act) :
    WellNested d (expectedL true d as) (bytesL as) := by
  match as with
  | [] => simp only [expectedL, bytesL]; exact .nil d 0
  | a :: as =>
    simp only [expectedL, bytesL]
    exact (expected_wellNested d hd a).append (expectedL_wellNested d hd as)
end

/-- C31: whatever state earlier (possibly failed) dumps left behind, a dump with tracing on that does not
raise adds a well-nested trace at depth 1, whose block sizes are the bytes written between their lines,
accounting for the bytes of the whole dump, and ends at depth 1 with nothing open. -/
theorem C31_trace_well_nested (as : List Act) (h : okL as) (p : PSt) :
    ∃ lines, dump true true as p = .ok
      { depth := some 1, sizes := [], pos := p.pos + bytesL as, log := p.log ++ lines } ∧
      lines = expectedL true 1 as ∧ WellNested 1 lines (bytesL as) := by
  refine ⟨expectedL true 1 as, ?_, rfl, expectedL_wellNested 1 (Nat.le_refl _) as⟩
  unfold dump traceSetup
  rw [if_pos rfl, runs_ok true as h _ 1 rfl]

/-- On a stream that cannot tell its position the same lines appear without sizes. -/
theorem C31_untellable_stream (as : List Act) (h : okL as) (p : PSt) :
    dump true false as p = .ok
      { depth := some 1, sizes := [], pos := p.pos + bytesL as, log := p.log ++ expectedL false 1 as } := by
  unfold dump traceSetup
  rw [if_pos rfl, runs_ok false as h _ 1 rfl]

mutual
theorem run_off (t : Bool) (a : Act) (p : PSt) (hp : p.depth = none) :
    ∃ n, (run t a p = .ok { p with pos := n }) ∨ (run t a p = .error { p with pos := n }) := by
  match a with
  | .write n => exact ⟨p.pos + n, .inl rfl⟩
  | .fail => exact ⟨p.pos, .inr rfl⟩
  | .node l body =>
    have ho : traceOpen t l p = p := by simp [traceOpen, hp]
    obtain ⟨n, h | h⟩ := runs_off t body p hp
    · exact ⟨n, .inl (by simp [run, ho, h, traceClose, hp])⟩
    · exact ⟨n, .inr (by simp [run, ho, h])⟩
theorem runs_off (t : Bool) (as : List Act) (p : PSt) (hp : p.depth = none) :
    ∃ n, (runs t as p = .ok { p with pos := n }) ∨ (runs t as p = .error { p with pos := n }) := by
  match as with
  | [] => exact ⟨p.pos, .inl rfl⟩
  | a :: as =>
    obtain ⟨n, h | h⟩ := run_off t a p hp
    · obtain ⟨m, h' | h'⟩ := runs_off t as { p with pos := n } hp
      · exact ⟨m, .inl (by simp [runs, h, h'])⟩
      · exact ⟨m, .inr (by simp [runs, h, h'])⟩
    · exact ⟨n, .inr (by simp [runs, h])⟩
end

/-- With tracing off nothing is logged, even by a dump that raises. -/
theorem C31_off_is_silent (tellable : Bool) (as : List Act) (p : PSt) :
    ∃ q, (dump false tellable as p = .ok q ∨ dump false tellable as p = .error q) ∧ q.log = p.log := by
  obtain ⟨n, h | h⟩ := runs_off tellable as (traceSetup false p) (by simp [traceSetup])
  · exact ⟨_, .inl h, by simp [traceSetup]⟩
  · exact ⟨_, .inr h, by simp [traceSetup]⟩

/-- in a well-nested trace the depths are at least 1 and closing lines carry a nonnegative size -/
theorem C31_depth_never_below_one {d l t} (h : WellNested d l t) (hd : 1 ≤ d) :
    ∀ line ∈ l, match line with
      | .opening _ k => d ≤ k
      | .closing _ k s => d ≤ k ∧ ∃ n, s = some n ∧ 0 ≤ n := by
  have tot : ∀ {d l t}, WellNested d l t → 0 ≤ t := by
    intro d l t h
    induction h with
    | nil d n => simp
    | block => omega
  induction h with
  | nil d n => simp
  | block d label inner rest size total h1 h2 h3 ih1 ih2 =>
    intro line hl
    simp only [List.cons_append, List.mem_cons, List.mem_append] at hl
    rcases hl with rfl | hl | rfl | hl
    · exact Nat.le_refl _
    · have := ih1 (by omega) line hl
      split at this
      · omega
      · exact ⟨by omega, this.2⟩
    · exact ⟨Nat.le_refl _, _, rfl, tot h2⟩
    · exact ih2 h1 line hl

example : dump true true [.node 7 [.write 3, .node 8 [.write 2], .write 1]] ⟨some 5, [9], 10, []⟩ =
    .ok ⟨some 1, [], 16, [.opening 7 1, .opening 8 2, .closing 8 2 (some 2),
      .closing 7 1 (some 6)]⟩ := by rfl

/-! ### C32 -/

/-- The unit a size of magnitude `1024^p` should carry. -/
def units : List String := ["B", "KiB", "MiB", "GiB", "TiB", "PiB", "EiB", "ZiB", "YiB"]

/-- The right display: `size / 1024^p` with the p-th unit, for the `p` with `1024^p ≤ size < 1024^(p+1)`. -/
def RightSuffix (size : Nat) (s : Suffix) : Prop :=
  ∃ p u, units[p]? = some u ∧ 1024 ^ p ≤ size ∧ size < 1024 ^ (p + 1) ∧
    s = .shown (size / 1024 ^ p) u

def C32_full : Prop := ∀ size, 1 ≤ size → size < 1024 ^ 5 → RightSuffix size (suffix size)

/-- C32 for sizes below 1024 bytes.  The full property is false: `C32_full_false`. -/
theorem C32_bytes_partial (size : Nat) (h1 : 1 ≤ size) (h2 : size < 1024) :
    RightSuffix size (suffix size) := by
  refine ⟨0, "B", rfl, by simpa using h1, by simpa using h2, ?_⟩
  have hl : Nat.log2 size < 10 := (Nat.log2_lt (by omega)).2 (by simpa using h2)
  have hp : Nat.log2 size / 10 = 0 := by omega
  simp [suffix, h1, hp]

theorem log2_bounds (size : Nat) (h : 1 ≤ size) :
    1024 ^ (Nat.log2 size / 10) ≤ size ∧ size < 1024 ^ (Nat.log2 size / 10 + 1) := by
  have h0 : size ≠ 0 := by omega
  have e : ∀ k, 1024 ^ k = 2 ^ (10 * k) := by intro k; rw [Nat.pow_mul]
  constructor
  · rw [e]
    calc 2 ^ (10 * (Nat.log2 size / 10)) ≤ 2 ^ (Nat.log2 size) :=
          Nat.pow_le_pow_right (by omega) (by omega)
      _ ≤ size := Nat.log2_self_le h0
  · rw [e]
    calc size < 2 ^ (Nat.log2 size + 1) := Nat.lt_log2_self
      _ ≤ 2 ^ (10 * (Nat.log2 size / 10 + 1)) := Nat.pow_le_pow_right (by omega) (by omega)

/-- What is actually shown from 1024 bytes on: the number is right but the unit is one too large
(1024 bytes are displayed as "1 MiB"); from 2^50 bytes on formatting the line raises IndexError. -/
theorem C32_actual (size : Nat) (h : 1024 ≤ size) :
    (size < 1024 ^ 5 → ∃ p u, 1 ≤ p ∧ 1024 ^ p ≤ size ∧ size < 1024 ^ (p + 1) ∧
      units[p + 1]? = some u ∧ suffix size = .shown (size / 1024 ^ p) u) ∧
    (1024 ^ 5 ≤ size → suffix size = .indexError) := by
  obtain ⟨hb1, hb2⟩ := log2_bounds size (by omega)
  have hp1 : 1 ≤ Nat.log2 size / 10 := by
    have : 10 ≤ Nat.log2 size := (Nat.le_log2 (by omega)).2 (by simpa using h)
    omega
  have hshift : size >>> (Nat.log2 size / 10 * 10) = size / 1024 ^ (Nat.log2 size / 10) := by
    rw [Nat.shiftRight_eq_div_pow]
    congr 1
    rw [Nat.mul_comm, Nat.pow_mul]
  have hsfx : suffix size = match ["K", "M", "G", "T", "P"][Nat.log2 size / 10]? with
      | some c => .shown (size / 1024 ^ (Nat.log2 size / 10)) (c ++ "iB")
      | none => .indexError := by
    unfold suffix
    rw [if_pos (by omega : size ≥ 1)]
    simp only [hshift]
    rw [if_pos (by omega)]
    split <;> simp_all
  generalize Nat.log2 size / 10 = p at *
  constructor
  · intro hlt
    have hp5 : p < 5 := by
      refine Classical.byContradiction fun hn => ?_
      have : 1024 ^ 5 ≤ 1024 ^ p := Nat.pow_le_pow_right (by omega) (by omega)
      omega
    have : p = 1 ∨ p = 2 ∨ p = 3 ∨ p = 4 := by omega
    rcases this with rfl | rfl | rfl | rfl
    · exact ⟨1, "MiB", by omega, hb1, hb2, rfl, hsfx⟩
    · exact ⟨2, "GiB", by omega, hb1, hb2, rfl, hsfx⟩
    · exact ⟨3, "TiB", by omega, hb1, hb2, rfl, hsfx⟩
    · exact ⟨4, "PiB", by omega, hb1, hb2, rfl, hsfx⟩
  · intro hge
    have hp5 : 5 ≤ p := by
      refine Classical.byContradiction fun hn => ?_
      have : 1024 ^ (p + 1) ≤ 1024 ^ 5 := Nat.pow_le_pow_right (by omega) (by omega)
      omega
    rw [hsfx]
    have : ["K", "M", "G", "T", "P"][p]? = none := by
      rw [List.getElem?_eq_none_iff]; simpa using hp5
    rw [this]

theorem C32_full_false : ¬ C32_full := by
  intro h
  obtain ⟨p, u, hu, h1, h2, hs⟩ := h 1024 (by decide) (by decide +kernel)
  have : suffix 1024 = .shown 1 "MiB" := by decide +kernel
  rw [this] at hs
  simp only [Suffix.shown.injEq] at hs
  obtain ⟨hs1, hs2⟩ := hs
  subst hs2
  have hp : p = 2 := by
    have hlt : p < 9 := by
      have := (List.getElem?_eq_some_iff.1 hu).1
      simpa [units] using this
    have : ∀ q, q < 9 → units[q]? = some "MiB" → q = 2 := by decide +kernel
    exact this p hlt hu
  subst hp
  exact absurd h1 (by decide +kernel)

/-! ### C33 -/

def SameHandlers (a b : List Nat) : Prop := ∀ h, h ∈ a ↔ h ∈ b

/-- Handlers are distinct and older than the next fresh one; level numbers are nonzero unless NOTSET. -/
structure LSt.WF (l : LSt) : Prop where
  nodup : l.handlers.Nodup
  fresh : ∀ h ∈ l.handlers, h < l.next
  pos : 0 < l.next
  root : l.rootLevel ≠ 0

theorem mem_addHandler (h x : Nat) (l : LSt) :
    x ∈ (addHandler h l).handlers ↔ x ∈ l.handlers ∨ x = h := by
  unfold addHandler; split
  · constructor
    · exact .inl
    · rintro (h' | rfl) <;> assumption
  · simp

theorem wf_addHandler {h : Nat} {l : LSt} (hw : l.WF) (hn : h < l.next) : (addHandler h l).WF := by
  unfold addHandler; split
  · exact hw
  · rename_i hni
    refine ⟨?_, ?_, hw.pos, hw.root⟩
    · rw [List.nodup_append]
      refine ⟨hw.nodup, by simp, ?_⟩
      intro a ha b hb; simp at hb; subst hb; rintro rfl; exact hni ha
    · intro x hx; simp at hx; rcases hx with hx | rfl
      · exact hw.fresh x hx
      · exact hn

theorem mem_removeHandler {h x : Nat} {l : LSt} (hw : l.WF) :
    x ∈ (removeHandler h l).handlers ↔ x ∈ l.handlers ∧ x ≠ h := by
  unfold removeHandler
  simp only
  rw [hw.nodup.mem_erase_iff]; exact and_comm

theorem wf_removeHandler {h : Nat} {l : LSt} (hw : l.WF) : (removeHandler h l).WF :=
  ⟨hw.nodup.erase _, fun x hx => hw.fresh x (List.mem_of_mem_erase hx), hw.pos, hw.root⟩

theorem wf_setLevel {n : Nat} {l : LSt} (hw : l.WF) : (setLevel n l).WF :=
  ⟨hw.nodup, hw.fresh, hw.pos, hw.root⟩

theorem effective_ne {l : LSt} (hw : l.WF) : l.effective ≠ 0 := by
  unfold LSt.effective; split
  · exact hw.root
  · assumption

/-- whatever a program does, the handlers other than stderr's are kept and stderr's is kept if present -/
theorem exec_inv (p : Prog) (l : LSt) (hw : l.WF) :
    (exec p l).1.WF ∧ (exec p l).1.rootLevel = l.rootLevel ∧ l.next ≤ (exec p l).1.next ∧
    (∀ h, h ≠ 0 → (h ∈ (exec p l).1.handlers ↔ h ∈ l.handlers)) ∧
    (0 ∈ l.handlers → 0 ∈ (exec p l).1.handlers) := by
  induction p generalizing l with
  | skip => exact ⟨hw, rfl, Nat.le_refl _, fun _ _ => Iff.rfl, id⟩
  | raise => exact ⟨hw, rfl, Nat.le_refl _, fun _ _ => Iff.rfl, id⟩
  | dumps => exact ⟨⟨hw.nodup, hw.fresh, hw.pos, hw.root⟩, rfl, Nat.le_refl _, fun _ _ => Iff.rfl, id⟩
  | set on => exact ⟨wf_setLevel hw, rfl, Nat.le_refl _, fun _ _ => Iff.rfl, id⟩
  | seq a b iha ihb =>
    obtain ⟨w, r, n, h1, h2⟩ := iha l hw
    unfold exec
    generalize hea : exec a l = ea at w r n h1 h2
    obtain ⟨la, ex⟩ := ea
    cases ex with
    | true => exact ⟨w, r, n, h1, h2⟩
    | false =>
      simp only at w r n h1 h2 ⊢
      obtain ⟨w', r', n', h1', h2'⟩ := ihb la w
      exact ⟨w', by rw [r', r], Nat.le_trans n n', fun h hne => (h1' h hne).trans (h1 h hne),
        fun h => h2' (h2 h)⟩
  | tryCatch a iha => exact iha l hw
  | withTrace redirect opens body ih =>
    cases redirect with
    | false =>
      obtain ⟨w, r, n, h1, h2⟩ := ih (setLevel 20 l) (wf_setLevel hw)
      simp only [exec, Bool.false_eq_true, if_false]
      exact ⟨wf_setLevel w, r, n, h1, h2⟩
    | true =>
      cases opens with
      | false => exact ⟨hw, rfl, Nat.le_refl _, fun _ _ => Iff.rfl, id⟩
      | true =>
        simp only [exec, if_true, Bool.not_true, Bool.false_eq_true, if_false]
        have w0 : ({ l with next := l.next + 1 } : LSt).WF :=
          ⟨hw.nodup, fun h hh => Nat.lt_succ_of_lt (hw.fresh h hh), Nat.succ_pos _, hw.root⟩
        have w1 := wf_addHandler (h := l.next) (wf_removeHandler (h := 0) w0) (Nat.lt_succ_self _)
        obtain ⟨w, r, n, h1, h2⟩ := ih _ (wf_setLevel (n := 20) w1)
        generalize hl1 : setLevel 20 (addHandler l.next (removeHandler 0 { l with next := l.next + 1 }))
          = l1 at w r n h1 h2 ⊢
        have hmem : ∀ h, h ∈ l1.handlers ↔ (h ∈ l.handlers ∧ h ≠ 0) ∨ h = l.next := by
          intro h; rw [← hl1]
          simp only [setLevel]
          rw [mem_addHandler, mem_removeHandler w0]
        have hroot : l1.rootLevel = l.rootLevel := by
          rw [← hl1]; unfold setLevel addHandler; split <;> rfl
        have hnext : l1.next = l.next + 1 := by
          rw [← hl1]; unfold setLevel addHandler; split <;> rfl
        have w2 := wf_setLevel (n := LSt.effective
          (addHandler l.next (removeHandler 0 { l with next := l.next + 1 }))) w
        have w3 := wf_removeHandler (h := l.next) w2
        have hnext' : 0 < (removeHandler l.next (setLevel (LSt.effective
          (addHandler l.next (removeHandler 0 { l with next := l.next + 1 }))) (exec body l1).1)).next :=
          w3.pos
        refine ⟨wf_addHandler w3 hnext', ?_, ?_, ?_, ?_⟩
        · have : ∀ (l : LSt) a b c, (addHandler a (removeHandler b (setLevel c l))).rootLevel =
              l.rootLevel := by
            intro l a b c; unfold addHandler; split <;> rfl
          rw [this, r, hroot]
        · have : ∀ (l : LSt) a b c, (addHandler a (removeHandler b (setLevel c l))).next = l.next := by
            intro l a b c; unfold addHandler; split <;> rfl
          rw [this]; omega
        · intro h hne
          rw [mem_addHandler, mem_removeHandler w2]
          simp only [setLevel, h1 h hne, hmem, hne, or_false, ne_eq, not_false_eq_true, and_true]
          constructor
          · rintro ⟨h' | h', h''⟩
            · exact h'
            · exact absurd h' h''
          · intro h'
            exact ⟨.inl h', fun e => by have := hw.fresh h h'; omega⟩
        · intro _; rw [mem_addHandler]; exact .inr rfl

/-- C33: if trace output goes to stderr on entry (the normal state, whatever else is attached), then after
a `with detect.trace(...)` block - redirected or not, whatever nested blocks and trace() calls its body
contains, whether or not it raises - the effective level and the set of handlers are those of entry.
For blocks nested in a redirected block see `C33_nested_redirect`. -/
theorem C33_restores_partial (redirect opens : Bool) (body : Prog) (l : LSt) (hw : l.WF)
    (h0 : 0 ∈ l.handlers) :
    let r := exec (.withTrace redirect opens body) l
    r.1.effective = l.effective ∧ SameHandlers r.1.handlers l.handlers := by
  intro r
  obtain ⟨w, hr, n, h1, h2⟩ := exec_inv (.withTrace redirect opens body) l hw
  refine ⟨?_, ?_⟩
  · simp only [r, exec]
    have eff : ∀ (l' l'' : LSt), l'.effective ≠ 0 → (setLevel l'.effective l'').effective = l'.effective := by
      intro l' l'' hne; unfold setLevel LSt.effective at *; simp [hne]
    cases redirect with
    | false =>
      simp only [Bool.false_eq_true, if_false]
      exact eff _ _ (effective_ne hw)
    | true =>
      cases opens with
      | false => rfl
      | true =>
        simp only [if_true, Bool.not_true, Bool.false_eq_true, if_false]
        have e0 : ∀ (a b : Nat) (l : LSt), (addHandler a (removeHandler b l)).effective = l.effective := by
          intro a b l; unfold addHandler LSt.effective; split <;> rfl
        have e1 : LSt.effective { l with next := l.next + 1 } = l.effective := rfl
        rw [e0, e0, e1]
        exact eff _ _ (effective_ne hw)
  · intro h
    by_cases hz : h = 0
    · subst hz; exact ⟨fun _ => h0, fun _ => h2 h0⟩
    · exact h1 h hz

/-- whether a program ends with an exception: a block raises when its file cannot be opened or its body does. -/
def raises : Prog → Bool
  | .dumps => false
  | .skip => false
  | .raise => true
  | .set _ => false
  | .withTrace redirect opens body => (redirect && !opens) || raises body
  | .seq a b => raises a || raises b
  | .tryCatch _ => false

/-- C33: a `with detect.trace(...)` block neither swallows nor invents exceptions. -/
theorem C33_exceptions_propagate : ∀ (p : Prog) (l : LSt), (exec p l).2 = raises p
  | .skip, _ | .dumps, _ | .raise, _ | .set _, _ | .tryCatch _, _ => rfl
  | .seq a b, l => by
    have ha := C33_exceptions_propagate a l
    simp only [exec, raises]
    generalize exec a l = r at ha
    obtain ⟨l1, x⟩ := r
    cases x
    · simp only at ha; rw [← ha]; simpa using C33_exceptions_propagate b l1
    · simp only at ha; rw [← ha]; rfl
  | .withTrace redirect opens body, l => by
    simp only [exec, raises]
    cases redirect <;> cases opens <;> simp [C33_exceptions_propagate body]

/-- In any state, handlers other than stderr's are restored exactly, and the effective level too. -/
theorem C33_other_handlers (redirect opens : Bool) (body : Prog) (l : LSt) (hw : l.WF) (h : Nat)
    (hne : h ≠ 0) :
    h ∈ (exec (.withTrace redirect opens body) l).1.handlers ↔ h ∈ l.handlers :=
  (exec_inv (.withTrace redirect opens body) l hw).2.2.2.1 h hne

/-- C33, what a user sees: `trace(True)` turns the trace of what is pickled next on and `trace(False)` off,
whatever was set before. -/
theorem C33_switch (on : Bool) (l : LSt) :
    (exec (.seq (.set on) .dumps) l).1.seen = l.seen ++ [(on, l.handlers)] := by
  cases on <;> simp [exec, setLevel, LSt.effective]

/-- C33, inside the block: what is pickled first in a `with detect.trace(...)` block is traced, to the handlers
there are, or when redirected to the new file's handler instead of stderr's. -/
theorem C33_traces_inside (redirect : Bool) (rest : Prog) (l : LSt) (hw : l.WF) :
    ∃ hs more, (exec (.withTrace redirect true (.seq .dumps rest)) l).1.seen = l.seen ++ (true, hs) :: more ∧
      (redirect = false → hs = l.handlers) ∧
      (redirect = true → ∀ h, h ∈ hs ↔ (h ∈ l.handlers ∧ h ≠ 0) ∨ h = l.next) := by
  have grow : ∀ (p : Prog) (l : LSt), ∃ more, (exec p l).1.seen = l.seen ++ more := by
    intro p
    have add : ∀ (h : Nat) (l : LSt), (addHandler h l).seen = l.seen := by
      intro h l; unfold addHandler; split <;> rfl
    induction p with
    | skip => intro l; exact ⟨[], by simp [exec]⟩
    | raise => intro l; exact ⟨[], by simp [exec]⟩
    | dumps => intro l; exact ⟨_, rfl⟩
    | set on => intro l; exact ⟨[], by simp [exec, setLevel]⟩
    | tryCatch a ih => intro l; exact ih l
    | seq a b iha ihb =>
      intro l
      obtain ⟨m1, h1⟩ := iha l
      simp only [exec]
      generalize exec a l = r at h1
      obtain ⟨la, x⟩ := r
      cases x
      · obtain ⟨m2, h2⟩ := ihb la
        exact ⟨m1 ++ m2, by simp only [h2]; rw [h1, List.append_assoc]⟩
      · exact ⟨m1, h1⟩
    | withTrace redirect opens body ih =>
      intro l
      simp only [exec]
      cases redirect
      · obtain ⟨m, h⟩ := ih (setLevel 20 l)
        exact ⟨m, h⟩
      · cases opens
        · exact ⟨[], by simp⟩
        · obtain ⟨m, h⟩ := ih (setLevel 20 (addHandler l.next (removeHandler 0 { l with next := l.next + 1 })))
          refine ⟨m, ?_⟩
          simp only [if_true, Bool.not_true, Bool.false_eq_true, if_false, add]
          show (exec body _).1.seen = _
          rw [h]
          simp only [setLevel, add]
          rfl
  have first : ∀ (l' : LSt), l'.effective ≤ 20 → ∃ more,
      (exec (.seq .dumps rest) l').1.seen = l'.seen ++ (true, l'.handlers) :: more := by
    intro l' he
    obtain ⟨m, h⟩ := grow rest { l' with seen := l'.seen ++ [(true, l'.handlers)] }
    refine ⟨m, ?_⟩
    simp only [exec, he, decide_true]
    rw [h]
    simp
  have add : ∀ (h : Nat) (l : LSt), (addHandler h l).seen = l.seen := by
    intro h l; unfold addHandler; split <;> rfl
  cases redirect
  · obtain ⟨m, h⟩ := first (setLevel 20 l) (by simp [setLevel, LSt.effective])
    refine ⟨_, m, h, fun _ => rfl, fun e => absurd e (by simp)⟩
  · obtain ⟨m, h⟩ := first (setLevel 20 (addHandler l.next (removeHandler 0 { l with next := l.next + 1 })))
      (by simp [setLevel, LSt.effective])
    refine ⟨(addHandler l.next (removeHandler 0 { l with next := l.next + 1 })).handlers, m, ?_,
      fun e => absurd e (by simp), fun _ => ?_⟩
    · rw [exec.eq_def]
      simp only [if_true, Bool.not_true, Bool.false_eq_true, if_false, add]
      show (exec (.seq .dumps rest) _).1.seen = _
      rw [h]
      simp only [setLevel, add]
      rfl
    · intro h
      have w0 : ({ l with next := l.next + 1 } : LSt).WF :=
        ⟨hw.nodup, fun h hh => Nat.lt_succ_of_lt (hw.fresh h hh), Nat.succ_pos _, hw.root⟩
      rw [mem_addHandler, mem_removeHandler w0]

example : (exec (.withTrace true true (.seq .dumps (.seq (.set false) .dumps))) ⟨0, 30, [0, 3], 7, []⟩).1.seen =
    [(true, [3, 7]), (false, [3, 7])] := by decide

def C33_full : Prop := ∀ redirect opens body (l : LSt), l.WF →
  (exec (.withTrace redirect opens body) l).1.effective = l.effective ∧
  SameHandlers (exec (.withTrace redirect opens body) l).1.handlers l.handlers

/-- Leaving a redirected block nested in a redirected block re-attaches stderr although it was not
attached on entry: the rest of the outer block is also printed to stderr. -/
theorem C33_nested_redirect :
    exec (.withTrace true true .skip) ⟨20, 30, [5], 6, []⟩ = (⟨20, 30, [5, 0], 7, []⟩, false) := by
  decide

theorem C33_full_false : ¬ C33_full := by
  intro h
  have := (h true true .skip ⟨20, 30, [5], 6, []⟩ ⟨by decide, by decide, by decide, by decide⟩).2 0
  rw [C33_nested_redirect] at this
  simp at this

/-- The logger's own level is not restored when it was NOTSET: it becomes the root's level. -/
theorem C33_notset_not_restored :
    (exec (.withTrace false true .skip) ⟨0, 30, [0], 1, []⟩).1.level = 30 := by decide

example : (⟨0, 30, [0], 1, []⟩ : LSt).WF := ⟨by decide, by decide, by decide, by decide⟩
example : exec (.withTrace true true (.seq (.set false) (.withTrace true true .raise))) ⟨0, 30, [0], 1, []⟩
    = (⟨30, 30, [0], 3, []⟩, true) := by decide

end Verif.Logger
