import Verif.Model.SafeOpen
/-! C12, C13: symlink races. -/
set_option linter.unusedSimpArgs false
namespace Verif.SafeOpen

/-- The attacker may do anything except break the kernel's choice of fresh inode numbers. -/
def Adv.Kernel (adv : Adv) : Prop := ∀ k s, s.Fresh → (adv k s).Fresh

/-- With O_NOFOLLOW, one `open` call changes at most the entry `p` (from absent to a new file) and
the contents of the inode that is directly at `p`. -/
theorem sysOpen_nofollow (s : S) (p : String) (f : Flags) (hf : f.nofollow = true) :
    let r := sysOpen s p f
    (∀ q, q ≠ p → r.2.dir q = s.dir q) ∧
    (∀ t, s.dir p = .link t → r.2 = s ∧ ∃ e, r.1 = .error e) ∧
    (∀ i, s.dir p = .file i → r.2.dir p = .file i) ∧
    (∀ v, r.2.data v ≠ s.data v → (s.dir p = .file v) ∨ (s.dir p = .absent ∧ v = s.next ∧ r.2.dir p = .file v)) ∧
    (∀ i, r.1 = .ok i → r.2.dir p = .file i ∧
      (s.dir p = .file i ∨ (s.dir p = .absent ∧ i = s.next))) ∧
    (∀ i, r.1 = .ok i → f.trunc = true → r.2.data i = some []) ∧
    (∀ e, r.1 = .error e → r.2 = s) := by
  cases hd : s.dir p with
  | absent =>
    cases hc : f.creat <;> simp [sysOpen, openAt, hd, hc, setDir]
    · grind
  | file i =>
    cases hc : (f.creat && f.excl) <;> cases ht : f.trunc <;>
      simp [sysOpen, openAt, hd, hc, ht, setData]
  | link t =>
    cases hc : (f.creat && f.excl) <;> simp [sysOpen, hd, hc, hf]

/-- What a single logged system call is allowed to do to the world when the session file is `p`
and the descriptor in use (if any) is `o`. -/
def CallOk (p : String) (o : Option Ino) (c : S × S) : Prop :=
  (∀ q, q ≠ p → c.2.dir q = c.1.dir q) ∧
  (∀ t, c.1.dir p = .link t → c.2.dir p = .link t) ∧
  (∀ v, (c.1.data v).isSome → c.2.data v ≠ c.1.data v → c.1.dir p = .file v ∨ o = some v)

theorem CallOk.refl (p : String) (o : Option Ino) (s : S) : CallOk p o (s, s) :=
  ⟨fun _ _ => rfl, fun _ h => h, fun _ _ h => absurd rfl h⟩

theorem CallOk.of_open (p : String) (o : Option Ino) (s : S) (f : Flags) (hf : f.nofollow = true)
    (hs : s.Fresh) : CallOk p o (s, (sysOpen s p f).2) := by
  obtain ⟨h1, h2, h3, h4, h5, h6, h7⟩ := sysOpen_nofollow s p f hf
  refine ⟨h1, ?_, ?_⟩
  · intro t ht; rw [(h2 t ht).1]; exact ht
  · intro v hv hne
    rcases h4 v hne with h | ⟨-, h, -⟩
    · exact Or.inl h
    · subst h; rw [hs] at hv; simp at hv

theorem openWrite_spec (p : String) (adv : Adv) (s : S) (ha : adv.Kernel) (hs : s.Fresh) :
    let r := openWrite true p adv s
    (∀ o, ∀ c ∈ r.2.2, CallOk p o c) ∧
    (∀ i, r.1 = .ok i → ∃ c ∈ r.2.2, c.2.dir p = .file i ∧
        (c.1.dir p = .file i ∨ (c.1.dir p = .absent ∧ c.1.data i = none)) ∧ c.2 = r.2.1) := by
  have hf0 : (adv 0 s).Fresh := ha 0 s hs
  have A := CallOk.of_open p
  simp only [openWrite]
  generalize hs0 : adv 0 s = s0 at *
  have sp := sysOpen_nofollow s0 p { creat := true, excl := true, nofollow := true } rfl
  have c0 := fun o => CallOk.of_open p o s0 { creat := true, excl := true, nofollow := true } rfl hf0
  generalize hr : sysOpen s0 p { creat := true, excl := true, nofollow := true } = r0 at *
  obtain ⟨r, s1⟩ := r0
  simp only at sp c0
  obtain ⟨h1, h2, h3, h4, h5, h6, h7⟩ := sp
  cases r with
  | ok i =>
    refine ⟨fun o c hc => ?_, fun j hj => ?_⟩
    · simp at hc; subst hc; exact c0 o
    · simp at hj; subst hj
      refine ⟨(s0, s1), by simp, (h5 i rfl).1, ?_, rfl⟩
      rcases (h5 i rfl).2 with h | ⟨h, rfl⟩
      · exact Or.inl h
      · exact Or.inr ⟨h, hf0⟩
  | error e =>
    have e1 := h7 e rfl
    cases e <;> simp only
    case exists_ =>
      subst e1
      have hf1 : (adv 1 s1).Fresh := ha 1 _ hf0
      generalize adv 1 s1 = s1' at *
      cases hck : checkSymlink s1' p with
      | true =>
        simp only [if_true]
        refine ⟨fun o c hc => ?_, fun j hj => by simp at hj⟩
        simp at hc; rcases hc with rfl | rfl
        · exact c0 o
        · exact CallOk.refl _ _ _
      | false =>
        simp only [Bool.false_eq_true, if_false]
        have hf2 : (adv 2 s1').Fresh := ha 2 _ hf1
        generalize adv 2 s1' = s2 at *
        have sp2 := sysOpen_nofollow s2 p { trunc := true, nofollow := true } rfl
        have c2 := fun o => CallOk.of_open p o s2 { trunc := true, nofollow := true } rfl hf2
        generalize hr2 : sysOpen s2 p { trunc := true, nofollow := true } = r2 at *
        refine ⟨fun o c hc => ?_, fun j hj => ?_⟩
        · simp at hc; rcases hc with rfl | rfl | rfl
          · exact c0 o
          · exact CallOk.refl _ _ _
          · exact c2 o
        · obtain ⟨_, _, _, _, g5, _⟩ := sp2
          refine ⟨(s2, r2.2), by simp, (g5 j hj).1, ?_, rfl⟩
          rcases (g5 j hj).2 with h | ⟨h, rfl⟩
          · exact Or.inl h
          · exact Or.inr ⟨h, hf2⟩
    all_goals
      refine ⟨fun o c hc => ?_, fun j hj => by simp at hj⟩
      simp at hc; subst hc; exact c0 o

theorem writeChunks_spec (p : String) (i : Ino) (adv : Adv) (k : Nat) (cs : List (List Nat)) (s : S) :
    ∀ c ∈ (writeChunks i adv k cs s).2, CallOk p (some i) c ∧ c.2.dir = c.1.dir := by
  induction cs generalizing k s with
  | nil => simp [writeChunks]
  | cons d ds ih =>
    intro c hc
    simp only [writeChunks, List.mem_cons] at hc
    rcases hc with rfl | hc
    · cases hd : (adv k s).data i with
      | none => simp; exact CallOk.refl _ _ _
      | some x =>
        simp only [setData, and_true]
        refine ⟨fun _ _ => rfl, fun _ h => h, fun v hv hne => Or.inr ?_⟩
        simp only at hne
        by_cases h : v = i
        · rw [h]
        · simp [h] at hne
    · exact ih _ _ c hc

/-- C12.  With O_NOFOLLOW, for every initial state and everything others may do between any two
system calls: every existing inode whose contents `dump_module(p)` changes was, at some system call
of that very run, directly at `p` as a regular file (never merely the target of a symlink at `p`);
no other directory entry is created or changed; an entry that is a symlink when a system call is made
is left in place. -/
theorem C12_dump_never_writes_through_symlink (p : String) (chunks : List (List Nat)) (adv : Adv)
    (s : S) (ha : adv.Kernel) (hs : s.Fresh) :
    let r := dumpModule true p chunks adv s
    ∀ c ∈ r.2.2,
      (∀ q, q ≠ p → c.2.dir q = c.1.dir q) ∧
      (∀ t, c.1.dir p = .link t → c.2.dir p = .link t) ∧
      (∀ v, (c.1.data v).isSome → c.2.data v ≠ c.1.data v →
        ∃ c' ∈ r.2.2, c'.1.dir p = .file v ∨
          (c'.1.dir p = .absent ∧ c'.1.data v = none ∧ c'.2.dir p = .file v)) := by
  intro r c hc
  obtain ⟨hw1, hw2⟩ := openWrite_spec p adv s ha hs
  simp only [r, dumpModule] at hc ⊢
  generalize openWrite true p adv s = w at *
  obtain ⟨w1, w2, w3⟩ := w
  cases w1 with
  | error e =>
    simp only at hc ⊢
    obtain ⟨h1, h2, h3⟩ := hw1 none c hc
    refine ⟨h1, h2, fun v hv hne => ⟨c, hc, Or.inl ?_⟩⟩
    rcases h3 v hv hne with h | h
    · exact h
    · simp at h
  | ok i =>
    simp only [List.mem_append] at hc ⊢
    rcases hc with hc | hc
    · obtain ⟨h1, h2, h3⟩ := hw1 none c hc
      refine ⟨h1, h2, fun v hv hne => ⟨c, Or.inl hc, Or.inl ?_⟩⟩
      rcases h3 v hv hne with h | h
      · exact h
      · simp at h
    · obtain ⟨⟨h1, h2, h3⟩, h4⟩ := writeChunks_spec p i adv 3 chunks w2 c hc
      refine ⟨h1, h2, fun v hv hne => ?_⟩
      rcases h3 v hv hne with h | h
      · exact ⟨c, Or.inr hc, Or.inl h⟩
      · simp at h; subst h
        obtain ⟨c', hc', g1, g2, -⟩ := hw2 i rfl
        refine ⟨c', Or.inl hc', ?_⟩
        rcases g2 with g2 | ⟨g2, g3⟩
        · exact Or.inl g2
        · exact Or.inr ⟨g2, g3, g1⟩

/-- C12, the converse half: when the call succeeds, the open descriptor is on the regular file that
was at `p` when the successful system call finished. -/
theorem C12_dump_success_is_regular (p : String) (chunks : List (List Nat)) (adv : Adv)
    (s : S) (ha : adv.Kernel) (hs : s.Fresh) (i : Ino)
    (h : (dumpModule true p chunks adv s).1 = .ok i) :
    ∃ c ∈ (dumpModule true p chunks adv s).2.2, c.2.dir p = .file i := by
  obtain ⟨hw1, hw2⟩ := openWrite_spec p adv s ha hs
  simp only [dumpModule] at h ⊢
  generalize openWrite true p adv s = w at *
  obtain ⟨w1, w2, w3⟩ := w
  cases w1 with
  | error e => simp at h
  | ok j =>
    simp at h; subst h
    obtain ⟨c', hc', g1, -⟩ := hw2 j rfl
    exact ⟨c', by simp [hc'], g1⟩

/-- C12, usefulness: undisturbed, `dump_module` succeeds on an absent or regular path, the file then
holds exactly the bytes written, and a symlink is refused with the world untouched. -/
theorem C12_dump_undisturbed (p : String) (chunks : List (List Nat)) (s : S) :
    let r := dumpModule true p chunks (fun _ s => s) s
    ((∀ t, s.dir p ≠ .link t) → ∃ i, r.1 = .ok i ∧ r.2.1.dir p = .file i ∧
      r.2.1.data i = some chunks.flatten) ∧
    (∀ t, s.dir p = .link t → r.1 = .error .refused ∧ r.2.1 = s) := by
  have W : ∀ (cs : List (List Nat)) (k : Nat) (s : S) (i : Ino) (d : List Nat),
      s.data i = some d →
      (writeChunks i (fun _ s => s) k cs s).1.data i = some (d ++ cs.flatten) ∧
      (writeChunks i (fun _ s => s) k cs s).1.dir = s.dir := by
    intro cs
    induction cs with
    | nil => intro k s i d h; simp [writeChunks, h]
    | cons c cs ih =>
      intro k s i d h
      simp only [writeChunks, h]
      obtain ⟨h1, h2⟩ := ih (k+1) (setData s i (d ++ c)) i (d ++ c) (by simp [setData])
      refine ⟨by rw [h1]; simp, by rw [h2]; rfl⟩
  constructor
  · intro hl
    cases hd : s.dir p with
    | link t => exact absurd hd (hl t)
    | absent =>
      obtain ⟨h1, h2⟩ := W chunks 3 (setDir s p s.next) s.next [] (by simp [setDir])
      refine ⟨s.next, ?_, ?_, ?_⟩
      · simp [dumpModule, openWrite, sysOpen, openAt, hd]
      · simp [dumpModule, openWrite, sysOpen, openAt, hd, h2]; simp [setDir]
      · simpa [dumpModule, openWrite, sysOpen, openAt, hd] using h1
    | file i =>
      obtain ⟨h1, h2⟩ := W chunks 3 (setData s i []) i [] (by simp [setData])
      refine ⟨i, ?_, ?_, ?_⟩
      · simp [dumpModule, openWrite, sysOpen, openAt, hd, checkSymlink]
      · simp [dumpModule, openWrite, sysOpen, openAt, hd, h2, checkSymlink]; simp [setData, hd]
      · simpa [dumpModule, openWrite, sysOpen, openAt, hd, checkSymlink] using h1
  · intro t ht
    simp [dumpModule, openWrite, sysOpen, ht, checkSymlink]

/-- C13.  With O_NOFOLLOW, whatever others do between system calls, `load_module(p)` either fails or
every byte it reads comes from the inode that was directly at `p` as a regular file at the moment of
the successful open; it never changes the file system. -/
theorem C13_load_never_reads_through_symlink (p : String) (reads : Nat) (adv : Adv) (s : S) :
    let r := loadModule true p reads adv s
    (∀ c ∈ r.2.2, c.2 = c.1) ∧
    (∀ i, r.1 = .ok i → (∃ c ∈ r.2.2, c.1.dir p = .file i) ∧
      ∀ d ∈ r.2.1, ∃ c ∈ r.2.2, d = c.1.data i) := by
  have R : ∀ (n k : Nat) (i : Ino) (s : S),
      (∀ c ∈ (readAll i adv k n s).2.2, c.2 = c.1) ∧
      (∀ d ∈ (readAll i adv k n s).1, ∃ c ∈ (readAll i adv k n s).2.2, d = c.1.data i) := by
    intro n
    induction n with
    | zero => intro k i s; simp [readAll]
    | succ n ih =>
      intro k i s
      obtain ⟨h1, h2⟩ := ih (k+1) i (adv k s)
      simp only [readAll, List.mem_cons]
      refine ⟨?_, ?_⟩
      · rintro c (rfl | hc)
        · rfl
        · exact h1 c hc
      · rintro d (rfl | hd)
        · exact ⟨_, Or.inl rfl, rfl⟩
        · obtain ⟨c, hc, e⟩ := h2 d hd
          exact ⟨c, Or.inr hc, e⟩
  simp only [loadModule, openRead]
  cases hck : checkSymlink (adv 0 s) p with
  | true => simp
  | false =>
    simp only [Bool.false_eq_true, if_false]
    obtain ⟨h1, h2, h3, h4, h5, h6, h7⟩ :=
      sysOpen_nofollow (adv 1 (adv 0 s)) p { nofollow := true } rfl
    generalize adv 1 (adv 0 s) = s1 at *
    have hsame : ∀ q, sysOpen s1 p { nofollow := true } = q → q.2 = s1 ∧
        ∀ i, q.1 = .ok i → s1.dir p = .file i := by
      rintro q rfl
      cases hd : s1.dir p with
      | absent => simp [sysOpen, openAt, hd]
      | file i => simp [sysOpen, openAt, hd]
      | link t => simp [sysOpen, hd]
    generalize hr : sysOpen s1 p { nofollow := true } = q at *
    obtain ⟨q1, q2⟩ := q
    obtain ⟨e1, e2⟩ := hsame _ rfl
    simp only at e1 e2; subst e1
    cases q1 with
    | error e => simp
    | ok i =>
      obtain ⟨r1, r2⟩ := R reads 2 i q2
      refine ⟨?_, ?_⟩
      · intro c hc
        simp at hc
        rcases hc with rfl | rfl | hc
        · rfl
        · rfl
        · exact r1 c hc
      · intro j hj
        simp at hj; subst hj
        refine ⟨⟨(q2, q2), by simp, e2 i rfl⟩, ?_⟩
        intro d hd
        obtain ⟨c, hc, e⟩ := r2 d hd
        exact ⟨c, by simp [hc], e⟩

/-- C13, usefulness: undisturbed, a regular file is read and a symlink refused. -/
theorem C13_load_undisturbed (p : String) (s : S) :
    (∀ i, s.dir p = .file i → loadModule true p 1 (fun _ s => s) s =
      (.ok i, [s.data i], [(s, s), (s, s), (s, s)])) ∧
    (∀ t, s.dir p = .link t → (loadModule true p 1 (fun _ s => s) s).1 = .error .refused) := by
  constructor
  · intro i hi; simp [loadModule, openRead, checkSymlink, hi, sysOpen, openAt, readAll]
  · intro t ht; simp [loadModule, openRead, checkSymlink, ht]

/-! The race is real when the platform has no O_NOFOLLOW: an attacker who swaps a symlink in between
the check and the open makes `dump_module` truncate and overwrite the victim (inode 7). -/
def victimFS : S where
  dir := fun q => if q = "s.pkl" then .file 1 else if q = "victim" then .file 7 else .absent
  data := fun i => if i = 1 then some [1] else if i = 7 then some [42] else none
  next := 9

def swapIn (k : Nat) : Adv := fun j s =>
  if j = k then { s with dir := fun q => if q = "s.pkl" then .link "victim" else s.dir q } else s

theorem C12_without_nofollow_race :
    ∃ (adv : Adv) (s : S), adv.Kernel ∧ s.Fresh ∧ s.dir "victim" = .file 7 ∧ s.data 7 = some [42] ∧
      (∀ k s, (adv k s).data = s.data) ∧
      (dumpModule false "s.pkl" [[0]] adv s).2.1.data 7 = some [0] := by
  refine ⟨swapIn 2, victimFS, ?_, rfl, rfl, rfl, ?_, rfl⟩
  · intro k s h; simp only [swapIn, S.Fresh] at *; split <;> simpa using h
  · intro k s; simp only [swapIn]; split <;> rfl

theorem C13_without_nofollow_race :
    ∃ (adv : Adv) (s : S), s.dir "victim" = .file 7 ∧ s.data 7 = some [42] ∧
      (∀ k s, (adv k s).data = s.data) ∧
      (loadModule false "s.pkl" 1 adv s).2.1 = [some [42]] :=
  ⟨swapIn 1, victimFS, rfl, rfl, by intro k s; simp only [swapIn]; split <;> rfl, rfl⟩

/-- The same attackers fail when O_NOFOLLOW is available (hypotheses of C12/C13 are met). -/
example : Adv.Kernel (swapIn 2) ∧ victimFS.Fresh ∧
    (dumpModule true "s.pkl" [[0]] (swapIn 2) victimFS).1 = .error .loop ∧
    (dumpModule true "s.pkl" [[0]] (swapIn 2) victimFS).2.1.data 7 = some [42] := by
  refine ⟨?_, rfl, rfl, rfl⟩
  intro k s h; simp only [swapIn, S.Fresh] at *; split <;> simpa using h

end Verif.SafeOpen
