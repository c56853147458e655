import Verif.Model.FileHandle
/-! C09, C10, C11: file handles. -/
set_option linter.unusedSimpArgs false
namespace Verif.File

/-- An ordinary file name (not one of the special names in angle brackets). -/
def Ordinary (n : String) : Prop := n ∉ ["<stdin>", "<stdout>", "<stderr>"] ∧ n ≠ "<fdopen>"

instance (n : String) : Decidable (Ordinary n) := by unfold Ordinary; infer_instance

/-- Loading succeeded and its outcome (file system, handle) satisfies `P`. -/
def OkWith (r : Except Err (FS × Handle)) (P : FS → Handle → Prop) : Prop :=
  match r with
  | .ok (fs', f) => P fs' f
  | .error _ => False

/-- Length of the file at `n`, 0 if it does not exist. -/
def size (fs : FS) (n : String) : Nat := match fs n with | none => 0 | some c => c.length

/-- C09.  Loading a handle pickled with HANDLE_FMODE, of a file that exists, is the same as opening
the name in the pickled mode: same file system effect, and the pickled position plays no role
(a closed handle comes back closed).  It fails exactly when `open` itself fails. -/
theorem C09_handle_fmode (fs0 fs : FS) (n : String) (h : Handle) (s : Saved)
    (hn : Ordinary n) (hs : saveFile fs0 n h false .handle = some s) (hex : (fs n).isSome) :
    loadFile fs s = (match pyOpen fs n h.mode with
      | none => .error .unpickling
      | some (fs', f) => .ok (fs', { f with closed := h.closed })) := by
  obtain ⟨hn1, hn2⟩ := hn
  replace hn1 : n ∉ stdNames := hn1
  simp only [saveFile] at hs
  simp at hs
  subst hs
  obtain ⟨c, hc⟩ := Option.isSome_iff_exists.mp hex
  simp only [loadFile, createFilehandle, hn1, hn2, hc, if_false]
  simp [finish]
  cases hm : pyOpen fs n h.mode with
  | none => rfl
  | some p =>
    obtain ⟨fs', f⟩ := p
    have : f.closed = false := by
      unfold pyOpen at hm
      split at hm <;> simp at hm <;> (try (obtain ⟨-, rfl⟩ := hm; rfl))
    cases hcl : h.closed <;> simp
    rw [← this]

/-- C09, spelled out for read modes: nothing on disk changes, the handle is on the same name in the
same mode at offset 0. -/
theorem C09_read_modes (fs0 fs : FS) (n : String) (h : Handle) (s : Saved) (c : Content)
    (hn : Ordinary n) (hs : saveFile fs0 n h false .handle = some s) (hex : fs n = some c)
    (hr : h.mode.base = .r) :
    loadFile fs s = .ok (fs, ⟨.named n, h.mode, 0, h.closed⟩) := by
  rw [C09_handle_fmode fs0 fs n h s hn hs (by simp [hex])]
  simp [pyOpen, hr, hex]

/-- C09, by mode, for a file that exists at load time: `r` and `a` leave the file system alone, `w` empties that file and no
other, `x` is refused.  The position is 0, or the end for `a`, wherever the pickled handle was. -/
theorem C09_each_mode (fs0 fs : FS) (n : String) (h : Handle) (s : Saved) (c : Content)
    (hn : Ordinary n) (hs : saveFile fs0 n h false .handle = some s) (hex : fs n = some c) :
    (h.mode.base = .r → loadFile fs s = .ok (fs, ⟨.named n, h.mode, 0, h.closed⟩)) ∧
    (h.mode.base = .a → loadFile fs s = .ok (fs, ⟨.named n, h.mode, c.length, h.closed⟩)) ∧
    (h.mode.base = .w → OkWith (loadFile fs s) fun fs' f => fs' n = some [] ∧ (∀ m, m ≠ n → fs' m = fs m) ∧
      f = ⟨.named n, h.mode, 0, h.closed⟩) ∧
    (h.mode.base = .x → loadFile fs s = .error .unpickling) := by
  rw [C09_handle_fmode fs0 fs n h s hn hs (by simp [hex])]
  refine ⟨?_, ?_, ?_, ?_⟩ <;> intro hb <;> simp [pyOpen, hb, hex, OkWith, setFile]
  intro m hm; simp [hm]

/-- C09, a file missing at load time: a handle for reading comes back on an anonymous temporary file; in any other mode the file is
created empty. -/
theorem C09_missing (fs0 fs : FS) (n : String) (h : Handle) (s : Saved)
    (hn : Ordinary n) (hs : saveFile fs0 n h false .handle = some s) (hex : fs n = none) :
    (h.mode.base = .r → loadFile fs s = .ok (fs, ⟨.temp, h.mode, 0, h.closed⟩)) ∧
    (h.mode.base ≠ .r → OkWith (loadFile fs s) fun fs' f => fs' n = some [] ∧ (∀ m, m ≠ n → fs' m = fs m) ∧
      f = ⟨.named n, h.mode, 0, h.closed⟩) := by
  obtain ⟨hn1, hn2⟩ := hn
  replace hn1 : n ∉ stdNames := hn1
  simp [saveFile] at hs
  subst hs
  have hst : n ∉ stdNames := hn1
  refine ⟨?_, ?_⟩
  · intro hb
    cases hc : h.closed <;> simp [loadFile, createFilehandle, hst, hn2, hex, hb, finish, hc]
  · intro hb
    have hp : pyOpen fs n h.mode = some (setFile fs n [], ⟨.named n, h.mode, 0, false⟩) := by
      cases hm : h.mode.base <;> simp_all [pyOpen]
    cases hc : h.closed <;>
      simp [loadFile, createFilehandle, hst, hn2, hex, hb, finish, hc, hp, OkWith, setFile] <;>
      (intro m hm; simp [hm])

/-- C09: a standard stream comes back as the standard stream of the process that loads it, not repositioned, whatever files exist
and whatever the modes; no file is touched. -/
theorem C09_standard_streams (fs0 fs : FS) (n : String) (m : Mode) (strictio : Bool) (fm : FMode) (s : Saved)
    (hn : n ∈ ["<stdin>", "<stdout>", "<stderr>"]) (hs : saveStd fs0 n m false strictio fm = some s) :
    loadFile fs s = .ok (fs, ⟨.std n, m, 0, false⟩) := by
  have hst : n ∈ stdNames := hn
  have h' : s.name = n ∧ s.mode = m ∧ s.position = -1 ∧ s.closed = false := by
    unfold saveStd at hs
    simp only at hs
    split at hs
    · cases hp : pyOpen fs0 n ⟨.r, false, false⟩ with
      | none => rw [hp] at hs; cases hs
      | some q => rw [hp] at hs; cases hs; exact ⟨rfl, rfl, rfl, rfl⟩
    · cases hs; exact ⟨rfl, rfl, rfl, rfl⟩
  obtain ⟨h1, h2, h3, h4⟩ := h'
  simp [loadFile, createFilehandle, h1, h2, h3, h4, hst, finish]

/-- C09 fails for a closed standard stream: loading it closes the standard stream of the process that loads it. -/
theorem C09_closed_stream_closes_ours (fs0 fs : FS) (n : String) (m : Mode) (strictio : Bool) (fm : FMode) (s : Saved)
    (hn : n ∈ ["<stdin>", "<stdout>", "<stderr>"]) (hs : saveStd fs0 n m true strictio fm = some s) :
    loadFile fs s = .ok (fs, ⟨.std n, m, 0, true⟩) := by
  have hst : n ∈ stdNames := hn
  have h' : s.name = n ∧ s.mode = m ∧ s.closed = true := by
    unfold saveStd at hs
    simp only at hs
    split at hs
    · cases hp : pyOpen fs0 n ⟨.r, false, false⟩ with
      | none => rw [hp] at hs; cases hs
      | some q => rw [hp] at hs; cases hs; exact ⟨rfl, rfl, rfl⟩
    · cases hs; exact ⟨rfl, rfl, rfl⟩
  obtain ⟨h1, h2, h4⟩ := h'
  simp [loadFile, createFilehandle, h1, h2, h4, hst, finish]

/-- C11: with FILE_FMODE a standard stream cannot be pickled at all, unless a file happens to have its name. -/
theorem C11_standard_stream_unpicklable (fs : FS) (n : String) (m : Mode) (closed strictio : Bool) (hf : fs n = none) :
    saveStd fs n m closed strictio .file = none := by
  simp [saveStd, pyOpen, hf]

/-- C09 fails for an ordinary file that has the name of a standard stream: the handle comes back on the standard stream. -/
theorem C09_file_named_like_a_stream :
    loadFile (fun m => if m = "<stdout>" then some ['x'] else none)
      ((saveFile (fun m => if m = "<stdout>" then some ['x'] else none) "<stdout>" ⟨.named "<stdout>", ⟨.r, false, false⟩, 1, false⟩ false .handle).get
        (by decide)) = .ok ((fun m => if m = "<stdout>" then some ['x'] else none), ⟨.std "<stdout>", ⟨.r, false, false⟩, 0, false⟩) := by
  rfl

/-- C10.  Loading an open handle pickled with CONTENTS_FMODE, whatever the file system holds:
it succeeds; an existing file keeps its contents in every mode (also 'w' and 'x') and the handle is on
that name in that mode at min(pickled position, current length); a missing file opened for writing is
created empty with position 0; a missing file opened for reading becomes an anonymous empty temporary
file; no other file is touched. -/
theorem C10_contents_fmode (fs0 fs : FS) (n : String) (h : Handle) (s : Saved)
    (hn : Ordinary n) (hs : saveFile fs0 n h false .contents = some s) (ho : h.closed = false) :
    OkWith (loadFile fs s) fun fs' f => f.mode = h.mode ∧ f.closed = false ∧
      (∀ m, m ≠ n → fs' m = fs m) ∧
      (∀ c, fs n = some c → fs' n = some c ∧ f.src = .named n ∧ f.pos = min h.pos c.length) ∧
      (fs n = none → h.mode.base ≠ .r → fs' n = some [] ∧ f.src = .named n ∧ f.pos = 0) ∧
      (fs n = none → h.mode.base = .r → fs' n = none ∧ f.src = .temp ∧ f.pos = 0) := by
  obtain ⟨hn1, hn2⟩ := hn
  replace hn1 : n ∉ stdNames := hn1
  simp [saveFile, ho] at hs
  subst hs
  simp only [loadFile, createFilehandle, hn1, hn2, if_false]
  cases hfs : fs n with
  | none =>
    simp [openNoTrunc, pyOpen, hfs, finish, setFile, OkWith]
    by_cases hp : 0 < h.pos
    · cases hb : h.mode.base <;> simp [hp] <;> (try (refine ⟨?_, ?_⟩)) <;>
        (try intro m hm) <;> simp_all [setFile]
    · have : h.pos = 0 := by omega
      cases hb : h.mode.base <;> simp [this] <;> (try (refine ⟨?_, ?_⟩)) <;>
        (try intro m hm) <;> simp_all [setFile]
  | some c =>
    simp [openNoTrunc, pyOpen, hfs, finish, OkWith]
    by_cases hp : c.length < h.pos
    · have : min h.pos c.length = c.length := by omega
      cases hb : h.mode.base <;> simp [hp, this, hfs]
    · have : min h.pos c.length = h.pos := by omega
      cases hb : h.mode.base <;> simp [hp, this, hfs]

/-- C10, closed handles: also never truncates, and the copy is closed. -/
theorem C10_contents_fmode_closed (fs0 fs : FS) (n : String) (h : Handle) (s : Saved)
    (hn : Ordinary n) (hs : saveFile fs0 n h false .contents = some s) (ho : h.closed = true) :
    OkWith (loadFile fs s) fun fs' f => f.mode = h.mode ∧ f.closed = true ∧
      (∀ m, m ≠ n → fs' m = fs m) ∧ (∀ c, fs n = some c → fs' n = some c) := by
  obtain ⟨hn1, hn2⟩ := hn
  replace hn1 : n ∉ stdNames := hn1
  simp [saveFile, ho] at hs
  subst hs
  simp only [loadFile, createFilehandle, hn1, hn2, if_false]
  cases hfs : fs n with
  | none =>
    simp [openNoTrunc, pyOpen, hfs, finish, setFile, OkWith]
    cases hb : h.mode.base <;> simp <;> intro m hm <;> simp_all [setFile]
  | some c =>
    have : ¬ ((c.length : Int) < 0) := by omega
    simp [openNoTrunc, pyOpen, hfs, finish, this, OkWith]
    cases hb : h.mode.base <;> simp [hfs]

/-- With strictio a missing file or a too-short file is refused and nothing is touched. -/
theorem C10_strictio (fs0 fs : FS) (n : String) (h : Handle) (s : Saved) (fm : FMode)
    (hn : Ordinary n) (hs : saveFile fs0 n h true fm = some s) (ho : h.closed = false)
    (hbad : fs n = none ∨ size fs n < h.pos) :
    loadFile fs s = .error .fileNotFound ∨ loadFile fs s = .error .valueError := by
  obtain ⟨hn1, hn2⟩ := hn
  replace hn1 : n ∉ stdNames := hn1
  have hs' : s.name = n ∧ s.mode = h.mode ∧ s.position = h.pos ∧ s.closed = false ∧
      s.strictio = true ∧ s.fmode = fm := by
    unfold saveFile at hs
    simp only [ho] at hs
    split at hs
    · split at hs
      · simp at hs
      · simp at hs; subst hs; simp_all
    · simp at hs; subst hs; simp
  obtain ⟨h1, h2, h3, h4, h5, h6⟩ := hs'
  simp only [loadFile, createFilehandle, h1, h2, h3, h4, h5, h6, hn1, hn2, if_false]
  cases hfs : fs n with
  | none => left; simp
  | some c =>
    right
    have : c.length < h.pos := by
      rcases hbad with hb | hb
      · simp [hfs] at hb
      · simpa [size, hfs] using hb
    have : (c.length : Int) < h.pos := by omega
    simp [this]

/-- C10: under `strictio` a closed handle loads whenever its file exists, even an empty one. -/
theorem C10_strictio_closed (fs0 fs : FS) (n : String) (h : Handle) (s : Saved) (c : Content)
    (hn : Ordinary n) (hs : saveFile fs0 n h true .contents = some s) (ho : h.closed = true)
    (hex : fs n = some c) :
    OkWith (loadFile fs s) fun fs' f => fs' = fs ∧ f.mode = h.mode ∧ f.closed = true ∧ f.src = .named n := by
  obtain ⟨hn1, hn2⟩ := hn
  replace hn1 : n ∉ stdNames := hn1
  simp [saveFile, ho] at hs
  subst hs
  have hneg : ¬ ((c.length : Int) < 0) := by omega
  cases hb : h.mode.base <;>
    simp [loadFile, createFilehandle, hn1, hn2, hex, hneg, hb, pyOpen, openNoTrunc, finish, OkWith]

/-- C11 at full strength, as a statement: whatever the file system at load time, loading succeeds,
the file has the contents it had at dump time, the handle the same mode and position. -/
def C11_full : Prop := ∀ (fs0 fs : FS) (n : String) (h : Handle) (s : Saved) (c : Content),
  Ordinary n → fs0 n = some c → h.closed = false → saveFile fs0 n h false .file = some s →
  OkWith (loadFile fs s) fun fs' f => fs' n = some c ∧ f = ⟨.named n, h.mode, h.pos, false⟩

theorem univ_of_no_cr (c : Content) (h : '\r' ∉ c) : univ c = c := by
  fun_induction univ c <;> simp_all

theorem univ_no_cr (c : Content) : '\r' ∉ univ c := by
  fun_induction univ c <;> simp_all
  rename_i h _; exact fun e => h e.symm

/-- C11 for every text file without carriage returns, in every mode but exclusive creation ('x')
and binary writing ('wb'): contents, mode and position are restored on any file system.
Missing from the full statement: those two modes and contents with carriage returns, for which it is
false (see below). -/
theorem C11_file_fmode_partial (fs0 fs : FS) (n : String) (h : Handle) (s : Saved) (c : Content)
    (hn : Ordinary n) (hc : fs0 n = some c) (ho : h.closed = false)
    (hs : saveFile fs0 n h false .file = some s)
    (hx : h.mode.base ≠ .x) (hb : h.mode.base = .w → h.mode.bin = false) (hcr : '\r' ∉ c) :
    OkWith (loadFile fs s) fun fs' f => fs' n = some c ∧
      f = ⟨.named n, h.mode, h.pos, false⟩ ∧ (∀ m, m ≠ n → fs' m = fs m) := by
  obtain ⟨hn1, hn2⟩ := hn
  replace hn1 : n ∉ stdNames := hn1
  simp [saveFile, pyOpen, hc, ho, univ_of_no_cr c hcr] at hs
  subst hs
  simp only [loadFile, createFilehandle, hn1, hn2, if_false]
  have hpos : (0 : Int) ≤ h.pos := by omega
  cases hm : h.mode.base with
  | x => exact absurd hm hx
  | w =>
    simp [hm, pyOpen, writeAll, hb hm, finish, OkWith, setFile]
    intro m hmn; simp [hmn]
  | r =>
    simp [hm, pyOpen, writeAll, finish, OkWith, setFile]
    intro m hmn; simp [hmn]
  | a =>
    simp [hm, pyOpen, writeAll, finish, OkWith, setFile]
    intro m hmn; simp [hmn]

/-- C11 for closed handles (same exclusions): contents and mode are restored, the copy is closed. -/
theorem C11_file_fmode_closed_partial (fs0 fs : FS) (n : String) (h : Handle) (s : Saved)
    (c : Content) (hn : Ordinary n) (hc : fs0 n = some c) (ho : h.closed = true)
    (hs : saveFile fs0 n h false .file = some s)
    (hx : h.mode.base ≠ .x) (hb : h.mode.base = .w → h.mode.bin = false) (hcr : '\r' ∉ c) :
    OkWith (loadFile fs s) fun fs' f => fs' n = some c ∧ f.mode = h.mode ∧
      f.closed = true ∧ (∀ m, m ≠ n → fs' m = fs m) := by
  obtain ⟨hn1, hn2⟩ := hn
  replace hn1 : n ∉ stdNames := hn1
  simp [saveFile, pyOpen, hc, ho, univ_of_no_cr c hcr] at hs
  subst hs
  simp only [loadFile, createFilehandle, hn1, hn2, if_false]
  cases hm : h.mode.base with
  | x => exact absurd hm hx
  | w =>
    simp [hm, pyOpen, writeAll, hb hm, finish, OkWith, setFile]
    intro m hmn; simp [hmn]
  | r =>
    simp [hm, pyOpen, writeAll, finish, OkWith, setFile]
    intro m hmn; simp [hmn]
  | a =>
    simp [hm, pyOpen, writeAll, finish, OkWith, setFile]
    intro m hmn; simp [hmn]

/-- C11 fails for every binary-write handle: the load raises TypeError (text written to 'wb'). -/
theorem C11_binary_write_fails (fs0 fs : FS) (n : String) (h : Handle) (s : Saved) (c : Content)
    (hn : Ordinary n) (hc : fs0 n = some c)
    (hs : saveFile fs0 n h false .file = some s) (hw : h.mode.base = .w) (hb : h.mode.bin = true) :
    loadFile fs s = .error .typeError := by
  obtain ⟨hn1, hn2⟩ := hn
  replace hn1 : n ∉ stdNames := hn1
  simp [saveFile, pyOpen, hc] at hs
  subst hs
  simp [loadFile, createFilehandle, hn1, hn2, pyOpen, hw, hb, writeAll]

/-- C11 fails for every exclusive-creation handle: the file has just been written, so re-opening it
in 'x' mode fails. -/
theorem C11_exclusive_fails (fs0 fs : FS) (n : String) (h : Handle) (s : Saved) (c : Content)
    (hn : Ordinary n) (hc : fs0 n = some c)
    (hs : saveFile fs0 n h false .file = some s) (hx : h.mode.base = .x) :
    loadFile fs s = .error .unpickling := by
  obtain ⟨hn1, hn2⟩ := hn
  replace hn1 : n ∉ stdNames := hn1
  simp [saveFile, pyOpen, hc] at hs
  subst hs
  simp [loadFile, createFilehandle, hn1, hn2, pyOpen, hx, writeAll, setFile]

theorem C11_full_false : ¬ C11_full := by
  intro H
  have hn : Ordinary "a.bin" := by decide
  let fs0 : FS := fun m => if m = "a.bin" then some ['x'] else none
  have hl := H fs0 fs0 "a.bin" ⟨.named "a.bin", ⟨.w, false, true⟩, 1, false⟩ _ ['x']
    hn (by simp [fs0]) rfl rfl
  rw [C11_binary_write_fails fs0 fs0 "a.bin" _ _ ['x'] hn (by simp [fs0]) rfl rfl rfl] at hl
  cases hl

/-- C11 also fails on contents with carriage returns, even in plain 'r' mode: they come back as
line feeds. -/
theorem C11_carriage_returns_lost (fs0 fs : FS) (n : String) (h : Handle) (s : Saved) (c : Content)
    (hn : Ordinary n) (hc : fs0 n = some c) (hs : saveFile fs0 n h false .file = some s)
    (hr : h.mode.base = .r) (hcr : '\r' ∈ c) :
    OkWith (loadFile fs s) fun fs' _ => ∃ c', fs' n = some c' ∧ c' ≠ c := by
  obtain ⟨hn1, hn2⟩ := hn
  replace hn1 : n ∉ stdNames := hn1
  simp [saveFile, pyOpen, hc] at hs
  subst hs
  simp only [loadFile, createFilehandle, hn1, hn2, if_false]
  simp [hr, pyOpen, writeAll, setFile]
  cases h.closed <;> simp [finish, OkWith, setFile] <;>
    exact fun e => univ_no_cr c (by rw [e]; exact hcr)

/-! Non-vacuity: concrete handles and file systems satisfying the hypotheses. -/
section
def fsA : FS := fun m => if m = "log.txt" then some "hello\nworld".toList else none
def hA : Handle := ⟨.named "log.txt", ⟨.w, true, false⟩, 7, false⟩
example : Ordinary "log.txt" := by decide
example : (saveFile fsA "log.txt" hA false .contents).isSome := by decide
example : fsA "log.txt" = some "hello\nworld".toList ∧ '\r' ∉ "hello\nworld".toList ∧
  hA.closed = false ∧ hA.mode.base ≠ .x ∧ hA.mode.bin = false := by decide
example : (saveFile fsA "log.txt" hA false .file).isSome := by
  simp [saveFile, pyOpen, fsA]
/-- at load time the file has shrunk to 3 characters: the position is clamped -/
example : ∃ fs' f, loadFile (fun m => if m = "log.txt" then some "abc".toList else none)
    ((saveFile fsA "log.txt" hA false .contents).get (by decide)) = .ok (fs', f) ∧ f.pos = 3 := by
  refine ⟨_, _, rfl, ?_⟩; decide
end

/-- a text made of lines, each with its line end -/
def linesWith (ls : List (List Char × List Char)) : Content := ls.flatMap fun p => p.1 ++ p.2

theorem univ_plain (l t : Content) (h : ∀ c ∈ l, c ≠ '\r') : univ (l ++ t) = l ++ univ t := by
  induction l with
  | nil => rfl
  | cons c l ih =>
    have hc : c ≠ '\r' := h c (by simp)
    have : univ (c :: (l ++ t)) = c :: univ (l ++ t) := by
      rw [univ.eq_def]
      split
      · rename_i e; simp at e
      · rename_i e; exact absurd (List.cons.inj e).1 hc
      · rename_i e; exact absurd (List.cons.inj e).1 hc
      · rename_i e; obtain ⟨e1, e2⟩ := List.cons.inj e; rw [e1, e2]
    rw [List.cons_append, this, ih (fun x hx => h x (by simp [hx])), List.cons_append]

/-- C11, contents with carriage returns: what is stored with FILE_FMODE is the same lines, but every line end has become a newline ("\r\n"
becomes one "\n", not two). -/
theorem C11_line_ends (fs0 : FS) (n : String) (h : Handle) (s : Saved) (ls : List (List Char × List Char)) (last : List Char) (strictio : Bool)
    (hl : ∀ p ∈ ls, (∀ c ∈ p.1, c ≠ '\r' ∧ c ≠ '\n') ∧ (p.2 = ['\n'] ∨ p.2 = ['\r', '\n']))
    (hlast : ∀ c ∈ last, c ≠ '\r' ∧ c ≠ '\n')
    (hc : fs0 n = some (linesWith ls ++ last)) (hs : saveFile fs0 n h strictio .file = some s) :
    s.fdata = linesWith (ls.map fun p => (p.1, ['\n'])) ++ last := by
  simp [saveFile, pyOpen, hc] at hs
  subst hs
  show univ (linesWith ls ++ last) = _
  clear hc
  induction ls with
  | nil =>
    have := univ_plain last [] (fun c hc => (hlast c hc).1)
    simpa [linesWith, univ] using this
  | cons p ls ih =>
    obtain ⟨h1, h2⟩ := hl p (by simp)
    have ih := ih (fun q hq => hl q (by simp [hq]))
    have e : linesWith (p :: ls) ++ last = p.1 ++ (p.2 ++ (linesWith ls ++ last)) := by simp [linesWith]
    have e' : linesWith ((p :: ls).map fun p => (p.1, ['\n'])) ++ last =
        p.1 ++ ('\n' :: (linesWith (ls.map fun p => (p.1, ['\n'])) ++ last)) := by simp [linesWith]
    rw [e, e', univ_plain _ _ (fun c hc => (h1 c hc).1), ← ih]
    congr 1
    rcases h2 with h2 | h2 <;> rw [h2]
    · rfl
    · rfl

example : linesWith [("ab".toList, ['\r', '\n']), ("".toList, ['\n'])] ++ "x".toList = "ab\r\n\nx".toList := by decide

end Verif.File
