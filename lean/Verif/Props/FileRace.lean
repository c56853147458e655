import Verif.Model.FileRace
/-! C102: loading a pickled file handle while other processes use the files, and when the loading process is killed. -/
set_option linter.unusedSimpArgs false
set_option linter.unusedVariables false
namespace Verif.FileRace
open Verif.File

/-! ### Specification -/

/-- the system call destroyed nothing: files keep their contents; at most the file `n` has been created, empty -/
def Harmless (n : String) (step : FS × FS) : Prop :=
  (∀ m c, step.1 m = some c → step.2 m = some c) ∧
  (∀ m, step.1 m = none → step.2 m = none ∨ (m = n ∧ step.2 m = some []))

/-- the system call touched no other file -/
def Only (n : String) (step : FS × FS) : Prop := ∀ m, m ≠ n → step.2 m = step.1 m

/-- what may be on the disk if the process is killed: the file system at the beginning, and after each system call -/
def onDisk (fs : FS) (o : Out) : List FS := fs :: o.steps.map (·.2)

/-- nobody else does anything -/
def alone : Nat → FS → FS := fun _ fs => fs

/-! ### Lemmas -/

/-- every system call of the program has this property -/
inductive All (P : FS × FS → Prop) : Prog → Prop
  | ret (r) : All P (.ret r)
  | isThere (n k) : (∀ fs, P (fs, fs)) → (∀ b, All P (k b)) → All P (.isThere n k)
  | size (n k) : (∀ fs, P (fs, fs)) → (∀ b, All P (k b)) → All P (.size n k)
  | openIt (n m k) : (∀ fs, P (fs, fs)) → (∀ fs fs' h, pyOpen fs n m = some (fs', h) → P (fs, fs')) → (∀ b, All P (k b)) →
      All P (.openIt n m k)
  | create (n k) : (∀ fs, P (fs, (openNoTrunc fs n ⟨.w, false, false⟩).1)) → All P k → All P (.create n k)
  | write (n pos d k) : (∀ fs, P (fs, fs)) → (∀ fs c, P (fs, setFile fs n c)) → All P k → All P (.write n pos d k)

theorem all_exec {P : FS × FS → Prop} {p : Prog} (h : All P p) : ∀ (env : Nat → FS → FS) (i : Nat) (fs : FS),
    ∀ st ∈ (exec env p i fs).steps, P st := by
  induction h with
  | ret r => intro env i fs st hst; simp [exec] at hst
  | isThere n k h0 _ ih =>
    intro env i fs st hst
    simp only [exec, Out.after, List.mem_cons] at hst
    rcases hst with rfl | hst
    · exact h0 _
    · exact ih _ _ _ _ _ hst
  | size n k h0 _ ih =>
    intro env i fs st hst
    simp only [exec, Out.after, List.mem_cons] at hst
    rcases hst with rfl | hst
    · exact h0 _
    · exact ih _ _ _ _ _ hst
  | openIt n m k h0 h1 _ ih =>
    intro env i fs st hst
    simp only [exec] at hst
    cases ho : pyOpen (env i fs) n m with
    | none =>
      simp only [ho, Out.after, List.mem_cons] at hst
      rcases hst with rfl | hst
      · exact h0 _
      · exact ih _ _ _ _ _ hst
    | some r =>
      obtain ⟨fs', h'⟩ := r
      simp only [ho, Out.after, List.mem_cons] at hst
      rcases hst with rfl | hst
      · exact h1 _ _ _ ho
      · exact ih _ _ _ _ _ hst
  | create n k h0 _ ih =>
    intro env i fs st hst
    simp only [exec, Out.after, List.mem_cons] at hst
    rcases hst with rfl | hst
    · exact h0 _
    · exact ih _ _ _ _ hst
  | write n pos d k h0 h1 _ ih =>
    intro env i fs st hst
    simp only [exec, Out.after, List.mem_cons] at hst
    rcases hst with rfl | hst
    · cases (env i fs) n with
      | none => exact h0 _
      | some c => exact h1 _ _
    · exact ih _ _ _ _ hst

theorem all_ending (P : FS × FS → Prop) (h : Handle) (position : Int) (closed : Bool) (fmode : FMode) :
    All P (ending h position closed fmode) := by
  unfold ending; (repeat' split) <;> exact .ret _

theorem harmless_self (n : String) (fs : FS) : Harmless n (fs, fs) := ⟨fun _ _ h => h, fun _ h => Or.inl h⟩

theorem harmless_open (n : String) (m : Mode) (hm : m.base ≠ .w) (fs fs' : FS) (h : Handle) (ho : pyOpen fs n m = some (fs', h)) :
    Harmless n (fs, fs') := by
  unfold pyOpen at ho
  cases hb : m.base <;> cases hf : fs n <;> simp only [hb, hf] at ho
  · cases ho
  · cases ho; exact harmless_self _ _
  · exact absurd hb hm
  · exact absurd hb hm
  · cases ho
    refine ⟨fun k c hk => ?_, fun k hk => ?_⟩
    · have : k ≠ n := fun hkn => by rw [hkn] at hk; simp [hf] at hk
      simpa [setFile, this] using hk
    · by_cases hkn : k = n
      · exact Or.inr ⟨hkn, by simp [setFile, hkn]⟩
      · exact Or.inl (by simpa [setFile, hkn] using hk)
  · cases ho; exact harmless_self _ _
  · cases ho
    refine ⟨fun k c hk => ?_, fun k hk => ?_⟩
    · have : k ≠ n := fun hkn => by rw [hkn] at hk; simp [hf] at hk
      simpa [setFile, this] using hk
    · by_cases hkn : k = n
      · exact Or.inr ⟨hkn, by simp [setFile, hkn]⟩
      · exact Or.inl (by simpa [setFile, hkn] using hk)
  · cases ho

theorem harmless_create (n : String) (fs : FS) : Harmless n (fs, (openNoTrunc fs n ⟨.w, false, false⟩).1) := by
  unfold openNoTrunc
  cases hf : fs n with
  | some c => exact harmless_self _ _
  | none =>
    refine ⟨fun k c hk => ?_, fun k hk => ?_⟩
    · have : k ≠ n := fun hkn => by rw [hkn] at hk; simp [hf] at hk
      simpa [setFile, this] using hk
    · by_cases hkn : k = n
      · exact Or.inr ⟨hkn, by simp [setFile, hkn]⟩
      · exact Or.inl (by simpa [setFile, hkn] using hk)

theorem all_harmless (cut : Content → List Content) (s : Saved) (hm : s.fmode = .contents ∨ (s.fmode = .handle ∧ s.mode.base ≠ .w)) :
    All (Harmless s.name) (createProg cut s) := by
  have hnf : s.fmode ≠ .file := by rcases hm with h | h <;> simp [h]
  have hop : ∀ there position, All (Harmless s.name) (opening cut s.name s.mode position s.closed s.fmode s.fdata there) := by
    intro there position
    unfold opening
    rw [if_neg hnf]
    split
    · exact all_ending _ _ _ _ _
    · split
      · exact .create _ _ (harmless_create _) (all_ending _ _ _ _ _)
      · rename_i hc
        have hw : s.mode.base ≠ .w := by
          rcases hm with h | h
          · intro hw; exact hc ⟨h, Or.inl hw⟩
          · exact h.2
        refine .openIt _ _ _ (harmless_self _) (fun fs fs' h ho => harmless_open _ _ hw _ _ _ ho) ?_
        intro b
        cases b
        · exact .ret _
        · exact all_ending _ _ _ _ _
  have hsz : ∀ there size, All (Harmless s.name)
      (sized cut s.name s.mode s.position s.closed s.strictio s.fmode s.fdata there size) := by
    intro there size
    unfold sized
    split
    · exact .ret _
    · exact hop _ _
  unfold createProg
  split
  · exact all_ending _ _ _ _ _
  · split
    · exact all_ending _ _ _ _ _
    · refine .isThere _ _ (harmless_self _) ?_
      intro b
      cases b
      · simp only [Bool.not_false, if_true]
        split
        · exact .ret _
        · exact hsz _ _
      · simp only [Bool.not_true, Bool.false_eq_true, if_false]
        refine .size _ _ (harmless_self _) ?_
        intro o
        cases o
        · exact .ret _
        · exact hsz _ _

theorem only_open (n : String) (m : Mode) (fs fs' : FS) (h : Handle) (ho : pyOpen fs n m = some (fs', h)) : Only n (fs, fs') := by
  intro k hk
  unfold pyOpen at ho
  cases hb : m.base <;> cases hf : fs n <;> simp only [hb, hf] at ho <;> cases ho <;> simp [setFile, hk]

theorem only_create (n : String) (fs : FS) : Only n (fs, (openNoTrunc fs n ⟨.w, false, false⟩).1) := by
  intro k hk
  unfold openNoTrunc
  cases fs n <;> simp [setFile, hk]

theorem all_writes {P : FS × FS → Prop} (n : String) (h0 : ∀ fs, P (fs, fs)) (h1 : ∀ fs c, P (fs, setFile fs n c)) (k : Prog)
    (hk : All P k) : ∀ (ds : List Content) (pos : Nat), All P (writes n pos ds k) := by
  intro ds
  induction ds with
  | nil => intro pos; exact hk
  | cons d ds ih => intro pos; exact .write _ _ _ _ h0 h1 (ih _)

theorem all_only (cut : Content → List Content) (s : Saved) : All (Only s.name) (createProg cut s) := by
  have h0 : ∀ fs, Only s.name (fs, fs) := fun fs m _ => rfl
  have h1 : ∀ fs c, Only s.name (fs, setFile fs s.name c) := fun fs c m hm => by simp [setFile, hm]
  have hop : ∀ there position, All (Only s.name) (opening cut s.name s.mode position s.closed s.fmode s.fdata there) := by
    intro there position
    unfold opening
    split
    · refine .openIt _ _ _ h0 (fun _ _ _ ho => only_open _ _ _ _ _ ho) ?_
      intro b
      cases b
      · exact .ret _
      · by_cases hw : s.mode.base = .w
        · simp only [hw, if_true]
          split
          · exact .ret _
          · exact all_writes _ h0 h1 _ (all_ending _ _ _ _ _) _ _
        · simp only [hw, if_false, Bool.false_eq_true]
          refine all_writes _ h0 h1 _ ?_ _ _
          refine .openIt _ _ _ h0 (fun _ _ _ ho => only_open _ _ _ _ _ ho) ?_
          intro b
          cases b
          · exact .ret _
          · exact all_ending _ _ _ _ _
    · split
      · exact all_ending _ _ _ _ _
      · split
        · exact .create _ _ (only_create _) (all_ending _ _ _ _ _)
        · refine .openIt _ _ _ h0 (fun _ _ _ ho => only_open _ _ _ _ _ ho) ?_
          intro b
          cases b
          · exact .ret _
          · exact all_ending _ _ _ _ _
  have hsz : ∀ there size, All (Only s.name)
      (sized cut s.name s.mode s.position s.closed s.strictio s.fmode s.fdata there size) := by
    intro there size
    unfold sized
    split
    · exact .ret _
    · exact hop _ _
  unfold createProg
  split
  · exact all_ending _ _ _ _ _
  · split
    · exact all_ending _ _ _ _ _
    · refine .isThere _ _ h0 ?_
      intro b
      cases b
      · simp only [Bool.not_false, if_true]
        split
        · exact .ret _
        · exact hsz _ _
      · simp only [Bool.not_true, Bool.false_eq_true, if_false]
        refine .size _ _ h0 ?_
        intro o
        cases o
        · exact .ret _
        · exact hsz _ _

/-! ### Theorems -/

/-- C102, CONTENTS_FMODE: whatever other processes do meanwhile, whatever the mode of the handle (also 'w'), whether the load succeeds,
fails or is killed: no system call of the load takes away or changes the contents of any file; at most it creates the file, empty. -/
theorem C102_contents_harmless (env : Nat → FS → FS) (fs : FS) (cut : Content → List Content) (s : Saved) (h : s.fmode = .contents) :
    ∀ step ∈ (exec env (createProg cut s) 0 fs).steps, Harmless s.name step :=
  all_exec (all_harmless cut s (Or.inl h)) env 0 fs

/-- C102, HANDLE_FMODE: the same, unless the handle was open for writing ('w'). -/
theorem C102_handle_harmless (env : Nat → FS → FS) (fs : FS) (cut : Content → List Content) (s : Saved) (h : s.fmode = .handle)
    (hw : s.mode.base ≠ .w) : ∀ step ∈ (exec env (createProg cut s) 0 fs).steps, Harmless s.name step :=
  all_exec (all_harmless cut s (Or.inr ⟨h, hw⟩)) env 0 fs

/-- In every mode no other file is touched. -/
theorem C102_only_that_file (env : Nat → FS → FS) (fs : FS) (cut : Content → List Content) (s : Saved) :
    ∀ step ∈ (exec env (createProg cut s) 0 fs).steps, Only s.name step :=
  all_exec (all_only cut s) env 0 fs

/-! ### Nobody else at work -/

/-- the run ended as the model of FileHandle.lean says -/
def Agrees (o : Out) : Except Err (FS × Handle) → Prop
  | .ok (fs, h) => o.fs = fs ∧ o.result = .ok h
  | .error e => o.result = .error e

theorem agrees_after {o : Out} {r : Except Err (FS × Handle)} (a b : FS) (h : Agrees o r) : Agrees (o.after a b) r := by
  cases r with
  | ok p => exact h
  | error e => exact h

theorem agrees_ending (h : Handle) (position : Int) (closed : Bool) (fmode : FMode) (i : Nat) (fs : FS) :
    Agrees (exec alone (ending h position closed fmode) i fs) (.ok (finish fs h position closed fmode)) := by
  unfold ending finish
  (repeat' split) <;> exact ⟨rfl, rfl⟩

theorem setFile_setFile (fs : FS) (n : String) (c d : Content) : setFile (setFile fs n c) n d = setFile fs n d := by
  funext m; simp only [setFile]; split <;> rfl

theorem setFile_same (fs : FS) (n : String) (c : Content) (h : fs n = some c) : setFile fs n c = fs := by
  funext m; simp only [setFile]; split
  · rename_i hm; rw [hm, h]
  · rfl

theorem writeAt_end (c d : Content) : writeAt c c.length d = c ++ d := by
  simp [writeAt, List.take_append, List.drop_eq_nil_of_le]

theorem exec_writes (n : String) (k : Prog) : ∀ (ds : List Content) (c : Content) (i : Nat) (fs : FS), fs n = some c →
    ∃ st i', exec alone (writes n c.length ds k) i fs =
        ⟨st ++ (exec alone k i' (setFile fs n (c ++ ds.flatten))).steps, (exec alone k i' (setFile fs n (c ++ ds.flatten))).fs,
          (exec alone k i' (setFile fs n (c ++ ds.flatten))).result⟩ ∧
      ∀ p ∈ st, ∃ d, p.2 n = some d ∧ d <+: c ++ ds.flatten := by
  intro ds
  induction ds with
  | nil =>
    intro c i fs h
    refine ⟨[], i, ?_, by simp⟩
    simp only [writes, List.flatten_nil, List.append_nil, List.nil_append, setFile_same fs n c h]
  | cons d ds ih =>
    intro c i fs h
    have hn : (setFile fs n (c ++ d)) n = some (c ++ d) := by simp [setFile]
    obtain ⟨st, i', he, hp⟩ := ih (c ++ d) (i + 1) (setFile fs n (c ++ d)) hn
    refine ⟨(fs, setFile fs n (c ++ d)) :: st, i', ?_, ?_⟩
    · simp only [writes, exec, alone, h, writeAt_end, Out.after]
      have hl : c.length + d.length = (c ++ d).length := by simp
      rw [hl]
      have he' : exec alone (writes n (c ++ d).length ds k) (i + 1) (setFile fs n (c ++ d)) = _ := he
      rw [he']
      simp only [setFile_setFile, List.flatten_cons, List.append_assoc, List.cons_append]
    · intro p hpm
      simp only [List.flatten_cons, ← List.append_assoc]
      rcases List.mem_cons.mp hpm with rfl | hpm
      · exact ⟨c ++ d, hn, List.prefix_append _ _⟩
      · exact hp p hpm

theorem agrees_exec_eq {o o' : Out} {r : Except Err (FS × Handle)} (h : Agrees o r) (hf : o'.fs = o.fs) (hr : o'.result = o.result) :
    Agrees o' r := by
  cases r with
  | ok p => exact ⟨hf.trans h.1, hr.trans h.2⟩
  | error e => exact hr.trans h

theorem agrees_opening (cut : Content → List Content) (hcut : ∀ d, (cut d).flatten = d) (name : String) (mode : Mode) (position : Int)
    (closed : Bool) (fmode : FMode) (fdata : Content) (i : Nat) (fs : FS) :
    Agrees (exec alone (opening cut name mode position closed fmode fdata (fs name).isSome) i fs)
      (if fmode = .file then
          match pyOpen fs name (if mode.base = .w then mode else ⟨.w, false, false⟩) with
          | none => .error .unpickling
          | some (fs1, h1) =>
            match writeAll fs1 name (if mode.base = .w then mode else ⟨.w, false, false⟩) fdata with
            | .error e => .error e
            | .ok fs2 =>
              if mode.base = .w then .ok (finish fs2 { h1 with pos := fdata.length } position closed fmode)
              else match pyOpen fs2 name mode with
                | none => .error .unpickling
                | some (fs3, h3) => .ok (finish fs3 h3 position closed fmode)
        else if !(fs name).isSome && decide (mode.base = .r) && decide (fmode ≠ .file) then
          .ok (finish fs ⟨.temp, mode, 0, false⟩ position closed fmode)
        else if fmode = .contents ∧ (mode.base = .w ∨ mode.base = .x) then
          .ok (finish (openNoTrunc fs name mode).1 (openNoTrunc fs name mode).2 position closed fmode)
        else
          match pyOpen fs name mode with
          | none => .error .unpickling
          | some (fs1, h1) => .ok (finish fs1 h1 position closed fmode)) := by
  have hopen : ∀ (m : Mode) (fs fs' : FS) (h : Handle), pyOpen fs name m = some (fs', h) → h = ⟨.named name, m, h.pos, false⟩ := by
    intro m fs fs' h ho
    unfold pyOpen at ho
    cases hb : m.base <;> cases hf : fs name <;> simp only [hb, hf] at ho <;> cases ho <;> rfl
  unfold opening
  by_cases hfm : fmode = .file
  · simp only [hfm, if_true]
    by_cases hw : mode.base = .w
    · have hp : pyOpen fs name mode = some (setFile fs name [], ⟨.named name, mode, 0, false⟩) := by
        unfold pyOpen; rw [hw]
      simp only [hw, if_true, exec, alone, hp]
      apply agrees_after
      by_cases hb : mode.bin = true
      · simp [hb, writeAll, exec, Agrees]
      · have hb' : mode.bin = false := by simpa using hb
        simp only [hb', writeAll, if_false, Bool.false_eq_true]
        obtain ⟨st, i', he, _⟩ := exec_writes name (ending ⟨.named name, mode, fdata.length, false⟩ position closed .file) (cut fdata) [] (i + 1)
          (setFile fs name []) (by simp [setFile])
        simp only [List.nil_append, hcut, setFile_setFile] at he
        have he' : exec alone (writes name 0 (cut fdata) (ending ⟨.named name, mode, fdata.length, false⟩ position closed .file))
          (i + 1) (setFile fs name []) = _ := he
        rw [he']
        refine agrees_exec_eq (o := exec alone (ending ⟨.named name, mode, fdata.length, false⟩ position closed .file) i'
          (setFile fs name fdata)) ?_ rfl rfl
        simp only [setFile_setFile]
        exact agrees_ending _ _ _ _ _ _
    · have hp : pyOpen fs name ⟨.w, false, false⟩ = some (setFile fs name [], ⟨.named name, ⟨.w, false, false⟩, 0, false⟩) := by
        unfold pyOpen; rfl
      simp only [hw, if_false, exec, alone, hp, Bool.false_eq_true]
      apply agrees_after
      obtain ⟨st, i', he, _⟩ := exec_writes name (.openIt name mode (opened name mode position closed .file)) (cut fdata) [] (i + 1)
        (setFile fs name []) (by simp [setFile])
      simp only [List.nil_append, hcut, setFile_setFile] at he
      have he' : exec alone (writes name 0 (cut fdata) (.openIt name mode (opened name mode position closed .file)))
        (i + 1) (setFile fs name []) = _ := he
      rw [he']
      refine agrees_exec_eq (o := exec alone (.openIt name mode (opened name mode position closed .file)) i'
        (setFile fs name fdata)) ?_ rfl rfl
      simp only [writeAll, Bool.false_eq_true, if_false, setFile_setFile, exec, alone]
      cases ho : pyOpen (setFile fs name fdata) name mode with
      | none => exact agrees_after _ _ rfl
      | some r =>
        obtain ⟨fs3, h3⟩ := r
        simp only
        apply agrees_after
        have := hopen _ _ _ _ ho
        have hh : (⟨.named name, mode, h3.pos, false⟩ : Handle) = h3 := this.symm
        simp only [opened]
        rw [hh]
        exact agrees_ending _ _ _ _ _ _
  · simp only [hfm, if_false, decide_not, decide_false, Bool.not_false, Bool.and_true]
    split
    · exact agrees_ending _ _ _ _ _ _
    · split
      · simp only [exec, alone]
        apply agrees_after
        have h1 : (openNoTrunc fs name ⟨.w, false, false⟩).1 = (openNoTrunc fs name mode).1 := by
          unfold openNoTrunc; cases fs name <;> rfl
        have h2 : (openNoTrunc fs name mode).2 = ⟨.named name, mode, 0, false⟩ := by
          unfold openNoTrunc; cases fs name <;> rfl
        rw [h1, h2]
        exact agrees_ending _ _ _ _ _ _
      · simp only [exec, alone]
        cases ho : pyOpen fs name mode with
        | none => exact agrees_after _ _ rfl
        | some r =>
          obtain ⟨fs3, h3⟩ := r
          simp only
          apply agrees_after
          have hh : (⟨.named name, mode, h3.pos, false⟩ : Handle) = h3 := (hopen _ _ _ _ ho).symm
          simp only [opened]
          rw [hh]
          exact agrees_ending _ _ _ _ _ _

/-- With nobody else at work, the load ends as C09, C10 and C11 say: the two models agree. -/
theorem C102_alone (fs : FS) (cut : Content → List Content) (hcut : ∀ d, (cut d).flatten = d) (s : Saved) :
    Agrees (exec alone (createProg cut s) 0 fs) (loadFile fs s) := by
  unfold createProg loadFile createFilehandle
  split
  · exact agrees_ending _ _ _ _ _ _
  · split
    · exact agrees_ending _ _ _ _ _ _
    · simp only [exec, alone]
      apply agrees_after
      have hop := fun position i => agrees_opening cut hcut s.name s.mode position s.closed s.fmode s.fdata i fs
      rcases Option.eq_none_or_eq_some (fs s.name) with hf | ⟨c, hf⟩
      · simp only [hf, Option.isSome_none, Bool.not_false, Bool.true_and, if_true] at hop ⊢
        split
        · rfl
        · simp only [sized]
          split
          · rfl
          · exact hop _ _
      · simp only [hf, Option.isSome_some, Bool.not_true, Bool.false_and, Bool.false_eq_true, if_false] at hop ⊢
        simp only [exec, alone, hf, Option.map_some]
        apply agrees_after
        simp only [sized]
        split
        · rfl
        · exact hop _ _

/-! ### Being killed while loading with FILE_FMODE -/

theorem steps_ending (env : Nat → FS → FS) (h : Handle) (position : Int) (closed : Bool) (fmode : FMode) (i : Nat) (fs : FS) :
    (exec env (ending h position closed fmode) i fs).steps = [] := by
  unfold ending; (repeat' split) <;> rfl

theorem steps_opening (cut : Content → List Content) (hcut : ∀ d, (cut d).flatten = d) (name : String) (mode : Mode) (position : Int)
    (closed : Bool) (fdata : Content) (there : Bool) (i : Nat) (fs : FS) :
    ∀ p ∈ (exec alone (opening cut name mode position closed .file fdata there) i fs).steps, ∃ d, p.2 name = some d ∧ d <+: fdata := by
  intro p hp
  unfold opening at hp
  simp only [if_true] at hp
  have hwp : ∀ (m : Mode), m.base = .w → pyOpen fs name m = some (setFile fs name [], ⟨.named name, m, 0, false⟩) := by
    intro m hm; unfold pyOpen; rw [hm]
  by_cases hw : mode.base = .w
  · simp only [hw, if_true, exec, alone, hwp mode hw, Out.after, List.mem_cons] at hp
    rcases hp with rfl | hp
    · exact ⟨[], by simp [setFile], List.nil_prefix⟩
    · split at hp
      · simp [exec] at hp
      · obtain ⟨st, i', he, hst⟩ := exec_writes name (ending ⟨.named name, mode, fdata.length, false⟩ position closed .file) (cut fdata) [] (i + 1)
          (setFile fs name []) (by simp [setFile])
        simp only [List.nil_append, hcut] at he hst
        have he' : exec alone (writes name 0 (cut fdata) (ending ⟨.named name, mode, fdata.length, false⟩ position closed .file))
          (i + 1) (setFile fs name []) = _ := he
        have hp' : p ∈ (exec alone (writes name 0 (cut fdata) (ending ⟨.named name, mode, fdata.length, false⟩ position closed .file))
          (i + 1) (setFile fs name [])).steps := hp
        rw [he'] at hp'
        simp only [steps_ending, List.append_nil] at hp'
        exact hst p hp'
  · simp only [hw, if_false, exec, alone, hwp ⟨.w, false, false⟩ rfl, Out.after, List.mem_cons, Bool.false_eq_true] at hp
    rcases hp with rfl | hp
    · exact ⟨[], by simp [setFile], List.nil_prefix⟩
    · obtain ⟨st, i', he, hst⟩ := exec_writes name (.openIt name mode (opened name mode position closed .file)) (cut fdata) [] (i + 1)
        (setFile fs name []) (by simp [setFile])
      simp only [List.nil_append, hcut] at he hst
      have he' : exec alone (writes name 0 (cut fdata) (.openIt name mode (opened name mode position closed .file)))
        (i + 1) (setFile fs name []) = _ := he
      have hp' : p ∈ (exec alone (writes name 0 (cut fdata) (.openIt name mode (opened name mode position closed .file)))
        (i + 1) (setFile fs name [])).steps := hp
      rw [he'] at hp'
      rcases List.mem_append.mp hp' with hp' | hp'
      · exact hst p hp'
      · have hn : (setFile (setFile fs name []) name fdata) name = some fdata := by simp [setFile]
        simp only [exec, alone] at hp'
        cases ho : pyOpen (setFile (setFile fs name []) name fdata) name mode with
        | none =>
          simp only [ho, Out.after, opened, exec, List.mem_singleton] at hp'
          rw [hp']
          exact ⟨fdata, hn, List.prefix_refl _⟩
        | some r =>
          obtain ⟨fs3, h3⟩ := r
          simp only [ho, Out.after, opened] at hp'
          have hs := steps_ending (fun _ fs => fs) ⟨.named name, mode, h3.pos, false⟩ position closed .file (i' + 1) fs3
          have hs' : (exec alone (ending ⟨.named name, mode, h3.pos, false⟩ position closed .file) (i' + 1) fs3).steps = [] := hs
          rw [hs'] at hp'
          simp only [List.mem_singleton] at hp'
          rw [hp']
          refine ⟨fdata, ?_, List.prefix_refl _⟩
          have := (harmless_open name mode hw _ _ _ ho).1 name fdata hn
          exact this

/-- C102, FILE_FMODE, nobody else at work: if the process is killed, the file has its old contents, or a beginning of the pickled ones. -/
theorem C102_file_prefix_partial (fs : FS) (cut : Content → List Content) (hcut : ∀ d, (cut d).flatten = d) (s : Saved)
    (h : s.fmode = .file) :
    ∀ fs' ∈ onDisk fs (exec alone (createProg cut s) 0 fs), fs' s.name = fs s.name ∨ ∃ d, fs' s.name = some d ∧ d <+: s.fdata := by
  intro fs' hfs
  simp only [onDisk, List.mem_cons, List.mem_map] at hfs
  rcases hfs with rfl | ⟨p, hp, rfl⟩
  · exact Or.inl rfl
  · have hsz : ∀ there size i, ∀ p ∈ (exec alone (sized cut s.name s.mode s.position s.closed s.strictio s.fmode s.fdata there size) i fs).steps,
        ∃ d, p.2 s.name = some d ∧ d <+: s.fdata := by
      intro there size i p hp
      unfold sized at hp
      split at hp
      · simp [exec] at hp
      · rw [h] at hp
        exact steps_opening cut hcut _ _ _ _ _ _ _ _ p hp
    unfold createProg at hp
    split at hp
    · rw [steps_ending] at hp; cases hp
    · split at hp
      · rw [steps_ending] at hp; cases hp
      · simp only [exec, alone, Out.after, List.mem_cons] at hp
        rcases hp with rfl | hp
        · exact Or.inl rfl
        · rcases Option.eq_none_or_eq_some (fs s.name) with hf | ⟨c, hf⟩
          · simp only [hf, Option.isSome_none, Bool.not_false, if_true] at hp
            by_cases hst : s.strictio = true
            · simp [hst, exec] at hp
            · rw [if_neg hst] at hp
              exact Or.inr (hsz _ _ _ p hp)
          · simp only [hf, Option.isSome_some, Bool.not_true, Bool.false_eq_true, if_false, exec, alone, Option.map_some, Out.after,
              List.mem_cons] at hp
            rcases hp with rfl | hp
            · exact Or.inl rfl
            · exact Or.inr (hsz _ _ _ p hp)

/-! ### What can go wrong -/

/-- a pickled handle -/
def saved (mode : Mode) (pos : Int) (fmode : FMode) (data : String) : Saved := ⟨"f", mode, pos, false, false, fmode, data.toList⟩
def one (c : String) : FS := fun m => if m = "f" then some c.toList else none
def whole (d : Content) : List Content := [d]

/-- FILE_FMODE: killed after the file was opened, the load has destroyed the old contents and not yet written the new ones. -/
theorem C102_file_killed : ∃ (fs : FS) (s : Saved) (fs' : FS), fs' ∈ onDisk fs (exec alone (createProg whole s) 0 fs) ∧
    fs s.name = some "old".toList ∧ s.fdata = "new".toList ∧ s.mode.base = .r ∧ fs' s.name = some [] := by
  refine ⟨one "old", saved ⟨.r, false, false⟩ 0 .file "new", setFile (one "old") "f" [], ?_, by decide, rfl, rfl, by simp [setFile, saved]⟩
  have : (exec alone (createProg whole (saved ⟨.r, false, false⟩ 0 .file "new")) 0 (one "old")).steps[2]? =
      some (one "old", setFile (one "old") "f" []) := by rfl
  exact List.mem_cons_of_mem _ (List.mem_map.mpr ⟨_, List.mem_of_getElem? this, rfl⟩)

/-- FILE_FMODE: a handle of mode 'wb' cannot be loaded, and the attempt empties the file. -/
theorem C102_failed_load_empties : ∃ (fs : FS) (s : Saved), s.fmode = .file ∧ fs s.name = some "old".toList ∧
    (exec alone (createProg whole s) 0 fs).result = .error .typeError ∧ (exec alone (createProg whole s) 0 fs).fs s.name = some [] :=
  ⟨one "old", saved ⟨.w, false, true⟩ 0 .file "new", rfl, by decide, rfl, by simp [createProg, saved, exec, alone, Out.after, one, sized, opening, pyOpen, setFile, stdNames]⟩

/-- somebody else does this before the system call number `k` -/
def meanwhile (k : Nat) (f : FS → FS) : Nat → FS → FS := fun i fs => if i = k then f fs else fs

/-- CONTENTS_FMODE: the file shrinks after dill has looked at its size: the handle's position is beyond the end. -/
theorem C102_position_beyond_end : ∃ (env : Nat → FS → FS) (fs : FS) (s : Saved), s.fmode = .contents ∧
    (∃ h, (exec env (createProg whole s) 0 fs).result = .ok h ∧ h.pos = 3) ∧ (exec env (createProg whole s) 0 fs).fs s.name = some [] :=
  ⟨meanwhile 2 (fun fs => setFile fs "f" []), one "abc", saved ⟨.r, false, false⟩ 3 .contents "", rfl, ⟨⟨.named "f", ⟨.r, false, false⟩, 3, false⟩,
      (by simp [createProg, saved, exec, meanwhile, Out.after, one, sized, opening, pyOpen, setFile, stdNames, opened, ending]), rfl⟩,
    by simp [createProg, saved, exec, meanwhile, Out.after, one, sized, opening, pyOpen, setFile, stdNames, opened, ending]⟩

/-- The file is removed after dill has seen that it is there: loads fails with FileNotFoundError, though a missing file is no error
(strictio is off). -/
theorem C102_vanished : ∃ (env : Nat → FS → FS) (fs : FS) (s : Saved), s.strictio = false ∧
    (exec env (createProg whole s) 0 fs).result = .error .fileNotFound ∧
    ∃ h, (exec alone (createProg whole s) 0 (fun _ => none)).result = .ok h :=
  ⟨meanwhile 1 (fun _ _ => none), one "abc", saved ⟨.r, false, false⟩ 0 .contents "", rfl, rfl, ⟨_, rfl⟩⟩

/-! ### What a write does to a file -/

/-- After a write every byte is the one written there, or the one that was there, or a zero in a gap. -/
theorem C102_write_bytes (c d : Content) (p i : Nat) : (writeAt c p d)[i]? =
    if i < p then (if i < c.length then c[i]? else some (Char.ofNat 0))
    else if i < p + d.length then d[i - p]? else c[i]? := by
  unfold writeAt
  simp only [List.append_assoc, List.getElem?_append, List.length_append, List.length_take, List.length_replicate, List.getElem?_take,
    List.getElem?_replicate, List.getElem?_drop]
  grind

/-! ### The hypotheses can be met -/

example : (saved ⟨.w, true, false⟩ 2 .contents "").fmode = .contents := rfl
/-- three system calls, the last of them opens an existing file for writing without emptying it -/
example : (exec alone (createProg whole (saved ⟨.w, true, false⟩ 2 .contents "")) 0 (one "abc")).steps.length = 3 := rfl
example : ∀ d : Content, (whole d).flatten = d := by simp [whole]

end Verif.FileRace
