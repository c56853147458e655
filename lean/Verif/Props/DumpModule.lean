import Verif.Model.DumpModule
import Verif.Props.WireFits
/-! C70-C72: `dump_module` and the session file, the streams, and its argument names. -/
set_option linter.unusedSimpArgs false
namespace Verif.DumpModule
open SafeOpen (S Ino Errno)
open Settings (Table)

/-! ### specification -/

/-- what a reader of the path finds: the bytes of the regular file there -/
def contents (fs : S) (p : String) : Option (List Nat) :=
  match fs.dir p with
  | .file i => fs.data i
  | _ => none

/-- the file a call is about: the given path, or the default session file -/
def Names (E : Env) (d : Dest) (p : String) : Prop := d = .path p ∨ (d = .none ∧ p = E.defaultPath)

/-- errors found before the file is opened, and a refused open -/
def Early : Err → Prop
  | .bothNames => True
  | .importError => True
  | .notModule => True
  | .settingsKey => True
  | .os _ => True
  | _ => False

/-- two worlds that differ only in the warnings given -/
def SameButWarnings (σ τ : World) : Prop :=
  σ.fs = τ.fs ∧ σ.stream = τ.stream ∧ σ.streamClosed = τ.streamClosed ∧ σ.fds = τ.fds

theorem names_path {E : Env} {d : Dest} {p : String} (h : Names E d p) : pathOf E d = p ∧ ∀ k, d ≠ .stream k := by
  rcases h with rfl | ⟨rfl, rfl⟩
  · exact ⟨rfl, by intro k h; cases h⟩
  · exact ⟨rfl, by intro k h; cases h⟩

/-! ### what opening does when nobody interferes -/

theorem open_quiet (nf : Bool) (p : String) (s : S) :
    ((SafeOpen.openWrite nf p quiet s).1, (SafeOpen.openWrite nf p quiet s).2.1) =
      (match s.dir p with
       | .link _ => (.error .refused, s)
       | .absent => (.ok s.next, SafeOpen.setDir s p s.next)
       | .file i => (.ok i, SafeOpen.setData s i [])) := by
  cases h : s.dir p with
  | link t => simp [SafeOpen.openWrite, quiet, SafeOpen.sysOpen, h, SafeOpen.checkSymlink]
  | absent => simp [SafeOpen.openWrite, quiet, SafeOpen.sysOpen, SafeOpen.openAt, h]
  | file i => simp [SafeOpen.openWrite, quiet, SafeOpen.sysOpen, SafeOpen.openAt, h, SafeOpen.checkSymlink]

theorem write_quiet (cs : List (List Nat)) : ∀ (k : Nat) (s : S) (i : Ino) (d : List Nat), s.data i = some d →
    (SafeOpen.writeChunks i quiet k cs s).1.data i = some (d ++ cs.flatten) ∧
    (SafeOpen.writeChunks i quiet k cs s).1.dir = s.dir ∧
    ∀ j, j ≠ i → (SafeOpen.writeChunks i quiet k cs s).1.data j = s.data j := by
  induction cs with
  | nil => intro k s i d h; simp [SafeOpen.writeChunks, h]
  | cons c cs ih =>
    intro k s i d h
    simp only [SafeOpen.writeChunks, quiet, h]
    obtain ⟨h1, h2, h3⟩ := ih (k + 1) (SafeOpen.setData s i (d ++ c)) i (d ++ c) (by simp [SafeOpen.setData])
    refine ⟨?_, ?_, ?_⟩
    · simpa using h1
    · exact h2
    · intro j hj
      exact (h3 j hj).trans (by simp [SafeOpen.setData, hj])

theorem checkNames_same (a : Args) (σ : World) : SameButWarnings (checkNames a σ).2 σ := by
  unfold checkNames
  repeat' split
  all_goals exact ⟨rfl, rfl, rfl, rfl⟩

theorem open_cases (E : Env) (p : String) (σ τ : World) (hs : SameButWarnings τ σ) (r : Except Err File × World)
    (hr : r = match SafeOpen.openWrite E.nofollow p quiet τ.fs with
      | (.error e, fs, _) => (.error (.os e), { τ with fs := fs })
      | (.ok i, fs, _) => (.ok (.fd i), { τ with fs := fs, fds := i :: τ.fds })) :
      (∃ e, r = (.error (.os e), τ)) ∨
      (σ.fs.dir p = .absent ∧ r =
          (.ok (.fd σ.fs.next), { τ with fs := SafeOpen.setDir σ.fs p σ.fs.next, fds := σ.fs.next :: σ.fds })) ∨
      (∃ i, σ.fs.dir p = .file i ∧ r =
          (.ok (.fd i), { τ with fs := SafeOpen.setData σ.fs i [], fds := i :: σ.fds })) := by
  subst hr
  have ho := open_quiet E.nofollow p τ.fs
  obtain ⟨h1, _, _, h4⟩ := hs
  rw [← h1, ← h4]
  generalize SafeOpen.openWrite E.nofollow p quiet τ.fs = w at *
  obtain ⟨w1, w2, w3⟩ := w
  simp only at ho ⊢
  split at ho
  · cases ho; exact .inl ⟨_, rfl⟩
  · rename_i h
    cases ho; exact .inr (.inl ⟨h, rfl⟩)
  · rename_i i h
    cases ho; exact .inr (.inr ⟨i, h, rfl⟩)

theorem openDest_cases (E : Env) (d : Dest) (σ : World) :
    (∃ k, d = .stream k ∧ openDest E d σ = (.ok (.stream k), σ)) ∨
    ((∀ k, d ≠ .stream k) ∧ ∃ τ, SameButWarnings τ σ ∧
      ((∃ e, openDest E d σ = (.error (.os e), τ)) ∨
       (σ.fs.dir (pathOf E d) = .absent ∧ openDest E d σ =
          (.ok (.fd σ.fs.next), { τ with fs := SafeOpen.setDir σ.fs (pathOf E d) σ.fs.next, fds := σ.fs.next :: σ.fds })) ∨
       (∃ i, σ.fs.dir (pathOf E d) = .file i ∧ openDest E d σ =
          (.ok (.fd i), { τ with fs := SafeOpen.setData σ.fs i [], fds := i :: σ.fds })))) := by
  cases d with
  | stream k => exact .inl ⟨k, rfl, rfl⟩
  | none =>
    exact .inr ⟨(by intro k h; cases h), warn .defaultPath σ, ⟨rfl, rfl, rfl, rfl⟩, open_cases E E.defaultPath σ (warn .defaultPath σ) ⟨rfl, rfl, rfl, rfl⟩ _ rfl⟩
  | path p =>
    exact .inr ⟨(by intro k h; cases h), σ, ⟨rfl, rfl, rfl, rfl⟩, open_cases E _ σ _ ⟨rfl, rfl, rfl, rfl⟩ _ rfl⟩

/-! ### the shape of every run -/

/-- a run ends early, with only warnings given, or opens, writes and closes -/
theorem run_cases (E : Env) (a : Args) (σ : World) :
    (∃ e τ, dumpModule E a σ = (some e, τ) ∧ Early e ∧ SameButWarnings τ σ) ∨
    (∃ proto main τ, E.settings.get "protocol" = some proto ∧ resolve E (a.main.getD a.module_) = .ok main ∧
      SameButWarnings τ σ ∧
      let r := writeJob E proto (a.byref.getD a.refimported) main a.rest
      ((∃ k, a.filename = .stream k ∧ dumpModule E a σ = (r.2, write (.stream k) r.1 τ)) ∨
       ((∀ k, a.filename ≠ .stream k) ∧ σ.fs.dir (pathOf E a.filename) = .absent ∧ dumpModule E a σ =
          (r.2, { write (.fd σ.fs.next) r.1 { τ with fs := SafeOpen.setDir σ.fs (pathOf E a.filename) σ.fs.next } with fds := σ.fds })) ∨
       ((∀ k, a.filename ≠ .stream k) ∧ ∃ i, σ.fs.dir (pathOf E a.filename) = .file i ∧ dumpModule E a σ =
          (r.2, { write (.fd i) r.1 { τ with fs := SafeOpen.setData σ.fs i [] } with fds := σ.fds })))) := by
  have hn := checkNames_same a σ
  unfold dumpModule
  generalize checkNames a σ = c at *
  obtain ⟨b, σ1⟩ := c
  cases b with
  | true => exact .inl ⟨_, _, rfl, trivial, hn⟩
  | false =>
    simp only at hn ⊢
    have hfs : σ1.fs = σ.fs := hn.1
    have hfd : σ1.fds = σ.fds := hn.2.2.2
    cases hp : E.settings.get "protocol" with
    | none => exact .inl ⟨_, _, rfl, trivial, hn⟩
    | some proto =>
      simp only
      cases hr : resolve E (a.main.getD a.module_) with
      | error e =>
        refine .inl ⟨_, _, rfl, ?_, hn⟩
        unfold resolve at hr
        repeat' split at hr
        all_goals cases hr
        all_goals trivial
      | ok main =>
        simp only
        have hsame : ∀ τ, SameButWarnings τ σ1 → SameButWarnings τ σ := fun τ h =>
          ⟨h.1.trans hn.1, h.2.1.trans hn.2.1, h.2.2.1.trans hn.2.2.1, h.2.2.2.trans hn.2.2.2⟩
        rcases openDest_cases E a.filename σ1 with ⟨k, hk, ho⟩ | ⟨hk, τ, hτ, ⟨e, ho⟩ | ⟨hd, ho⟩ | ⟨i, hd, ho⟩⟩
        · rw [ho]
          refine .inr ⟨proto, main, σ1, rfl, rfl, hn, .inl ⟨k, hk, ?_⟩⟩
          simp [hk, newlyOpened]
        · rw [ho]; exact .inl ⟨_, _, rfl, trivial, hsame τ hτ⟩
        · rw [ho]
          refine .inr ⟨proto, main, τ, rfl, rfl, hsame τ hτ, .inr (.inl ⟨hk, by rw [← hfs]; exact hd, ?_⟩)⟩
          have : newlyOpened a.filename (.fd σ.fs.next) = true := by
            cases hf : a.filename with
            | stream k => exact absurd hf (hk k)
            | _ => rfl
          simp only [this, if_true, close, write, List.erase_cons_head, hfs, hfd]
        · rw [ho]
          refine .inr ⟨proto, main, τ, rfl, rfl, hsame τ hτ, .inr (.inr ⟨hk, i, by rw [← hfs]; exact hd, ?_⟩)⟩
          have : newlyOpened a.filename (.fd i) = true := by
            cases hf : a.filename with
            | stream k => exact absurd hf (hk k)
            | _ => rfl
          simp only [this, if_true, close, write, List.erase_cons_head, hfs, hfd]

/-! ### C71 -/

/-- C71: whatever the arguments, the environment and the outcome, no descriptor stays open, no stream of the caller is closed,
and a stream of the caller is only appended to (others, and every stream when a path is given, are untouched). -/
theorem C71_closes_what_it_opens (E : Env) (a : Args) (σ : World) :
    (dumpModule E a σ).2.fds = σ.fds ∧ (dumpModule E a σ).2.streamClosed = σ.streamClosed ∧
    (∀ k, (∃ x, (dumpModule E a σ).2.stream k = σ.stream k ++ x) ∧
      (a.filename ≠ .stream k → (dumpModule E a σ).2.stream k = σ.stream k)) := by
  rcases run_cases E a σ with ⟨e, τ, h, _, h1, h2, h3, h4⟩ | ⟨_, _, τ, _, _, ⟨h1, h2, h3, h4⟩, h⟩
  · rw [h]; exact ⟨h4, h3, fun k => ⟨⟨[], by simp [h2]⟩, fun _ => by rw [h2]⟩⟩
  · rcases h with ⟨k, hk, h⟩ | ⟨_, _, h⟩ | ⟨_, i, _, h⟩
    · rw [h]
      refine ⟨h4, h3, fun j => ⟨?_, ?_⟩⟩
      · simp only [write, h2]
        by_cases hj : j = k
        · exact ⟨_, by rw [if_pos hj, hj]⟩
        · exact ⟨[], by rw [if_neg hj, List.append_nil]⟩
      · intro hj
        simp only [write, h2]
        rw [if_neg]
        rintro rfl; exact hj hk
    · rw [h]; exact ⟨rfl, h3, fun k => ⟨⟨[], by simp [write, h2]⟩, fun _ => by simp [write, h2]⟩⟩
    · rw [h]; exact ⟨rfl, h3, fun k => ⟨⟨[], by simp [write, h2]⟩, fun _ => by simp [write, h2]⟩⟩

/-- C71 on the file system: only the named file changes; no other directory entry and no other existing file. -/
theorem C71_only_the_named_file (E : Env) (a : Args) (σ : World) (hf : σ.fs.data σ.fs.next = none) :
    (∀ q, ¬ Names E a.filename q → (dumpModule E a σ).2.fs.dir q = σ.fs.dir q) ∧
    (∀ v, (σ.fs.data v).isSome → (∀ p, Names E a.filename p → σ.fs.dir p ≠ .file v) →
      (dumpModule E a σ).2.fs.data v = σ.fs.data v) ∧
    (∀ k, a.filename = .stream k → (dumpModule E a σ).2.fs = σ.fs) := by
  have hnm : (∀ k, a.filename ≠ .stream k) → Names E a.filename (pathOf E a.filename) := by
    intro hk
    cases hd : a.filename with
    | none => exact .inr ⟨rfl, rfl⟩
    | path p => exact .inl rfl
    | stream k => exact absurd hd (hk k)
  rcases run_cases E a σ with ⟨e, τ, h, _, h1, h2, h3, h4⟩ | ⟨proto, main, τ, _, _, ⟨h1, h2, h3, h4⟩, h⟩
  · rw [h]; exact ⟨fun q _ => by rw [h1], fun v _ _ => by rw [h1], fun _ _ => h1⟩
  · rcases h with ⟨k, hk, h⟩ | ⟨hk, hd, h⟩ | ⟨hk, i, hd, h⟩
    · rw [h]; exact ⟨fun q _ => by simp only [write, h1], fun v _ _ => by simp only [write, h1], fun _ _ => h1⟩
    · rw [h]
      obtain ⟨w1, w2, w3⟩ := write_quiet (writeJob E proto (a.byref.getD a.refimported) main a.rest).1 3
        (SafeOpen.setDir σ.fs (pathOf E a.filename) σ.fs.next) σ.fs.next [] (by simp [SafeOpen.setDir])
      refine ⟨?_, ?_, fun k h => absurd h (hk k)⟩
      · intro q hq
        have hq' : q ≠ pathOf E a.filename := by rintro rfl; exact hq (hnm hk)
        simp only [write, w2]; simp [SafeOpen.setDir, hq']
      · intro v hv _
        have : v ≠ σ.fs.next := by rintro rfl; rw [hf] at hv; cases hv
        simp only [write]; rw [w3 v this]; simp [SafeOpen.setDir, this]
    · rw [h]
      obtain ⟨w1, w2, w3⟩ := write_quiet (writeJob E proto (a.byref.getD a.refimported) main a.rest).1 3
        (SafeOpen.setData σ.fs i []) i [] (by simp [SafeOpen.setData])
      refine ⟨?_, ?_, fun k h => absurd h (hk k)⟩
      · intro q _
        simp only [write, w2]; rfl
      · intro v _ hv
        have : v ≠ i := by rintro rfl; exact hv _ (hnm hk) hd
        simp only [write]; rw [w3 v this]; simp [SafeOpen.setData, this]

/-! ### C70 -/

/-- C70, what holds: errors in the arguments, an unimportable module and a refused file leave every file as it was. -/
theorem C70_early_errors_partial (E : Env) (a : Args) (σ : World) (e : Err) (h : (dumpModule E a σ).1 = some e) (he : Early e) :
    (dumpModule E a σ).2.fs = σ.fs ∧ (dumpModule E a σ).2.stream = σ.stream := by
  rcases run_cases E a σ with ⟨e', τ, h', _, hs⟩ | ⟨proto, main, τ, _, _, _, h'⟩
  · rw [h']; exact ⟨hs.1, hs.2.1⟩
  · exfalso
    have key : (writeJob E proto (a.byref.getD a.refimported) main a.rest).2 = some e → False := by
      intro hw
      unfold writeJob at hw
      split at hw
      · cases hw; exact he
      · split at hw
        · cases hw; exact he
        · simp only at hw
          split at hw <;> cases hw
          exact he
    rcases h' with ⟨k, _, h'⟩ | ⟨_, _, h'⟩ | ⟨_, i, _, h'⟩ <;> rw [h'] at h <;> exact key h

/-- the contents after a run that got as far as the pickler -/
theorem contents_after {E : Env} {a : Args} {σ τ : World} {r : List (List Nat) × Option Err} (hp : ∀ k, a.filename ≠ .stream k)
    (h' : (∃ k, a.filename = .stream k ∧ dumpModule E a σ = (r.2, write (.stream k) r.1 τ)) ∨
       ((∀ k, a.filename ≠ .stream k) ∧ σ.fs.dir (pathOf E a.filename) = .absent ∧ dumpModule E a σ =
          (r.2, { write (.fd σ.fs.next) r.1 { τ with fs := SafeOpen.setDir σ.fs (pathOf E a.filename) σ.fs.next } with fds := σ.fds })) ∨
       ((∀ k, a.filename ≠ .stream k) ∧ ∃ i, σ.fs.dir (pathOf E a.filename) = .file i ∧ dumpModule E a σ =
          (r.2, { write (.fd i) r.1 { τ with fs := SafeOpen.setData σ.fs i [] } with fds := σ.fds }))) :
    contents (dumpModule E a σ).2.fs (pathOf E a.filename) = some r.1.flatten ∧ (dumpModule E a σ).1 = r.2 := by
  rcases h' with ⟨k, hk, h'⟩ | ⟨_, hd, h'⟩ | ⟨_, i, hd, h'⟩
  · exact absurd hk (hp k)
  · obtain ⟨w1, w2, w3⟩ := write_quiet r.1 3
      (SafeOpen.setDir σ.fs (pathOf E a.filename) σ.fs.next) σ.fs.next [] (by simp [SafeOpen.setDir])
    rw [h']
    refine ⟨?_, rfl⟩
    simp only [write, contents, w2]
    simp only [SafeOpen.setDir, if_true] at w1 ⊢
    simpa using w1
  · obtain ⟨w1, w2, w3⟩ := write_quiet r.1 3
      (SafeOpen.setData σ.fs i []) i [] (by simp [SafeOpen.setData])
    rw [h']
    refine ⟨?_, rfl⟩
    have : (SafeOpen.setData σ.fs i []).dir (pathOf E a.filename) = .file i := hd
    simp only [write, contents, w2, this]
    simpa using w1

/-- C70, what holds after the file was opened: the old contents are gone; what the path holds is exactly what the pickler
wrote before it ended (success) or raised, and nothing if the pickler could not be made or the module not be prepared. -/
theorem C70_outcome_partial (E : Env) (a : Args) (σ : World) (p : String) (hnm : Names E a.filename p) :
    ((dumpModule E a σ).1 = none → ∃ job : Job, (E.pickle job).2 = true ∧
      contents (dumpModule E a σ).2.fs p = some (E.pickle job).1.flatten) ∧
    ((dumpModule E a σ).1 = some .pickling → ∃ job : Job, (E.pickle job).2 = false ∧
      contents (dumpModule E a σ).2.fs p = some (E.pickle job).1.flatten) ∧
    ((∃ e, (dumpModule E a σ).1 = some (.pickler e)) ∨ (dumpModule E a σ).1 = some .stash →
      contents (dumpModule E a σ).2.fs p = some []) := by
  obtain ⟨hpath, hp⟩ := names_path hnm
  rw [← hpath]
  rcases run_cases E a σ with ⟨e', τ, h', he, hs⟩ | ⟨proto, main, τ, _, _, _, h'⟩
  · rw [h']
    refine ⟨(fun h => by cases h), ?_, ?_⟩
    · intro h; cases h; exact he.elim
    · rintro (⟨e, h⟩ | h) <;> cases h <;> exact he.elim
  · have hc := contents_after hp h'
    rw [hc.1, hc.2]
    unfold writeJob
    split
    · exact ⟨(fun h => by cases h), (fun h => by cases h), fun _ => rfl⟩
    · split
      · exact ⟨(fun h => by cases h), (fun h => by cases h), fun _ => rfl⟩
      · simp only
        refine ⟨?_, ?_, ?_⟩
        · intro h
          split at h
          · rename_i hb; exact ⟨_, hb, rfl⟩
          · cases h
        · intro h
          split at h
          · cases h
          · rename_i hb; exact ⟨_, by simpa using hb, rfl⟩
        · intro h
          split at h
          · rcases h with ⟨_, h⟩ | h <;> cases h
          · rcases h with ⟨_, h⟩ | h <;> cases h

/-! ### C72 -/

/-- C72: the old argument names do what the new ones do (apart from the warning). -/
theorem C72_old_names (E : Env) (a : Args) (m : Arg) (b : Bool) (σ : World) :
    let old := dumpModule E { a with module_ := .none, refimported := false, main := some m, byref := some b } σ
    let new := dumpModule E { a with module_ := m, refimported := b, main := none, byref := none } σ
    old.1 = new.1 ∧ SameButWarnings old.2 new.2 := by
  intro old new
  have h1 : ∀ (σ τ : World), SameButWarnings σ τ → ∀ d, (openDest E d σ).1 = (openDest E d τ).1 ∧
      SameButWarnings (openDest E d σ).2 (openDest E d τ).2 := by
    intro σ τ ⟨s1, s2, s3, s4⟩ d
    have key : ∀ (p : String) (σ τ : World), SameButWarnings σ τ →
        (match SafeOpen.openWrite E.nofollow p quiet σ.fs with
          | (.error e, fs, _) => ((.error (.os e), { σ with fs := fs }) : Except Err File × World)
          | (.ok i, fs, _) => (.ok (.fd i), { σ with fs := fs, fds := i :: σ.fds })).1 =
        (match SafeOpen.openWrite E.nofollow p quiet τ.fs with
          | (.error e, fs, _) => ((.error (.os e), { τ with fs := fs }) : Except Err File × World)
          | (.ok i, fs, _) => (.ok (.fd i), { τ with fs := fs, fds := i :: τ.fds })).1 ∧
        SameButWarnings (match SafeOpen.openWrite E.nofollow p quiet σ.fs with
          | (.error e, fs, _) => ((.error (.os e), { σ with fs := fs }) : Except Err File × World)
          | (.ok i, fs, _) => (.ok (.fd i), { σ with fs := fs, fds := i :: σ.fds })).2
        (match SafeOpen.openWrite E.nofollow p quiet τ.fs with
          | (.error e, fs, _) => ((.error (.os e), { τ with fs := fs }) : Except Err File × World)
          | (.ok i, fs, _) => (.ok (.fd i), { τ with fs := fs, fds := i :: τ.fds })).2 := by
      intro p σ τ ⟨s1, s2, s3, s4⟩
      rw [s1]
      generalize SafeOpen.openWrite E.nofollow p quiet τ.fs = w
      obtain ⟨w1, w2, w3⟩ := w
      cases w1 with
      | error e => exact ⟨rfl, rfl, s2, s3, s4⟩
      | ok i => exact ⟨rfl, rfl, s2, s3, by simp [s4]⟩
    cases d with
    | stream k => exact ⟨rfl, s1, s2, s3, s4⟩
    | none => exact key E.defaultPath (warn .defaultPath σ) (warn .defaultPath τ) ⟨s1, s2, s3, s4⟩
    | path p => exact key p σ τ ⟨s1, s2, s3, s4⟩
  have h2 : ∀ (f : File) (cs : List (List Nat)) (σ τ : World), SameButWarnings σ τ →
      SameButWarnings (write f cs σ) (write f cs τ) ∧ SameButWarnings (close f (write f cs σ)) (close f (write f cs τ)) := by
    intro f cs σ τ ⟨s1, s2, s3, s4⟩
    cases f with
    | stream k => simp [write, close, SameButWarnings, s1, s2, s3, s4]
    | fd i => simp [write, close, SameButWarnings, s1, s2, s3, s4]
  have ho := h1 (warn .renamedByref (warn .renamedMain σ)) σ ⟨rfl, rfl, rfl, rfl⟩ a.filename
  simp only [old, new, dumpModule, checkNames, Arg.truthy, Option.getD_some, Option.getD_none, Bool.false_eq_true, if_false]
  cases E.settings.get "protocol" with
  | none => exact ⟨rfl, rfl, rfl, rfl, rfl⟩
  | some proto =>
    simp only
    cases resolve E m with
    | error e => exact ⟨rfl, rfl, rfl, rfl, rfl⟩
    | ok main =>
      simp only
      generalize openDest E a.filename (warn .renamedByref (warn .renamedMain σ)) = x at *
      generalize openDest E a.filename σ = y at *
      obtain ⟨x1, x2⟩ := x
      obtain ⟨y1, y2⟩ := y
      obtain ⟨hx, hs⟩ := ho
      simp only at hx hs
      subst hx
      cases x1 with
      | error e => exact ⟨rfl, hs⟩
      | ok f =>
        simp only
        obtain ⟨k1, k2⟩ := h2 f (writeJob E proto b main a.rest).1 x2 y2 hs
        refine ⟨trivial, ?_⟩
        split
        · exact k2
        · exact k1

/-- C72: naming an argument twice is refused before anything is done (when the new one is not empty). -/
theorem C72_both_names_refused_partial (E : Env) (a : Args) (σ : World)
    (h : (a.main.isSome ∧ a.module_.truthy = true) ∨ (a.byref.isSome ∧ a.refimported = true)) :
    (dumpModule E a σ).1 = some .bothNames ∧ SameButWarnings (dumpModule E a σ).2 σ := by
  have hs := checkNames_same a σ
  have hb : (checkNames a σ).1 = true := by
    unfold checkNames
    cases hm : a.main with
    | some m =>
      simp only
      by_cases ht : a.module_.truthy = true
      · rw [if_pos ht]
      · rw [if_neg ht]
        rcases h with ⟨_, h⟩ | ⟨h1, h2⟩
        · exact absurd h ht
        · cases hb : a.byref with
          | none => rw [hb] at h1; cases h1
          | some b => exact h2
    | none =>
      simp only
      rcases h with ⟨h, _⟩ | ⟨h1, h2⟩
      · rw [hm] at h; cases h
      · cases hb : a.byref with
        | none => rw [hb] at h1; cases h1
        | some b => exact h2
  unfold dumpModule
  generalize checkNames a σ = c at *
  obtain ⟨b, σ1⟩ := c
  cases hb
  exact ⟨rfl, hs⟩

/-- what is pickled for each kind of argument -/
def Target (E : Env) : Arg → ModId → Prop
  | .none, m => m = E.mainModule
  | .mod n _, m => m = n
  | .str s, m => ∃ t, E.importModule s = some (.mod m t)
  | .other _, _ => False

/-- C72, exactly when two names for one argument are refused: when the new name has a value that is not falsy. -/
theorem C72_refused_iff (E : Env) (a : Args) (σ : World) :
    (dumpModule E a σ).1 = some .bothNames ↔
      ((a.main.isSome ∧ a.module_.truthy = true) ∨ (a.byref.isSome ∧ a.refimported = true)) := by
  constructor
  · intro h
    unfold dumpModule at h
    rcases hc : checkNames a σ with ⟨b, σ'⟩
    rw [hc] at h
    cases b with
    | true =>
      unfold checkNames at hc
      cases hm : a.main with
      | some m =>
        rw [hm] at hc
        simp only at hc
        by_cases ht : a.module_.truthy = true
        · exact Or.inl ⟨by simp, ht⟩
        · rw [if_neg ht] at hc
          cases hb : a.byref with
          | none => rw [hb] at hc; cases hc
          | some b =>
            rw [hb] at hc
            exact Or.inr ⟨by simp, (Prod.mk.inj hc).1⟩
      | none =>
        rw [hm] at hc
        simp only at hc
        cases hb : a.byref with
        | none => rw [hb] at hc; cases hc
        | some b =>
          rw [hb] at hc
          exact Or.inr ⟨by simp, (Prod.mk.inj hc).1⟩
    | false =>
      simp only at h
      cases hp : E.settings.get "protocol" with
      | none => rw [hp] at h; cases h
      | some proto =>
        rw [hp] at h
        simp only at h
        rcases hr : resolve E (a.main.getD a.module_) with e | main
        · rw [hr] at h
          have h : e = .bothNames := by simpa using h
          subst h
          unfold resolve at hr
          split at hr
          · cases hr
          · cases hr
          · cases hr
          · split at hr <;> cases hr
        · rw [hr] at h
          simp only at h
          rcases ho : openDest E a.filename σ' with ⟨r, σ2⟩
          rw [ho] at h
          cases r with
          | error e =>
            have h : e = .bothNames := by simpa using h
            subst h
            unfold openDest at ho
            split at ho
            · cases ho
            · simp only at ho
              split at ho <;> cases ho
          | ok file =>
            have h : (writeJob E proto (a.byref.getD a.refimported) main a.rest).2 = some .bothNames := h
            unfold writeJob at h
            split at h
            · cases h
            · split at h
              · cases h
              · simp only at h
                split at h <;> cases h
  · intro h
    exact (C72_both_names_refused_partial E a σ h).1

/-- C72: the pickler always works on the requested module, at the protocol of the settings, with byref and recurse off, and the
module it dumps is the original unless `refimported` replaced it. -/
theorem C72_job (E : Env) (a : Args) (σ : World) (h : (dumpModule E a σ).1 = none) :
    ∃ job : Job, (E.pickle job).2 = true ∧ job.byref = false ∧ job.recurse = false ∧ job.session = true ∧
      Target E (a.main.getD a.module_) job.original ∧
      (E.settings.get "protocol" = some (.int job.proto) ∨ (∃ v, E.settings.get "protocol" = some v ∧ (v = .none ∨ ∃ n : Int, v = .int n ∧ n < 0))) ∧
      (a.byref.getD a.refimported = false → job.main = job.original) ∧
      (a.byref.getD a.refimported = true → E.stash job.original = some job.main) ∧
      (job.modified = true ↔ job.main ≠ job.original) ∧
      (∀ k, a.filename = .stream k → (dumpModule E a σ).2.stream k = σ.stream k ++ (E.pickle job).1.flatten) ∧
      (∀ p, Names E a.filename p → contents (dumpModule E a σ).2.fs p = some (E.pickle job).1.flatten) := by
  rcases run_cases E a σ with ⟨e', τ, h', _⟩ | ⟨proto, main, τ, hp, hm, hs, h'⟩
  · rw [h'] at h; cases h
  · have hr : (writeJob E proto (a.byref.getD a.refimported) main a.rest).2 = none := by
      rcases h' with ⟨k, _, h'⟩ | ⟨_, _, h'⟩ | ⟨_, i, _, h'⟩ <;> rw [h'] at h <;> exact h
    have ht : Target E (a.main.getD a.module_) main := by
      unfold resolve at hm
      split at hm
      · rename_i h; rw [h]; cases hm; rfl
      · rename_i h; rw [h]; cases hm; rfl
      · cases hm
      · rename_i h; rw [h]
        split at hm
        · cases hm
        · rename_i h2; cases hm; exact ⟨_, h2⟩
        · cases hm
    have hstream : ∀ k, a.filename = .stream k → (dumpModule E a σ).2.stream k = σ.stream k ++
        (writeJob E proto (a.byref.getD a.refimported) main a.rest).1.flatten := by
      intro k hk
      rcases h' with ⟨j, hj, h'⟩ | ⟨hj, _, h'⟩ | ⟨hj, i, _, h'⟩
      · rw [hk] at hj; cases hj
        rw [h']; simp [write, hs.2.1]
      · exact absurd hk (hj k)
      · exact absurd hk (hj k)
    have hfile : ∀ p, Names E a.filename p → contents (dumpModule E a σ).2.fs p =
        some (writeJob E proto (a.byref.getD a.refimported) main a.rest).1.flatten := by
      intro p hnm
      obtain ⟨hpath, hp⟩ := names_path hnm
      rw [← hpath]; exact (contents_after hp h').1
    unfold writeJob at hr hstream hfile
    cases hi : Settings.picklerInit E.settings proto a.rest with
    | error e => rw [hi] at hr; cases hr
    | ok cfg =>
      rw [hi] at hr hstream hfile
      simp only at hr hstream hfile
      cases hst : (if a.byref.getD a.refimported = true then E.stash main else some main) with
      | none => rw [hst] at hr; cases hr
      | some m =>
        rw [hst] at hr hstream hfile
        simp only at hr hstream hfile
        refine ⟨_, ?_, rfl, rfl, rfl, ht, ?_, ?_, ?_, ?_, hstream, hfile⟩
        · split at hr
          · assumption
          · cases hr
        · have hproto : Settings.normProtocol proto = .ok cfg.proto := by
            unfold Settings.picklerInit at hi
            simp only at hi
            split at hi
            · cases hi
            · split at hi
              · cases hi
              · rename_i pr hpr
                rw [hpr]
                repeat' split at hi
                all_goals cases hi
                rfl
          rw [hp]
          cases proto with
          | none => exact .inr ⟨_, rfl, .inl rfl⟩
          | other k => cases hproto
          | int n =>
            unfold Settings.normProtocol at hproto
            by_cases hn : n < 0
            · exact .inr ⟨_, rfl, .inr ⟨n, rfl, hn⟩⟩
            · simp only [hn, if_false] at hproto
              split at hproto
              · cases hproto; exact .inl rfl
              · cases hproto
        · intro hb; rw [hb] at hst; simp at hst; exact hst.symm
        · intro hb; rw [hb] at hst; simpa using hst
        · simp

/-- `dill.settings` as dill sets them up: the keys exist -/
def HasKeys (t : Table) : Prop := (t.get "byref").isSome ∧ (t.get "recurse").isSome ∧ (t.get "fmode").isSome

theorem pickler_byref_recurse {t t' : Table} {rest rest' : Table} {proto : Settings.Val} (hk : HasKeys t) (hk' : HasKeys t')
    (hf : t.get "fmode" = t'.get "fmode") (hb : Settings.badKw Settings.picklerKw (((rest.del "byref").del "fmode").del "recurse") =
      Settings.badKw Settings.picklerKw (((rest'.del "byref").del "fmode").del "recurse"))
    (hfm : (rest.del "byref").get "fmode" = (rest'.del "byref").get "fmode") :
    match Settings.picklerInit t proto rest, Settings.picklerInit t' proto rest' with
    | .ok c, .ok c' => c.proto = c'.proto ∧ c.fmode = c'.fmode
    | .error e, .error e' => e = e'
    | _, _ => False := by
  have hor : ∀ (t : Table) (k : String) (v : Settings.Val), (t.get k).isSome → ∃ x, Settings.orSetting t k v = .ok x := by
    intro t k v h
    obtain ⟨x, hx⟩ := Option.isSome_iff_exists.1 h
    cases v with
    | none => exact ⟨x, by simp [Settings.orSetting, hx]⟩
    | _ => exact ⟨_, rfl⟩
  obtain ⟨k1, k2, k3⟩ := hk
  obtain ⟨k1', k2', k3'⟩ := hk'
  unfold Settings.picklerInit
  simp only [Settings.popNone, hb, hfm]
  cases Settings.badKw Settings.picklerKw (((rest'.del "byref").del "fmode").del "recurse") with
  | true => rfl
  | false =>
    simp only
    cases Settings.normProtocol proto with
    | error e => rfl
    | ok pr =>
      simp only
      obtain ⟨x1, h1⟩ := hor t "byref" ((rest.get "byref").getD .none) k1
      obtain ⟨x1', h1'⟩ := hor t' "byref" ((rest'.get "byref").getD .none) k1'
      rw [h1, h1']
      simp only
      have e : Settings.orSetting t "fmode" (((rest'.del "byref").get "fmode").getD .none) =
          Settings.orSetting t' "fmode" (((rest'.del "byref").get "fmode").getD .none) := by
        unfold Settings.orSetting; rw [hf]
      obtain ⟨x2, h2⟩ := hor t' "fmode" (((rest'.del "byref").get "fmode").getD .none) k3'
      rw [e, h2]
      simp only
      obtain ⟨x3, h3⟩ := hor t "recurse" ((((rest.del "byref").del "fmode").get "recurse").getD .none) k2
      obtain ⟨x3', h3'⟩ := hor t' "recurse" ((((rest'.del "byref").del "fmode").get "recurse").getD .none) k2'
      rw [h3, h3']
      exact ⟨rfl, rfl⟩

theorem writeJob_eq {E E' : Env} {proto : Settings.Val} {ref : Bool} {main : ModId} {rest rest' : Table}
    (hpk : E.pickle = E'.pickle) (hst : E.stash = E'.stash)
    (h : match Settings.picklerInit E.settings proto rest, Settings.picklerInit E'.settings proto rest' with
    | .ok c, .ok c' => c.proto = c'.proto ∧ c.fmode = c'.fmode
    | .error e, .error e' => e = e'
    | _, _ => False) : writeJob E proto ref main rest = writeJob E' proto ref main rest' := by
  unfold writeJob
  cases h1 : Settings.picklerInit E.settings proto rest with
  | error e => cases h2 : Settings.picklerInit E'.settings proto rest' with
    | error e' => rw [h1, h2] at h; simp only at h; rw [h]
    | ok c' => rw [h1, h2] at h; exact h.elim
  | ok c => cases h2 : Settings.picklerInit E'.settings proto rest' with
    | error e' => rw [h1, h2] at h; exact h.elim
    | ok c' =>
      rw [h1, h2] at h
      obtain ⟨e1, e2⟩ := h
      simp only [hpk, hst, e1, e2]

/-- C72: `dill.settings['byref']`, `dill.settings['recurse']` and `dill.settings['ignore']` have no effect on `dump_module`. -/
theorem C72_settings_do_not_apply (E : Env) (t : Table) (hk : HasKeys E.settings) (hk' : HasKeys t)
    (hp : t.get "protocol" = E.settings.get "protocol") (hf : t.get "fmode" = E.settings.get "fmode") (a : Args) (σ : World) :
    dumpModule { E with settings := t } a σ = dumpModule E a σ := by
  have hr : ∀ x, resolve { E with settings := t } x = resolve E x := fun x => by unfold resolve; rfl
  have ho : ∀ d τ, openDest { E with settings := t } d τ = openDest E d τ := fun d τ => rfl
  have hw : ∀ proto ref main, writeJob { E with settings := t } proto ref main a.rest = writeJob E proto ref main a.rest :=
    fun proto ref main => writeJob_eq rfl rfl (pickler_byref_recurse hk' hk hf rfl rfl)
  unfold dumpModule
  simp only [hr, ho, hw, hp]

/-- C72: so the keyword `recurse=...` has no effect either. -/
theorem C72_recurse_keyword_ignored (E : Env) (hk : HasKeys E.settings) (a : Args) (v : Settings.Val)
    (σ : World) : dumpModule E { a with rest := ("recurse", v) :: a.rest } σ = dumpModule E a σ := by
  have hdel : ∀ (k : String) (d : Table), k ≠ "recurse" → Dict.del (("recurse", v) :: d) k = ("recurse", v) :: Dict.del d k := by
    intro k d hk
    simp [Dict.del, Ne.symm hk]
  have hw : ∀ proto ref main, writeJob E proto ref main (("recurse", v) :: a.rest) = writeJob E proto ref main a.rest := by
    intro proto ref main
    refine writeJob_eq rfl rfl (pickler_byref_recurse hk hk rfl ?_ ?_)
    · rw [hdel "byref" _ (by decide), hdel "fmode" _ (by decide)]
      simp [Dict.del]
    · rw [hdel "byref" _ (by decide)]
      simp [Dict.get]
  unfold dumpModule checkNames
  simp only [hw]

/-! ### dump_session -/

theorem checkNames_warned (a : Args) (σ : World) : ∃ l, ∀ ws,
    checkNames a { σ with warned := ws } = ((checkNames a σ).1, { (checkNames a σ).2 with warned := ws ++ l }) := by
  unfold checkNames
  cases a.main with
  | none => cases a.byref with
    | none => exact ⟨[], fun ws => by simp⟩
    | some b => exact ⟨[.renamedByref], fun ws => by simp [warn]⟩
  | some m =>
    simp only
    cases a.module_.truthy with
    | true => exact ⟨[.renamedMain], fun ws => by simp [warn]⟩
    | false => cases a.byref with
      | none => exact ⟨[.renamedMain], fun ws => by simp [warn]⟩
      | some b => exact ⟨[.renamedMain, .renamedByref], fun ws => by simp [warn]⟩

theorem openDest_warned (E : Env) (d : Dest) (σ : World) : ∃ l, ∀ ws,
    openDest E d { σ with warned := ws } = ((openDest E d σ).1, { (openDest E d σ).2 with warned := ws ++ l }) := by
  cases d with
  | stream k => exact ⟨[], fun ws => by simp [openDest]⟩
  | none =>
    refine ⟨[.defaultPath], fun ws => ?_⟩
    simp only [openDest, if_true, warn]
    generalize SafeOpen.openWrite E.nofollow (pathOf E .none) quiet σ.fs = w
    obtain ⟨r, fs, t⟩ := w
    cases r <;> rfl
  | path p =>
    refine ⟨[], fun ws => ?_⟩
    simp only [openDest, reduceCtorEq, if_false]
    generalize SafeOpen.openWrite E.nofollow (pathOf E (.path p)) quiet σ.fs = w
    obtain ⟨r, fs, t⟩ := w
    cases r <;> simp

/-- earlier warnings have no effect on a run -/
theorem dump_warned (E : Env) (a : Args) (σ : World) : ∃ l, ∀ ws,
    dumpModule E a { σ with warned := ws } = ((dumpModule E a σ).1, { (dumpModule E a σ).2 with warned := ws ++ l }) := by
  obtain ⟨l1, h1⟩ := checkNames_warned a σ
  generalize hc : checkNames a σ = c at h1
  obtain ⟨b, σ1⟩ := c
  obtain ⟨l2, h2⟩ := openDest_warned E a.filename σ1
  unfold dumpModule
  rw [hc]
  have h1' : ∀ ws, checkNames a { σ with warned := ws } = (b, { σ1 with warned := ws ++ l1 }) := h1
  conv in checkNames a _ => rw [h1']
  cases b with
  | true => exact ⟨l1, fun ws => rfl⟩
  | false =>
    simp only
    cases E.settings.get "protocol" with
    | none => exact ⟨l1, fun ws => rfl⟩
    | some proto =>
      simp only
      cases resolve E (a.main.getD a.module_) with
      | error e => exact ⟨l1, fun ws => rfl⟩
      | ok main =>
        refine ⟨l1 ++ l2, fun ws => ?_⟩
        rw [h2]
        generalize openDest E a.filename σ1 = o
        obtain ⟨r, σ2⟩ := o
        cases r with
        | error e => simp [List.append_assoc]
        | ok f =>
          simp only [← List.append_assoc]
          cases newlyOpened a.filename f <;> cases f <;> rfl

/-- C72: `dump_session(filename, main, byref, **kwds)` is `dump_module(filename, module=main, refimported=byref, **kwds)`: the
same outcome, files and streams; it gives one warning more, before the others. -/
theorem C72_dump_session (E : Env) (filename : Dest) (main : Arg) (byref : Bool) (rest : Table) (σ : World) :
    let m := dumpModule E { filename := filename, module_ := main, refimported := byref, rest := rest } σ
    let s := dumpSession E filename main byref rest σ
    s.1 = m.1 ∧ SameButWarnings s.2 m.2 ∧
    ∃ l, m.2.warned = σ.warned ++ l ∧ s.2.warned = σ.warned ++ [.renamedFunction] ++ l := by
  obtain ⟨l, h⟩ := dump_warned E { filename := filename, module_ := main, refimported := byref, rest := rest } σ
  have h0 := h σ.warned
  have hs := h (σ.warned ++ [.renamedFunction])
  simp only
  unfold dumpSession warn
  rw [hs]
  refine ⟨rfl, ⟨rfl, rfl, rfl, rfl⟩, l, ?_, rfl⟩
  have : ({ σ with warned := σ.warned } : World) = σ := rfl
  rw [this] at h0
  rw [congrArg (fun r => r.2.warned) h0]

/-! ### the disagreement, and concrete cases -/

/-- the settings dill starts with -/
def defaults : Table := [("protocol", .int 4), ("byref", .int 0), ("fmode", .int 0), ("recurse", .int 0), ("ignore", .int 0)]

/-- a session whose module 1 pickles to three bytes and whose module 2 contains something that cannot be pickled -/
def env : Env where
  settings := defaults
  mainModule := 1
  importModule := fun s => if s = "pox" then some (.mod 2 true) else if s = "os.sep" then some (.str "/") else none
  stash := fun m => some (m + 10)
  pickle := fun j => if j.original = 2 then ([[128, 4]], false) else ([[128, 4], [j.main, 46]], true)
  defaultPath := "/tmp/session.pkl"
  nofollow := true

def world : World where
  fs := { dir := fun p => if p = "s.pkl" then .file 7 else if p = "evil.pkl" then .link "s.pkl" else .absent,
          data := fun i => if i = 7 then some [128, 4, 9, 46] else none, next := 8 }
  stream := fun _ => [5]
  streamClosed := fun _ => false
  fds := []

/-- C70 is false: a keyword `Pickler` does not accept (here `protocol=2`, which `dump` takes) and an object that cannot be
pickled both destroy the session that was in the file. -/
theorem C70_failed_dump_destroys :
    contents world.fs "s.pkl" = some [128, 4, 9, 46] ∧
    (let r := dumpModule env { filename := .path "s.pkl", rest := [("protocol", .int 2)] } world
     r.1 = some (.pickler .typeError) ∧ contents r.2.fs "s.pkl" = some []) ∧
    (let r := dumpModule env { filename := .path "s.pkl", module_ := .str "pox" } world
     r.1 = some .pickling ∧ contents r.2.fs "s.pkl" = some [128, 4]) := by
  refine ⟨rfl, ⟨?_, ?_⟩, ⟨?_, ?_⟩⟩ <;> decide +kernel

/-- C72: both names are accepted when the new one is falsy: `byref=True` overrides an explicit `refimported=False`. -/
theorem C72_both_names_accepted :
    let r := dumpModule env { filename := .stream 0, refimported := false, byref := some true, module_ := .str "", main := some .none } world
    r.1 = none ∧ r.2.stream 0 = [5, 128, 4, 11, 46] := by
  constructor <;> decide +kernel

/-- a successful dump to a path and to a stream; the refused symlink; the errors before opening -/
example : let r := dumpModule env { filename := .path "s.pkl", rest := [("recurse", .int 1)] } world
    r.1 = none ∧ contents r.2.fs "s.pkl" = some [128, 4, 1, 46] ∧ r.2.fds = [] := by
  refine ⟨?_, ?_, ?_⟩ <;> decide +kernel
example : (dumpModule env { filename := .path "evil.pkl" } world).1 = some (.os .refused) := by decide +kernel
example : (dumpModule env { filename := .path "s.pkl", module_ := .str "nope" } world).1 = some .importError := by decide +kernel
example : (dumpModule env { filename := .path "s.pkl", module_ := .str "os.sep" } world).1 = some .notModule := by decide +kernel
example : (dumpModule env { filename := .path "s.pkl", module_ := .mod 1 true, main := some (.mod 2 true) } world).1 = some .bothNames := by
  decide +kernel
example : HasKeys defaults := by refine ⟨?_, ?_, ?_⟩ <;> decide
example : env.settings.get "protocol" = some (.int 4) ∧ Early (.os .refused) := ⟨rfl, trivial⟩
example : let r := dumpSession env .none .none true [] world
    r.1 = none ∧ contents r.2.fs "/tmp/session.pkl" = some [128, 4, 11, 46] ∧ r.2.warned = [.renamedFunction, .defaultPath] := by
  refine ⟨?_, ?_, ?_⟩ <;> decide +kernel

end Verif.DumpModule
