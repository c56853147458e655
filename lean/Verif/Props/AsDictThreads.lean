import Verif.Model.AsDictThreads
/-! C100: calls of `load_module_asdict` in several threads. -/
set_option linter.unusedSimpArgs false
set_option linter.unusedVariables false
namespace Verif.AsDict

/-! ### Specification -/

/-- the call has begun and not ended -/
def Active (s : St) (i : Tid) : Prop := s.pc i ≠ .start ∧ ∀ r, s.pc i ≠ .done r

/-- the call has ended, and how -/
def Ended (s : St) (i : Tid) (r : Except Err Unit) : Prop := s.pc i = .done r

/-- each call makes a module of its own, which nobody knows before -/
structure Fresh (c : Tid → Call) (mods : Dict String ModId) (dicts : ModId → List Nat) : Prop where
  own : ∀ i j, (c i).modl = (c j).modl → i = j
  new : ∀ n i, mods.get n ≠ some (c i).modl
  empty : ∀ i, dicts (c i).modl = []

/-- no call begins while another call for the same module name is under way -/
def Separate (loader : ModId → Bool) (c : Tid → Call) (s : St) (sched : List Tid) : Prop :=
  ∀ (before after : List Tid) (i j : Tid), sched = before ++ i :: after →
    (run loader c s before).pc i = .start → (c j).name = (c i).name → ¬ Active (run loader c s before) j

/-! ### Lemmas -/

theorem run_append (loader : ModId → Bool) (c : Tid → Call) (s : St) (a b : List Tid) :
    run loader c s (a ++ b) = run loader c (run loader c s a) b := by simp [run, List.foldl_append]

/-- under way; finished; with its module in sys.modules -/
def act : Pc → Bool
  | .start | .done _ => false
  | _ => true
def fin : Pc → Bool
  | .loaded | .done _ => true
  | _ => false
def holds : Pc → Bool
  | .placed | .found _ | .checked _ | .loaded => true
  | _ => false

theorem active_iff (s : St) (i : Tid) : Active s i ↔ act (s.pc i) = true := by
  unfold Active; cases s.pc i <;> simp [act]

structure Inv (c : Tid → Call) (mods0 : Dict String ModId) (dicts0 : ModId → List Nat) (s : St) : Prop where
  free : ∀ n, (∀ j, (c j).name = n → holds (s.pc j) = false) → s.mods.get n = mods0.get n
  held : ∀ i, holds (s.pc i) = true → s.mods.get (c i).name = some (c i).modl
  olds : ∀ i, act (s.pc i) = true → s.old i = mods0.get (c i).name
  found : ∀ i m, s.pc i = .found m → m = (c i).modl
  checked : ∀ i m, s.pc i = .checked m → m = (c i).modl
  nofail : ∀ i e, s.pc i ≠ .failed e
  ok : ∀ i e, s.pc i ≠ .done (.error e)
  alone : ∀ i j, (c i).name = (c j).name → act (s.pc i) = true → act (s.pc j) = true → i = j
  mine : ∀ i, fin (s.pc i) = true → s.dicts (c i).modl = [(c i).session]
  early : ∀ i, fin (s.pc i) = false → s.dicts (c i).modl = []
  other : ∀ x, (∀ i, (c i).modl ≠ x) → s.dicts x = dicts0 x

theorem holds_act {p : Pc} (h : holds p = true) : act p = true := by
  cases p <;> simp [holds, act] at h ⊢

theorem inv_init (c : Tid → Call) (mods0 : Dict String ModId) (dicts0 : ModId → List Nat) (hf : Fresh c mods0 dicts0) :
    Inv c mods0 dicts0 (init mods0 dicts0) := by
  constructor <;> simp [init, holds, act, fin, hf.empty]

theorem inv_step (loader : ModId → Bool) (c : Tid → Call) (mods0 : Dict String ModId) (dicts0 : ModId → List Nat)
    (hf : Fresh c mods0 dicts0) (s : St) (i : Tid) (h : Inv c mods0 dicts0 s)
    (hsep : s.pc i = .start → ∀ j, (c j).name = (c i).name → act (s.pc j) = false) :
    Inv c mods0 dicts0 (step loader c s i) := by
  have hother : ∀ j, (c j).modl = (c i).modl → j = i := fun j hj => hf.own j i hj
  have hal : ∀ j, act (s.pc i) = true → (c j).name = (c i).name → holds (s.pc j) = true → j = i :=
    fun j ha hn hh => h.alone j i hn (holds_act hh) ha
  rcases h with ⟨free, held, olds, found, checked, nofail, ok, alone, mine, early, other⟩
  simp only [step]
  cases hp : s.pc i with
  | start =>
    have hs := hsep hp
    have hfr : s.mods.get (c i).name = mods0.get (c i).name := free _ (fun j hj => by
      have := hs j hj
      cases hh : holds (s.pc j)
      · rfl
      · rw [holds_act hh] at this; cases this)
    constructor <;> simp only [St.goto] <;> grind [holds, act, fin]
  | saved =>
    have ha : act (s.pc i) = true := by simp [act, hp]
    constructor <;> simp only [St.goto, Dict.get_set] <;> grind [holds, act, fin]
  | placed =>
    have ha : act (s.pc i) = true := by simp [act, hp]
    have hg := held i (by simp [hp, holds])
    simp only [hg]
    constructor <;> simp only [St.goto] <;> grind [holds, act, fin]
  | found m =>
    have ha : act (s.pc i) = true := by simp [act, hp]
    have hm := found i m hp
    have hg := held i (by simp [hp, holds])
    have hi : isImported loader s m = true := by
      simp only [isImported, Bool.or_eq_true, List.contains_iff_mem]
      exact Or.inr (List.mem_map.mpr ⟨_, Dict.mem_of_get hg, hm.symm⟩)
    simp only [hi, if_true]
    constructor <;> simp only [St.goto] <;> grind [holds, act, fin]
  | checked m =>
    have ha : act (s.pc i) = true := by simp [act, hp]
    have hm := checked i m hp
    have hg := held i (by simp [hp, holds])
    simp only [hg, hm, if_true]
    constructor <;> simp only [St.goto] <;> grind [holds, act, fin]
  | loaded =>
    have ha : act (s.pc i) = true := by simp [act, hp]
    have hg := held i (by simp [hp, holds])
    have ho := olds i ha
    simp only [restore, ho, hg]
    cases hmo : mods0.get (c i).name <;>
      (constructor <;> simp only [St.goto, Dict.get_set, Dict.get_del] <;> grind [holds, act, fin])
  | failed e => exact absurd hp (nofail i e)
  | done r => exact ⟨free, held, olds, found, checked, nofail, ok, alone, mine, early, other⟩

theorem inv_run (loader : ModId → Bool) (c : Tid → Call) (mods0 : Dict String ModId) (dicts0 : ModId → List Nat)
    (hf : Fresh c mods0 dicts0) (sched : List Tid) : ∀ s, Inv c mods0 dicts0 s → Separate loader c s sched →
    Inv c mods0 dicts0 (run loader c s sched) := by
  induction sched with
  | nil => intro s h _; exact h
  | cons i l ih =>
    intro s h hs
    have h1 : Inv c mods0 dicts0 (step loader c s i) :=
      inv_step loader c mods0 dicts0 hf s i h (fun hp j hn => by
        have := hs [] l i j rfl hp hn
        simpa [active_iff, run] using this)
    refine ih _ h1 ?_
    intro before after k j he hp hn
    exact hs (i :: before) after k j (by rw [he]; rfl) hp hn

/-! ### Theorems -/

/-- C100 where calls for one module name do not overlap (calls for different names may, in every way): each call that has ended gave the
contents of its own session and nothing else; no module that anybody knew before has changed; and whenever no call is under way sys.modules
is as it was. -/
theorem C100_separate_partial (loader : ModId → Bool) (c : Tid → Call) (mods0 : Dict String ModId) (dicts0 : ModId → List Nat)
    (hf : Fresh c mods0 dicts0) (sched : List Tid) (hs : Separate loader c (init mods0 dicts0) sched) :
    let s := run loader c (init mods0 dicts0) sched
    (∀ i r, Ended s i r → r = .ok () ∧ s.dicts (c i).modl = [(c i).session]) ∧
    (∀ n m, mods0.get n = some m → s.dicts m = dicts0 m) ∧
    (∀ n, (∀ i, (c i).name = n → ¬ Active s i) → s.mods.get n = mods0.get n) := by
  intro s
  have h : Inv c mods0 dicts0 s := inv_run loader c mods0 dicts0 hf sched _ (inv_init c mods0 dicts0 hf) hs
  refine ⟨?_, ?_, ?_⟩
  · intro i r he
    cases r with
    | error e => exact absurd he (h.ok i e)
    | ok u => exact ⟨rfl, h.mine i (by have he' : s.pc i = _ := he; rw [he']; rfl)⟩
  · intro n m hm
    exact h.other m (fun i hi => hf.new n i (by rw [hm, hi]))
  · intro n hn
    exact h.free n (fun j hj => by
      cases hh : holds (s.pc j)
      · rfl
      · exact absurd ((active_iff s j).mpr (holds_act hh)) (hn j hj))

/-- how many steps the call still makes -/
def left : Pc → Nat
  | .start => 6 | .saved => 5 | .placed => 4 | .found _ => 3 | .checked _ => 2 | .loaded => 1 | .failed _ => 1 | .done _ => 0

theorem left_step (loader : ModId → Bool) (c : Tid → Call) (s : St) (i j : Tid) :
    left ((step loader c s i).pc j) ≤ (if j = i then left (s.pc j) - 1 else left (s.pc j)) := by
  simp only [step]
  by_cases hji : j = i
  · subst hji
    cases hp : s.pc j <;> simp only [if_true, restore] <;> (repeat' split) <;> simp_all [St.goto, left]
  · cases hp : s.pc i <;> simp only [hji, if_false, restore] <;> (repeat' split) <;> simp_all [St.goto, left]

theorem left_run (loader : ModId → Bool) (c : Tid → Call) (j : Tid) (sched : List Tid) : ∀ s,
    left ((run loader c s sched).pc j) ≤ left (s.pc j) - sched.count j := by
  induction sched with
  | nil => intro s; simp [run]
  | cons i l ih =>
    intro s
    have h1 := ih (step loader c s i)
    have h2 := left_step loader c s i j
    show left ((run loader c (step loader c s i) l).pc j) ≤ _
    rw [List.count_cons]
    by_cases hji : j = i
    · subst hji; simp only [if_true, beq_self_eq_true] at *; omega
    · have : (i == j) = false := by simp [Ne.symm hji]
      simp only [hji, if_false, this] at *
      simp only [Bool.false_eq_true, if_false]
      omega

/-- No call waits for another one: under every schedule a call has ended after six turns of its thread. -/
theorem C100_ends (loader : ModId → Bool) (c : Tid → Call) (mods0 : Dict String ModId) (dicts0 : ModId → List Nat)
    (sched : List Tid) (i : Tid) (h : 6 ≤ sched.count i) :
    ∃ r, Ended (run loader c (init mods0 dicts0) sched) i r := by
  have h1 := left_run loader c i sched (init mods0 dicts0)
  have h2 : left ((init mods0 dicts0).pc i) = 6 := rfl
  rw [h2] at h1
  have h3 : left ((run loader c (init mods0 dicts0) sched).pc i) = 0 := by omega
  unfold Ended
  cases hp : (run loader c (init mods0 dicts0) sched).pc i <;> simp [hp, left] at h3 ⊢

/-- which modules may stand under a name: the one of the beginning, or one made by a call for that name -/
def Belongs (c : Tid → Call) (mods0 : Dict String ModId) (n : String) (m : ModId) : Prop :=
  mods0.get n = some m ∨ ∃ i, (c i).name = n ∧ (c i).modl = m

structure Frame (c : Tid → Call) (mods0 : Dict String ModId) (dicts0 : ModId → List Nat) (s : St) : Prop where
  mods : ∀ n m, s.mods.get n = some m → Belongs c mods0 n m
  olds : ∀ i m, s.old i = some m → Belongs c mods0 (c i).name m
  away : ∀ n, (∀ i, (c i).name ≠ n) → s.mods.get n = mods0.get n
  dicts : ∀ x, ∃ more, s.dicts x = dicts0 x ++ more ∧
    ∀ k ∈ more, ∃ i, (c i).session = k ∧ Belongs c mods0 (c i).name x

theorem frame_goto {c : Tid → Call} {mods0 : Dict String ModId} {dicts0 : ModId → List Nat} {s : St} (i : Tid) (p : Pc)
    (h : Frame c mods0 dicts0 s) : Frame c mods0 dicts0 (s.goto i p) := ⟨h.mods, h.olds, h.away, h.dicts⟩

theorem frame_restore {c : Tid → Call} {mods0 : Dict String ModId} {dicts0 : ModId → List Nat} {s : St} (i : Tid) (r : Except Err Unit)
    (h : Frame c mods0 dicts0 s) : Frame c mods0 dicts0 (restore (c i) i s r) := by
  simp only [restore]
  cases ho : s.old i with
  | none =>
    simp only
    cases hg : s.mods.get (c i).name with
    | none => exact frame_goto _ _ h
    | some m =>
      refine frame_goto _ _ ⟨?_, h.olds, ?_, h.dicts⟩
      · intro n m hm
        simp only [Dict.get_del] at hm
        split at hm
        · cases hm
        · exact h.mods n m hm
      · intro n hn
        simp only [Dict.get_del, if_neg (Ne.symm (hn i))]
        exact h.away n hn
  | some o =>
    refine frame_goto _ _ ⟨?_, h.olds, ?_, h.dicts⟩
    · intro n m hm
      simp only [Dict.get_set] at hm
      split at hm
      · rename_i hni
        cases hm; rw [hni]; exact h.olds i _ ho
      · exact h.mods n m hm
    · intro n hn
      simp only [Dict.get_set, if_neg (Ne.symm (hn i))]
      exact h.away n hn

theorem frame_step (loader : ModId → Bool) (c : Tid → Call) (mods0 : Dict String ModId) (dicts0 : ModId → List Nat)
    (s : St) (i : Tid) (h : Frame c mods0 dicts0 s) : Frame c mods0 dicts0 (step loader c s i) := by
  simp only [step]
  cases hp : s.pc i with
  | start =>
    refine frame_goto _ _ ⟨h.mods, ?_, h.away, h.dicts⟩
    intro j m hm
    by_cases hj : j = i
    · subst hj; simp only [if_true] at hm; exact h.mods _ _ hm
    · simp only [hj, if_false] at hm; exact h.olds _ _ hm
  | saved =>
    refine frame_goto _ _ ⟨?_, h.olds, ?_, h.dicts⟩
    · intro n m hm
      simp only [Dict.get_set] at hm
      split at hm
      · rename_i hni; cases hm; exact Or.inr ⟨i, hni.symm, rfl⟩
      · exact h.mods n m hm
    · intro n hn
      simp only [Dict.get_set, if_neg (Ne.symm (hn i))]
      exact h.away n hn
  | placed => simp only; split <;> exact frame_goto _ _ h
  | found m => simp only; split <;> exact frame_goto _ _ h
  | checked m =>
    simp only
    cases hg : s.mods.get (c i).name with
    | none => exact frame_goto _ _ h
    | some m' =>
      refine frame_goto _ _ ⟨h.mods, h.olds, h.away, ?_⟩
      intro x
      obtain ⟨more, he, hall⟩ := h.dicts x
      by_cases hx : x = m'
      · subst hx
        refine ⟨more ++ [(c i).session], by simp [he], ?_⟩
        intro k hk
        rcases List.mem_append.mp hk with hk | hk
        · exact hall k hk
        · exact ⟨i, (List.mem_singleton.mp hk).symm, h.mods _ _ hg⟩
      · exact ⟨more, by simp [hx, he], hall⟩
  | loaded => exact frame_restore _ _ h
  | failed e => exact frame_restore _ _ h
  | done r => exact h

/-- Under every schedule: names that no call is about keep their entry in sys.modules; under the other names there is the module of the
beginning or one made by a call for that name; and what is loaded into a module is a session saved for a name under which the module may
stand — so sessions of different names are never mixed up. -/
theorem C100_names_not_mixed (loader : ModId → Bool) (c : Tid → Call) (mods0 : Dict String ModId) (dicts0 : ModId → List Nat)
    (sched : List Tid) :
    let s := run loader c (init mods0 dicts0) sched
    (∀ n, (∀ i, (c i).name ≠ n) → s.mods.get n = mods0.get n) ∧
    (∀ n m, s.mods.get n = some m → mods0.get n = some m ∨ ∃ i, (c i).name = n ∧ (c i).modl = m) ∧
    (∀ x, ∃ more, s.dicts x = dicts0 x ++ more ∧ ∀ k ∈ more, ∃ i, (c i).session = k ∧
      (mods0.get (c i).name = some x ∨ ∃ j, (c j).name = (c i).name ∧ (c j).modl = x)) := by
  intro s
  have h : Frame c mods0 dicts0 s := by
    have : ∀ (l : List Tid) (s : St), Frame c mods0 dicts0 s → Frame c mods0 dicts0 (run loader c s l) := by
      intro l
      induction l with
      | nil => intro s h; exact h
      | cons i l ih => intro s h; exact ih _ (frame_step loader c mods0 dicts0 s i h)
    exact this sched _ ⟨fun n m hm => Or.inl hm, by simp [init], fun _ _ => rfl, fun x => ⟨[], by simp [init], by simp⟩⟩
  exact ⟨h.away, h.mods, h.dicts⟩

/-! ### Overlapping calls for one name -/

/-- two threads, each with a session of the module "m" -/
def two : Tid → Call
  | 0 => ⟨"m", 10, 100⟩
  | n + 1 => ⟨"m", 11 + n, 101 + n⟩

def mods : Dict String ModId := [("m", 1)]

theorem two_fresh : Fresh two mods (fun _ => []) := by
  refine ⟨?_, ?_, fun _ => rfl⟩
  · intro i j h
    cases i <;> cases j <;> simp only [two] at h ⊢ <;> grind
  · intro n i h
    have := Dict.mem_of_get h
    cases i <;> simp [mods, two] at this <;> grind

/-- the second call begins while the first one's module stands in sys.modules -/
def overlap : List Tid := [0, 0, 1, 1, 0, 0, 0, 0, 1, 1, 1, 1]

/-- Two calls for the same name that overlap, both return without an exception, no other call is made: the first returns an empty namespace;
the second returns the contents of the first one's session; the second one's session has been loaded into the real module, which the
user's program goes on using; and sys.modules no longer has that module but the first call's namespace. -/
theorem C100_overlap : ∃ (c : Tid → Call) (mods0 : Dict String ModId) (sched : List Tid),
    Fresh c mods0 (fun _ => []) ∧ (c 0).name = "m" ∧ (c 1).name = "m" ∧ mods0.get "m" = some 1 ∧ (c 0).session ≠ (c 1).session ∧
    let s := run (fun _ => false) c (init mods0 (fun _ => [])) sched
    (Ended s 0 (.ok ()) ∧ Ended s 1 (.ok ()) ∧ ∀ i, 2 ≤ i → s.pc i = .start) ∧
    s.dicts (c 0).modl = [] ∧ s.dicts (c 1).modl = [(c 0).session] ∧ s.dicts 1 = [(c 1).session] ∧
    s.mods.get "m" = some (c 0).modl := by
  refine ⟨two, mods, overlap, two_fresh, rfl, rfl, rfl, by decide, ⟨rfl, rfl, ?_⟩, rfl, rfl, rfl, rfl⟩
  intro i hi
  match i, hi with
  | i + 2, _ => rfl

/-- A call may also fail for no reason of its own (the module is not loaded yet, so the first call takes the entry away); and sys.modules
keeps a module that it did not have. -/
theorem C100_overlap_fails : ∃ (c : Tid → Call) (mods0 : Dict String ModId) (sched : List Tid),
    Fresh c mods0 (fun _ => []) ∧ (c 0).name = "m" ∧ (c 1).name = "m" ∧
    let s := run (fun _ => false) c (init mods0 (fun _ => [])) sched
    Ended s 0 (.ok ()) ∧ Ended s 1 (.error .importError) ∧ (∀ i, 2 ≤ i → s.pc i = .start) ∧ s.mods.get "m" = some (c 0).modl := by
  refine ⟨two, [], [0, 0, 1, 1, 0, 0, 0, 0, 1, 1], ⟨two_fresh.own, by simp, fun _ => rfl⟩, rfl, rfl, rfl, rfl, ?_, rfl⟩
  intro i hi
  match i, hi with
  | i + 2, _ => rfl

/-! ### The hypotheses can be met -/

/-- three threads: the first and the third load sessions of "m", one after the other, while the second loads one of "q" -/
def three : Tid → Call
  | 0 => ⟨"m", 10, 100⟩
  | 1 => ⟨"q", 11, 101⟩
  | n + 2 => ⟨"m", 12 + n, 102 + n⟩

def interleaved : List Tid := [0, 1, 0, 1, 0, 0, 1, 0, 1, 0, 2, 2, 1, 2, 2, 2, 1, 2]

example : Fresh three [("m", 1), ("a", 2)] (fun _ => []) := by
  refine ⟨?_, ?_, fun _ => rfl⟩
  · intro i j h
    match i, j with
    | 0, 0 | 1, 1 => rfl
    | 0, 1 | 1, 0 => simp [three] at h
    | 0, j + 2 | 1, j + 2 => simp only [three] at h; grind
    | i + 2, 0 | i + 2, 1 => simp only [three] at h; grind
    | i + 2, j + 2 => simp only [three] at h; grind
  · intro n i h
    have := Dict.mem_of_get h
    match i with
    | 0 | 1 => simp [three] at this
    | i + 2 => simp [three] at this; grind

/-- the separateness of a concrete schedule, checked step by step -/
def sepCheck (c : Tid → Call) (bound : Nat) (s : St) : List Tid → Bool
  | [] => true
  | i :: l => (act (s.pc i) || fin (s.pc i) || (List.range bound).all (fun j => (c j).name != (c i).name || !act (s.pc j))) &&
    sepCheck c bound (step (fun _ => false) c s i) l

theorem sepCheck_sound (c : Tid → Call) (bound : Nat) : ∀ (l : List Tid) (s : St), (∀ i ∈ l, i < bound) →
    (∀ j, bound ≤ j → act (s.pc j) = false) → sepCheck c bound s l = true → Separate (fun _ => false) c s l := by
  intro l
  induction l with
  | nil => intro s _ _ _ before after i j he; simp at he
  | cons k l ih =>
    intro s hb hj hc before after i j he hp hn
    simp only [sepCheck, Bool.and_eq_true] at hc
    cases before with
    | nil =>
      simp only [List.nil_append, List.cons.injEq] at he
      obtain ⟨rfl, _⟩ := he
      have hp' : s.pc k = .start := hp
      have h1 := hc.1
      have ha : act (s.pc k) = false := by rw [hp']; rfl
      have hfi : fin (s.pc k) = false := by rw [hp']; rfl
      simp only [ha, hfi, Bool.false_or, List.all_eq_true, List.mem_range] at h1
      show ¬ Active s j
      rw [active_iff]
      by_cases hjb : j < bound
      · have := h1 j hjb
        simpa [hn] using this
      · simp [hj j (Nat.le_of_not_lt hjb)]
    | cons b before =>
      simp only [List.cons_append, List.cons.injEq] at he
      obtain ⟨rfl, he⟩ := he
      refine ih (step (fun _ => false) c s k) (fun i hi => hb i (List.mem_cons_of_mem _ hi)) ?_ hc.2 before after i j he hp hn
      intro j' hj'
      have hne : j' ≠ k := fun h => Nat.lt_irrefl _ (Nat.lt_of_lt_of_le (hb k List.mem_cons_self) (h ▸ hj'))
      have hpc : (step (fun _ => false) c s k).pc j' = s.pc j' := by
        simp only [step]
        cases hpk : s.pc k <;> simp only [restore] <;> (repeat' split) <;> simp [St.goto, hne]
      rw [hpc]; exact hj j' hj'

example : Separate (fun _ => false) three (init [("m", 1), ("a", 2)] (fun _ => [])) interleaved :=
  sepCheck_sound three 3 _ _ (by decide) (fun _ _ => rfl) (by decide +kernel)

example : 6 ≤ interleaved.count 1 := by decide

end Verif.AsDict
