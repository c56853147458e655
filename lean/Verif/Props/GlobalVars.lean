import Verif.Props.Detect
/-! C25, C26: dill.detect.globalvars. -/
set_option linter.unusedSimpArgs false
namespace Verif.Detect

/-! ### specification -/

/-- `o` is a function (or a method of one) with the given code, closure and globals. -/
def IsFunc (C : Ctx) (o : Obj) (f : Func) : Prop := C.H o = .func f ∨ C.H o = .method f

/-- The call `globalvars(o, recurse)` returns `d` (after some number of nested calls). -/
def Returns (C : Ctx) (recurse : Bool) (o : Obj) (d : Dict Str Obj) : Prop :=
  ∃ fuel, globalvars C recurse fuel o = some d

/-- Heaps are well formed: globals are dictionaries, and a method and its function have the same code. -/
structure Ctx.WF (C : Ctx) : Prop where
  globals : ∀ o f, IsFunc C o f → f.globals.WF
  under : ∀ o f, IsFunc C o f → IsFunc C (C.underlying o) f
  under2 : ∀ o, C.underlying (C.underlying o) = C.underlying o

/-- In a program whose functions all live in the namespace `G`: function `o` needs the global name `n`,
directly, through a function in its closure, or through a function bound to a name it needs. -/
inductive Needed (C : Ctx) (G : Dict Str Obj) : Obj → Str → Prop
  | used (o f n) : IsFunc C o f → n ∈ C.gnames f.code → Needed C G o n
  | cell (o f g n) : IsFunc C o f → some g ∈ f.closure → Needed C G g n → Needed C G o n
  | via (o k g n) : Needed C G o k → G.get k = some g → Needed C G g n → Needed C G o n

/-! ### lemmas -/

theorem get_restrict (names : List Str) (globs : Dict Str Obj) (n : Str) :
    (restrict names globs).get n = if n ∈ names then globs.get n else none := by
  unfold restrict
  have gen : ∀ (names : List Str) (d : Dict Str Obj), (∀ n v, d.get n = some v → globs.get n = some v) →
      Dict.get (names.foldl (fun d n => match globs.get n with
        | some v => Dict.set d n v
        | none => d) d) n = if n ∈ names then globs.get n else d.get n := by
    intro names
    induction names with
    | nil => intro d _; simp
    | cons k ks ih =>
      intro d hd
      rw [List.foldl_cons]
      cases hk : globs.get k with
      | none =>
        simp only
        rw [ih d hd]
        by_cases e : n = k
        · subst e
          simp [hk]
          cases h : d.get n with
          | none => intro _; rfl
          | some v => have := hd n v h; rw [hk] at this; simp at this
        · simp [e]
      | some v =>
        simp only
        rw [ih]
        · by_cases e : n = k
          · subst e; simp [hk]
          · simp [e, Dict.get_set]
        · intro m w h
          rw [Dict.get_set] at h
          split at h
          · rename_i e; subst e; rw [hk]; exact h
          · exact hd m w h
  refine (gen names [] (by simp)).trans ?_; simp

theorem wf_restrict (names : List Str) (globs : Dict Str Obj) : (restrict names globs).WF := by
  unfold restrict
  have gen : ∀ (names : List Str) (d : Dict Str Obj), d.WF →
      Dict.WF (names.foldl (fun d n => match globs.get n with
        | some v => Dict.set d n v
        | none => d) d) := by
    intro names
    induction names with
    | nil => intro d h; exact h
    | cons k ks ih =>
      intro d h
      rw [List.foldl_cons]
      apply ih
      split
      · exact Dict.wf_set h _ _
      · exact h
  exact gen names [] (by decide)

theorem wf_globalvars (C : Ctx) (r : Bool) (fuel : Nat) (o : Obj) (d : Dict Str Obj)
    (h : globalvars C r fuel o = some d) : d.WF := by
  cases fuel with
  | zero => simp [globalvars] at h
  | succ fuel =>
    have key : ∀ f : Func, (match closureLoop (globalvars C r fuel) f.closure [] [] with
        | none => none
        | some (names, globs) =>
          if !r then some (restrict (setUnion names f.co_names) (globs.update f.globals))
          else match keyLoop (globalvars C r fuel) (C.underlying o) (globs.update f.globals)
            (setUnion names (C.gnames f.code)) (setUnion names (C.gnames f.code)) with
          | none => none
          | some names => some (restrict names (globs.update f.globals))) = some d → d.WF := by
      intro f h
      split at h
      · simp at h
      · split at h
        · simp at h; subst h; exact wf_restrict _ _
        · split at h
          · simp at h
          · simp at h; subst h; exact wf_restrict _ _
    unfold globalvars at h
    split at h
    · simp at h; subst h; decide
    · exact key _ h
    · exact key _ h

theorem closureLoop_spec (rec_ : Obj → Option (Dict Str Obj)) (hwf : ∀ g d, rec_ g = some d → d.WF)
    (cs : List (Option Obj)) (names : List Str) (globs : Dict Str Obj) (names' : List Str)
    (globs' : Dict Str Obj) (h : closureLoop rec_ cs names globs = some (names', globs')) :
    (∀ g, some g ∈ cs → ∃ d, rec_ g = some d) ∧
    (∀ n, n ∈ names' ↔ n ∈ names ∨ ∃ g, some g ∈ cs ∧ ∃ d, rec_ g = some d ∧ n ∈ d.keys) ∧
    (∀ n v, globs'.get n = some v → globs.get n = some v ∨
      ∃ g, some g ∈ cs ∧ ∃ d, rec_ g = some d ∧ d.get n = some v) ∧
    (∀ n, (globs'.get n).isSome ↔ (globs.get n).isSome ∨
      ∃ g, some g ∈ cs ∧ ∃ d, rec_ g = some d ∧ n ∈ d.keys) := by
  induction cs generalizing names globs with
  | nil => simp [closureLoop] at h; obtain ⟨rfl, rfl⟩ := h; simp
  | cons c cs ih =>
    cases c with
    | none =>
      simp only [closureLoop] at h
      obtain ⟨h1, h2, h3, h4⟩ := ih _ _ h
      simp only [List.mem_cons, reduceCtorEq, false_or]
      exact ⟨h1, h2, h3, h4⟩
    | some o =>
      simp only [closureLoop] at h
      cases hr : rec_ o with
      | none => rw [hr] at h; simp at h
      | some vars =>
        rw [hr] at h
        simp only at h
        obtain ⟨h1, h2, h3, h4⟩ := ih _ _ h
        have hw := hwf o vars hr
        simp only [List.mem_cons, Option.some.injEq]
        refine ⟨?_, ?_, ?_, ?_⟩
        · rintro g (rfl | hg)
          · exact ⟨vars, hr⟩
          · exact h1 g hg
        · intro n
          rw [h2, mem_setUnion]
          constructor
          · rintro ((h | h) | ⟨g, hg, h⟩)
            · exact .inl h
            · exact .inr ⟨o, .inl rfl, vars, hr, h⟩
            · exact .inr ⟨g, .inr hg, h⟩
          · rintro (h | ⟨g, rfl | hg, d, hd, h⟩)
            · exact .inl (.inl h)
            · rw [hr] at hd; simp at hd; subst hd; exact .inl (.inr h)
            · exact .inr ⟨g, hg, d, hd, h⟩
        · intro n v hv
          rcases h3 n v hv with h | ⟨g, hg, h⟩
          · rw [Dict.get_update _ _ hw] at h
            cases hn : vars.get n with
            | none => rw [hn] at h; exact .inl h
            | some w => rw [hn] at h; simp at h; subst h; exact .inr ⟨o, .inl rfl, vars, hr, hn⟩
          · exact .inr ⟨g, .inr hg, h⟩
        · intro n
          rw [h4, Dict.get_update _ _ hw]
          constructor
          · rintro (h | ⟨g, hg, h⟩)
            · cases hn : vars.get n with
              | none => rw [hn] at h; exact .inl h
              | some w =>
                exact .inr ⟨o, .inl rfl, vars, hr, (Dict.get_isSome_iff _ _).1 (by rw [hn]; rfl)⟩
            · exact .inr ⟨g, .inr hg, h⟩
          · rintro (h | ⟨g, rfl | hg, d, hd, h⟩)
            · cases hn : vars.get n with
              | none => exact .inl h
              | some w => exact .inl rfl
            · rw [hr] at hd; simp at hd; subst hd
              have := (Dict.get_isSome_iff _ _).2 h
              cases hn : vars.get n with
              | none => rw [hn] at this; simp at this
              | some w => exact .inl rfl
            · exact .inr ⟨g, hg, d, hd, h⟩

theorem keyLoop_spec (rec_ : Obj → Option (Dict Str Obj)) (self : Obj) (globs : Dict Str Obj)
    (ks names names' : List Str) (h : keyLoop rec_ self globs ks names = some names') :
    (∀ k ∈ ks, ∀ g, globs.get k = some g → g ≠ self → ∃ d, rec_ g = some d) ∧
    (∀ n, n ∈ names' ↔ n ∈ names ∨ ∃ k ∈ ks, ∃ g, globs.get k = some g ∧ g ≠ self ∧
      ∃ d, rec_ g = some d ∧ n ∈ d.keys) := by
  induction ks generalizing names with
  | nil => simp [keyLoop] at h; subst h; simp
  | cons k ks ih =>
    simp only [keyLoop] at h
    cases hk : globs.get k with
    | none =>
      rw [hk] at h; simp only at h
      obtain ⟨h1, h2⟩ := ih _ h
      constructor
      · intro k' hk' g hg
        simp only [List.mem_cons] at hk'
        rcases hk' with rfl | hk'
        · rw [hk] at hg; simp at hg
        · exact h1 k' hk' g hg
      · intro n; rw [h2]; simp [hk]
    | some g =>
      rw [hk] at h; simp only at h
      by_cases hs : g = self
      · rw [if_pos hs] at h
        obtain ⟨h1, h2⟩ := ih _ h
        constructor
        · intro k' hk' g' hg hne
          simp only [List.mem_cons] at hk'
          rcases hk' with rfl | hk'
          · rw [hk] at hg; simp at hg; exact absurd (hg.symm.trans hs) hne
          · exact h1 k' hk' g' hg hne
        · intro n; rw [h2]
          simp only [List.mem_cons, exists_eq_or_imp, hk, Option.some.injEq, exists_eq_left']
          simp [hs]
      · rw [if_neg hs] at h
        cases hr : rec_ g with
        | none => rw [hr] at h; simp at h
        | some vars =>
          rw [hr] at h; simp only at h
          obtain ⟨h1, h2⟩ := ih _ h
          constructor
          · intro k' hk' g' hg hne
            simp only [List.mem_cons] at hk'
            rcases hk' with rfl | hk'
            · rw [hk] at hg; simp at hg; subst hg; exact ⟨vars, hr⟩
            · exact h1 k' hk' g' hg hne
          · intro n; rw [h2, mem_setUnion]
            simp only [List.mem_cons, exists_eq_or_imp, hk, Option.some.injEq, exists_eq_left', hr, hs,
              ne_eq, not_false_eq_true, true_and, or_assoc]

theorem closureLoop_mono (r1 r2 : Obj → Option (Dict Str Obj))
    (h : ∀ o d, r1 o = some d → r2 o = some d) (cs names globs res)
    (hc : closureLoop r1 cs names globs = some res) : closureLoop r2 cs names globs = some res := by
  induction cs generalizing names globs with
  | nil => exact hc
  | cons c cs ih =>
    cases c with
    | none => exact ih _ _ hc
    | some o =>
      simp only [closureLoop] at hc ⊢
      cases hr : r1 o with
      | none => rw [hr] at hc; simp at hc
      | some vars => rw [hr] at hc; rw [h o vars hr]; exact ih _ _ hc

theorem keyLoop_mono (r1 r2 : Obj → Option (Dict Str Obj))
    (h : ∀ o d, r1 o = some d → r2 o = some d) (self globs ks names res)
    (hc : keyLoop r1 self globs ks names = some res) : keyLoop r2 self globs ks names = some res := by
  induction ks generalizing names with
  | nil => exact hc
  | cons k ks ih =>
    simp only [keyLoop] at hc ⊢
    split
    · rename_i hk; rw [hk] at hc; exact ih _ hc
    · rename_i g hk; rw [hk] at hc
      simp only at hc
      split
      · rename_i e; rw [if_pos e] at hc; exact ih _ hc
      · rename_i e; rw [if_neg e] at hc
        cases hr : r1 g with
        | none => rw [hr] at hc; simp at hc
        | some vars => rw [hr] at hc; rw [h g vars hr]; exact ih _ hc

/-- the body of the function branch -/
def body (C : Ctx) (r : Bool) (rec_ : Obj → Option (Dict Str Obj)) (self : Obj) (f : Func) :
    Option (Dict Str Obj) :=
  match closureLoop rec_ f.closure [] [] with
  | none => none
  | some (names, globs) =>
    if !r then some (restrict (setUnion names f.co_names) (globs.update f.globals))
    else match keyLoop rec_ self (globs.update f.globals)
      (setUnion names (C.gnames f.code)) (setUnion names (C.gnames f.code)) with
      | none => none
      | some names => some (restrict names (globs.update f.globals))

theorem globalvars_func (C : Ctx) (r : Bool) (fuel : Nat) (o : Obj) (f : Func) (hf : IsFunc C o f) :
    globalvars C r (fuel + 1) o = body C r (globalvars C r fuel) (C.underlying o) f := by
  rw [globalvars]
  rcases hf with h | h <;> rw [h] <;> rfl

theorem body_mono (C : Ctx) (r : Bool) (r1 r2 : Obj → Option (Dict Str Obj))
    (h : ∀ o d, r1 o = some d → r2 o = some d) (self f d) (hb : body C r r1 self f = some d) :
    body C r r2 self f = some d := by
  unfold body at hb ⊢
  cases hc : closureLoop r1 f.closure [] [] with
  | none => rw [hc] at hb; simp at hb
  | some p =>
    obtain ⟨names, globs⟩ := p
    rw [hc] at hb
    rw [closureLoop_mono r1 r2 h _ _ _ _ hc]
    simp only at hb ⊢
    cases r with
    | false => exact hb
    | true =>
      simp only [Bool.not_true, Bool.false_eq_true, if_false] at hb ⊢
      cases hk : keyLoop r1 self (globs.update f.globals) (setUnion names (C.gnames f.code))
          (setUnion names (C.gnames f.code)) with
      | none => rw [hk] at hb; simp at hb
      | some ns => rw [hk] at hb; rw [keyLoop_mono r1 r2 h _ _ _ _ _ hk]; exact hb

theorem globalvars_succ (C : Ctx) (r : Bool) (fuel : Nat) :
    ∀ o d, globalvars C r fuel o = some d → globalvars C r (fuel + 1) o = some d := by
  induction fuel with
  | zero => intro o d h; simp [globalvars] at h
  | succ fuel ih =>
    intro o d h
    cases hH : C.H o with
    | other =>
      have e : ∀ k, globalvars C r (k + 1) o = some [] := by intro k; rw [globalvars, hH]
      rw [e] at h ⊢; exact h
    | func f =>
      rw [globalvars_func C r _ o f (.inl hH)] at h ⊢
      exact body_mono C r _ _ ih _ _ _ h
    | method f =>
      rw [globalvars_func C r _ o f (.inr hH)] at h ⊢
      exact body_mono C r _ _ ih _ _ _ h

theorem globalvars_le (C : Ctx) (r : Bool) {a b : Nat} (hab : a ≤ b) (o d)
    (h : globalvars C r a o = some d) : globalvars C r b o = some d := by
  obtain ⟨k, rfl⟩ := Nat.exists_eq_add_of_le hab
  clear hab
  induction k with
  | zero => exact h
  | succ k ih => exact globalvars_succ C r _ o d ih

/-- The result does not depend on the depth allowance. -/
theorem Returns.unique {C : Ctx} {r : Bool} {o : Obj} {d d' : Dict Str Obj}
    (h : Returns C r o d) (h' : Returns C r o d') : d = d' := by
  obtain ⟨a, ha⟩ := h
  obtain ⟨b, hb⟩ := h'
  have h1 := globalvars_le C r (Nat.le_max_left a b) o d ha
  have h2 := globalvars_le C r (Nat.le_max_right a b) o d' hb
  rw [h1] at h2; simpa using h2

/-- what a returning call on a function satisfies, at fuel level -/
theorem body_spec (C : Ctx) (rec_ : Obj → Option (Dict Str Obj))
    (hwf : ∀ g d, rec_ g = some d → d.WF) (self : Obj) (f : Func) (hg : f.globals.WF)
    (d : Dict Str Obj) (h : body C true rec_ self f = some d) :
    ∃ globs : Dict Str Obj,
      (∀ g, some g ∈ f.closure → ∃ dg, rec_ g = some dg) ∧
      (∀ n v, globs.get n = some v → f.globals.get n = some v ∨ (f.globals.get n = none ∧
        ∃ g, some g ∈ f.closure ∧ ∃ dg, rec_ g = some dg ∧ dg.get n = some v)) ∧
      (∀ n v, f.globals.get n = some v → globs.get n = some v) ∧
      (∀ g dg n, some g ∈ f.closure → rec_ g = some dg → n ∈ dg.keys → (globs.get n).isSome) ∧
      (∀ k g, (k ∈ C.gnames f.code ∨
          ∃ g, some g ∈ f.closure ∧ ∃ dg, rec_ g = some dg ∧ k ∈ dg.keys) →
        globs.get k = some g → g ≠ self → ∃ dg, rec_ g = some dg) ∧
      (∀ n v, d.get n = some v ↔ globs.get n = some v ∧ 
        ((n ∈ C.gnames f.code ∨
            ∃ g, some g ∈ f.closure ∧ ∃ dg, rec_ g = some dg ∧ n ∈ dg.keys) ∨
          ∃ k, (k ∈ C.gnames f.code ∨
              ∃ g, some g ∈ f.closure ∧ ∃ dg, rec_ g = some dg ∧ k ∈ dg.keys) ∧
            ∃ g, globs.get k = some g ∧ g ≠ self ∧ ∃ dg, rec_ g = some dg ∧ n ∈ dg.keys)) := by
  unfold body at h
  cases hc : closureLoop rec_ f.closure [] [] with
  | none => rw [hc] at h; simp at h
  | some p =>
    obtain ⟨names, globs0⟩ := p
    rw [hc] at h
    simp only [Bool.not_true, Bool.false_eq_true, if_false] at h
    obtain ⟨c1, c2, c3, c4⟩ := closureLoop_spec rec_ hwf _ _ _ _ _ hc
    cases hk : keyLoop rec_ self (globs0.update f.globals) (setUnion names (C.gnames f.code))
        (setUnion names (C.gnames f.code)) with
    | none => rw [hk] at h; simp at h
    | some ns =>
      rw [hk] at h
      simp only [Option.some.injEq] at h
      obtain ⟨k1, k2⟩ := keyLoop_spec _ _ _ _ _ _ hk
      have hn : ∀ n, n ∈ setUnion names (C.gnames f.code) ↔ (n ∈ C.gnames f.code ∨
          ∃ g, some g ∈ f.closure ∧ ∃ dg, rec_ g = some dg ∧ n ∈ dg.keys) := by
        intro n; rw [mem_setUnion, c2]; simp only [List.not_mem_nil, false_or]; exact or_comm
      refine ⟨globs0.update f.globals, c1, ?_, ?_, ?_, ?_, ?_⟩
      · intro n v hv
        rw [Dict.get_update _ _ hg] at hv
        cases hf : f.globals.get n with
        | some w => rw [hf] at hv; exact .inl hv
        | none =>
          rw [hf] at hv
          rcases c3 n v hv with h | h
          · simp at h
          · exact .inr ⟨rfl, h⟩
      · intro n v hv; rw [Dict.get_update _ _ hg, hv]
      · intro g dg n h1 h2 h3
        rw [Dict.get_update _ _ hg]
        cases f.globals.get n with
        | some w => rfl
        | none => exact (c4 n).2 (.inr ⟨g, h1, dg, h2, h3⟩)
      · intro k g hkk hkg hne
        exact k1 k ((hn k).2 hkk) g hkg hne
      · intro n v
        rw [← h, get_restrict]
        have hns : n ∈ ns ↔ _ := k2 n
        simp only [hn] at hns
        constructor
        · intro hv
          split at hv
          · rename_i hm; exact ⟨hv, hns.1 hm⟩
          · simp at hv
        · rintro ⟨hv, hm⟩
          rw [if_pos (hns.2 hm)]; exact hv

/-- C25.  Whenever `globalvars(f)` returns a dictionary `d`:
every global name used by the code of `f` (at any nesting depth) and defined in `f.__globals__` is in
`d`, bound to the object `f.__globals__` binds it to; so is every name that a function in `f`'s closure,
or a function bound to one of those names, needs; and every entry of `d` comes from `f.__globals__` or,
for names not defined there, from the result for a function in the closure. -/
theorem C25_globalvars (C : Ctx) (hC : C.WF) (o : Obj) (f : Func) (hf : IsFunc C o f)
    (d : Dict Str Obj) (hd : Returns C true o d) :
    (∀ n v, n ∈ C.gnames f.code → f.globals.get n = some v → d.get n = some v) ∧
    (∀ g, some g ∈ f.closure → ∃ dg, Returns C true g dg ∧ ∀ n ∈ dg.keys, n ∈ d.keys) ∧
    (∀ k g, (k ∈ C.gnames f.code ∨ ∃ c dc, some c ∈ f.closure ∧ Returns C true c dc ∧ k ∈ dc.keys) →
      d.get k = some g → g ≠ C.underlying o →
      ∃ dg, Returns C true g dg ∧
        ∀ n v, n ∈ dg.keys → f.globals.get n = some v → d.get n = some v) ∧
    (∀ n v, d.get n = some v → f.globals.get n = some v ∨ (f.globals.get n = none ∧
      ∃ g dg, some g ∈ f.closure ∧ Returns C true g dg ∧ dg.get n = some v)) := by
  obtain ⟨fuel, hfu⟩ := hd
  cases fuel with
  | zero => simp [globalvars] at hfu
  | succ fuel =>
    rw [globalvars_func C true fuel o f hf] at hfu
    obtain ⟨globs, b1, b2, b3, b4, b5, b6⟩ := body_spec C _ (fun g d h => wf_globalvars C true fuel g d h)
      _ f (hC.globals o f hf) d hfu
    have ret : ∀ g dg, globalvars C true fuel g = some dg → Returns C true g dg :=
      fun g dg h => ⟨fuel, h⟩
    refine ⟨?_, ?_, ?_, ?_⟩
    · intro n v hn hv
      exact (b6 n v).2 ⟨b3 n v hv, .inl (.inl hn)⟩
    · intro g hg
      obtain ⟨dg, hdg⟩ := b1 g hg
      refine ⟨dg, ret _ _ hdg, fun n hn => ?_⟩
      have := b4 g dg n hg hdg hn
      cases hgn : globs.get n with
      | none => rw [hgn] at this; simp at this
      | some v =>
        rw [← Dict.get_isSome_iff, (b6 n v).2 ⟨hgn, .inl (.inr ⟨g, hg, dg, hdg, hn⟩)⟩]; rfl
    · intro k g hk hkg hne
      have hk' : (k ∈ C.gnames f.code ∨
          ∃ g, some g ∈ f.closure ∧ ∃ dg, globalvars C true fuel g = some dg ∧ k ∈ dg.keys) := by
        rcases hk with h | ⟨c, dc, hc, hr, hkc⟩
        · exact .inl h
        · obtain ⟨dc', hdc'⟩ := b1 c hc
          rw [hr.unique (ret _ _ hdc')] at hkc
          exact .inr ⟨c, hc, dc', hdc', hkc⟩
      have hgk := ((b6 k g).1 hkg).1
      obtain ⟨dg, hdg⟩ := b5 k g hk' hgk hne
      refine ⟨dg, ret _ _ hdg, fun n v hn hv => ?_⟩
      exact (b6 n v).2 ⟨b3 n v hv, .inr ⟨k, hk', g, hgk, hne, dg, hdg, hn⟩⟩
    · intro n v hv
      rcases b2 n v ((b6 n v).1 hv).1 with h | ⟨h, g, hg, dg, hdg, hn⟩
      · exact .inl h
      · exact .inr ⟨h, g, dg, hg, ret _ _ hdg, hn⟩

theorem other_returns (C : Ctx) (r : Bool) (o : Obj) (h : C.H o = .other) : Returns C r o [] :=
  ⟨1, by simp [globalvars, h]⟩

/-- in a single namespace the result is closed under following function names -/
theorem closed_single (C : Ctx) (hC : C.WF) (G : Dict Str Obj)
    (hG : ∀ o f, IsFunc C o f → f.globals = G) (fuel : Nat) :
    ∀ o d, globalvars C true fuel o = some d → 
      (∀ n v, d.get n = some v → G.get n = some v) ∧
      ∀ k g, d.get k = some g →
      ∃ dg, Returns C true g dg ∧ ∀ n ∈ dg.keys, n ∈ d.keys := by
  induction fuel with
  | zero => intro o d h; simp [globalvars] at h
  | succ fuel ih =>
    intro o d h
    have main : ∀ f, IsFunc C o f → (∀ n v, d.get n = some v → G.get n = some v) ∧
        ∀ k g, d.get k = some g →
        ∃ dg, Returns C true g dg ∧ ∀ n ∈ dg.keys, n ∈ d.keys := by
      intro f hf
      have horig := h
      rw [globalvars_func C true fuel o f hf] at h
      obtain ⟨globs, b1, b2, b3, b4, b5, b6⟩ := body_spec C _
        (fun g d h => wf_globalvars C true fuel g d h) _ f (hC.globals o f hf) d h
      have hgl : ∀ n v, globs.get n = some v → G.get n = some v := by
        intro n v hv
        rcases b2 n v hv with h | ⟨_, g, hg, dg, hdg, hn⟩
        · rw [hG o f hf] at h; exact h
        · exact (ih g dg hdg).1 n v hn
      have hgl2 : ∀ n v, G.get n = some v → globs.get n = some v := by
        intro n v hv; exact b3 n v (by rw [hG o f hf]; exact hv)
      have lift : ∀ g dg, globalvars C true fuel g = some dg → (∀ n ∈ dg.keys, n ∈ d.keys) →
          ∀ k g', dg.get k = some g' → ∃ dg', Returns C true g' dg' ∧ ∀ n ∈ dg'.keys, n ∈ d.keys := by
        intro g dg hdg hsub k g' hk
        obtain ⟨dg', h1, h2⟩ := (ih g dg hdg).2 k g' hk
        exact ⟨dg', h1, fun n hn => hsub n (h2 n hn)⟩
      have sub1 : ∀ g dg, some g ∈ f.closure → globalvars C true fuel g = some dg →
          ∀ n ∈ dg.keys, n ∈ d.keys := by
        intro g dg hg hdg n hn
        have := b4 g dg n hg hdg hn
        cases hgn : globs.get n with
        | none => rw [hgn] at this; simp at this
        | some v =>
          rw [← Dict.get_isSome_iff, (b6 n v).2 ⟨hgn, .inl (.inr ⟨g, hg, dg, hdg, hn⟩)⟩]; rfl
      refine ⟨fun n v hv => hgl n v ((b6 n v).1 hv).1, ?_⟩
      intro k g hk
      have self_case : g = C.underlying o → ∃ dg, Returns C true g dg ∧ ∀ n ∈ dg.keys, n ∈ d.keys := by
        rintro rfl
        refine ⟨d, ⟨fuel + 1, ?_⟩, fun n hn => hn⟩
        rw [globalvars_func C true fuel _ f (hC.under o f hf), hC.under2]; exact h
      by_cases hself : g = C.underlying o
      · exact self_case hself
      · obtain ⟨hgk, hk1 | ⟨k', hk', g', hg', hne', dg', hdg', hkd⟩⟩ := (b6 k g).1 hk
        · obtain ⟨dg, hdg⟩ := b5 k g hk1 hgk hself
          refine ⟨dg, ⟨fuel, hdg⟩, fun n hn => ?_⟩
          have hs := (Dict.get_isSome_iff dg n).2 hn
          cases hgn : dg.get n with
          | none => rw [hgn] at hs; simp at hs
          | some v =>
            rw [← Dict.get_isSome_iff, (b6 n v).2 ⟨hgl2 n v ((ih g dg hdg).1 n v hgn),
              .inr ⟨k, hk1, g, hgk, hself, dg, hdg, hn⟩⟩]; rfl
        · have hsub : ∀ n ∈ dg'.keys, n ∈ d.keys := by
            intro n hn
            have hs := (Dict.get_isSome_iff dg' n).2 hn
            cases hgn : dg'.get n with
            | none => rw [hgn] at hs; simp at hs
            | some v =>
              rw [← Dict.get_isSome_iff, (b6 n v).2 ⟨hgl2 n v ((ih g' dg' hdg').1 n v hgn),
                .inr ⟨k', hk', g', hg', hne', dg', hdg', hn⟩⟩]; rfl
          have hs := (Dict.get_isSome_iff dg' k).2 hkd
          cases hgn : dg'.get k with
          | none => rw [hgn] at hs; simp at hs
          | some v =>
            have e1 := (ih g' dg' hdg').1 k v hgn
            have e2 := hgl k g hgk
            rw [e1] at e2; simp at e2; subst e2
            exact lift g' dg' hdg' hsub k v hgn
    cases hH : C.H o with
    | other =>
      have e : globalvars C true (fuel + 1) o = some [] := by rw [globalvars, hH]
      rw [e] at h; simp at h; subst h; simp
    | func f => exact main f (.inl hH)
    | method f => exact main f (.inr hH)

/-- C25 in a single namespace: when all functions involved live in the same module namespace `G` and
`globalvars(f)` returns, its result binds exactly the names of `G` that `f` needs, directly or through
the functions it refers to (transitively), each to the object `G` binds it to. -/
theorem C25_single_module_exact (C : Ctx) (hC : C.WF) (G : Dict Str Obj)
    (hG : ∀ o f, IsFunc C o f → f.globals = G) (o : Obj)
    (d : Dict Str Obj) (hd : Returns C true o d) (n : Str) (v : Obj) :
    d.get n = some v ↔ G.get n = some v ∧ Needed C G o n := by
  constructor
  · intro hv
    obtain ⟨fuel, hfu⟩ := hd
    have hG1 := (closed_single C hC G hG fuel o d hfu).1 n v hv
    refine ⟨hG1, ?_⟩
    induction fuel generalizing o d n v with
    | zero => simp [globalvars] at hfu
    | succ fuel ih =>
      have main : ∀ f, IsFunc C o f → Needed C G o n := by
        intro f hf
        rw [globalvars_func C true fuel o f hf] at hfu
        obtain ⟨globs, b1, b2, b3, b4, b5, b6⟩ := body_spec C _
          (fun g d h => wf_globalvars C true fuel g d h) _ f (hC.globals o f hf) d hfu
        have hgl : ∀ n v, globs.get n = some v → G.get n = some v := by
          intro n v hv
          rcases b2 n v hv with h | ⟨_, g, hg, dg, hdg, hn⟩
          · rw [hG o f hf] at h; exact h
          · exact (closed_single C hC G hG fuel g dg hdg).1 n v hn
        have rc : ∀ g dg m, globalvars C true fuel g = some dg → m ∈ dg.keys → Needed C G g m := by
          intro g dg m hdg hm
          have hs := (Dict.get_isSome_iff dg m).2 hm
          cases hgn : dg.get m with
          | none => rw [hgn] at hs; simp at hs
          | some w =>
            exact ih g dg m w hgn hdg ((closed_single C hC G hG fuel g dg hdg).1 m w hgn)
        have k1 : ∀ k, (k ∈ C.gnames f.code ∨
            ∃ g, some g ∈ f.closure ∧ ∃ dg, globalvars C true fuel g = some dg ∧ k ∈ dg.keys) →
            Needed C G o k := by
          rintro k (h | ⟨g, hg, dg, hdg, hk⟩)
          · exact .used o f k hf h
          · exact .cell o f g k hf hg (rc g dg k hdg hk)
        obtain ⟨hgn, h | ⟨k, hk, g, hgk, hne, dg, hdg, hn⟩⟩ := (b6 n v).1 hv
        · exact k1 n h
        · exact .via o k g n (k1 k hk) (hgl k g hgk) (rc g dg n hdg hn)
      cases hH : C.H o with
      | other =>
        have e : globalvars C true (fuel + 1) o = some [] := by rw [globalvars, hH]
        rw [e] at hfu; simp at hfu; subst hfu; simp at hv
      | func f => exact main f (.inl hH)
      | method f => exact main f (.inr hH)
  · rintro ⟨hv, hn⟩
    induction hn generalizing d v with
    | used o f n hf hn =>
      exact (C25_globalvars C hC o f hf d hd).1 n v hn (by rw [hG o f hf]; exact hv)
    | cell o f g n hf hg _ ih =>
      obtain ⟨dg, hdg, hsub⟩ := (C25_globalvars C hC o f hf d hd).2.1 g hg
      have h1 := ih dg hdg v hv
      have h2 := hsub n ((Dict.get_isSome_iff _ _).1 (by rw [h1]; rfl))
      have hs := (Dict.get_isSome_iff d n).2 h2
      cases hgn : d.get n with
      | none => rw [hgn] at hs; simp at hs
      | some w =>
        obtain ⟨fuel, hfu⟩ := hd
        have := (closed_single C hC G hG fuel o d hfu).1 n w hgn
        rw [hv] at this; exact this.symm ▸ rfl
    | via o k g n _ hk _ ih1 ih2 =>
      have h1 := ih1 d hd g hk
      obtain ⟨fuel, hfu⟩ := hd
      obtain ⟨dg, hdg, hsub⟩ := (closed_single C hC G hG fuel o d hfu).2 k g h1
      have h2 := ih2 dg hdg v hv
      have h3 := hsub n ((Dict.get_isSome_iff _ _).1 (by rw [h2]; rfl))
      have hs := (Dict.get_isSome_iff d n).2 h3
      cases hgn : d.get n with
      | none => rw [hgn] at hs; simp at hs
      | some w =>
        have := (closed_single C hC G hG fuel o d hfu).1 n w hgn
        rw [hv] at this; exact this.symm ▸ rfl

/-! ### C26: termination -/

/-- A call of `globalvars(o, recurse)` that visits `o` has to call itself on `g`. -/
def MustCall (C : Ctx) (recurse : Bool) (o g : Obj) : Prop :=
  ∃ f, IsFunc C o f ∧ (some g ∈ f.closure ∨
    (recurse = true ∧ g ≠ C.underlying o ∧ ∃ k ∈ C.gnames f.code, f.globals.get k = some g))

theorem closureLoop_none (rec_ : Obj → Option (Dict Str Obj)) (cs names globs g)
    (hg : some g ∈ cs) (hr : rec_ g = none) : closureLoop rec_ cs names globs = none := by
  induction cs generalizing names globs with
  | nil => simp at hg
  | cons c cs ih =>
    cases c with
    | none => exact ih _ _ (by simpa using hg)
    | some o =>
      simp only [closureLoop]
      cases h : rec_ o with
      | none => rfl
      | some vars =>
        simp only [List.mem_cons, Option.some.injEq] at hg
        rcases hg with rfl | hg
        · rw [hr] at h; simp at h
        · exact ih _ _ hg

theorem keyLoop_none (rec_ : Obj → Option (Dict Str Obj)) (self globs ks names k g)
    (hk : k ∈ ks) (hg : Dict.get globs k = some g) (hne : g ≠ self) (hr : rec_ g = none) :
    keyLoop rec_ self globs ks names = none := by
  induction ks generalizing names with
  | nil => simp at hk
  | cons k' ks ih =>
    simp only [List.mem_cons] at hk
    simp only [keyLoop]
    rcases hk with rfl | hk
    · rw [hg]; simp [hne, hr]
    · split
      · exact ih _ hk
      · split
        · exact ih _ hk
        · split
          · rfl
          · exact ih _ hk

/-- If every function of a set calls another one of the set, the call never returns: functions that
refer to each other, and functions whose closure contains themselves. -/
theorem C26_cycle_never_returns (C : Ctx) (hC : C.WF) (recurse : Bool) (S : Obj → Prop)
    (hS : ∀ o, S o → ∃ g, S g ∧ MustCall C recurse o g) (o : Obj) (ho : S o) (d : Dict Str Obj) :
    ¬ Returns C recurse o d := by
  have key : ∀ fuel o, S o → globalvars C recurse fuel o = none := by
    intro fuel
    induction fuel with
    | zero => intros; rfl
    | succ fuel ih =>
      intro o ho
      obtain ⟨g, hg, f, hf, hcall⟩ := hS o ho
      rw [globalvars_func C recurse fuel o f hf]
      unfold body
      have hgn := ih g hg
      rcases hcall with hc | ⟨rfl, hne, k, hk, hkg⟩
      · rw [closureLoop_none _ _ _ _ g hc hgn]
      · cases h : closureLoop (globalvars C true fuel) f.closure [] [] with
        | none => rfl
        | some p =>
          obtain ⟨names, globs⟩ := p
          simp only [Bool.not_true, Bool.false_eq_true, if_false]
          rw [keyLoop_none _ _ _ _ _ k g ((mem_setUnion _ _ _).2 (.inr hk)) _ hne hgn]
          rw [Dict.get_update _ _ (hC.globals o f hf), hkg]
  rintro ⟨fuel, h⟩
  rw [key fuel o ho] at h; simp at h

/-- Values and names that can show up while `globalvars(o)` runs. -/
inductive Env (C : Ctx) : Obj → Str → Obj → Prop
  | own (o f n v) : IsFunc C o f → f.globals.get n = some v → Env C o n v
  | cell (o f g n v) : IsFunc C o f → some g ∈ f.closure → Env C g n v → Env C o n v
inductive Key (C : Ctx) : Obj → Str → Prop
  | used (o f n) : IsFunc C o f → n ∈ C.gnames f.code → Key C o n
  | cell (o f g n) : IsFunc C o f → some g ∈ f.closure → Key C g n → Key C o n
  | via (o k g n) : Key C o k → Env C o k g → Key C g n → Key C o n

theorem key_env (C : Ctx) (hC : C.WF) (fuel : Nat) : ∀ o d, globalvars C true fuel o = some d →
    ∀ n v, d.get n = some v → Key C o n ∧ Env C o n v := by
  induction fuel with
  | zero => intro o d h; simp [globalvars] at h
  | succ fuel ih =>
    intro o d h n v hv
    have main : ∀ f, IsFunc C o f → Key C o n ∧ Env C o n v := by
      intro f hf
      rw [globalvars_func C true fuel o f hf] at h
      obtain ⟨globs, b1, b2, b3, b4, b5, b6⟩ := body_spec C _
        (fun g d h => wf_globalvars C true fuel g d h) _ f (hC.globals o f hf) d h
      have rk : ∀ g dg m, globalvars C true fuel g = some dg → m ∈ dg.keys → Key C g m := by
        intro g dg m hdg hm
        have hs := (Dict.get_isSome_iff dg m).2 hm
        cases hgn : dg.get m with
        | none => rw [hgn] at hs; simp at hs
        | some w => exact (ih g dg hdg m w hgn).1
      have henv : ∀ n v, globs.get n = some v → Env C o n v := by
        intro n v hv
        rcases b2 n v hv with h | ⟨_, g, hg, dg, hdg, hn⟩
        · exact .own o f n v hf h
        · exact .cell o f g n v hf hg (ih g dg hdg n v hn).2
      have k1 : ∀ k, (k ∈ C.gnames f.code ∨
          ∃ g, some g ∈ f.closure ∧ ∃ dg, globalvars C true fuel g = some dg ∧ k ∈ dg.keys) →
          Key C o k := by
        rintro k (h | ⟨g, hg, dg, hdg, hk⟩)
        · exact .used o f k hf h
        · exact .cell o f g k hf hg (rk g dg k hdg hk)
      obtain ⟨hgn, h | ⟨k, hk, g, hgk, hne, dg, hdg, hn⟩⟩ := (b6 n v).1 hv
      · exact ⟨k1 n h, henv n v hgn⟩
      · exact ⟨.via o k g n (k1 k hk) (henv k g hgk) (rk g dg n hdg hn), henv n v hgn⟩
    cases hH : C.H o with
    | other =>
      have e : globalvars C true (fuel + 1) o = some [] := by rw [globalvars, hH]
      rw [e] at h; simp at h; subst h; simp at hv
    | func f => exact main f (.inl hH)
    | method f => exact main f (.inr hH)

theorem closureLoop_total (rec_ : Obj → Option (Dict Str Obj)) (cs names globs)
    (h : ∀ g, some g ∈ cs → ∃ d, rec_ g = some d) :
    ∃ res, closureLoop rec_ cs names globs = some res := by
  induction cs generalizing names globs with
  | nil => exact ⟨_, rfl⟩
  | cons c cs ih =>
    cases c with
    | none => exact ih _ _ (fun g hg => h g (by simp [hg]))
    | some o =>
      obtain ⟨d, hd⟩ := h o (by simp)
      simp only [closureLoop, hd]
      exact ih _ _ (fun g hg => h g (by simp [hg]))

theorem keyLoop_total (rec_ : Obj → Option (Dict Str Obj)) (self globs ks names)
    (h : ∀ k ∈ ks, ∀ g, Dict.get globs k = some g → g ≠ self → ∃ d, rec_ g = some d) :
    ∃ res, keyLoop rec_ self globs ks names = some res := by
  induction ks generalizing names with
  | nil => exact ⟨_, rfl⟩
  | cons k ks ih =>
    have ih' := fun names => ih names (fun k hk => h k (by simp [hk]))
    simp only [keyLoop]
    split
    · exact ih' _
    · rename_i g hg
      split
      · exact ih' _
      · rename_i hne
        obtain ⟨d, hd⟩ := h k (by simp) g hg hne
        simp only [hd]; exact ih' _

/-- C26, when functions refer to each other without cycles (a function may refer to itself by its global
name): globalvars returns, after at most `rank + 1` nested calls.  The full property is false:
`C26_full_false`. -/
theorem C26_terminates_partial (C : Ctx) (hC : C.WF) (rank : Obj → Nat)
    (hcell : ∀ o f g, IsFunc C o f → some g ∈ f.closure → rank g < rank o)
    (hkey : ∀ o k g, Key C o k → Env C o k g → g ≠ C.underlying o → rank g < rank o)
    (o : Obj) : ∃ d, globalvars C true (rank o + 1) o = some d := by
  have key : ∀ r o, rank o ≤ r → ∃ d, globalvars C true (r + 1) o = some d := by
    intro r
    induction r with
    | zero =>
      intro o hr
      have main : ∀ f, IsFunc C o f → ∃ d, globalvars C true (0 + 1) o = some d := by
        intro f hf
        rw [globalvars_func C true 0 o f hf]
        unfold body
        obtain ⟨⟨names, globs⟩, hcl⟩ := closureLoop_total (globalvars C true 0) f.closure [] []
          (fun g hg => by have := hcell o f g hf hg; omega)
        rw [hcl]
        simp only [Bool.not_true, Bool.false_eq_true, if_false]
        obtain ⟨c1, c2, c3, c4⟩ := closureLoop_spec _ (fun g d h => wf_globalvars C true 0 g d h)
          _ _ _ _ _ hcl
        obtain ⟨ns, hns⟩ := keyLoop_total (globalvars C true 0) (C.underlying o)
          (globs.update f.globals) (setUnion names (C.gnames f.code))
          (setUnion names (C.gnames f.code)) (fun k hk g hg hne => by
            have hnone : ∀ g, some g ∈ f.closure → False := fun g hg => by
              have := hcell o f g hf hg; omega
            have hkk : Key C o k := by
              rw [mem_setUnion, c2] at hk
              rcases hk with (h | ⟨g, hg, _⟩) | h
              · simp at h
              · exact (hnone g hg).elim
              · exact .used o f k hf h
            have he : Env C o k g := by
              rw [Dict.get_update _ _ (hC.globals o f hf)] at hg
              cases hfk : f.globals.get k with
              | some w => rw [hfk] at hg; simp at hg; subst hg; exact .own o f k w hf hfk
              | none =>
                rw [hfk] at hg
                rcases c3 k g hg with h | ⟨g, hg, _⟩
                · simp at h
                · exact (hnone g hg).elim
            have := hkey o k g hkk he hne
            omega)
        rw [hns]; exact ⟨_, rfl⟩
      cases hH : C.H o with
      | other => exact ⟨[], by rw [globalvars, hH]⟩
      | func f => exact main f (.inl hH)
      | method f => exact main f (.inr hH)
    | succ r ih =>
      intro o hr
      have main : ∀ f, IsFunc C o f → ∃ d, globalvars C true (r + 1 + 1) o = some d := by
        intro f hf
        rw [globalvars_func C true (r + 1) o f hf]
        unfold body
        obtain ⟨⟨names, globs⟩, hcl⟩ := closureLoop_total (globalvars C true (r + 1)) f.closure [] []
          (fun g hg => ih g (by have := hcell o f g hf hg; omega))
        rw [hcl]
        simp only [Bool.not_true, Bool.false_eq_true, if_false]
        obtain ⟨c1, c2, c3, c4⟩ := closureLoop_spec _
          (fun g d h => wf_globalvars C true (r + 1) g d h) _ _ _ _ _ hcl
        obtain ⟨ns, hns⟩ := keyLoop_total (globalvars C true (r + 1)) (C.underlying o)
          (globs.update f.globals) (setUnion names (C.gnames f.code))
          (setUnion names (C.gnames f.code)) (fun k hk g hg hne => by
            have rk : ∀ g dg m, globalvars C true (r + 1) g = some dg → m ∈ dg.keys → Key C g m := by
              intro g dg m hdg hm
              have hs := (Dict.get_isSome_iff dg m).2 hm
              cases hgn : dg.get m with
              | none => rw [hgn] at hs; simp at hs
              | some w => exact (key_env C hC _ g dg hdg m w hgn).1
            have hkk : Key C o k := by
              rw [mem_setUnion, c2] at hk
              rcases hk with (h | ⟨g, hg, dg, hdg, hk⟩) | h
              · simp at h
              · exact .cell o f g k hf hg (rk g dg k hdg hk)
              · exact .used o f k hf h
            have he : Env C o k g := by
              rw [Dict.get_update _ _ (hC.globals o f hf)] at hg
              cases hfk : f.globals.get k with
              | some w => rw [hfk] at hg; simp at hg; subst hg; exact .own o f k w hf hfk
              | none =>
                rw [hfk] at hg
                rcases c3 k g hg with h | ⟨c, hc, dc, hdc, hk⟩
                · simp at h
                · exact .cell o f c k g hf hc (key_env C hC _ c dc hdc k g hk).2
            exact ih g (by have := hkey o k g hkk he hne; omega))
        rw [hns]; exact ⟨_, rfl⟩
      cases hH : C.H o with
      | other => exact ⟨[], by rw [globalvars, hH]⟩
      | func f => exact main f (.inl hH)
      | method f => exact main f (.inr hH)
  exact key (rank o) o (Nat.le_refl _)

/-! ### concrete programs -/

/-- a code object that only has a name; its globals are given by `exNames` -/
def cd (s : String) : Code := .mk s.toList [] .nil

/-- Two module-level functions: `f` (object 1) and `g` (object 2), `x` an integer (object 3). -/
def exG : Dict Str Obj := [("f".toList, 1), ("g".toList, 2), ("x".toList, 3)]
def mkf (s : String) : Func := ⟨cd s, [], [], [], exG⟩

/-- `def f(): g(); f()` and `def g(): return x`. -/
def exOK : Ctx where
  H := fun o => if o = 1 then .func (mkf "f") else if o = 2 then .func (mkf "g") else .other
  underlying := id
  gnames := fun c => if c.name = "f".toList then ["g".toList, "f".toList, "nope".toList]
    else ["x".toList]

theorem exOK_wf : exOK.WF := by
  refine ⟨?_, fun o f h => h, fun _ => rfl⟩
  rintro o f (h | h) <;> simp only [exOK] at h <;> (split at h) <;> (try split at h) <;>
    simp at h <;> subst h <;> decide

example : globalvars exOK true 3 1 = some [("g".toList, 2), ("f".toList, 1), ("x".toList, 3)] := by
  decide +kernel

theorem exOK_func {o f} (h : IsFunc exOK o f) : (o = 1 ∧ f = mkf "f") ∨ (o = 2 ∧ f = mkf "g") := by
  rcases h with h | h <;> simp only [exOK] at h <;> (split at h) <;> (try split at h) <;>
    simp_all

theorem exOK_key {o k} (h : Key exOK o k) : (o = 1 ∨ o = 2) ∧ (o = 2 → k = "x".toList) := by
  induction h with
  | used o f n hf hn =>
    rcases exOK_func hf with ⟨rfl, rfl⟩ | ⟨rfl, rfl⟩
    · simp
    · refine ⟨.inr rfl, fun _ => ?_⟩
      simpa [exOK, mkf, cd, Code.name] using hn
  | cell o f g n hf hg _ _ =>
    rcases exOK_func hf with ⟨rfl, rfl⟩ | ⟨rfl, rfl⟩ <;> simp [mkf] at hg
  | via o k g n _ he _ ih1 ih2 =>
    refine ⟨ih1.1, fun h2 => ?_⟩
    subst h2
    have hk := ih1.2 rfl
    subst hk
    cases he with
    | own _ f _ _ hf hv =>
      rcases exOK_func hf with ⟨h, _⟩ | ⟨_, rfl⟩
      · simp at h
      · have : g = 3 := by simpa [mkf, exG, Dict.get] using hv.symm
        subst this; rcases ih2.1 with h | h <;> simp at h
    | cell _ f g' _ _ hf hg _ =>
      rcases exOK_func hf with ⟨h, _⟩ | ⟨_, rfl⟩
      · simp at h
      · simp [mkf] at hg

/-- the hypotheses of `C26_terminates_partial` hold for `exOK` -/
example : ∃ d, globalvars exOK true 3 1 = some d := by
  refine C26_terminates_partial exOK exOK_wf (fun o => if o = 1 then 2 else if o = 2 then 1 else 0)
    ?_ ?_ 1
  · intro o f g hf hg
    rcases exOK_func hf with ⟨rfl, rfl⟩ | ⟨rfl, rfl⟩ <;> simp [mkf] at hg
  · intro o k g hk he hne
    have hk' := exOK_key hk
    cases he with
    | own _ f _ _ hf hv =>
      rcases exOK_func hf with ⟨rfl, rfl⟩ | ⟨rfl, rfl⟩
      · have hg1 : g ≠ 1 := hne
        simp only [if_true, hg1, if_false]
        split <;> decide
      · have hk2 := hk'.2 rfl
        subst hk2
        have : g = 3 := by simpa [mkf, exG, Dict.get] using hv.symm
        subst this; decide
    | cell _ f g' _ _ hf hg _ =>
      rcases exOK_func hf with ⟨rfl, rfl⟩ | ⟨rfl, rfl⟩ <;> simp [mkf] at hg

/-- `def f(): g()` and `def g(): f()`. -/
def exBad : Ctx := { exOK with gnames := fun c => if c.name = "f".toList then ["g".toList]
    else ["f".toList] }

theorem exBad_wf : exBad.WF := ⟨exOK_wf.globals, exOK_wf.under, exOK_wf.under2⟩

def C26_full : Prop := ∀ (C : Ctx), C.WF → ∀ (recurse : Bool) (o : Obj), ∃ d, Returns C recurse o d

/-- Two functions that call each other: globalvars never returns. -/
theorem C26_mutual_recursion_never_returns (d : Dict Str Obj) : ¬ Returns exBad true 1 d := by
  refine C26_cycle_never_returns exBad exBad_wf true (fun o => o = 1 ∨ o = 2) ?_ 1 (.inl rfl) d
  rintro o (rfl | rfl)
  · exact ⟨2, .inr rfl, mkf "f", .inl rfl, .inr ⟨rfl, by decide, "g".toList, by decide, by decide⟩⟩
  · exact ⟨1, .inl rfl, mkf "g", .inl rfl, .inr ⟨rfl, by decide, "f".toList, by decide, by decide⟩⟩

/-- A recursive inner function (its own closure cell contains it): never returns, even without
recurse. -/
def exClo : Ctx where
  H := fun o => if o = 1 then .func ⟨cd "f", [], ["f".toList], [some 1], []⟩ else .other
  underlying := id
  gnames := fun _ => []

theorem C26_recursive_closure_never_returns (recurse : Bool) (d : Dict Str Obj) :
    ¬ Returns exClo recurse 1 d := by
  refine C26_cycle_never_returns exClo ⟨?_, fun o f h => h, fun _ => rfl⟩ recurse (fun o => o = 1) ?_ 1
    rfl d
  · rintro o f (h | h) <;> simp only [exClo] at h <;> (split at h) <;> simp at h <;> subst h <;> decide
  · rintro o rfl
    exact ⟨1, rfl, _, .inl rfl, .inl (by simp)⟩

theorem C26_full_false : ¬ C26_full := by
  intro h
  obtain ⟨d, hd⟩ := h exBad exBad_wf true 1
  exact C26_mutual_recursion_never_returns d hd

end Verif.Detect
