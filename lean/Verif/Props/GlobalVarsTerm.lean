import Verif.Props.GlobalVars
/-! C26, exactly when `globalvars` (`dill/detect.py:176-221`) returns: with recurse=False in general, with recurse=True for functions without
closures in any number of modules, and for all functions of one module. -/
set_option linter.unusedSimpArgs false
set_option linter.unusedVariables false
namespace Verif.Detect

/-! ### specification -/

/-- no endless chain of calls starts at `o` -/
def NoEndlessChain (calls : Obj → Obj → Prop) (o : Obj) : Prop :=
  ¬ ∃ c : Nat → Obj, c 0 = o ∧ ∀ i, calls (c i) (c (i + 1))

/-- `g` is in a closure cell of `o` -/
def InCell (C : Ctx) (o g : Obj) : Prop := ∃ f, IsFunc C o f ∧ some g ∈ f.closure

/-- `o` uses a global name that is bound to another object `g` in its own module -/
def Uses (C : Ctx) (o g : Obj) : Prop :=
  ∃ f, IsFunc C o f ∧ g ≠ C.underlying o ∧ ∃ k ∈ C.gnames f.code, f.globals.get k = some g

/-- in one module with namespace `G`: `g` is in a closure cell of `o`, or is bound to a name that `o` uses or that a function in a closure
cell of `o` needs, and is not `o` itself -/
def UsesIn (C : Ctx) (G : Dict Str Obj) (o g : Obj) : Prop :=
  InCell C o g ∨ ∃ f, IsFunc C o f ∧ g ≠ C.underlying o ∧
    ∃ k, (k ∈ C.gnames f.code ∨ ∃ c, some c ∈ f.closure ∧ Needed C G c k) ∧ G.get k = some g

/-! ### proofs -/

theorem acc_of_noChain (calls : Obj → Obj → Prop) (o : Obj) (h : NoEndlessChain calls o) :
    Acc (fun g o => calls o g) o := by
  refine Classical.byContradiction fun hn => h ?_
  have step : ∀ x : {x : Obj // ¬ Acc (fun g o => calls o g) x}, ∃ y : {x : Obj // ¬ Acc (fun g o => calls o g) x}, calls x.1 y.1 := by
    rintro ⟨x, hx⟩
    refine Classical.byContradiction fun hno => hx (Acc.intro x fun y hy => Classical.byContradiction fun hy' => hno ⟨⟨y, hy'⟩, hy⟩)
  let next := fun x => Classical.choose (step x)
  have hnext : ∀ x, calls x.1 (next x).1 := fun x => Classical.choose_spec (step x)
  let c : Nat → {x : Obj // ¬ Acc (fun g o => calls o g) x} := fun n => Nat.rec ⟨o, hn⟩ (fun _ x => next x) n
  exact ⟨fun n => (c n).1, rfl, fun i => hnext (c i)⟩

theorem isFunc_unique {C : Ctx} {o : Obj} {f f' : Func} (h : IsFunc C o f) (h' : IsFunc C o f') : f = f' := by
  rcases h with h | h <;> rcases h' with h' | h' <;> rw [h] at h' <;> cases h' <;> rfl

/-- a bound for finitely many calls that all return -/
theorem common_fuel {C : Ctx} {r : Bool} (l : List Obj) (h : ∀ g ∈ l, ∃ d, Returns C r g d) (N0 : Nat) :
    ∃ N, N0 ≤ N ∧ ∀ g ∈ l, ∃ d, globalvars C r N g = some d := by
  induction l with
  | nil => exact ⟨N0, Nat.le_refl _, fun g hg => by cases hg⟩
  | cons a l ih =>
    obtain ⟨N, h1, h2⟩ := ih (fun g hg => h g (by simp [hg]))
    obtain ⟨d, n, hd⟩ := h a (by simp)
    refine ⟨max N n, Nat.le_trans h1 (Nat.le_max_left _ _), fun g hg => ?_⟩
    rcases List.mem_cons.1 hg with rfl | hg
    · exact ⟨d, globalvars_le C r (Nat.le_max_right _ _) _ _ hd⟩
    · obtain ⟨d', hd'⟩ := h2 g hg
      exact ⟨d', globalvars_le C r (Nat.le_max_left _ _) _ _ hd'⟩

/-- the call returns when all the calls it makes do -/
theorem returns_of_calls {C : Ctx} {r : Bool} {o : Obj} {f : Func} (hf : IsFunc C o f)
    (hcell : ∀ g, some g ∈ f.closure → ∃ d, Returns C r g d)
    (hkey : r = true → ∀ N names globs, closureLoop (globalvars C r N) f.closure [] [] = some (names, globs) →
      ∀ k ∈ setUnion names (C.gnames f.code), ∀ g, Dict.get (globs.update f.globals) k = some g → g ≠ C.underlying o →
      ∃ d, Returns C r g d) :
    ∃ d, Returns C r o d := by
  obtain ⟨N, -, hN⟩ := common_fuel (C := C) (r := r) (f.closure.filterMap id)
    (fun g hg => hcell g (by simpa using hg)) 0
  obtain ⟨⟨names, globs⟩, hcl⟩ := closureLoop_total (globalvars C r N) f.closure [] []
    (fun g hg => hN g (by simpa using hg))
  cases r with
  | false =>
    refine ⟨restrict (setUnion names f.co_names) (globs.update f.globals), N + 1, ?_⟩
    rw [globalvars_func C false N o f hf]
    unfold body
    rw [hcl]
    rfl
  | true =>
    let cand := (setUnion names (C.gnames f.code)).filterMap fun k =>
      match Dict.get (globs.update f.globals) k with
      | some g => if g = C.underlying o then none else some g
      | none => none
    have hc : ∀ k ∈ setUnion names (C.gnames f.code), ∀ g, Dict.get (globs.update f.globals) k = some g → g ≠ C.underlying o →
        g ∈ cand := by
      intro k hk g hg hne
      refine List.mem_filterMap.2 ⟨k, hk, ?_⟩
      rw [hg]; simp [hne]
    obtain ⟨N', hle, hN'⟩ := common_fuel (C := C) (r := true) cand (by
      intro g hg
      obtain ⟨k, hk, e⟩ := List.mem_filterMap.1 hg
      cases hd : Dict.get (globs.update f.globals) k with
      | none => rw [hd] at e; simp at e
      | some w =>
        rw [hd] at e
        by_cases hw : w = C.underlying o
        · simp [hw] at e
        · simp [hw] at e; subst e
          exact hkey rfl N names globs hcl k hk w hd hw) N
    have hcl' := closureLoop_mono (globalvars C true N) (globalvars C true N') (fun o d h => globalvars_le C true hle o d h) _ _ _ _ hcl
    obtain ⟨ns, hns⟩ := keyLoop_total (globalvars C true N') (C.underlying o) (globs.update f.globals)
      (setUnion names (C.gnames f.code)) (setUnion names (C.gnames f.code))
      (fun k hk g hg hne => hN' g (hc k hk g hg hne))
    refine ⟨restrict ns (globs.update f.globals), N' + 1, ?_⟩
    rw [globalvars_func C true N' o f hf]
    unfold body
    rw [hcl']
    simp only [Bool.not_true, Bool.false_eq_true, if_false]
    rw [hns]

/-- when a call returns, the calls it makes return earlier -/
theorem calls_of_returns {C : Ctx} {r : Bool} {o : Obj} {f : Func} {n : Nat} {d : Dict Str Obj} (hf : IsFunc C o f)
    (h : globalvars C r (n + 1) o = some d) :
    (∀ g, some g ∈ f.closure → ∃ d, globalvars C r n g = some d) ∧
    ∃ names globs, closureLoop (globalvars C r n) f.closure [] [] = some (names, globs) ∧
      (r = true → ∀ k ∈ setUnion names (C.gnames f.code), ∀ g, Dict.get (globs.update f.globals) k = some g →
        g ≠ C.underlying o → ∃ d, globalvars C r n g = some d) := by
  rw [globalvars_func C r n o f hf] at h
  unfold body at h
  cases hcl : closureLoop (globalvars C r n) f.closure [] [] with
  | none => rw [hcl] at h; cases h
  | some p =>
    obtain ⟨names, globs⟩ := p
    rw [hcl] at h
    refine ⟨fun g hg => ?_, names, globs, rfl, ?_⟩
    · cases hr : globalvars C r n g with
      | some d => exact ⟨d, rfl⟩
      | none => rw [closureLoop_none _ _ _ _ g hg hr] at hcl; cases hcl
    · rintro rfl k hk g hg hne
      simp only [Bool.not_true, Bool.false_eq_true, if_false] at h
      cases hr : globalvars C true n g with
      | some d => exact ⟨d, rfl⟩
      | none => rw [keyLoop_none _ _ _ _ _ k g hk hg hne hr] at h; cases h

theorem other_or_func (C : Ctx) (o : Obj) : C.H o = .other ∨ ∃ f, IsFunc C o f := by
  cases h : C.H o with
  | other => exact .inl rfl
  | func f => exact .inr ⟨f, .inl h⟩
  | method f => exact .inr ⟨f, .inr h⟩

theorem noChain_of_fuel {C : Ctx} {r : Bool} {calls : Obj → Obj → Prop}
    (hstep : ∀ n o d g, globalvars C r (n + 1) o = some d → calls o g → ∃ d', globalvars C r n g = some d')
    {o : Obj} {d : Dict Str Obj} (h : Returns C r o d) : NoEndlessChain calls o := by
  rintro ⟨c, h0, hc⟩
  obtain ⟨n, hn⟩ := h
  have key : ∀ n i d, globalvars C r n (c i) = some d → False := by
    intro n
    induction n with
    | zero => intro i d h; simp [globalvars] at h
    | succ n ih =>
      intro i d h
      obtain ⟨d', hd'⟩ := hstep n _ d _ h (hc i)
      exact ih (i + 1) d' hd'
  exact key n 0 d (h0 ▸ hn)

/-- C26 with recurse=False, exactly: `globalvars(f, recurse=False)` returns if and only if no endless chain of closure cells starts at `f`. -/
theorem C26_no_recurse_iff_partial (C : Ctx) (o : Obj) :
    (∃ d, Returns C false o d) ↔ NoEndlessChain (InCell C) o := by
  constructor
  · rintro ⟨d, h⟩
    refine noChain_of_fuel ?_ h
    rintro n o d g h ⟨f, hf, hg⟩
    exact (calls_of_returns hf h).1 g hg
  · intro h
    have hacc := acc_of_noChain _ _ h
    clear h
    induction hacc with
    | intro o _ ih =>
      rcases other_or_func C o with ho | ⟨f, hf⟩
      · exact ⟨[], other_returns C false o ho⟩
      · exact returns_of_calls hf (fun g hg => ih g ⟨f, hf, hg⟩) (fun h => by cases h)

/-- C26 for functions without closures, in any number of modules, exactly: `globalvars(f, recurse=True)` returns if and only if no endless
chain of functions, each naming another one as a global, starts at `f`. -/
theorem C26_no_closures_iff_partial (C : Ctx) (hC : C.WF) (hclo : ∀ o f, IsFunc C o f → ∀ g, some g ∉ f.closure) (o : Obj) :
    (∃ d, Returns C true o d) ↔ NoEndlessChain (Uses C) o := by
  have hloop : ∀ o f (hf : IsFunc C o f) rec_ names globs, closureLoop rec_ f.closure [] [] = some (names, globs) → names = [] ∧ globs = [] := by
    intro o f hf
    have : ∀ cs : List (Option Obj), (∀ g, some g ∉ cs) → ∀ rec_ names globs, closureLoop rec_ cs [] [] = some (names, globs) →
        names = [] ∧ globs = [] := by
      intro cs
      induction cs with
      | nil => intro _ rec_ names globs h; simp [closureLoop] at h; exact ⟨h.1, h.2⟩
      | cons c cs ih =>
        intro hno rec_ names globs h
        cases c with
        | none => exact ih (fun g hg => hno g (by simp [hg])) rec_ names globs h
        | some g => exact absurd (by simp) (hno g)
    exact this f.closure (hclo o f hf)
  constructor
  · rintro ⟨d, h⟩
    refine noChain_of_fuel ?_ h
    rintro n o d g h ⟨f, hf, hne, k, hk, hg⟩
    obtain ⟨-, names, globs, h1, h2⟩ := calls_of_returns hf h
    refine h2 rfl k ((mem_setUnion _ _ _).2 (.inr hk)) g ?_ hne
    rw [Dict.get_update _ _ (hC.globals o f hf), hg]
  · intro h
    have hacc := acc_of_noChain _ _ h
    clear h
    induction hacc with
    | intro o _ ih =>
      rcases other_or_func C o with ho | ⟨f, hf⟩
      · exact ⟨[], other_returns C true o ho⟩
      · refine returns_of_calls hf (fun g hg => absurd hg (hclo o f hf g)) ?_
        intro _ N names globs hcl k hk g hg hne
        obtain ⟨rfl, rfl⟩ := hloop o f hf _ _ _ hcl
        have hk' : k ∈ C.gnames f.code := by
          rcases (mem_setUnion _ _ _).1 hk with h | h
          · cases h
          · exact h
        rw [Dict.get_update _ _ (hC.globals o f hf)] at hg
        refine ih g ⟨f, hf, hne, k, hk', ?_⟩
        cases hgk : f.globals.get k with
        | some w => rw [hgk] at hg; simpa using hg
        | none => rw [hgk] at hg; simp at hg

/-- C26 for one module, closures and methods included, exactly: `globalvars(f, recurse=True)` returns if and only if no endless chain starts
at `f`, each function referring to the next by a closure cell, by a global name of its own or by a global name that a function in one of
its cells needs. -/
theorem C26_one_module_iff_partial (C : Ctx) (hC : C.WF) (G : Dict Str Obj) (hG : ∀ o f, IsFunc C o f → f.globals = G) (o : Obj) :
    (∃ d, Returns C true o d) ↔ NoEndlessChain (UsesIn C G) o := by
  constructor
  · rintro ⟨d, h⟩
    refine noChain_of_fuel ?_ h
    rintro n o d g h (⟨f, hf, hg⟩ | ⟨f, hf, hne, k, hk, hg⟩)
    · exact (calls_of_returns hf h).1 g hg
    · obtain ⟨h0, names, globs, h1, h2⟩ := calls_of_returns hf h
      obtain ⟨-, c2, -, -⟩ := closureLoop_spec _ (fun g d h => wf_globalvars C true n g d h) _ _ _ _ _ h1
      refine h2 rfl k ?_ g ?_ hne
      · rw [mem_setUnion]
        rcases hk with hk | ⟨c, hc, hn⟩
        · exact .inr hk
        · left
          rw [c2]
          obtain ⟨dc, hdc⟩ := h0 c hc
          have := (C25_single_module_exact C hC G hG c dc ⟨n, hdc⟩ k g).2 ⟨hg, hn⟩
          exact .inr ⟨c, hc, dc, hdc, (Dict.get_isSome_iff dc k).1 (by rw [this]; rfl)⟩
      · rw [Dict.get_update _ _ (hC.globals o f hf), hG o f hf, hg]
  · intro h
    have hacc := acc_of_noChain _ _ h
    clear h
    induction hacc with
    | intro o _ ih =>
      rcases other_or_func C o with ho | ⟨f, hf⟩
      · exact ⟨[], other_returns C true o ho⟩
      · refine returns_of_calls hf (fun g hg => ih g (.inl ⟨f, hf, hg⟩)) ?_
        intro _ N names globs hcl k hk g hg hne
        obtain ⟨-, c2, c3, -⟩ := closureLoop_spec _ (fun g d h => wf_globalvars C true N g d h) _ _ _ _ _ hcl
        have hgk : G.get k = some g := by
          rw [Dict.get_update _ _ (hC.globals o f hf), hG o f hf] at hg
          cases hgk : G.get k with
          | some w => rw [hgk] at hg; simpa using hg
          | none =>
            rw [hgk] at hg
            rcases c3 k g hg with h | ⟨c, hc, dc, hdc, hv⟩
            · simp at h
            · have := ((C25_single_module_exact C hC G hG c dc ⟨N, hdc⟩ k g).1 hv).1
              rw [hgk] at this; cases this
        refine ih g (.inr ⟨f, hf, hne, k, ?_, hgk⟩)
        rcases (mem_setUnion _ _ _).1 hk with h | h
        · rw [c2] at h
          rcases h with h | ⟨c, hc, dc, hdc, hkd⟩
          · cases h
          · right
            have hs := (Dict.get_isSome_iff dc k).2 hkd
            cases hv : dc.get k with
            | none => rw [hv] at hs; cases hs
            | some v => exact ⟨c, hc, ((C25_single_module_exact C hC G hG c dc ⟨N, hdc⟩ k v).1 hv).2⟩
        · exact .inl h

/-! ### examples -/

theorem exOK_chain (o : Obj) : NoEndlessChain (UsesIn exOK exG) o := by
  have hd : ∀ a b, UsesIn exOK exG a b → (a = 1 ∧ b ≠ 1) ∨ (a = 2 ∧ b = 3) := by
    rintro a b (⟨f, hf, hb⟩ | ⟨f, hf, hne, k, hk, hg⟩)
    · rcases exOK_func hf with ⟨rfl, rfl⟩ | ⟨rfl, rfl⟩ <;> simp [mkf] at hb
    · rcases exOK_func hf with ⟨rfl, rfl⟩ | ⟨rfl, rfl⟩
      · exact .inl ⟨rfl, hne⟩
      · refine .inr ⟨rfl, ?_⟩
        rcases hk with hk | ⟨c, hc, -⟩
        · have : k = "x".toList := by simpa [exOK, mkf, cd, Code.name] using hk
          subst this
          have h3 : Dict.get exG "x".toList = some 3 := by decide +kernel
          rw [h3] at hg; cases hg; rfl
        · simp [mkf] at hc
  rintro ⟨c, rfl, hc⟩
  have h0 := hd _ _ (hc 0)
  have h1 := hd _ _ (hc 1)
  have h2 := hd _ _ (hc 2)
  have h3 := hd _ _ (hc 3)
  grind

/-- `def f(): g(); f()` and `def g(): return x` return, by the exact criterion -/
example : ∃ d, Returns exOK true 1 d :=
  (C26_one_module_iff_partial exOK exOK_wf exG (by
    intro o f hf; rcases exOK_func hf with ⟨_, rfl⟩ | ⟨_, rfl⟩ <;> rfl) 1).2 (exOK_chain 1)

/-- `def f(): g()` and `def g(): f()` do not -/
example : ¬ NoEndlessChain (Uses exBad) 1 := by
  intro h
  refine h ⟨fun i => if i % 2 = 0 then 1 else 2, rfl, fun i => ?_⟩
  show Uses exBad (if i % 2 = 0 then 1 else 2) (if (i + 1) % 2 = 0 then 1 else 2)
  rcases Nat.mod_two_eq_zero_or_one i with e | e
  · rw [if_pos e, if_neg (show ¬ (i + 1) % 2 = 0 by omega)]
    exact ⟨mkf "f", .inl rfl, by decide, "g".toList, by decide, by decide⟩
  · rw [if_neg (show ¬ i % 2 = 0 by omega), if_pos (show (i + 1) % 2 = 0 by omega)]
    exact ⟨mkf "g", .inl rfl, by decide, "f".toList, by decide, by decide⟩

end Verif.Detect
