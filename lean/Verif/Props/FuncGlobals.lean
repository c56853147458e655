import Verif.Model.FuncGlobals
import Verif.Props.Modules
import Verif.Props.Core
import Verif.Props.CoreEx
set_option linter.unusedSimpArgs false
/-!
C75: a function pickled by value runs, after loading, in the live namespace of its module; functions that share their globals still
share them.  False with recurse=True, and for functions whose `__module__` is not the module they were defined in
(functools.wraps around a function of another module).
-/
namespace Verif.FuncGlobals
open Modules

/-! ### a function of an importable module -/

/-- Without `recurse`: a function defined in a module that is imported under the name in `__module__` and in `__name__` loads, in
any process that has imported a module under that name, with that process's namespace of the module as its
globals: the namespace itself, not a copy. -/
theorem C75_live_namespace_partial (I I2 : ImportSys) (eq : Val → Val → Except Exc Bool) (P : Pickler) (w w2 : World) (f : Fn)
    (name : Str) (m m2 : Obj) (d2 main2 fresh : Obj)
    (hrec : P.recurse = false) (hmod : ¬ (P.mainModified = true ∧ f.globals = P.originalMain))
    (hname : f.modl = some name) (hne : name ≠ []) (himp : ImportedAs w name m) (hk : w.kind m = .modl)
    (hb : BoundInPackage w name m) (hns : w.nsId m = some f.globals)
    (hnm : (w.dicts f.globals).get "__name__".toList = some (.str name))
    (hdill : P.pick.isDill = true)
    (heq : ∀ a b, ∃ c, eq a b = .ok c) (hwf : ∀ x, (w.dicts x).WF)
    (hmain : ¬ EqualDicts eq (w.dicts f.globals) (w.dicts P.pick.mainDict))
    (htop : ¬ EqualDicts eq (w.dicts f.globals) (w.dicts P.pick.topDict))
    (himp2 : ImportedAs w2 name m2) (hns2 : w2.nsId m2 = some d2) :
    ∃ x, write I eq P w f = (w, .ok x) ∧ loadedGlobals I2 main2 fresh w2 x = (w2, .ok d2) := by
  have hi := importModule_imported (I := I) (safe := true) hne himp hk hb
  replace hmain := dictEq_false heq (hwf _) (hwf _) hmain
  replace htop := dictEq_false heq (hwf _) (hwf _) htop
  refine ⟨.ref (.named name), ?_, ?_⟩
  · simp only [write, choose, hrec, Bool.false_eq_true, if_false, hmod, isModuleNamespace, hname, hi, hns, decide_true]
    simp only [route, hdill, if_true, hmain, Bool.false_eq_true, false_and, if_false, hnm, htop, hi, hns]
  · have : importName I2 w2 name = (w2, .ok (.obj m2)) := by
      unfold ImportedAs at himp2
      simp only [importName, hne, if_false, himp2]
    simp only [loadedGlobals, loadDict, this, loadDict.namespaceOf, hns2]

/-- The same for functions of `__main__`: they load with the main namespace of the loading process. -/
theorem C75_live_main_partial (I I2 : ImportSys) (eq : Val → Val → Except Exc Bool) (P : Pickler) (w w2 : World) (f : Fn)
    (name : Str) (m : Obj) (main2 fresh : Obj)
    (hrec : P.recurse = false) (hmod : P.mainModified = false)
    (hname : f.modl = some name) (hne : name ≠ []) (himp : ImportedAs w name m) (hk : w.kind m = .modl)
    (hb : BoundInPackage w name m) (hns : w.nsId m = some f.globals) (hg : f.globals = P.pick.mainDict)
    (hdill : P.pick.isDill = true) (hs : ¬ (P.pick.session = true ∧ P.pick.firstPass = true))
    (hwf : (w.dicts f.globals).WF) :
    ∃ x, write I eq P w f = (w, .ok x) ∧ loadedGlobals I2 main2 fresh w2 x = (w2, .ok main2) := by
  have hi := importModule_imported (I := I) (safe := true) hne himp hk hb
  have hd : dictEq eq (w.dicts P.pick.mainDict) (w.dicts P.pick.mainDict) = .ok true := by
    rw [← hg]; exact dictEq_refl hwf
  refine ⟨.ref .main, ?_, rfl⟩
  simp only [write, choose, hrec, Bool.false_eq_true, if_false, hmod, false_and, isModuleNamespace, hname, hi, hns, decide_true]
  rw [hg]
  simp only [route, hdill, if_true, hd, hs, not_false_eq_true, and_self]

/-- In a session dumped with imported objects set apart (`refimported=True`: a modified copy of the module is pickled), the functions
of the module load with the namespace that is being restored. -/
theorem C75_session_functions (I I2 : ImportSys) (eq : Val → Val → Except Exc Bool) (P : Pickler) (w w2 : World) (f : Fn)
    (main2 fresh : Obj) (hrec : P.recurse = false) (hmod : P.mainModified = true) (hg : f.globals = P.originalMain)
    (hdill : P.pick.isDill = true) (hs : ¬ (P.pick.session = true ∧ P.pick.firstPass = true))
    (hwf : (w.dicts P.pick.mainDict).WF) :
    ∃ x, write I eq P w f = (w, .ok x) ∧ loadedGlobals I2 main2 fresh w2 x = (w2, .ok main2) := by
  have hd : dictEq eq (w.dicts P.pick.mainDict) (w.dicts P.pick.mainDict) = .ok true := dictEq_refl hwf
  refine ⟨.ref .main, ?_, rfl⟩
  simp only [write, choose, hrec, Bool.false_eq_true, if_false, hmod, hg, and_self, if_true]
  simp only [route, hdill, if_true, hd, hs, not_false_eq_true, and_self]

/-- Globals are written by reference only if they are the namespace of the module that the function names, imported at that moment (or
those of the session that is being dumped): a function with no module, with a module that is something else, or whose globals are any
other dict, gets a copy. -/
theorem C75_reference_only_if (I : ImportSys) (eq : Val → Val → Except Exc Bool) (P : Pickler) (w w' : World) (f : Fn) (r : Route)
    (h : write I eq P w f = (w', .ok (.ref r))) :
    P.recurse = false ∧ ((P.mainModified = true ∧ f.globals = P.originalMain) ∨
      ∃ name m, f.modl = some name ∧ (importModule I true w name).2 = .ok (.obj m) ∧
        (importModule I true w name).1.nsId m = some f.globals) := by
  unfold write at h
  cases hc : choose I P w f with
  | mk w1 c =>
    rw [hc] at h
    cases c with
    | error e => simp at h
    | ok c =>
      cases c with
      | copied i c => simp at h
      | dict o =>
        unfold choose at hc
        simp only at hc
        split at hc
        · simp at hc
        · rename_i hr
          refine ⟨by simpa using hr, ?_⟩
          split at hc
          · rename_i hm; exact .inl hm
          · right
            unfold isModuleNamespace at hc
            cases hn : f.modl with
            | none => rw [hn] at hc; simp at hc
            | some name =>
              rw [hn] at hc
              refine ⟨name, ?_⟩
              simp only at hc
              generalize importModule I true w name = q at hc
              obtain ⟨wq, rq⟩ := q
              cases rq with
              | error e => simp at hc
              | ok v =>
                cases v with
                | obj m =>
                  simp only at hc
                  by_cases hd : wq.nsId m = some f.globals
                  · exact ⟨m, rfl, rfl, hd⟩
                  · simp [hd] at hc
                | _ => simp at hc

/-- What is copied when the globals are copied: without `recurse` every entry of the function's globals, with it exactly what
`globalvars` finds; and the copy starts with the name of the module. -/
theorem C75_copied_entries (I : ImportSys) (eq : Val → Val → Except Exc Bool) (P : Pickler) (w w' : World) (f : Fn)
    (init copy : Dict Str Val) (h : write I eq P w f = (w', .ok (.copied init copy))) :
    init = [("__name__".toList, match f.modl with | some s => .str s | none => .none)] ∧
    (P.recurse = true → copy = P.globalvars f) ∧ (P.recurse = false → copy = w'.dicts f.globals) := by
  have hinit : nameVal f.modl = (match f.modl with | some s => Val.str s | none => .none) := by
    unfold nameVal; cases f.modl <;> rfl
  unfold write at h
  cases hc : choose I P w f with
  | mk w1 r =>
    rw [hc] at h
    cases r with
    | error e => simp at h
    | ok c =>
      cases c with
      | dict o =>
        simp only at h
        cases hr : route I eq P.pick w1 o with
        | mk w2 r2 => rw [hr] at h; cases r2 <;> simp at h
      | copied i c =>
        simp only [Prod.mk.injEq, Except.ok.injEq, Written.copied.injEq] at h
        obtain ⟨rfl, rfl, rfl⟩ := h
        unfold choose at hc
        simp only at hc
        split at hc
        · rename_i hr
          simp only [Prod.mk.injEq, Except.ok.injEq, Choice.copied.injEq] at hc
          obtain ⟨-, rfl, rfl⟩ := hc
          exact ⟨by rw [hinit], fun _ => rfl, fun h => by rw [h] at hr; cases hr⟩
        · rename_i hr
          split at hc
          · simp at hc
          · cases hm : isModuleNamespace I w f with
            | mk w3 b =>
              rw [hm] at hc
              cases b with
              | error e => simp at hc
              | ok b =>
                cases b with
                | true => simp at hc
                | false =>
                  simp only [Prod.mk.injEq, Except.ok.injEq, Choice.copied.injEq] at hc
                  obtain ⟨rfl, rfl, rfl⟩ := hc
                  exact ⟨by rw [hinit], fun h => absurd h hr, fun _ => rfl⟩

/-- Functions that share their globals and are both written by reference share them after loading, also when they name different
modules in `__module__` (a module imported under two names): the same reference is written for both. The two modules are ones
whose import changes nothing, that is, they are already imported. -/
theorem C75_sharing_partial (I : ImportSys) (eq : Val → Val → Except Exc Bool) (P : Pickler) (w w' w'' : World) (f g : Fn) (r r' : Route)
    (hgl : f.globals = g.globals)
    (hf : ∀ nm, f.modl = some nm → (importModule I true w nm).1 = w) (hg : ∀ nm, g.modl = some nm → (importModule I true w nm).1 = w)
    (h : write I eq P w f = (w', .ok (.ref r))) (h' : write I eq P w g = (w'', .ok (.ref r'))) : r = r' := by
  have key : ∀ (k : Fn) v s, (isModuleNamespace I w k).1 = w → write I eq P w k = (v, .ok (.ref s)) →
      route I eq P.pick w (if P.mainModified = true ∧ k.globals = P.originalMain then P.pick.mainDict else k.globals) = (v, .ok s) := by
    intro k v s hk h
    unfold write choose at h
    simp only at h
    by_cases h1 : P.recurse = true
    · rw [if_pos h1] at h; simp at h
    · rw [if_neg h1] at h
      by_cases h2 : P.mainModified = true ∧ k.globals = P.originalMain
      · rw [if_pos h2] at h ⊢
        simp only at h
        cases hr : route I eq P.pick w P.pick.mainDict with
        | mk w3 r3 => rw [hr] at h; cases r3 <;> simp at h; rw [h.1, h.2]
      · rw [if_neg h2] at h ⊢
        cases hm : isModuleNamespace I w k with
        | mk w3 b =>
          rw [hm] at h hk
          simp only at hk
          subst hk
          cases b with
          | error e => simp at h
          | ok b =>
            cases b with
            | false => simp at h
            | true =>
              simp only at h
              cases hr : route I eq P.pick w3 k.globals with
              | mk w4 r4 => rw [hr] at h; cases r4 <;> simp at h; rw [h.1, h.2]
  have still : ∀ k : Fn, (∀ nm, k.modl = some nm → (importModule I true w nm).1 = w) → (isModuleNamespace I w k).1 = w := by
    intro k hk
    unfold isModuleNamespace
    cases hm : k.modl with
    | none => rfl
    | some nm =>
      have := hk nm hm
      simp only
      cases hi : importModule I true w nm with
      | mk w3 r3 =>
        rw [hi] at this
        simp only at this
        subst this
        cases r3 with
        | error e => rfl
        | ok v => cases v <;> rfl
  have a := key f _ _ (still f hf) h
  have b := key g _ _ (still g hg) h'
  rw [hgl] at a
  rw [a] at b
  simp only [Prod.mk.injEq, Except.ok.injEq] at b
  exact b.2

/-! ### concrete cases and counterexamples -/

/-- `p.sub` of Props/Modules' example interpreter: module 4, namespace 14; main is module 5, namespace 15 -/
def exPickler : Pickler := ⟨exP, false, false, 15, fun _ => [("k".toList, .obj 9)]⟩

/-- a function of `mine` -/
example : (exW.dicts 16).get "__name__".toList = some (.str "mine".toList) ∧ ImportedAs exW "mine".toList 6 ∧ exW.nsId 6 = some 16 ∧
    dictEq exEq (exW.dicts 16) (exW.dicts 15) = .ok false := by decide +kernel

example : ∃ x, write exI exEq exPickler exW ⟨16, some "mine".toList⟩ = (exW, .ok x) ∧
    loadedGlobals exI 15 77 exW x = (exW, .ok 16) :=
  C75_live_namespace_partial exI exI exEq exPickler exW exW ⟨16, some "mine".toList⟩ "mine".toList 6 6 16 15 77 rfl (by decide) rfl
    (by decide) (by decide +kernel) (by decide) (by
      intro pkg last h hl
      have : '.' ∈ "mine".toList := by rw [h]; simp
      exact absurd this (by decide)) (by decide +kernel) (by decide +kernel) rfl (fun _ _ => ⟨_, rfl⟩) exW_wf
    (fun h => absurd (h.2 "__name__".toList _ _ rfl rfl) (by decide +kernel))
    (fun h => absurd (h.2 "__name__".toList _ _ rfl rfl) (by decide +kernel)) (by decide +kernel) (by decide +kernel)

/-- two functions of `mine`, sharing its namespace, are both written as the
reference to `mine` -/
example : write exI exEq exPickler exW ⟨16, some "mine".toList⟩ = (exW, .ok (.ref (.named "mine".toList))) ∧
    (importModule exI true exW "mine".toList).1 = exW := by
  have h1 : importModule exI true exW "mine".toList = (exW, .ok (.obj 6)) :=
    importModule_imported (by decide) (by decide +kernel) (by decide) (by
      intro pkg last h hl
      have : '.' ∈ "mine".toList := by rw [h]; simp
      exact absurd this (by decide))
  have h2 : (decide (exW.nsId 6 = some 16)) = true := by decide
  refine ⟨?_, by rw [h1]⟩
  simp only [write, choose, exPickler, Bool.false_eq_true, if_false, false_and, isModuleNamespace, h1, h2]
  rfl

/-- What functools.wraps does: a wrapper defined in `mine`, around a function of `math`, has `__module__ == 'math'`.  Its globals are a
module's namespace, and yet it loads with a copy. -/
theorem C75_wraps_copies_namespace :
    ∃ (I : ImportSys) (eq : Val → Val → Except Exc Bool) (P : Pickler) (w : World) (f : Fn) (m : Obj) (x : Written),
      P.recurse = false ∧ P.mainModified = false ∧ ImportedAs w "mine".toList m ∧ w.kind m = .modl ∧ w.nsId m = some f.globals ∧
      f.modl = some "math".toList ∧ write I eq P w f = (w, .ok x) ∧
      ∀ main fresh, loadedGlobals I main fresh w x = (w, .ok fresh) := by
  refine ⟨exI, exEq, exPickler, exW, ⟨16, some "math".toList⟩, 6,
    .copied [("__name__".toList, .str "math".toList)] (exW.dicts 16), rfl, rfl, by decide +kernel, by decide, by decide, rfl, ?_, fun _ _ => rfl⟩
  have h1 : importModule exI true exW "math".toList = (exW, .ok (.obj 1)) :=
    importModule_imported (by decide) (by decide +kernel) (by decide) (by
      intro pkg last h hl
      have : '.' ∈ "math".toList := by rw [h]; simp
      exact absurd this (by decide))
  have h2 : (decide (exW.nsId 1 = some 16)) = false := by decide
  simp only [write, choose, exPickler, Bool.false_eq_true, if_false, false_and, isModuleNamespace, h1, h2]
  rfl

/-- with recurse=True no function keeps the namespace of its module -/
theorem C75_recurse_copies (I : ImportSys) (eq : Val → Val → Except Exc Bool) (P : Pickler) (w : World) (f : Fn)
    (h : P.recurse = true) : ∃ x, write I eq P w f = (w, .ok x) ∧
      ∀ w2 main fresh, loadedGlobals I main fresh w2 x = (w2, .ok fresh) :=
  ⟨.copied [("__name__".toList, nameVal f.modl)] (P.globalvars f), by simp only [write, choose, h, if_true], fun _ _ _ => rfl⟩

end Verif.FuncGlobals

namespace Verif.Core
open Spec

/-- Copied globals are never shared: two different functions of the graph whose globals are copied load with two different
dicts, also when they had the same globals: an assignment to a global by one is not seen by the other (unless one of them became
a reference to its name, being needed for its own creation). -/
theorem C75_copies_apart (W : World) (hw : WF W) (n : Nat) (root : Val) (ops : List Op) (h : dumps W n root = .ok ops) :
    ∃ tv heap, load ops = some (tv, heap) ∧
      ∀ path path' x y co init copy nm d cl a s co' init' copy' nm' d' cl' a' s', x ≠ y →
        follow W root path = some (.ref x) → W.H x = .func co (.copied init copy) nm d cl a s →
        follow W root path' = some (.ref y) → W.H y = .func co' (.copied init' copy') nm' d' cl' a' s' →
        ByName W root heap tv path ∨ ByName W root heap tv path' ∨
        ∃ t t' g g' c1 c2 c3 c4 c5 c6 e1 e2 e3 e4 e5 e6, tfollow heap tv path = some (.ref t) ∧
          tfollow heap tv path' = some (.ref t') ∧
          heap[t]? = some (.func c1 (.ref g) c2 c3 c4 c5 c6) ∧ heap[t']? = some (.func e1 (.ref g') e2 e3 e4 e5 e6) ∧ g ≠ g' := by
  obtain ⟨tv, heap, φ, hl, hc⟩ := C01_isomorphic_copy_partial W hw n root ops h
  refine ⟨tv, heap, hl, ?_⟩
  have one : ∀ path x co init copy nm d cl a s, follow W root path = some (.ref x) →
      W.H x = .func co (.copied init copy) nm d cl a s → ByName W root heap tv path ∨ ∃ t g c1 c2 c3 c4 c5 c6, tfollow heap tv path = some (.ref t) ∧
        heap[t]? = some (.func c1 (.ref g) c2 c3 c4 c5 c6) ∧ φ.globs x = some g := by
    intro path x co init copy nm d cl a s hp hx
    rcases path_or_name hw hc hp with hb | ⟨tv', h1, h2, _⟩
    · exact .inl hb
    simp only [CopyVal, hx] at h2
    obtain ⟨t, h3, rfl⟩ | ⟨h3, _, b, h4, rfl⟩ := h2
    case inr => exact .inl ⟨path, [], x, b, by simp, hp, h3, h4, h1⟩
    obtain ⟨o, h4, h5⟩ := hc.objs x t h3
    unfold CopyObj at h5
    rw [hx] at h5
    cases o <;> simp only at h5
    obtain ⟨_, ⟨tg, h6, rfl⟩, _⟩ := h5
    exact .inr ⟨t, tg, _, _, _, _, _, _, h1, h4, h6⟩
  intro path path' x y co init copy nm d cl a s co' init' copy' nm' d' cl' a' s' hxy hp hx hp' hy
  obtain hb | ⟨t, g, c1, c2, c3, c4, c5, c6, a1, a2, a3⟩ := one path x _ _ _ _ _ _ _ _ hp hx
  · exact .inl hb
  obtain hb | ⟨t', g', e1, e2, e3, e4, e5, e6, b1, b2, b3⟩ := one path' y _ _ _ _ _ _ _ _ hp' hy
  · exact .inr (.inl hb)
  refine .inr (.inr ?_)
  refine ⟨t, t', g, g', c1, c2, c3, c4, c5, c6, e1, e2, e3, e4, e5, e6, a1, b1, a2, b2, ?_⟩
  rintro rfl
  exact hxy (hc.globsInj x y g a3 b3)

/-- 0 and 1: two functions made in one dict of globals (by exec), with the same entries; 2: a list of both; 3: their code -/
def exShare : World := { Ex.W with H := fun a => match a with
  | 0 => .func (.ref 3) (.copied [(Ex.s "__name__", Ex.s "m")] [(Ex.s "n", .atom (.int 0))]) (Ex.s "inc") (.atom .none) (.atom .none) [] []
  | 1 => .func (.ref 3) (.copied [(Ex.s "__name__", Ex.s "m")] [(Ex.s "n", .atom (.int 0))]) (Ex.s "get") (.atom .none) (.atom .none) [] []
  | 2 => .node .list [.ref 0, .ref 1] [] none
  | 3 => .leaf (.glob "m" "code")
  | _ => .leaf .none }

theorem exShare_wf : WF exShare := by
  refine ⟨rfl, rfl, rfl, rfl, rfl, rfl, rfl, rfl, ?_, (by intro _ _ h; cases h), (by intro _ _ h; cases h), (by intro _ _ _ h; cases h)⟩
  intro x
  match x with
  | 0 => exact ⟨⟨by simp, by unfold KNodup; decide, by unfold KNodup; decide⟩, by unfold KNodup; decide, by unfold KNodup; decide⟩
  | 1 => exact ⟨⟨by simp, by unfold KNodup; decide, by unfold KNodup; decide⟩, by unfold KNodup; decide, by unfold KNodup; decide⟩
  | 2 => exact ⟨rfl, rfl⟩
  | 3 => trivial
  | _ + 4 => trivial

/-- and the two functions of that list do load, with two dicts -/
example : ∃ ops, dumps exShare 40 (.ref 2) = .ok ops ∧ follow exShare (.ref 2) [.item 0] = some (.ref 0) ∧
    follow exShare (.ref 2) [.item 1] = some (.ref 1) := by
  have h : Ex.isOk (dumps exShare 40 (.ref 2)) = true := by decide +kernel
  cases e : dumps exShare 40 (.ref 2) with
  | ok o => exact ⟨o, rfl, rfl, rfl⟩
  | error e' => rw [e] at h; cases h

end Verif.Core
