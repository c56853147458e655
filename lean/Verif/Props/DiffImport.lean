import Verif.Model.DiffImport
import Verif.Props.Diff
/-! C96: a module counts as changed exactly when it was changed since its import.  C97: what `release_gone` forgets. -/
set_option linter.unusedSimpArgs false
set_option linter.unusedVariables false
namespace Verif.Diff

/-! ### Specification -/

/-- bodies of modules make well-formed objects, and a set of names is iterated in some order -/
structure Env.Ok (E : Env) : Prop where
  wf : ∀ n x body y r, E.disk n = some (x, body) → Act.set y r ∈ body → WF r
  order : ∀ l p, p ∈ E.order l ↔ p ∈ l

/-- what was to be seen when a nested or finished `_imp` returned has not been touched since: everything that could be reached from the
modules it memorised has the contents it had -/
def Untouched (E : Env) (now : Graph) (ev : Graph × List Id) : Prop :=
  ∀ x ∈ ev.2, ∀ y, Reach ev.1 E.excl x y → now y = ev.1 y

/-! ### Lemmas -/

/-- what running code in the import system does to the memo -/
structure Grow (E : Env) (s s' : St) : Prop where
  keep : ∀ y r, s.memo y = some r → s'.memo y = some r
  log : ∃ new, s'.log = s.log ++ new ∧ ∀ y r, s'.memo y = some r → s.memo y = some r ∨
    ∃ ev ∈ new, r = ev.1 y ∧ ∃ x ∈ ev.2, Reach ev.1 E.excl x y
  wf : (∀ y, WF (s.graph y)) → ∀ y, WF (s'.graph y)
  hist : (∀ y, WF (s.graph y)) → History E.excl s.memo → History E.excl s'.memo

theorem Grow.refl (E : Env) (s : St) : Grow E s s :=
  ⟨fun _ _ h => h, ⟨[], by simp, fun _ _ h => .inl h⟩, fun h => h, fun _ h => h⟩

theorem Grow.trans {E : Env} {a b c : St} (h : Grow E a b) (h' : Grow E b c) : Grow E a c := by
  obtain ⟨n1, e1, f1⟩ := h.log
  obtain ⟨n2, e2, f2⟩ := h'.log
  refine ⟨fun y r hy => h'.keep y r (h.keep y r hy), ⟨n1 ++ n2, by rw [e2, e1, List.append_assoc], ?_⟩, fun w => h'.wf (h.wf w),
    fun w hh => h'.hist (h.wf w) (h.hist w hh)⟩
  intro y r hy
  rcases f2 y r hy with e | ⟨ev, hev, e⟩
  · rcases f1 y r e with e | ⟨ev, hev, e⟩
    · exact .inl e
    · exact .inr ⟨ev, List.mem_append_left _ hev, e⟩
  · exact .inr ⟨ev, List.mem_append_right _ hev, e⟩

theorem Grow.mods (E : Env) (s : St) (l : List (String × Id)) : Grow E s { s with mods := l } :=
  ⟨fun _ _ h => h, ⟨[], by simp, fun _ _ h => .inl h⟩, fun h => h, fun _ h => h⟩

theorem runBody_grow (E : Env) (f : List String → St → St × Outcome) (hf : ∀ ns s, Grow E s (f ns s).1) :
    ∀ (body : List Act) (s : St), (∀ y r, Act.set y r ∈ body → WF r) → Grow E s (runBody f body s).1 := by
  intro body
  induction body with
  | nil => intro s _; exact .refl E s
  | cons a as ih =>
    intro s hw
    have hw' : ∀ y r, Act.set y r ∈ as → WF r := fun y r h => hw y r (List.mem_cons_of_mem _ h)
    cases a with
    | raise => exact .refl E s
    | set x r =>
      simp only [runBody]
      refine Grow.trans ?_ (ih _ hw')
      refine ⟨fun _ _ h => h, ⟨[], by simp, fun _ _ h => .inl h⟩, ?_, fun _ h => h⟩
      intro w y
      simp only
      split
      · exact hw x r (by simp)
      · exact w y
    | imp ns caught =>
      simp only [runBody]
      have h1 := hf ns s
      rcases hr : f ns s with ⟨s', o⟩
      rw [hr] at h1
      cases o with
      | ok => exact h1.trans (ih s' hw')
      | raised =>
        cases caught with
        | true => exact h1.trans (ih s' hw')
        | false => exact h1
      | timeout => exact h1

theorem loadOne_grow (E : Env) (hE : E.Ok) (f : List String → St → St × Outcome) (hf : ∀ ns s, Grow E s (f ns s).1) (n : String) (s : St) :
    Grow E s (loadOne E.disk f n s).1 := by
  unfold loadOne
  split
  · exact .refl E s
  · cases hd : E.disk n with
    | none => exact .refl E s
    | some p =>
      obtain ⟨x, body⟩ := p
      simp only
      have h1 := (Grow.mods E s (s.mods ++ [(n, x)])).trans (runBody_grow E f hf body { s with mods := s.mods ++ [(n, x)] }
        (fun y r h => hE.wf n x body y r hd h))
      rcases hr : runBody f body { s with mods := s.mods ++ [(n, x)] } with ⟨s', o⟩
      rw [hr] at h1
      cases o with
      | ok => exact h1
      | raised => exact h1.trans (Grow.mods E s' _)
      | timeout => exact h1.trans (Grow.mods E s' _)

theorem loadAll_grow (E : Env) (hE : E.Ok) (f : List String → St → St × Outcome) (hf : ∀ ns s, Grow E s (f ns s).1) :
    ∀ (ns : List String) (s : St), Grow E s (loadAll E.disk f ns s).1 := by
  intro ns
  induction ns with
  | nil => intro s; exact .refl E s
  | cons n ns ih =>
    intro s
    have h1 := loadOne_grow E hE f hf n s
    simp only [loadAll]
    rcases hr : loadOne E.disk f n s with ⟨s', o⟩
    rw [hr] at h1
    cases o with
    | ok => exact h1.trans (ih s')
    | raised => exact h1
    | timeout => exact h1

theorem history_forAll {excl : Id → Bool} (G : Graph) (hw : ∀ y, WF (G y)) (N : Nat) : ∀ (l : List Id) (m m' : Memo), History excl m →
    forAll (fun x m => memorise G excl N false x m) l m = .ok m' → History excl m' := by
  intro l
  induction l with
  | nil => intro m m' h e; cases e; exact h
  | cons x l ih =>
    intro m m' h e
    rw [forAll] at e
    cases h1 : memorise G excl N false x m with
    | error _ => rw [h1] at e; cases e
    | ok m1 =>
      rw [h1] at e
      exact ih m1 m' (.memo G N false x h hw h1) e

theorem imp_grow (E : Env) (hE : E.Ok) : ∀ (k : Nat) (ns : List String) (s : St), Grow E s (imp E k ns s).1 := by
  intro k
  induction k with
  | zero => intro ns s; exact .refl E s
  | succ k ih =>
    intro ns s
    have h1 := loadAll_grow E hE (imp E k) ih ns s
    simp only [imp]
    rcases hr : loadAll E.disk (imp E k) ns s with ⟨s', o⟩
    rw [hr] at h1
    cases o with
    | raised => exact h1
    | timeout => exact h1
    | ok =>
      simp only at h1 ⊢
      generalize ha : (E.order (s'.mods.filter (fun p => p.1 ∉ s.mods.map (·.1)))).map (·.2) = after
      cases hm : forAll (fun x m => memorise s'.graph E.excl E.depth false x m) after s'.memo with
      | error _ => exact h1
      | ok m =>
        refine h1.trans ?_
        have A := forAll_ok (fun v m m' h => memorise_ok s'.graph E.excl E.depth v m m' h) _ _ _ hm
        refine ⟨A.keep, ⟨[(s'.graph, after)], rfl, ?_⟩, fun h => h, fun w hh => history_forAll _ w _ _ _ _ hh hm⟩
        intro y r hy
        rcases A.fresh y r hy with e | ⟨-, e2, -, x, e4, e5⟩
        · exact .inl e
        · exact .inr ⟨_, List.mem_singleton_self _, e2, x, e4, e5⟩

/-! ### C96 -/

/-- C96, first half: after an import statement that succeeds, whatever the modules did - circular imports, imports that failed and were
caught, changes to any object - every module that is new in sys.modules is memorised (unless excluded). -/
theorem C96_imported_is_memorised (E : Env) (hE : E.Ok) (k : Nat) (ns : List String) (s s' : St) (h : imp E k ns s = (s', .ok))
    (n : String) (x : Id) (hn : (n, x) ∈ s'.mods) (hnew : n ∉ s.mods.map (·.1)) : E.excl x = true ∨ (s'.memo x).isSome = true := by
  cases k with
  | zero => cases h
  | succ k =>
    simp only [imp] at h
    rcases hr : loadAll E.disk (imp E k) ns s with ⟨s1, o⟩
    rw [hr] at h
    cases o with
    | raised => cases h
    | timeout => cases h
    | ok =>
      simp only at h
      generalize ha : (E.order (s1.mods.filter (fun p => p.1 ∉ s.mods.map (·.1)))).map (·.2) = after at h
      cases hm : forAll (fun x m => memorise s1.graph E.excl E.depth false x m) after s1.memo with
      | error _ => rw [hm] at h; cases h
      | ok m =>
        rw [hm] at h
        simp only [Prod.mk.injEq, and_true] at h
        subst h
        have A := forAll_ok (fun v m m' h => memorise_ok s1.graph E.excl E.depth v m m' h) _ _ _ hm
        refine A.roots x ?_
        rw [← ha]
        refine List.mem_map.2 ⟨(n, x), (hE.order _ _).2 (List.mem_filter.2 ⟨hn, ?_⟩), rfl⟩
        simpa using hnew

/-- C96, what is recorded, in every case: what an object was when some import call returned from whose modules it could be reached. -/
theorem C96_records (E : Env) (hE : E.Ok) (k : Nat) (ns : List String) (s s' : St) (o : Outcome) (h : imp E k ns s = (s', o)) :
    ∃ new, s'.log = s.log ++ new ∧ ∀ y r, s'.memo y = some r → s.memo y = some r ∨
      ∃ ev ∈ new, r = ev.1 y ∧ ∃ x ∈ ev.2, Reach ev.1 E.excl x y := by
  have := (imp_grow E hE k ns s).log
  rw [h] at this
  exact this

/-- C96, exactly, for every import and everything that happens later: `has_changed(module)` is true exactly when some object reachable from
the module by the recorded references differs from its record. -/
theorem C96_exact (E : Env) (hE : E.Ok) (k : Nat) (ns : List String) (s s' : St) (h : imp E k ns s = (s', .ok))
    (hw : ∀ y, WF (s.graph y)) (hh : History E.excl s.memo) (n : String) (x : Id) (hn : (n, x) ∈ s'.mods)
    (hnew : n ∉ s.mods.map (·.1)) (hx : E.excl x = false)
    (now : Graph) (wfn : ∀ y, WF (now y)) (kind : ∀ y r, s'.memo y = some r → SameKind r (now y))
    (fuel : Nat) (b : Bool) (sn : Seen) (hc : hasChanged now s'.memo E.excl fuel x noSeen = .ok (b, sn)) :
    b = true ↔ ∃ y r, MReach s'.memo x y ∧ s'.memo y = some r ∧ Differs r (now y) := by
  have hg := imp_grow E hE k ns s
  rw [h] at hg
  rcases C96_imported_is_memorised E hE k ns s s' h n x hn hnew with e | e
  · rw [hx] at e; cases e
  · obtain ⟨r, hr⟩ := Option.isSome_iff_exists.1 e
    exact C37_history now s'.memo E.excl fuel x b sn r (hg.hist hw hh) hr wfn kind hc

/-- C96 when nothing that an import nested in this one could see was touched after that nested import returned (no module completes an
import while it is half made and can be reached): whatever is changed later, `has_changed(module)` is true exactly when some object that
could be reached from the module at the end of the import has gained, lost or been rebound an attribute or item since. -/
theorem C96_since_import_partial (E : Env) (hE : E.Ok) (k : Nat) (ns : List String) (s s' : St) (h : imp E k ns s = (s', .ok))
    (hw : ∀ y, WF (s.graph y)) (hh : History E.excl s.memo)
    (hold : ∀ y r, s.memo y = some r → r = s'.graph y)
    (new : List (Graph × List Id)) (hlog : s'.log = s.log ++ new) (hun : ∀ ev ∈ new, Untouched E s'.graph ev)
    (n : String) (x : Id) (hn : (n, x) ∈ s'.mods)
    (hnew : n ∉ s.mods.map (·.1)) (hx : E.excl x = false)
    (now : Graph) (wfn : ∀ y, WF (now y)) (kind : ∀ y, SameKind (s'.graph y) (now y))
    (fuel : Nat) (b : Bool) (sn : Seen) (hc : hasChanged now s'.memo E.excl fuel x noSeen = .ok (b, sn)) :
    b = true ↔ ∃ y, Reach s'.graph E.excl x y ∧ E.excl y = false ∧ Differs (s'.graph y) (now y) := by
  have hg := imp_grow E hE k ns s
  rw [h] at hg
  have hrec : ∀ y r, s'.memo y = some r → r = s'.graph y := by
    intro y r hy
    obtain ⟨new', e1, e2⟩ := hg.log
    have : new' = new := List.append_cancel_left (e1.symm.trans hlog)
    subst this
    rcases e2 y r hy with e | ⟨ev, hev, rfl, x', hx', hr⟩
    · exact hold y r e
    · exact (hun ev hev x' hx' y hr).symm
  obtain ⟨i1, i2, i3⟩ := history_inv (hg.hist hw hh)
  have hmem : (s'.memo x).isSome = true := by
    rcases C96_imported_is_memorised E hE k ns s s' h n x hn hnew with e | e
    · rw [hx] at e; cases e
    · exact e
  rw [C96_exact E hE k ns s s' h hw hh n x hn hnew hx now wfn (fun y r hy => hrec y r hy ▸ kind y) fuel b sn hc]
  have back : ∀ a y, MReach s'.memo a y → Reach s'.graph E.excl a y := by
    intro a y hr
    induction hr with
    | refl => exact .refl _
    | @step a b c r hm hl _ ih =>
      refine .step ?_ (hrec _ _ hm ▸ hl) ih
      cases he : E.excl a with
      | false => rfl
      | true => rw [i2 a he] at hm; cases hm
  have forth : ∀ a y, Reach s'.graph E.excl a y → (s'.memo a).isSome = true → E.excl y = false →
      MReach s'.memo a y ∧ (s'.memo y).isSome = true := by
    intro a y hr
    induction hr with
    | refl => intro h _; exact ⟨.refl _, h⟩
    | @step a b c he hl hbc ih =>
      intro ha hy
      obtain ⟨r, hr⟩ := Option.isSome_iff_exists.1 ha
      have hr' := hrec _ _ hr
      rcases i1 a r hr b (hr' ▸ hl) with e | e
      · -- an excluded object leads nowhere else
        cases hbc with
        | refl => rw [e] at hy; cases hy
        | step he' _ _ => rw [e] at he'; cases he'
      · obtain ⟨j1, j2⟩ := ih e hy
        exact ⟨.step hr (hr' ▸ hl) j1, j2⟩
  constructor
  · rintro ⟨y, r, h1, h2, h3⟩
    refine ⟨y, back x y h1, ?_, hrec _ _ h2 ▸ h3⟩
    cases he : E.excl y with
    | false => rfl
    | true => rw [i2 y he] at h2; cases h2
  · rintro ⟨y, h1, h2, h3⟩
    obtain ⟨j1, j2⟩ := forth x y h1 hmem h2
    obtain ⟨r, hr⟩ := Option.isSome_iff_exists.1 j2
    exact ⟨y, r, j1, hr, hrec _ _ hr ▸ h3⟩

/-- an import that raises memorises nothing itself: records are those of the import calls that returned inside it. -/
theorem C96_failed_import (E : Env) (hE : E.Ok) (k : Nat) (ns : List String) (s s' : St) (o : Outcome)
    (h : imp E k ns s = (s', o)) (hlog : s'.log = s.log) : s'.memo = s.memo := by
  have hg := imp_grow E hE k ns s
  rw [h] at hg
  obtain ⟨new, e1, e2⟩ := hg.log
  have : new = [] := by
    have := hlog ▸ e1
    simpa using this
  subst this
  funext y
  cases hy : s'.memo y with
  | none =>
    cases hy' : s.memo y with
    | none => rfl
    | some r => rw [hg.keep y r hy'] at hy; cases hy
  | some r =>
    rcases e2 y r hy with e | ⟨ev, hev, -⟩
    · exact e.symm
    · cases hev

/-- a module whose import raised can be imported again (and is memorised then): it is not left in
sys.modules. -/
theorem C96_failed_import_again (E : Env) (k : Nat) (n : String) (s s' : St) (h : imp E k [n] s = (s', .raised)) :
    n ∉ s'.mods.map (·.1) := by
  cases k with
  | zero => simp [imp] at h
  | succ k =>
    rw [imp] at h
    cases hl : loadAll E.disk (imp E k) [n] s with
    | mk s1 o =>
      rw [hl] at h
      have ho : s1 = s' ∧ o = .raised := by
        cases o with
        | ok => simp only at h; split at h <;> cases h
        | raised => cases h; exact ⟨rfl, rfl⟩
        | timeout => cases h
      obtain ⟨rfl, rfl⟩ := ho
      rw [loadAll] at hl
      cases h1 : loadOne E.disk (imp E k) n s with
      | mk s2 o2 =>
        rw [h1] at hl
        have ho : s2 = s1 ∧ o2 = .raised := by
          cases o2 with
          | ok => simp only [loadAll] at hl; cases hl
          | raised => cases hl; exact ⟨rfl, rfl⟩
          | timeout => cases hl
        obtain ⟨rfl, rfl⟩ := ho
        unfold loadOne at h1
        split at h1
        · cases h1
        · next hn =>
          cases hd : E.disk n with
          | none => rw [hd] at h1; cases h1; exact hn
          | some p =>
            obtain ⟨x, body⟩ := p
            rw [hd] at h1
            simp only at h1
            cases hb : runBody (imp E k) body { s with mods := s.mods ++ [(n, x)] } with
            | mk s3 o3 =>
              rw [hb] at h1
              have : s2.mods = s3.mods.filter (fun p => p.1 ≠ n) := by
                cases o3 with
                | ok => cases h1
                | raised => cases h1; rfl
                | timeout => cases h1
              rw [this]
              simp

/-- `a.py`: raises after importing `b` -/
def failing : Env where
  disk := fun n => if n = "a" then some (0, [.imp ["b"] false, .raise]) else if n = "b" then some (1, []) else none
  excl := fun _ => false
  order := id
  depth := 9

example : (imp failing 5 ["a"] ⟨fun _ => ⟨none, .none⟩, [], emptyMemo, []⟩).2 = .raised ∧
    (imp failing 5 ["a"] ⟨fun _ => ⟨none, .none⟩, [], emptyMemo, []⟩).1.mods = [("b", 1)] := by decide +kernel

/-! ### a circular import -/

def modl (l : List (String × Id)) : Rec := ⟨some l, .none⟩

/-- `a.py`: `import b; x = ...`; `b.py`: `import a` -/
def circular : Env where
  disk := fun n => if n = "a" then some (0, [.imp ["b"] false, .set 0 (modl [("b", 1), ("x", 2)])])
    else if n = "b" then some (1, [.imp ["a"] false, .set 1 (modl [("a", 0)])]) else none
  excl := fun _ => false
  order := id
  depth := 9

/-- `b.py` without the import of `a` -/
def straight : Env := { circular with
  disk := fun n => if n = "a" then some (0, [.imp ["b"] false, .set 0 (modl [("b", 1), ("x", 2)])])
    else if n = "b" then some (1, [.set 1 (modl [("y", 2)])]) else none }

def fresh0 : St where
  graph := fun x => if x ≤ 1 then modl [] else ⟨none, .none⟩
  mods := []
  memo := emptyMemo
  log := []

theorem modl_wf (l : List (String × Id)) (h : (l.map (·.1)).Nodup) : WF (modl l) :=
  ⟨fun a e => by cases e; exact h, fun l e => by cases e⟩

theorem circular_ok : circular.Ok := by
  refine ⟨?_, fun _ _ => Iff.rfl⟩
  intro n x body y r hd hm
  simp only [circular] at hd
  split at hd
  · cases hd; simp at hm; obtain ⟨-, rfl⟩ := hm; exact modl_wf _ (by decide)
  · split at hd
    · cases hd; simp at hm; obtain ⟨-, rfl⟩ := hm; exact modl_wf _ (by decide)
    · cases hd

theorem straight_ok : straight.Ok := by
  refine ⟨?_, fun _ _ => Iff.rfl⟩
  intro n x body y r hd hm
  simp only [straight] at hd
  split at hd
  · cases hd; simp at hm; obtain ⟨-, rfl⟩ := hm; exact modl_wf _ (by decide)
  · split at hd
    · cases hd; simp at hm; obtain ⟨-, rfl⟩ := hm; exact modl_wf _ (by decide)
    · cases hd

/-- whether `has_changed(x)` says yes in that state -/
def saysChanged (E : Env) (s : St) (x : Id) : Option Bool :=
  match hasChanged s.graph s.memo E.excl 9 x noSeen with
  | .ok (b, _) => some b
  | .error _ => none

/-- C96 fails for modules that import each other: right after `import a`, with nothing changed since, `has_changed(a)` is true, because `a`
was memorised half made when the import of `b` returned, and is not memorised again. -/
theorem C96_circular_import : (imp circular 5 ["a"] fresh0).2 = .ok ∧ saysChanged circular (imp circular 5 ["a"] fresh0).1 0 = some true ∧
    (imp circular 5 ["a"] fresh0).1.memo 0 = some (modl []) ∧ (imp circular 5 ["a"] fresh0).1.graph 0 = modl [("b", 1), ("x", 2)] := by
  decide +kernel

/-- and without the circle it is false -/
example : (imp straight 5 ["a"] fresh0).2 = .ok ∧ saysChanged straight (imp straight 5 ["a"] fresh0).1 0 = some false ∧
    saysChanged straight (imp straight 5 ["a"] fresh0).1 1 = some false := by
  decide +kernel

example : (∀ y, WF (fresh0.graph y)) ∧ History straight.excl fresh0.memo := by
  refine ⟨?_, .start⟩
  intro y
  simp only [fresh0]
  split
  · exact modl_wf _ (by decide)
  · constructor
    · intro a e; cases e
    · intro l e; cases e

/-! ### C97 -/

/-- nobody refers to the memorised object `x` but the memo itself -/
def Gone (elsewhere : Id → Nat) (m : Memo) (x : Id) : Prop := (m x).isSome = true ∧ elsewhere x = 0

/-- C97, if the call itself has three references to each object: `release_gone()` forgets exactly the objects nobody else refers to. -/
theorem C97_releases_gone_partial (elsewhere : Id → Nat) (m : Memo) (x : Id) :
    (Gone elsewhere m x → releaseGone (getrefcount (some 3) elsewhere) m x = none) ∧
    (¬ Gone elsewhere m x → releaseGone (getrefcount (some 3) elsewhere) m x = m x) := by
  unfold Gone releaseGone getrefcount
  simp only
  constructor
  · rintro ⟨-, h⟩
    rw [if_pos (by omega)]
  · intro h
    cases hm : m x with
    | none => split <;> rfl
    | some r =>
      have : ¬ elsewhere x + 3 < 4 := by
        intro hc
        exact h ⟨by rw [hm]; rfl, by omega⟩
      rw [if_neg this]

/-- C97 fails where the call has four references to each object (CPython up to 3.13): nothing is ever released, whatever is gone. -/
theorem C97_releases_nothing (k : Nat) (hk : 4 ≤ k) (elsewhere : Id → Nat) (m : Memo) :
    releaseGone (getrefcount (some k) elsewhere) m = m := by
  funext x
  unfold releaseGone getrefcount
  simp only
  rw [if_neg (by omega)]

/-- C97 fails where there is no `getrefcount` (PyPy): everything is forgotten, so that right after the import of the module, which ends with
`release_gone()`, every module counts as changed. -/
theorem C97_forgets_everything (elsewhere : Id → Nat) (m : Memo) :
    releaseGone (getrefcount none elsewhere) m = emptyMemo ∧
    ∀ (G : Graph) (excl : Id → Bool) (n : Nat) (x : Id), excl x = false →
      ∃ s, hasChanged G (releaseGone (getrefcount none elsewhere) m) excl (n + 1) x noSeen = .ok (true, s) := by
  have e : releaseGone (getrefcount none elsewhere) m = emptyMemo := by
    funext x; simp [releaseGone, getrefcount, emptyMemo]
  refine ⟨e, ?_⟩
  intro G excl n x hx
  rw [e]
  exact ⟨noSeen, (C37_unknown G emptyMemo excl n x).2 hx rfl⟩

/-- Even where objects are released, the answers are not kept: an object (1) that was an attribute of a memorised one (0) and is gone is
released, its number is used again for a new object, which is assigned to the same attribute and memorised: `has_changed` of 0 is false
although the attribute was rebound (the object behind the number is another one, with other contents). -/
theorem C97_number_reused : ∃ (before after : Graph) (elsewhere : Id → Nat) (m m' : Memo),
    memorise before (fun _ => false) 5 false 0 emptyMemo = .ok m ∧ Gone elsewhere m 1 ∧
    memorise after (fun _ => false) 5 false 1 (releaseGone (getrefcount (some 3) elsewhere) m) = .ok m' ∧
    before 1 ≠ after 1 ∧
    (match hasChanged after m' (fun _ => false) 5 0 noSeen with | .ok (b, _) => some b | .error _ => none) = some false := by
  refine ⟨fun x => if x = 0 then modl [("k", 1)] else modl [], fun x => if x = 0 then modl [("k", 1)] else modl [("new", 2)],
    fun x => if x = 0 then 1 else 0,
    fun x => if x = 1 then some (modl []) else if x = 0 then some (modl [("k", 1)]) else none,
    fun x => if x = 2 then some (modl [("new", 2)]) else if x = 1 then some (modl [("new", 2)]) else if x = 0 then some (modl [("k", 1)]) else none, ?_, ?_, ?_, ?_, ?_⟩
  · simp only [memorise]
    simp [emptyMemo, modl, children, forAll, Memo.set]
    rfl
  · exact ⟨rfl, rfl⟩
  · simp [memorise, releaseGone, getrefcount, modl, children, forAll, Memo.set]
    funext x
    by_cases h2 : x = 2
    · subst h2; rfl
    · by_cases h1 : x = 1
      · subst h1; rfl
      · by_cases h0 : x = 0
        · subst h0; rfl
        · simp [h0, h1, h2, Memo.set, releaseGone]
  · decide
  · decide +kernel

/-- An import statement whose module's body raises (or whose module does not exist) raises, and nothing is memorised for it; the module is not
left in sys.modules. -/
theorem C96_raising_import (E : Env) (k : Nat) (n : String) (s : St) (hn : n ∉ s.mods.map (·.1))
    (h : E.disk n = none ∨ ∃ x sets rest, E.disk n = some (x, sets ++ Act.raise :: rest) ∧ ∀ a ∈ sets, ∃ y r, a = Act.set y r) :
    (imp E (k + 1) [n] s).2 = .raised ∧ (imp E (k + 1) [n] s).1.memo = s.memo ∧
      n ∉ (imp E (k + 1) [n] s).1.mods.map (·.1) := by
  rcases h with h | ⟨x, sets, rest, h, hs⟩
  · have : loadOne E.disk (imp E k) n s = (s, .raised) := by unfold loadOne; rw [if_neg hn, h]
    simp only [imp, loadAll, this]
    exact ⟨trivial, trivial, hn⟩
  · have hb : ∀ (l : List Act) (s1 : St), (∀ a ∈ l, ∃ y r, a = Act.set y r) →
        ∃ s2, runBody (imp E k) (l ++ Act.raise :: rest) s1 = (s2, .raised) ∧ s2.memo = s1.memo ∧ s2.mods = s1.mods := by
      intro l
      induction l with
      | nil => intro s1 _; exact ⟨s1, rfl, rfl, rfl⟩
      | cons a l ih =>
        intro s1 hl
        obtain ⟨y, r, rfl⟩ := hl a (by simp)
        obtain ⟨s2, e1, e2, e3⟩ := ih { s1 with graph := fun z => if z = y then r else s1.graph z } (fun b hb => hl b (by simp [hb]))
        exact ⟨s2, by simpa only [List.cons_append, runBody] using e1, e2, e3⟩
    obtain ⟨s2, e1, e2, e3⟩ := hb sets { s with mods := s.mods ++ [(n, x)] } hs
    have : loadOne E.disk (imp E k) n s = ({ s2 with mods := s2.mods.filter (fun p => p.1 ≠ n) }, .raised) := by
      unfold loadOne; rw [if_neg hn, h]; simp only [e1]
    simp only [imp, loadAll, this]
    refine ⟨trivial, e2, ?_⟩
    intro hm
    obtain ⟨p, hp, rfl⟩ := List.mem_map.1 hm
    simpa using (List.mem_filter.1 hp).2

end Verif.Diff
