import Verif.Model.Pickles
/-! C28, C29, C30. -/
set_option linter.unusedSimpArgs false
namespace Verif.Pickles

/-! ### C28 -/

/-- Some step of the check raises a non-Exception (KeyboardInterrupt, SystemExit). -/
def Steps.interrupts (s : Steps) : Prop :=
  s.copy = .error .base ∨ s.all = .error .base ∨ s.eq = .error .base ∨ s.typeEq = .error .base ∨
  s.reprEq = .error .base ∨
  ∃ v, s.eq = .ok v ∧ (v.toarray = .error .base ∨ v.toarrayAll = .error .base ∨ v.truth = .error .base)

theorem finish_error {exact : Bool} {s : Steps} {t : Res Bool} {e : Exc}
    (h : finish exact s t = .error e) :
    t = .error e ∨ s.typeEq = .error e ∨ s.reprEq = .error e := by
  unfold finish at h
  split at h
  · left; exact h
  · simp at h
  · split at h
    · split at h
      · rename_i h'; simp at h; subst h; exact .inr (.inl h')
      · simp at h
      · exact .inr (.inr h)
    · simp at h

theorem resolve_error {v : EqVal} {e : Exc} (h : resolve v = .error e) :
    v.toarray = .error e ∨ v.toarrayAll = .error e ∨ v.truth = .error e := by
  unfold resolve at h
  split at h
  · rename_i h'; simp at h; subst h; exact .inl h'
  · exact .inr (.inl h)
  · exact .inr (.inr h)

/-- C28, first half: with safe=True, pickles returns a boolean whatever ordinary exceptions copying or
comparing raises. -/
theorem C28_safe_never_raises (exact : Bool) (s : Steps) (fs : List Filter) (hs : ¬ s.interrupts) :
    ∃ b, (pickles exact true s fs).1 = .ok b := by
  have key : ∀ e, (body exact s fs).1 = .error e → e ≠ .base := by
    intro e he hb
    subst hb
    apply hs
    unfold Steps.interrupts
    unfold body at he
    split at he
    · rename_i e h; simp at he; subst he; exact .inl h
    · split at he
      · simp only at he
        rcases finish_error he with h | h | h
        · simp at h
        · exact .inr (.inr (.inr (.inl h)))
        · exact .inr (.inr (.inr (.inr (.inl h))))
      · rename_i e hall
        split at he
        · simp only at he
          split at he
          · rename_i e h; simp at he; subst he; exact .inr (.inr (.inl h))
          · rename_i v hv
            simp only at he
            rcases finish_error he with h | h | h
            · exact .inr (.inr (.inr (.inr (.inr ⟨v, hv, resolve_error h⟩))))
            · exact .inr (.inr (.inr (.inl h)))
            · exact .inr (.inr (.inr (.inr (.inl h))))
        · simp at he; subst he; exact .inr (.inl hall)
  unfold pickles
  generalize hb : body exact s fs = r at key
  obtain ⟨r1, r2⟩ := r
  cases r1 with
  | ok b => exact ⟨b, rfl⟩
  | error e =>
    have := key e rfl
    cases e <;> simp [trapped, Exc.isException] at this ⊢

/-- With safe=False exactly the five documented exception classes are converted to False. -/
theorem C28_unsafe_raises_iff (exact : Bool) (s : Steps) (fs : List Filter) (e : Exc) :
    (pickles exact false s fs).1 = .error e ↔
      (body exact s fs).1 = .error e ∧
        e ∉ [Exc.typeErr, .assertErr, .notImpl, .pickling, .unpickling] := by
  unfold pickles
  generalize body exact s fs = r
  obtain ⟨r1, r2⟩ := r
  cases r1 with
  | ok b => simp
  | error e' =>
    cases e' <;> simp [trapped] <;> (try (constructor <;> rintro rfl <;> simp)) <;>
      (intro h; subst h; simp)

/-- C28, second half, for filter lists that do not already contain the catch-all "ignore" entry and
comparisons `pik == obj` that do not raise: the filters are exactly as before.  What is missing is shown
by `C28_filters_lost` and `C28_filters_leak`. -/
theorem C28_filters_partial (exact safe : Bool) (s : Steps) (fs : List Filter)
    (h1 : Filter.ignoreAll ∉ fs) (h2 : ∀ e, s.eq ≠ .error e) :
    (pickles exact safe s fs).2 = fs := by
  have key : (body exact s fs).2 = fs := by
    unfold body
    split
    · rfl
    · split
      · rfl
      · split
        · simp only
          split
          · rename_i e he; exact absurd he (h2 e)
          · simp [filterwarnings, List.erase_of_not_mem h1]
        · rfl
  unfold pickles
  generalize hb : body exact s fs = r at key
  obtain ⟨r1, r2⟩ := r
  simp only at key; subst key
  cases r1 with
  | ok b => rfl
  | error e => simp only; split <;> rfl

/-- If the object has a working `all()` (arrays), or copying fails, the filters are never touched. -/
theorem C28_filters_untouched (exact safe : Bool) (s : Steps) (fs : List Filter)
    (h : (∃ e, s.copy = .error e) ∨ (∃ b, s.all = .ok b)) :
    (pickles exact safe s fs).2 = fs := by
  have key : (body exact s fs).2 = fs := by
    unfold body
    rcases h with ⟨e, h⟩ | ⟨b, h⟩
    · rw [h]
    · split
      · rfl
      · rw [h]
  unfold pickles
  generalize hb : body exact s fs = r at key
  obtain ⟨r1, r2⟩ := r
  simp only at key; subst key
  cases r1 with
  | ok b => rfl
  | error e => simp only; split <;> rfl

/-- an ordinary object: no `all`, comparison gives True -/
def plain : Steps := ⟨.ok (), .error .attrErr, .ok ⟨.ok false, .ok false, .ok true⟩, .ok true, .ok true⟩

/-- A program that had asked to ignore all warnings loses that filter by calling pickles. -/
theorem C28_filters_lost (n : Nat) :
    (pickles false false plain [.other n, .ignoreAll]).2 = [.other n] := by
  simp [pickles, body, plain, filterwarnings, finish, resolve]

/-- If the comparison raises, a catch-all "ignore" filter stays behind: all later warnings are silenced. -/
theorem C28_filters_leak (n : Nat) :
    pickles false true { plain with eq := .error .otherExc } [.other n] =
      (.ok false, [.ignoreAll, .other n]) := by
  simp [pickles, body, plain, filterwarnings, trapped, Exc.isException]

/-- C28: an interrupt (KeyboardInterrupt, SystemExit) while copying or comparing is never swallowed, not even
with safe=True. -/
theorem C28_interrupt_propagates (exact safe : Bool) (s : Steps) (fs : List Filter)
    (h : s.copy = .error .base ∨ (s.copy = .ok () ∧ s.all = .error .base) ∨
      (s.copy = .ok () ∧ s.all = .error .attrErr ∧ s.eq = .error .base)) :
    (pickles exact safe s fs).1 = .error .base := by
  rcases h with h | ⟨h1, h2⟩ | ⟨h1, h2, h3⟩
  · cases safe <;> simp [pickles, body, h, trapped, Exc.isException]
  · cases safe <;> simp [pickles, body, h1, h2, trapped, Exc.isException]
  · cases safe <;> simp [pickles, body, h1, h2, h3, trapped, Exc.isException]

def C28_full : Prop := ∀ exact safe s fs, ¬ s.interrupts → (pickles exact safe s fs).2 = fs

theorem C28_full_false : ¬ C28_full := by
  intro h
  have := h false false plain [.other 0, .ignoreAll] (by
    unfold Steps.interrupts plain; simp)
  rw [C28_filters_lost] at this
  simp at this

example : ¬ plain.interrupts := by unfold Steps.interrupts plain; simp
example : (pickles false true plain [.other 3]) = (.ok true, [.other 3]) := by
  simp [pickles, body, plain, filterwarnings, finish, resolve]

/-! ### C29 -/

theorem pickles_true (exact safe : Bool) (s : Steps) (fs : List Filter) :
    (pickles exact safe s fs).1 = .ok true ↔ (body exact s fs).1 = .ok true := by
  unfold pickles
  generalize body exact s fs = r
  obtain ⟨r1, r2⟩ := r
  cases r1 with
  | ok b => simp
  | error e => simp only; split <;> simp

theorem finish_mono (s : Steps) (t : Res Bool) (h : finish true s t = .ok true) :
    finish false s t = .ok true := by
  unfold finish at h ⊢
  split at h <;> simp_all

/-- C29: pickles(exact=True) being True implies pickles() being True, and pickles(safe=False) being True
implies pickles(safe=True) being True (in fact they agree on True). -/
theorem C29_exact_stricter (safe : Bool) (s : Steps) (fs : List Filter) :
    ((pickles true safe s fs).1 = .ok true → (pickles false safe s fs).1 = .ok true) ∧
    (∀ exact, (pickles exact false s fs).1 = .ok true ↔ (pickles exact true s fs).1 = .ok true) := by
  refine ⟨?_, fun exact => by rw [pickles_true, pickles_true]⟩
  rw [pickles_true, pickles_true]
  unfold body
  split
  · simp
  · split
    · simp only; exact finish_mono s _
    · split
      · simp only
        split
        · simp
        · simp only; exact finish_mono s _
      · simp

/-- The comparison of the copy with the original came out as `b`: through `all()` if both have it, else through
`==` (and the `toarray().all()` of its result if it has one). -/
def Compared (s : Steps) (b : Bool) : Prop :=
  s.all = .ok b ∨ ((s.all = .error .attrErr ∨ s.all = .error .typeErr) ∧ ∃ v, s.eq = .ok v ∧
    ((v.toarray = .ok true ∧ v.toarrayAll = .ok b) ∨ (v.toarray = .ok false ∧ v.truth = .ok b)))

theorem resolve_ok (v : EqVal) (b : Bool) : resolve v = .ok b ↔
    (v.toarray = .ok true ∧ v.toarrayAll = .ok b) ∨ (v.toarray = .ok false ∧ v.truth = .ok b) := by
  unfold resolve
  cases h : v.toarray with
  | error e => simp
  | ok t => cases t <;> simp

theorem finish_true (exact : Bool) (s : Steps) (t : Res Bool) : finish exact s t = .ok true ↔
    t = .ok true ∨ (exact = false ∧ t = .ok false ∧
      (s.typeEq = .ok true ∨ (s.typeEq = .ok false ∧ s.reprEq = .ok true))) := by
  unfold finish
  cases t with
  | error e => simp
  | ok b =>
    cases b
    · cases exact
      · cases h : s.typeEq with
        | error e => simp
        | ok u => cases u <;> simp
      · simp
    · simp

/-- C29, what the answer True means.  `pickles(obj, exact)` is True exactly when the copy could be made and
compares equal to the original or, without `exact`, compares unequal but has the same type or the same repr. -/
theorem C29_true_iff (exact safe : Bool) (s : Steps) (fs : List Filter) :
    (pickles exact safe s fs).1 = .ok true ↔
      s.copy = .ok () ∧ (Compared s true ∨ (exact = false ∧ Compared s false ∧
        (s.typeEq = .ok true ∨ (s.typeEq = .ok false ∧ s.reprEq = .ok true)))) := by
  rw [pickles_true]
  unfold body Compared
  cases hc : s.copy with
  | error e => simp
  | ok u =>
    cases ha : s.all with
    | ok b =>
      simp only [finish_true]
      simp
    | error e =>
      simp only
      by_cases h : e = .attrErr ∨ e = .typeErr
      · rw [if_pos h]
        have h' : (Except.error e = (.error .attrErr : Res Bool) ∨ Except.error e = (.error .typeErr : Res Bool)) := by
          rcases h with rfl | rfl <;> simp
        cases hq : s.eq with
        | error e' => simp
        | ok v =>
          simp only [finish_true, resolve_ok]
          simp [h]
      · rw [if_neg h]
        simp at h
        simp [h]

/-- exact=True accepts only objects that compare equal to their copy (or whose `all()` do). -/
theorem C29_exact_sound (safe : Bool) (s : Steps) (fs : List Filter)
    (h : (pickles true safe s fs).1 = .ok true) : s.copy = .ok () ∧ Compared s true := by
  have := (C29_true_iff true safe s fs).1 h
  simpa using this

example : (pickles true false plain []).1 = .ok true := by
  simp [pickles, body, plain, filterwarnings, finish, resolve]

/-! ### C30 -/

/-- What a report at depth `d` must say, in terms of pickles only: at depth 0 it is None exactly when the
object pickles and otherwise names the object; deeper, it lists exactly the attributes that fail to
pickle, in order, each with its own report one level down. -/
def Reports {α : Type} (W : World) (exact safe : Bool) (f : Obj → α) :
    Nat → Obj → Report α → Prop
  | 0, o, r => (W.pickles exact safe o = .ok true ∧ r = .none) ∨
      (W.pickles exact safe o = .ok false ∧ r = .item (f o))
  | d + 1, o, r => ∃ l, r = .dict l ∧
      l.map (·.1) = (W.dir o).filter (fun a => match W.attr o a with
        | .ok v => (match W.pickles exact safe v with | .ok b => !b | .error _ => false)
        | .error _ => false) ∧
      (∀ a r, (a, r) ∈ l → ∃ v, W.attr o a = .ok v ∧ W.pickles exact safe v = .ok false ∧
        Reports W exact safe f d v r)

/-- C30 for badobjects (`f = id`) and badtypes (`f` the type): every report they return is right. -/
theorem C30_bad_reports {α : Type} (W : World) (exact safe : Bool) (f : Obj → α) (d : Nat) (o : Obj)
    (r : Report α) (h : bad W exact safe f d o = .ok r) : Reports W exact safe f d o r := by
  induction d generalizing o r with
  | zero =>
    unfold bad at h
    split at h
    · simp at h
    · rename_i hp; simp at h; subst h; exact .inl ⟨hp, rfl⟩
    · rename_i hp; simp at h; subst h; exact .inr ⟨hp, rfl⟩
  | succ d ih =>
    unfold bad at h
    split at h
    · simp at h
    · rename_i l hl
      simp at h; subst h
      have key : ∀ as l, attrLoop W exact safe (bad W exact safe f d) o as = .ok l →
          l.map (·.1) = as.filter (fun a => match W.attr o a with
            | .ok v => (match W.pickles exact safe v with | .ok b => !b | .error _ => false)
            | .error _ => false) ∧
          (∀ a r, (a, r) ∈ l → ∃ v, W.attr o a = .ok v ∧ W.pickles exact safe v = .ok false ∧
            Reports W exact safe f d v r) := by
        intro as
        induction as with
        | nil => intro l h; simp [attrLoop] at h; subst h; simp
        | cons a as iha =>
          intro l h
          unfold attrLoop at h
          split at h
          · simp at h
          · rename_i v hv
            split at h
            · simp at h
            · rename_i hp
              obtain ⟨h1, h2⟩ := iha l h
              exact ⟨by simp [hv, hp, h1], h2⟩
            · rename_i hp
              split at h
              · simp at h
              · rename_i r hr
                split at h
                · simp at h
                · rename_i l' hl'
                  simp at h; subst h
                  obtain ⟨h1, h2⟩ := iha l' hl'
                  refine ⟨by simp [hv, hp, h1], ?_⟩
                  intro a' r' hm
                  simp only [List.mem_cons, Prod.mk.injEq] at hm
                  rcases hm with ⟨rfl, rfl⟩ | hm
                  · exact ⟨v, hv, hp, ih v _ hr⟩
                  · exact h2 a' r' hm
      obtain ⟨h1, h2⟩ := key _ _ hl
      exact ⟨l, rfl, h1, h2⟩

theorem bad0 {α : Type} (W : World) (exact safe : Bool) (f : Obj → α) (o : Obj) :
    (bad W exact safe f 0 o = .ok .none ↔ W.pickles exact safe o = .ok true) := by
  unfold bad
  split
  · rename_i h; simp [h]
  · rename_i h; simp [h]
  · rename_i h; simp [h]

/-- depth 0: None exactly when the object pickles; otherwise the object itself / its type -/
theorem C30_bad_depth0 (W : World) (exact safe : Bool) (o : Obj) :
    (bad W exact safe id 0 o = .ok .none ↔ W.pickles exact safe o = .ok true) ∧
    (bad W exact safe W.typ 0 o = .ok .none ↔ W.pickles exact safe o = .ok true) ∧
    (W.pickles exact safe o = .ok false → bad W exact safe id 0 o = .ok (.item o) ∧
      bad W exact safe W.typ 0 o = .ok (.item (W.typ o))) := by
  refine ⟨bad0 .., bad0 .., fun h => ?_⟩
  simp [bad, h]

/-- C30 for baditems: every listed item is a failing item of the iterable; and every failing item that is
not equal to None is listed or equal to a listed item.  (The exclusion is necessary:
`C30_baditems_misses`.) -/
theorem C30_baditems_partial (W : World) (exact safe : Bool) (hrefl : ∀ x, W.eq x x = true)
    (xs : List Obj) (l : List Obj) (h : baditems W exact safe xs = .ok l) :
    (∀ i ∈ l, i ∈ xs ∧ W.pickles exact safe i = .ok false) ∧
    (∀ i ∈ xs, W.pickles exact safe i = .ok false → W.eq i W.none = false →
      ∃ j ∈ l, W.eq i j = true) := by
  have key : ∀ (xs : List Obj) (seen seen' : List (Option Obj)),
      baditemsLoop W exact safe xs seen = .ok seen' →
      (∀ s ∈ seen, s ∈ seen') ∧
      (∀ i, some i ∈ seen' → some i ∈ seen ∨ (i ∈ xs ∧ W.pickles exact safe i = .ok false)) ∧
      (∀ i ∈ xs, W.pickles exact safe i = .ok false → W.eq i W.none = false →
        ∃ j, some j ∈ seen' ∧ W.eq i j = true) := by
    intro xs
    induction xs with
    | nil => intro seen seen' h; simp [baditemsLoop] at h; subst h; simp
    | cons x xs ih =>
      intro seen seen' h
      unfold baditemsLoop at h
      split at h
      · rename_i hin
        obtain ⟨h1, h2, h3⟩ := ih _ _ h
        refine ⟨h1, ?_, ?_⟩
        · intro i hi
          rcases h2 i hi with h | ⟨h, h'⟩
          · exact .inl h
          · exact .inr ⟨by simp [h], h'⟩
        · intro i hi hp hn
          simp only [List.mem_cons] at hi
          rcases hi with rfl | hi
          · rw [List.any_eq_true] at hin
            obtain ⟨s, hs, he⟩ := hin
            cases s with
            | none => simp [hn] at he
            | some j => exact ⟨j, h1 _ hs, by simpa using he⟩
          · exact h3 i hi hp hn
      · split at h
        · simp at h
        · rename_i o ho
          obtain ⟨h1, h2, h3⟩ := ih _ _ h
          have hox : o = x ∧ W.pickles exact safe x = .ok false := by
            unfold bad at ho
            split at ho <;> simp at ho
            rename_i hp; exact ⟨ho.symm, hp⟩
          obtain ⟨rfl, hp⟩ := hox
          refine ⟨fun s hs => h1 s (by simp [hs]), ?_, ?_⟩
          · intro i hi
            rcases h2 i hi with h | ⟨h, h'⟩
            · simp at h
              rcases h with h | rfl
              · exact .inl h
              · exact .inr ⟨by simp, hp⟩
            · exact .inr ⟨by simp [h], h'⟩
          · intro i hi hp' hn
            simp only [List.mem_cons] at hi
            rcases hi with rfl | hi
            · exact ⟨i, h1 _ (by simp), hrefl i⟩
            · exact h3 i hi hp' hn
        · rename_i r hb hr
          obtain ⟨h1, h2, h3⟩ := ih _ _ h
          refine ⟨fun s hs => h1 s (by simp [hs]), ?_, ?_⟩
          · intro i hi
            rcases h2 i hi with h | ⟨h, h'⟩
            · simp at h; exact .inl h
            · exact .inr ⟨by simp [h], h'⟩
          · intro i hi hp' hn
            simp only [List.mem_cons] at hi
            rcases hi with rfl | hi
            · exact absurd (by simp [bad, hp'] at hr; exact hr.symm) (hb i)
            · exact h3 i hi hp' hn
  unfold baditems at h
  split at h
  · simp at h
  · rename_i seen hs
    simp at h; subst h
    obtain ⟨_, h2, h3⟩ := key xs [] seen hs
    constructor
    · intro i hi
      simp at hi
      rcases h2 i hi with h | h
      · simp at h
      · exact h
    · intro i hi hp hn
      obtain ⟨j, hj, he⟩ := h3 i hi hp hn
      exact ⟨j, by simpa using hj, he⟩

/-- object 1 pickles, object 2 does not but compares equal to everything -/
def exW : World where
  steps := fun o => if o = 2 then { plain with copy := .error .pickling } else plain
  typ := fun _ => 0
  dir := fun o => if o = 9 then ["a", "b"] else []
  attr := fun _ a => if a = "a" then .ok 2 else .ok 1
  none := 0
  eq := fun x y => x == y || x == 2

/-- An item that fails to pickle but compares equal to None is not listed when it follows an item that
pickles. -/
theorem C30_baditems_misses :
    exW.pickles false false 2 = .ok false ∧ baditems exW false false [1, 2] = .ok [] ∧
    baditems exW false false [2, 1] = .ok [2] := by
  refine ⟨by rfl, by rfl, by rfl⟩

example : bad exW false false id 1 9 = .ok (.dict [("a", .item 2)]) := by rfl

/-- C30 for errors, depth 0: it returns None exactly when the copy succeeds, has the same type and, with
exact=True, compares equal. -/
theorem C30_errors_depth0 (exact : Bool) (s : Steps) :
    errors0 exact s = .ok none ↔ s.copy = .ok () ∧ s.typeEq = .ok true ∧
      (exact = true → ∃ v, s.eq = .ok v ∧ v.truth = .ok true) := by
  unfold errors0
  cases hc : s.copy with
  | error e => simp; cases e <;> simp [Exc.isException]
  | ok u =>
    cases exact with
    | false =>
      cases ht : s.typeEq with
      | error e => simp; cases e <;> simp [Exc.isException]
      | ok b => cases b <;> simp [Exc.isException]
    | true =>
      cases he : s.eq with
      | error e => simp; cases e <;> simp [Exc.isException]
      | ok v =>
        cases hv : v.truth with
        | error e => simp [hv]; cases e <;> simp [Exc.isException]
        | ok b =>
          cases b with
          | false => simp [hv, Exc.isException]
          | true =>
            cases ht : s.typeEq with
            | error e => simp [hv]; cases e <;> simp [Exc.isException]
            | ok b => cases b <;> simp [hv, Exc.isException]

/-- For objects without an `all` method whose comparison yields a plain truth value: if errors reports
nothing then the object pickles.  The converse fails: `C30_errors_disagrees`. -/
theorem C30_errors_agree_partial (exact safe : Bool) (s : Steps) (fs : List Filter)
    (hall : s.all = .error .attrErr) (heq : ∃ v b, s.eq = .ok v ∧ v.toarray = .ok false ∧ v.truth = .ok b)
    (h : errors0 exact s = .ok none) : (pickles exact safe s fs).1 = .ok true := by
  obtain ⟨v, b, hv, hta, htr⟩ := heq
  rw [C30_errors_depth0] at h
  obtain ⟨hc, ht, hx⟩ := h
  rw [pickles_true]
  simp only [body, hc, hall, true_or, if_true, hv, resolve, hta, htr, finish]
  cases b with
  | true => rfl
  | false =>
    cases exact with
    | false => simp [ht]
    | true =>
      obtain ⟨v', hv', htr'⟩ := hx rfl
      rw [hv] at hv'; simp at hv'; subst hv'; rw [htr] at htr'; simp at htr'

/-- An object that compares equal to its copy but has a re-created class: pickles says True, errors
reports an AssertionError. -/
theorem C30_errors_disagrees : ∃ s : Steps,
    (pickles false false s []).1 = .ok true ∧ errors0 false s = .ok (some .assertErr) :=
  ⟨{ plain with typeEq := .ok false }, by simp [pickles, body, plain, filterwarnings, finish, resolve],
    by simp [errors0, plain, Exc.isException]⟩

/-- errors at positive depth: each key is an attribute that cannot be read (mapped to its exception) or
that fails to pickle (mapped to its own errors), and no such attribute is missing. -/
theorem C30_errors_attrs (W : World) (exact safe : Bool) (d : Nat) (o : Obj)
    (l : List (String × Report Exc)) (h : errors W exact safe (d + 1) o = .ok (.dict l)) :
    l.map (·.1) = (W.dir o).filter (fun a => match W.attr o a with
      | .ok v => (match W.pickles exact safe v with | .ok b => !b | .error _ => false)
      | .error _ => true) ∧
    ∀ a r, (a, r) ∈ l → (∃ e, W.attr o a = .error e ∧ r = .item e) ∨
      ∃ v, W.attr o a = .ok v ∧ W.pickles exact safe v = .ok false ∧
        errors W exact safe d v = .ok r := by
  unfold errors at h
  split at h
  · simp at h
  · rename_i l' hl'
    simp at h; subst h
    have key : ∀ as l, errorsLoop W exact safe (errors W exact safe d) o as = .ok l →
        l.map (·.1) = as.filter (fun a => match W.attr o a with
          | .ok v => (match W.pickles exact safe v with | .ok b => !b | .error _ => false)
          | .error _ => true) ∧
        ∀ a r, (a, r) ∈ l → (∃ e, W.attr o a = .error e ∧ r = .item e) ∨
          ∃ v, W.attr o a = .ok v ∧ W.pickles exact safe v = .ok false ∧
            errors W exact safe d v = .ok r := by
      intro as
      induction as with
      | nil => intro l h; simp [errorsLoop] at h; subst h; simp
      | cons a as iha =>
        intro l h
        unfold errorsLoop at h
        split at h
        · rename_i e hv
          split at h
          · split at h
            · simp at h
            · rename_i l' hl'
              simp at h; subst h
              obtain ⟨h1, h2⟩ := iha l' hl'
              refine ⟨by simp [hv, h1], ?_⟩
              intro a' r' hm
              simp only [List.mem_cons, Prod.mk.injEq] at hm
              rcases hm with ⟨rfl, rfl⟩ | hm
              · exact .inl ⟨e, hv, rfl⟩
              · exact h2 a' r' hm
          · simp at h
        · rename_i v hv
          split at h
          · simp at h
          · rename_i hp
            obtain ⟨h1, h2⟩ := iha l h
            exact ⟨by simp [hv, hp, h1], h2⟩
          · rename_i hp
            split at h
            · simp at h
            · rename_i r hr
              split at h
              · simp at h
              · rename_i l' hl'
                simp at h; subst h
                obtain ⟨h1, h2⟩ := iha l' hl'
                refine ⟨by simp [hv, hp, h1], ?_⟩
                intro a' r' hm
                simp only [List.mem_cons, Prod.mk.injEq] at hm
                rcases hm with ⟨rfl, rfl⟩ | hm
                · exact .inr ⟨v, hv, hp, hr⟩
                · exact h2 a' r' hm
    exact key _ _ hl'

/-- errors itself does not raise: if no step anywhere is interrupted, and pickles does not raise on the attributes
(it never does with safe=True, C28), it returns a report at every depth. -/
theorem C30_errors_returns (W : World) (exact safe : Bool) (d : Nat) (o : Obj)
    (hs : ∀ o, ¬ (W.steps o).interrupts) (ha : ∀ o a, W.attr o a ≠ .error .base)
    (hp : ∀ o, ∃ b, W.pickles exact safe o = .ok b) : ∃ r, errors W exact safe d o = .ok r := by
  induction d generalizing o with
  | zero =>
    have h0 : ∃ r, errors0 exact (W.steps o) = .ok r := by
      have hx : ∀ e : Exc, e ≠ .base → e.isException = true := by intro e; cases e <;> simp [Exc.isException]
      have hi := hs o
      unfold Steps.interrupts at hi
      generalize W.steps o = s at hi
      simp only [not_or] at hi
      obtain ⟨h1, _, h3, h4, _, h6⟩ := hi
      unfold errors0
      cases hc : s.copy with
      | error e =>
        have := hx e (by rintro rfl; exact h1 hc)
        simp [this]
      | ok u =>
        have fin : ∀ r : Res Unit, r ≠ .error .base → ∃ x : Option Exc, (match (generalizing := false) r with
            | .ok () => .ok none
            | .error e => if e.isException then .ok (some e) else .error e : Res (Option Exc)) = .ok x := by
          intro r hr
          cases r with
          | ok u => exact ⟨_, rfl⟩
          | error e => exact ⟨some e, by simp [hx e (by rintro rfl; exact hr rfl)]⟩
        apply fin
        simp only
        have tail : (match s.typeEq with
            | .error e => .error e
            | .ok true => .ok ()
            | .ok false => .error .assertErr : Res Unit) ≠ .error .base := by
          cases ht : s.typeEq with
          | error e =>
            simp only
            intro he
            cases he
            exact h4 ht
          | ok b => cases b <;> simp
        cases exact with
        | false =>
          simp only [Bool.false_eq_true, if_false]
          cases ht : s.typeEq with
          | error e =>
            simp only
            intro he
            cases he
            exact h4 ht
          | ok b => cases b <;> simp
        | true =>
          simp only [if_true]
          cases he : s.eq with
          | error e =>
            simp only
            intro hee
            cases hee
            exact h3 he
          | ok v =>
            simp only
            cases ht : v.truth with
            | error e =>
              simp only
              intro hee
              cases hee
              exact h6 ⟨v, he, .inr (.inr ht)⟩
            | ok b =>
              cases b
              · simp
              · exact tail
    obtain ⟨r, h0⟩ := h0
    unfold errors
    rw [h0]
    cases r <;> exact ⟨_, rfl⟩
  | succ d ih =>
    have key : ∀ as, ∃ l, errorsLoop W exact safe (errors W exact safe d) o as = .ok l := by
      intro as
      induction as with
      | nil => exact ⟨[], rfl⟩
      | cons a as iha =>
        obtain ⟨l, hl⟩ := iha
        unfold errorsLoop
        cases hv : W.attr o a with
        | error e =>
          have : e.isException = true := by
            cases e <;> first | rfl | exact absurd hv (ha o a)
          simp [this, hl]
        | ok v =>
          obtain ⟨b, hb⟩ := hp v
          cases b with
          | true => simp [hb, hl]
          | false =>
            obtain ⟨r, hr⟩ := ih v
            simp [hb, hl, hr]
    obtain ⟨l, hl⟩ := key (W.dir o)
    exact ⟨.dict l, by simp [errors, hl]⟩

/-- an attribute whose lookup is interrupted interrupts errors -/
theorem C30_errors_interrupted (W : World) (exact safe : Bool) (d : Nat) (o : Obj) (a : String) (rest : List String)
    (hd : W.dir o = a :: rest) (ha : W.attr o a = .error .base) :
    errors W exact safe (d + 1) o = .error .base := by
  simp [errors, hd, errorsLoop, ha, Exc.isException]

end Verif.Pickles
