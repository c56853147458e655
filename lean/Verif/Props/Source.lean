import Verif.Model.Source
import Verif.Props.Indent
/-! C63-C67: source text with an alias, instances of classes, importable's fallback, dumpsource. -/
set_option linter.unusedSimpArgs false
namespace Verif.Source

/-! ### C63: getsource(obj, alias) -/

theorem skip_decorators (ds : List Str) (hd : ∀ d ∈ ds, ∃ r, d = '@' :: r) (l : Str) (hl : l.head? ≠ some '@') (rest : List Str) :
    skipDecorators (ds ++ l :: rest) = ds.length := by
  induction ds with
  | nil =>
    have : ['@'].isPrefixOf l = false := by
      cases l with
      | nil => rfl
      | cons c l =>
        simp only [List.head?_cons, ne_eq, Option.some.injEq] at hl
        simp [List.isPrefixOf, beq_eq_false_iff_ne.2 (Ne.symm hl)]
    simp [skipDecorators, this]
  | cons d ds ih =>
    obtain ⟨r, rfl⟩ := hd d (by simp)
    simp [skipDecorators, List.isPrefixOf, ih fun x hx => hd x (by simp [hx])]

theorem lstripWs_cons {c : Char} (s : Str) (h : PyStr.isSpace c = false) : lstripWs (c :: s) = c :: s := by
  simp [lstripWs, h]

theorem isPrefixOf_append (p s : Str) : p.isPrefixOf (p ++ s) = true := by
  simp

/-- the lines of a function: single-line decorators, the header `def NAME(…`, the body -/
def DefLines (ls : List Str) (name : Str) : Prop :=
  ∃ (ds : List Str) (args : Str) (body : List Str), ls = ds ++ ("def ".toList ++ name ++ '(' :: args) :: body ∧
    ∀ d ∈ ds, ∃ r : Str, d = '@' :: r

/-- C63 for functions that still have the name they were defined with: the source text is kept, and a last line
`alias = NAME` is added exactly when the alias differs from the name. -/
theorem C63_function_partial (o : Obj) (ls : List Str) (alias : Str) (hc : o.hascode = true) (hl : DefLines ls o.name)
    (ha : alias ≠ []) :
    addAlias o alias ls =
      some (if alias = o.name then ls else ls ++ [['\n'] ++ alias ++ [' ', '=', ' '] ++ o.name ++ ['\n']]) := by
  obtain ⟨ds, args, body, rfl, hd⟩ := hl
  have hsk := skip_decorators ds hd ("def ".toList ++ o.name ++ '(' :: args) (by rw [show "def ".toList = ['d', 'e', 'f', ' '] by decide]; simp) body
  have hp : "def ".toList.isPrefixOf (lstripWs ("def ".toList ++ o.name ++ '(' :: args)) = true := by
    rw [show "def ".toList = ['d', 'e', 'f', ' '] by decide]
    simp only [List.cons_append, List.append_assoc]
    rw [lstripWs_cons _ (by decide)]
    simp [List.isPrefixOf]
  unfold addAlias
  rw [if_neg ha, if_pos hc]
  simp only [hsk]
  rw [show (ds ++ ("def ".toList ++ o.name ++ '(' :: args) :: body)[ds.length]? = some ("def ".toList ++ o.name ++ '(' :: args) by simp]
  simp only [hp, if_true]
  by_cases h : alias = o.name
  · simp [h]
  · simp only [ne_eq, h, not_false_eq_true, if_true, if_false]
    simp [aliasLine, show " = ".toList = [' ', '=', ' '] by decide]

theorem contains_of (n a b : Str) : contains n (a ++ (n ++ b)) = true := by
  induction a with
  | nil =>
    cases h : n ++ b with
    | nil =>
      have : n = [] := (List.append_eq_nil_iff.1 h).1
      subst this; rfl
    | cons c s =>
      have := isPrefixOf_append n b
      rw [h] at this
      simp [contains, this]
  | cons c a ih => simp [contains, ih]

theorem takeWhile_before (t r : Str) (h : '=' ∉ t) : beforeEq (t ++ '=' :: r) = t := by
  unfold beforeEq
  induction t with
  | nil => simp
  | cons c t ih =>
    simp only [List.mem_cons, not_or] at h
    simp [List.takeWhile, bne_iff_ne.2 (Ne.symm h.1), ih h.2]

theorem lstripWs_ws (w s : Str) (h : ∀ c ∈ w, PyStr.isSpace c = true) : lstripWs (w ++ s) = lstripWs s := by
  induction w with
  | nil => rfl
  | cons c w ih => simp [lstripWs, h c (by simp), ih fun x hx => h x (by simp [hx])]

theorem lstripWs_all (w : Str) (h : ∀ c ∈ w, PyStr.isSpace c = true) : lstripWs w = [] := by
  have := lstripWs_ws w [] h
  simpa [lstripWs] using this

theorem lstripWs_id (s : Str) (h : ∀ c, s.head? = some c → PyStr.isSpace c = false) : lstripWs s = s := by
  cases s with
  | nil => rfl
  | cons c s => exact lstripWs_cons s (h c rfl)

/-- a name: not empty, no white space -/
theorem stripWs_name (t w : Str) (ht : ∀ c ∈ t, PyStr.isSpace c = false) (hn : t ≠ []) (hw : ∀ c ∈ w, PyStr.isSpace c = true) :
    stripWs (t ++ w) = t := by
  unfold stripWs
  rw [lstripWs_id (t ++ w)]
  · rw [List.reverse_append, lstripWs_ws _ _ (fun c hc => hw c (List.mem_reverse.1 hc)), lstripWs_id, List.reverse_reverse]
    intro c hc
    exact ht c (List.mem_reverse.1 (List.mem_of_mem_head? (by simpa using hc)))
  · intro c hc
    cases t with
    | nil => exact absurd rfl hn
    | cons a t =>
      simp only [List.cons_append, List.head?_cons, Option.some.injEq] at hc
      exact ht c (by simp [hc])

theorem not_def (t rest : Str) (ht : ∀ c ∈ t, PyStr.isSpace c = false) (hk : t ≠ ['d', 'e', 'f'])
    (hr : ∃ x r, rest = x :: r ∧ (PyStr.isSpace x = true ∨ x = '=')) : ¬ ['d', 'e', 'f', ' '] <+: t ++ rest := by
  obtain ⟨x, r, rfl, hx⟩ := hr
  have hx' : ∀ y, x = y → PyStr.isSpace y = true ∨ y = '=' := by rintro y rfl; exact hx
  rintro ⟨u, hu⟩
  rcases t with _ | ⟨a, _ | ⟨b, _ | ⟨c, _ | ⟨d, t⟩⟩⟩⟩
  all_goals simp only [List.nil_append, List.cons_append, List.cons.injEq] at hu
  · have := hx' 'd' hu.1.symm
    exact absurd this (by decide)
  · have := hx' 'e' hu.2.1.symm
    exact absurd this (by decide)
  · have := hx' 'f' hu.2.2.1.symm
    exact absurd this (by decide)
  · exact hk (by rw [hu.1, hu.2.1, hu.2.2.1])
  · have := ht d (by simp)
    rw [← hu.2.2.2.1] at this
    exact absurd this (by decide)

/-- C63 for lambdas bound by an assignment `TARGET = … lambda …` on one line: the text is kept when the alias is the
target, otherwise `alias = ` is put before the assignment (so both names are bound). -/
theorem C63_lambda_partial (o : Obj) (alias target w pre post : Str) (hc : o.hascode = true) (ha : alias ≠ [])
    (ht : ∀ c ∈ target, PyStr.isSpace c = false) (hte : '=' ∉ target) (hn : target ≠ []) (hat : target.head? ≠ some '@')
    (hk : target ≠ "def".toList) (hw : ∀ c ∈ w, PyStr.isSpace c = true) (more : List Str) :
    addAlias o alias ((target ++ w ++ '=' :: (pre ++ ("lambda ".toList ++ post))) :: more) =
      some (((if alias = target then [] else alias ++ [' ', '=', ' ']) ++
        (target ++ w ++ '=' :: (pre ++ ("lambda ".toList ++ post)))) :: more) := by
  have hw' : '=' ∉ w := fun h => absurd (hw _ h) (by decide)
  have hhead : (target ++ w ++ '=' :: (pre ++ ("lambda ".toList ++ post))).head? ≠ some '@' := by
    cases target with
    | nil => exact absurd rfl hn
    | cons c t => simpa using hat
  have hsk := skip_decorators [] (by simp) _ hhead more
  simp only [List.nil_append, List.length_nil] at hsk
  have hls : lstripWs (target ++ w ++ '=' :: (pre ++ ("lambda ".toList ++ post))) =
      target ++ w ++ '=' :: (pre ++ ("lambda ".toList ++ post)) := by
    apply lstripWs_id
    cases target with
    | nil => exact absurd rfl hn
    | cons c t =>
      intro x hx
      simp only [List.cons_append, List.head?_cons, Option.some.injEq] at hx
      exact ht x (by simp [hx])
  have hnd : "def ".toList.isPrefixOf (target ++ w ++ '=' :: (pre ++ ("lambda ".toList ++ post))) = false := by
    rw [← Bool.not_eq_true, List.isPrefixOf_iff_prefix, List.append_assoc, show "def ".toList = ['d', 'e', 'f', ' '] by decide]
    refine not_def target _ ht (by rwa [show ['d', 'e', 'f'] = "def".toList by decide]) ?_
    cases w with
    | nil => exact ⟨'=', _, rfl, .inr rfl⟩
    | cons x w => exact ⟨x, _, rfl, .inl (hw x (by simp))⟩
  have hlam : contains "lambda ".toList (target ++ w ++ '=' :: (pre ++ ("lambda ".toList ++ post))) = true := by
    rw [show target ++ w ++ '=' :: (pre ++ ("lambda ".toList ++ post)) =
      (target ++ w ++ '=' :: pre) ++ ("lambda ".toList ++ post) by simp]
    exact contains_of _ _ _
  have hb : stripWs (beforeEq (target ++ w ++ '=' :: (pre ++ ("lambda ".toList ++ post)))) = target := by
    rw [takeWhile_before _ _ (by simp [hte, hw']), stripWs_name target w ht hn hw]
  unfold addAlias
  rw [if_neg ha, if_pos hc]
  simp only [hsk, List.getElem?_cons_zero, hls, hnd, hlam, hb, if_true]
  by_cases h : alias = target
  · simp [h]
  · simp [h, setAt, show " = ".toList = [' ', '=', ' '] by decide]

/-- C63 for classes: the source text is kept, and a last line `alias = NAME` is added exactly when the alias differs from
the name `getname` gives (the class's own name when `getname` has none). -/
theorem C63_class (o : Obj) (ls : List Str) (alias name : Str) (hc : o.hascode = false) (hi : o.isInst = false)
    (hg : (o.getname = name ∧ name ≠ []) ∨ (o.getname = [] ∧ o.name = name)) (ha : alias ≠ []) :
    addAlias o alias ls =
      some (if alias = name then ls else ls ++ [['\n'] ++ alias ++ [' ', '=', ' '] ++ name ++ ['\n']]) := by
  have hnm : (if o.getname = [] then o.name else o.getname) = name := by
    rcases hg with ⟨h, hz⟩ | ⟨h1, h2⟩
    · rw [if_neg (by rwa [h]), h]
    · rw [if_pos h1, h2]
  unfold addAlias
  rw [if_neg ha, if_neg (by simp [hc]), if_neg (by simp [hi])]
  simp only [hnm]
  by_cases h : alias = name
  · simp [h]
  · simp [h, aliasLine, show " = ".toList = [' ', '=', ' '] by decide]

theorem mem_lstripWs {c : Char} (hc : PyStr.isSpace c = false) (s : Str) (h : c ∈ s) : c ∈ lstripWs s := by
  induction s with
  | nil => exact h
  | cons a s ih =>
    simp only [lstripWs]
    by_cases ha : PyStr.isSpace a = true
    · rw [if_pos ha]
      rcases List.mem_cons.1 h with rfl | h
      · rw [ha] at hc; cases hc
      · exact ih h
    · rw [if_neg ha]; exact h

theorem mem_stripWs {c : Char} (hc : PyStr.isSpace c = false) (s : Str) (h : c ∈ s) : c ∈ stripWs s := by
  unfold stripWs
  rw [List.mem_reverse]
  exact mem_lstripWs hc _ (List.mem_reverse.2 (mem_lstripWs hc s h))

/-- C63 for instances: the last line is the call that makes the instance (`NAME(…` or `dill.loads(…`), and it is assigned to
the alias; the other lines are kept. -/
theorem C63_instance_partial (o : Obj) (ls : List Str) (callee args alias : Str) (hc : o.hascode = false) (hi : o.isInst = true)
    (ha : alias ≠ []) (hcal : '=' ∉ callee) (hp : '(' ∉ alias) :
    addAlias o alias (ls ++ [callee ++ '(' :: args]) = some (ls ++ [alias ++ [' ', '=', ' '] ++ (callee ++ '(' :: args)]) := by
  have hne : alias ≠ stripWs (beforeEq (callee ++ '(' :: args)) := by
    intro h
    apply hp
    rw [h]
    apply mem_stripWs (by decide)
    unfold beforeEq
    clear h
    induction callee with
    | nil => simp
    | cons c t ih =>
      simp only [List.mem_cons, not_or] at hcal
      simp only [List.cons_append, List.takeWhile, bne_iff_ne.2 (Ne.symm hcal.1), List.mem_cons]
      right
      exact ih hcal.2
  unfold addAlias
  rw [if_neg ha, if_neg (by simp [hc]), if_pos hi]
  simp [hne, setAt, show " = ".toList = [' ', '=', ' '] by decide]

/-- C63 in general: whatever the object, the text that comes back is the given text with at most one line added at the end or
one line given the prefix `alias = `. Nothing is lost. -/
theorem C63_nothing_lost (o : Obj) (alias : Str) (ls out : List Str) (h : addAlias o alias ls = some out) :
    out = ls ∨ (∃ n : Str, out = ls ++ [['\n'] ++ alias ++ [' ', '=', ' '] ++ n ++ ['\n']]) ∨
      (∃ (a : List Str) (l : Str) (b : List Str), ls = a ++ l :: b ∧ out = a ++ (alias ++ [' ', '=', ' '] ++ l) :: b) := by
  have hset : ∀ (n : Nat) (l : Str), ls[n]? = some l →
      ∃ (a : List Str) (l' : Str) (b : List Str), ls = a ++ l' :: b ∧
        setAt ls n (alias ++ " = ".toList ++ l) = a ++ (alias ++ [' ', '=', ' '] ++ l') :: b := by
    intro n l hl
    have hlt : n < ls.length := (List.getElem?_eq_some_iff.1 hl).1
    have hle : ls[n] = l := (List.getElem?_eq_some_iff.1 hl).2
    refine ⟨ls.take n, l, ls.drop (n + 1), ?_, ?_⟩
    · rw [← hle, List.getElem_cons_drop, List.take_append_drop]
    · unfold setAt
      rw [List.set_eq_take_append_cons_drop, if_pos hlt, show " = ".toList = [' ', '=', ' '] by decide]
  have hal : ∀ n : Str, ls ++ [aliasLine alias n] = ls ++ [['\n'] ++ alias ++ [' ', '=', ' '] ++ n ++ ['\n']] := by
    intro n; simp [aliasLine, show " = ".toList = [' ', '=', ' '] by decide]
  unfold addAlias at h
  by_cases ha : alias = []
  · rw [if_pos ha] at h; exact .inl (Option.some.inj h).symm
  rw [if_neg ha] at h
  by_cases hc : o.hascode = true
  · rw [if_pos hc] at h
    simp only [] at h
    cases hl : ls[skipDecorators ls]? with
    | none => rw [hl] at h; cases h
    | some line =>
      rw [hl] at h
      simp only [] at h
      split at h
      · have h := Option.some.inj h
        split at h
        · exact .inr (.inl ⟨o.name, by rw [← h]; exact hal _⟩)
        · exact .inl h.symm
      · split at h
        · have h := Option.some.inj h
          split at h
          · rw [← h]; exact .inr (.inr (hset _ _ hl))
          · exact .inl h.symm
        · have h := Option.some.inj h
          split at h
          · exact .inr (.inl ⟨o.name, by rw [← h]; exact hal _⟩)
          · exact .inl h.symm
  · rw [if_neg hc] at h
    by_cases hi : o.isInst = true
    · rw [if_pos hi] at h
      cases hl : ls.getLast? with
      | none => rw [hl] at h; cases h
      | some last =>
        rw [hl] at h
        have h := Option.some.inj h
        split at h
        · rw [← h]
          refine .inr (.inr (hset _ _ ?_))
          rw [← hl, List.getLast?_eq_getElem?]
        · exact .inl h.symm
    · rw [if_neg hi] at h
      have h := Option.some.inj h
      generalize (if o.getname = [] then o.name else o.getname) = name at h
      split at h
      · exact .inr (.inl ⟨_, by rw [← h]; exact hal _⟩)
      · exact .inl h.symm

/-- C63 is false for a function whose `__name__` has been changed: the added line uses a name the text does not bind. -/
theorem C63_renamed_function :
    addAlias ⟨true, false, "g".toList, []⟩ "h".toList ["def f():\n".toList, "    return 1\n".toList] =
      some ["def f():\n".toList, "    return 1\n".toList, "\nh = g\n".toList] := by decide +kernel

/-- C63 is false for coroutine functions with a lambda in the header: the result is not Python. -/
theorem C63_async_lambda :
    addAlias ⟨true, false, "f".toList, []⟩ "h".toList ["async def f(x=lambda y: y):\n".toList, "    return 1\n".toList] =
      some ["h = async def f(x=lambda y: y):\n".toList, "    return 1\n".toList] := by decide +kernel

/-- C63 is false for a decorator that takes two lines and has a lambda in the second: the assignment lands inside the
decorator's arguments (where it is a keyword argument) and the alias is not bound. -/
theorem C63_decorator_corrupted :
    addAlias ⟨true, false, "f".toList, []⟩ "h".toList
        ["@deco(1,\n".toList, "      lambda y: y)\n".toList, "def f():\n".toList, "    return 1\n".toList] =
      some ["@deco(1,\n".toList, "h =       lambda y: y)\n".toList, "def f():\n".toList, "    return 1\n".toList] := by
  decide +kernel

/-- C63 is false for a lambda written inside a call: the alias is bound to what the call returns. -/
theorem C63_anonymous_lambda :
    addAlias ⟨true, false, "<lambda>".toList, []⟩ "h".toList ["foo(lambda y=1: y)\n".toList] =
      some ["h = foo(lambda y=1: y)\n".toList] := by decide +kernel

example : DefLines ["@a\n".toList, "@b(1)\n".toList, "def f(x):\n".toList, "    return x\n".toList] "f".toList :=
  ⟨["@a\n".toList, "@b(1)\n".toList], "x):\n".toList, ["    return x\n".toList], by decide +kernel, by
    intro d hd
    simp only [List.mem_cons, List.not_mem_nil, or_false] at hd
    rcases hd with rfl | rfl
    · exact ⟨"a\n".toList, by decide⟩
    · exact ⟨"b(1)\n".toList, by decide⟩⟩

example : addAlias ⟨true, false, "f".toList, []⟩ "g".toList ["@a\n".toList, "def f(x):\n".toList, "    return x\n".toList] =
    some ["@a\n".toList, "def f(x):\n".toList, "    return x\n".toList, "\ng = f\n".toList] := by decide +kernel

example : addAlias ⟨true, false, "<lambda>".toList, []⟩ "g".toList ["f = lambda x: x\n".toList] =
    some ["g = f = lambda x: x\n".toList] := by decide +kernel

/-! ### C64: getsource(instance, force=True) -/

theorem lstripChars_all (cs a s : Str) (h : ∀ c ∈ a, c ∈ cs) : lstripChars cs (a ++ s) = lstripChars cs s := by
  induction a with
  | nil => rfl
  | cons c a ih =>
    have : cs.contains c = true := List.contains_iff_mem.2 (h c (by simp))
    simp only [List.cons_append, lstripChars, this, if_true, ih fun x hx => h x (by simp [hx])]

theorem lstripChars_length (cs s : Str) : (lstripChars cs s).length ≤ s.length := by
  induction s with
  | nil => simp [lstripChars]
  | cons c s ih =>
    simp only [lstripChars]
    split
    · exact Nat.le_succ_of_le ih
    · exact Nat.le_refl _

/-- the expression that imports the class `name` of `module` -/
def importExpr (name module : Str) : Str :=
  ['_', '_', 'i', 'm', 'p', 'o', 'r', 't', '_', '_', '(', '\''] ++ module ++ "', fromlist=['".toList ++ name ++ "']).".toList ++
    name ++ ['\n']

theorem evalText_eq (name module : Str) : evalText name module = lstripChars (name ++ [' ', '=', ' ']) (importExpr name module) := by
  unfold evalText importLine importExpr
  rw [show " = ".toList = [' ', '=', ' '] by decide,
    show "__import__('".toList = ['_', '_', 'i', 'm', 'p', 'o', 'r', 't', '_', '_', '(', '\''] by decide,
    lstripChars_all _ (name ++ [' ', '=', ' ']) _ (fun c hc => hc)]

/-- C64: getsource(instance, force=True) evaluates the expression that imports the instance's class exactly when the name of
the class has no underscore.  With an underscore (any `_Private` or `Snake_Case` class) the leading underscores of
`__import__` are stripped too, so another text is evaluated. -/
theorem C64_import_expression (name module : Str) : evalText name module = importExpr name module ↔ '_' ∉ name := by
  rw [evalText_eq]
  constructor
  · intro h hm
    have hc : (name ++ [' ', '=', ' ']).contains '_' = true := List.contains_iff_mem.2 (by simp [hm])
    obtain ⟨rest, hr⟩ : ∃ rest : Str, importExpr name module = '_' :: '_' :: rest := by
      unfold importExpr; exact ⟨_, rfl⟩
    rw [hr] at h
    simp only [lstripChars, hc, if_true] at h
    have hlen := congrArg List.length h
    have h1 := lstripChars_length (name ++ [' ', '=', ' ']) rest
    simp only [List.length_cons] at hlen
    omega
  · intro hm
    have hc : (name ++ [' ', '=', ' ']).contains '_' = false := by
      rw [← Bool.not_eq_true, List.contains_iff_mem]
      simp [hm]
    unfold importExpr
    simp only [List.cons_append, lstripChars, hc, Bool.false_eq_true, if_false]

/-- C64 is false for private classes: a NameError instead of the source. -/
theorem C64_private_class : evalText "_Pt".toList "mod".toList = "import__('mod', fromlist=['_Pt'])._Pt\n".toList := by
  decide +kernel

example : evalText "Point".toList "pkg.mod".toList = "__import__('pkg.mod', fromlist=['Point']).Point\n".toList := by
  decide +kernel

/-! ### C65: importable -/

/-- the text `importable` may return when everything goes well or one of the two ways fails: an import text of the object, or
the source of its global variables followed by its own source -/
def GoodAnswer (H : Helpers) (s : Str) : Prop :=
  H.imp .obj = some s ∨ ∃ a g : Str, H.src .obj = some a ∧ H.gvars = true ∧ H.gsrc = some g ∧ s = g ++ a

theorem trySource_good (H : Helpers) (s : Str) (h : trySource H .obj = .ok s) :
    ∃ a g : Str, H.src .obj = some a ∧ H.gvars = true ∧ H.gsrc = some g ∧ s = g ++ a := by
  unfold trySource at h
  cases hs : H.src .obj with
  | none => rw [hs] at h; cases h
  | some a =>
    rw [hs] at h
    cases hv : H.gvars with
    | false => rw [hv] at h; cases h
    | true =>
      rw [hv] at h
      cases hg : H.gsrc with
      | none => rw [hg] at h; cases h
      | some g =>
        rw [hg] at h
        simp only [Except.ok.injEq] at h
        refine ⟨a, g, rfl, rfl, rfl, ?_⟩
        rw [← h]
        by_cases h1 : g = []
        · simp [h1]
        · by_cases h2 : a = []
          · simp [h1, h2]
          · simp [h1, h2]

/-- C65, as far as the code goes: when the sources of the global variables can be had (or the way of the import was asked for
and works), the answer is about the object itself, in whichever order the two ways are tried. -/
theorem C65_same_object_partial (H : Helpers) (source : Option Bool) (builtin : Bool) (s : Str)
    (hg : H.gvars = true → H.gsrc ≠ none) (h : importable H source builtin = some s) : GoodAnswer H s := by
  have hterr : ∀ t', trySource H .obj = .error t' → t' = .obj := by
    intro t' ht
    unfold trySource at ht
    cases hs : H.src .obj with
    | none => rw [hs] at ht; cases ht; rfl
    | some a =>
      rw [hs] at ht
      cases hv : H.gvars with
      | false => rw [hv] at ht; cases ht; rfl
      | true =>
        rw [hv] at ht
        cases hgs : H.gsrc with
        | none => exact absurd hgs (hg hv)
        | some g => rw [hgs] at ht; cases ht
  unfold importable at h
  generalize startSource H source builtin = b at h
  cases b with
  | true =>
    simp only [loop] at h
    cases ht : trySource H .obj with
    | ok x =>
      rw [ht] at h
      simp only [Option.some.injEq] at h
      subst h
      exact .inr (trySource_good H x ht)
    | error t' =>
      have := hterr t' ht
      subst this
      rw [ht] at h
      simp only [Bool.false_eq_true, if_false, Bool.not_true] at h
      cases hi : H.imp .obj with
      | none => rw [hi] at h; simp at h
      | some x =>
        rw [hi] at h
        exact .inl (by rw [hi]; exact h)
  | false =>
    simp only [loop] at h
    cases hi : H.imp .obj with
    | some x =>
      rw [hi] at h
      exact .inl (by rw [hi]; exact h)
    | none =>
      rw [hi] at h
      simp only [Bool.false_eq_true, if_false] at h
      cases ht : trySource H .obj with
      | ok x =>
        rw [ht] at h
        simp only [Option.some.injEq] at h
        subst h
        exact .inr (trySource_good H x ht)
      | error t' => rw [ht] at h; simp at h

/-- C65, success: if the import works, or the source, the globals and their sources can be had, importable answers (for every
combination of options). -/
theorem C65_answers (H : Helpers) (source : Option Bool) (builtin : Bool) (a g : Str) (hs : H.src .obj = some a)
    (hv : H.gvars = true) (hg : H.gsrc = some g) : ∃ s : Str, importable H source builtin = some s := by
  have ht : trySource H .obj = .ok (if g = [] then a else if a = [] then g else g ++ a) := by
    unfold trySource; simp only [hs, hv, hg]
  unfold importable
  generalize startSource H source builtin = b
  cases b with
  | true => exact ⟨if g = [] then a else if a = [] then g else g ++ a, by simp only [loop, ht]⟩
  | false =>
    cases hi : H.imp .obj with
    | some x => exact ⟨x, by simp only [loop, hi]⟩
    | none => exact ⟨_, by simp only [loop, hi, ht, Bool.false_eq_true, if_false]; rfl⟩

/-- C65, which way is tried first: source=False asks for the import, source=None asks for the source exactly for objects of
`__main__`, and a builtin is imported whatever was asked (builtin=True). -/
theorem C65_import_first (H : Helpers) (source : Option Bool) (builtin : Bool) (s : Str) (hi : H.imp .obj = some s)
    (h : source = some false ∨ (source = none ∧ H.fromMain = false) ∨
      (source = some true ∧ builtin = true ∧ H.isBuiltin = true)) :
    importable H source builtin = some s := by
  rcases h with rfl | ⟨rfl, hm⟩ | ⟨rfl, hb, hib⟩
  · simp [importable, startSource, loop, hi]
  · simp [importable, startSource, loop, hi, hm]
  · simp [importable, startSource, loop, hi, hb, hib]

/-- … and the source first in the other cases -/
theorem C65_source_first (H : Helpers) (source : Option Bool) (builtin : Bool) (a g : Str) (hs : H.src .obj = some a)
    (hv : H.gvars = true) (hg : H.gsrc = some g)
    (h : (source = none ∧ H.fromMain = true) ∨ (source = some true ∧ ¬ (builtin = true ∧ H.isBuiltin = true))) :
    importable H source builtin = some (g ++ a) := by
  have ht : trySource H .obj = .ok (g ++ a) := by
    unfold trySource
    simp only [hs, hv, hg]
    by_cases h1 : g = []
    · simp [h1]
    · by_cases h2 : a = []
      · simp [h1, h2]
      · simp [h1, h2]
  rcases h with ⟨rfl, hm⟩ | ⟨rfl, hb⟩
  · simp [importable, startSource, loop, ht, hm]
  · simp [importable, startSource, loop, ht, hb]

def lostHelpers : Helpers where
  fromMain := true
  isBuiltin := false
  imp := fun t => match t with
    | .obj => some "from m import f\n".toList
    | .globals => some "{'x': <unavailable>}\n".toList
  src := fun _ => some "def f(): return x\n".toList
  gvars := true
  gsrc := none

/-- C65 is false when the source of one of the global variables cannot be had: the variable that held the object now holds the
dict of its globals, and the import text that comes back is about that dict. -/
theorem C65_wrong_object : importable lostHelpers none true = some "{'x': <unavailable>}\n".toList ∧
    lostHelpers.imp .obj = some "from m import f\n".toList ∧
    ¬ GoodAnswer lostHelpers "{'x': <unavailable>}\n".toList := by
  refine ⟨by decide +kernel, rfl, ?_⟩
  rintro (h | ⟨a, g, h1, h2, h3, h4⟩)
  · exact absurd h (by decide +kernel)
  · simp [lostHelpers] at h3

/-! ### C66, C67: dumpsource -/

theorem replaceGo_same (old : List UInt8) (hne : old ≠ []) : ∀ (s : List UInt8) (k : Nat),
    replaceGo old old k s = s.drop k := by
  intro s
  induction s with
  | nil => intro k; simp [replaceGo]
  | cons c s ih =>
    intro k
    cases k with
    | succ k => simp [replaceGo, ih]
    | zero =>
      simp only [replaceGo]
      by_cases h : old.isPrefixOf (c :: s) = true
      · rw [if_pos h, ih]
        obtain ⟨r, hr⟩ := List.isPrefixOf_iff_prefix.1 h
        cases old with
        | nil => exact absurd rfl hne
        | cons o os =>
          simp only [List.cons_append, List.cons.injEq] at hr
          simp [← hr.1, ← hr.2]
      · rw [if_neg h, ih]; simp

/-- C66 when the text runs in the module the class came from: `dill.loads` gets the pickle that was dumped. -/
theorem C66_same_module (mod pik : List UInt8) (hne : mod ≠ []) : newPickle mod mod pik = pik := by
  unfold newPickle replace
  rw [replaceGo_same _ hne]; simp

theorem replaceGo_absent (old new : List UInt8) : ∀ (s : List UInt8), (∀ a b : List UInt8, s ≠ a ++ old ++ b) →
    replaceGo old new 0 s = s := by
  intro s
  induction s with
  | nil => intro _; rfl
  | cons c s ih =>
    intro h
    simp only [replaceGo]
    have : ¬ old.isPrefixOf (c :: s) = true := by
      intro hp
      obtain ⟨r, hr⟩ := List.isPrefixOf_iff_prefix.1 hp
      exact h [] r (by simpa using hr.symm)
    rw [if_neg this, ih]
    intro a b hs
    exact h (c :: a) b (by simp [hs])

/-- C66 when the module's name does not occur in the pickle -/
theorem C66_absent (mod cur pik : List UInt8) (h : ∀ a b : List UInt8, pik ≠ a ++ mod ++ b) : newPickle mod cur pik = pik :=
  replaceGo_absent mod cur pik h

/-- C66 is false in every module whose name has another length: the length written before the name is not changed, so the
name is cut (or runs over) and the rest of the pickle is read wrongly.  For every printable ASCII module name shorter than 32
bytes, the string that held the module's name is not the string of the new name. -/
theorem C66_length_not_updated (mod cur : List UInt8) (hne : mod ≠ []) (hp : ∀ b ∈ mod, 32 ≤ b.toNat ∧ b.toNat < 128)
    (hm : mod.length < 32) (hc : cur.length < 256) (hl : mod.length ≠ cur.length) :
    newPickle mod cur (shortUnicode mod) = 0x8c :: UInt8.ofNat mod.length :: cur ∧
    newPickle mod cur (shortUnicode mod) ≠ shortUnicode cur := by
  obtain ⟨m, ms, rfl⟩ : ∃ m ms, mod = m :: ms := by
    cases mod with
    | nil => exact absurd rfl hne
    | cons m ms => exact ⟨m, ms, rfl⟩
  have hmb := hp m (by simp)
  have h1 : ¬ (m :: ms).isPrefixOf ((0x8c : UInt8) :: UInt8.ofNat (m :: ms).length :: m :: ms) = true := by
    intro h
    obtain ⟨r, hr⟩ := List.isPrefixOf_iff_prefix.1 h
    simp only [List.cons_append, List.cons.injEq] at hr
    rw [hr.1] at hmb
    exact absurd hmb.2 (by decide)
  have h2 : ¬ (m :: ms).isPrefixOf (UInt8.ofNat (m :: ms).length :: m :: ms) = true := by
    intro h
    obtain ⟨r, hr⟩ := List.isPrefixOf_iff_prefix.1 h
    rw [List.cons_append, List.cons.injEq] at hr
    rw [hr.1, UInt8.toNat_ofNat_of_lt' (by show (m :: ms).length < 256; omega)] at hmb
    omega
  have h3 : (m :: ms).isPrefixOf (m :: ms) = true := List.isPrefixOf_iff_prefix.2 (List.prefix_refl _)
  have heq : newPickle (m :: ms) cur (shortUnicode (m :: ms)) = 0x8c :: UInt8.ofNat (m :: ms).length :: cur := by
    unfold newPickle replace shortUnicode
    rw [replaceGo, if_neg h1, replaceGo, if_neg h2, replaceGo, if_pos h3]
    have : ∀ (k : Nat) (s : List UInt8), s.length ≤ k → replaceGo (m :: ms) cur k s = [] := by
      intro k
      induction k with
      | zero => intro s hs; rw [List.eq_nil_of_length_eq_zero (Nat.le_zero.1 hs)]; rfl
      | succ k ih =>
        intro s hs
        cases s with
        | nil => rfl
        | cons c s => simp only [replaceGo]; exact ih s (by simpa using hs)
    rw [this _ _ (by simp)]
    simp
  refine ⟨heq, ?_⟩
  rw [heq]
  unfold shortUnicode
  intro h
  simp only [List.cons.injEq] at h
  have := congrArg UInt8.toNat h.2.1
  rw [UInt8.toNat_ofNat_of_lt' (by show (m :: ms).length < 256; omega), UInt8.toNat_ofNat_of_lt' hc] at this
  exact hl this

/-- C66 is false for data: strings of the instance that contain the module's name are changed too. -/
theorem C66_data_changed : newPickle [109] [110] (shortUnicode [109] ++ shortUnicode [104, 109]) =
    shortUnicode [110] ++ shortUnicode [104, 110] := by decide

example : newPickle [109, 111] [109, 111] (shortUnicode [109, 111] ++ [46]) = shortUnicode [109, 111] ++ [46] :=
  C66_same_module _ _ (by decide)

/-- C67: dumpsource(obj, alias) is exactly this program, for every pickle text and alias without a newline. -/
theorem C67_enclosed (pik alias : Str) (new inst : Bool) (cls modr : Str) (hp : '\n' ∉ pik) (ha : '\n' ∉ alias) :
    dumpsource pik alias new true inst cls modr =
      "def __this_is_a_big_dummy_enclosing_function__():\n    import dill\n    __this_is_a_stub_variable__ = dill.loads(".toList ++
      pik ++ ")\n    return __this_is_a_stub_variable__\n".toList ++ (if alias = [] then [] else alias ++ " = ".toList) ++
      "__this_is_a_big_dummy_enclosing_function__(); del __this_is_a_big_dummy_enclosing_function__\n".toList := by
  have hsplit : Indent.splitNL (enclose dummySrc alias) =
      ["def __this_is_a_big_dummy_enclosing_function__():".toList,
       "    __this_is_a_stub_variable__ = '__this_is_a_big_dummy_object__'".toList,
       "    return __this_is_a_stub_variable__".toList,
       (if alias = [] then [] else alias ++ " = ".toList) ++
        "__this_is_a_big_dummy_enclosing_function__(); del __this_is_a_big_dummy_enclosing_function__".toList, []] := by
    have hpre : enclose dummySrc alias =
        "def __this_is_a_big_dummy_enclosing_function__():".toList ++ '\n' ::
        ("    __this_is_a_stub_variable__ = '__this_is_a_big_dummy_object__'".toList ++ '\n' ::
        ("    return __this_is_a_stub_variable__".toList ++ '\n' ::
        (((if alias = [] then [] else alias ++ " = ".toList) ++
        "__this_is_a_big_dummy_enclosing_function__(); del __this_is_a_big_dummy_enclosing_function__".toList) ++ '\n' :: []))) := by
      unfold enclose
      generalize (if alias = [] then [] else alias ++ " = ".toList) = x
      have h1 : "def ".toList ++ dummyFn ++ "():\n".toList ++ Indent.indent dummySrc spaces4 ++
          Indent.indent ("return ".toList ++ stub ++ ['\n']) spaces4 =
          "def __this_is_a_big_dummy_enclosing_function__():".toList ++ '\n' ::
          ("    __this_is_a_stub_variable__ = '__this_is_a_big_dummy_object__'".toList ++ '\n' ::
          ("    return __this_is_a_stub_variable__".toList ++ ['\n'])) := by decide +kernel
      have h2 : dummyFn ++ "(); del ".toList ++ dummyFn ++ ['\n'] =
        "__this_is_a_big_dummy_enclosing_function__(); del __this_is_a_big_dummy_enclosing_function__".toList ++ '\n' :: [] := by
        decide +kernel
      rw [h1, h2]
      simp only [List.append_assoc, List.cons_append, List.nil_append]
    rw [hpre, Indent.splitNL_nonl_append _ _ (by decide +kernel), Indent.splitNL_nonl_append _ _ (by decide +kernel),
      Indent.splitNL_nonl_append _ _ (by decide +kernel), Indent.splitNL_nonl_append]
    · rfl
    · rw [List.mem_append, not_or]
      refine ⟨?_, by decide +kernel⟩
      split
      · simp
      · rw [List.mem_append, not_or]; exact ⟨ha, by decide⟩
  have hind : Indent.indent ("import dill\n".toList ++ (stub ++ " = ".toList ++ "dill.loads(".toList ++ pik ++ ")\n".toList)) spaces4 =
      "    import dill\n    __this_is_a_stub_variable__ = dill.loads(".toList ++ pik ++ ")\n".toList := by
    have hcode : "import dill\n".toList ++ (stub ++ " = ".toList ++ "dill.loads(".toList ++ pik ++ ")\n".toList) =
        List.intercalate ['\n']
          ["import dill".toList, "__this_is_a_stub_variable__ = dill.loads(".toList ++ pik ++ [')'], []] := by
      rw [← Indent.joinNL_eq]
      simp only [Indent.joinNL]
      rw [show stub ++ " = ".toList ++ "dill.loads(".toList = "__this_is_a_stub_variable__ = dill.loads(".toList by decide +kernel,
        show "import dill\n".toList = "import dill".toList ++ ['\n'] by decide, show ")\n".toList = [')', '\n'] by decide]
      simp only [List.append_assoc, List.cons_append, List.nil_append]
    have hl0 : ∀ x : Str, Indent.leading ("__this_is_a_stub_variable__ = dill.loads(".toList ++ x) = 0 := by
      intro x
      rw [show "__this_is_a_stub_variable__ = dill.loads(".toList = '_' :: "_this_is_a_stub_variable__ = dill.loads(".toList by decide +kernel]
      rfl
    have hl : Indent.Lines ("import dill\n".toList ++ (stub ++ " = ".toList ++ "dill.loads(".toList ++ pik ++ ")\n".toList))
        ["import dill".toList, "__this_is_a_stub_variable__ = dill.loads(".toList ++ pik ++ [')'], []] := by
      refine ⟨by simp, hcode.symm, ?_⟩
      intro l hl
      simp only [List.mem_cons, List.not_mem_nil, or_false] at hl
      rcases hl with rfl | rfl | rfl
      · decide
      · rw [List.mem_append, List.mem_append, not_or, not_or]
        exact ⟨⟨by decide +kernel, hp⟩, by decide⟩
      · simp
    have hnt : Indent.NoTabIndent ["import dill".toList, "__this_is_a_stub_variable__ = dill.loads(".toList ++ pik ++ [')'], []] := by
      intro l hl
      simp only [List.mem_cons, List.not_mem_nil, or_false] at hl
      rcases hl with rfl | rfl | rfl
      · decide
      · rw [List.append_assoc, hl0]; simp
      · simp
    have := Indent.C36_indent_partial _ _ _
      [spaces4 ++ "import dill".toList, spaces4 ++ ("__this_is_a_stub_variable__ = dill.loads(".toList ++ pik ++ [')'])] spaces4
      hl hnt (by decide) spaces4 (by
        have h0 : Indent.leading "import dill".toList = 0 := by decide
        simp only [List.map_cons, List.map_nil, h0, Nat.zero_le, if_true, List.append_nil]
        rfl)
    rw [this, if_pos (by decide), ← Indent.joinNL_eq]
    simp only [List.cons_append, List.nil_append, Indent.joinNL]
    rw [show "    import dill\n    __this_is_a_stub_variable__ = dill.loads(".toList = spaces4 ++ "import dill".toList ++ '\n' ::
      spaces4 ++ "__this_is_a_stub_variable__ = dill.loads(".toList by decide +kernel, show ")\n".toList = [')', '\n'] by decide]
    simp only [List.append_assoc, List.cons_append, List.nil_append]
  unfold dumpsource
  simp only [if_true, true_or, hsplit, List.headD_cons]
  rw [show stub ++ " = ".toList ++ "dill.loads(".toList ++ pik ++ ")\n".toList = stub ++ " = ".toList ++ "dill.loads(".toList ++ pik ++ ")\n".toList from rfl,
    hind]
  simp only [List.length_cons, List.length_nil, List.drop_succ_cons, List.drop_zero, Indent.joinNL]
  generalize (if alias = [] then [] else alias ++ " = ".toList) = x
  rw [show "def __this_is_a_big_dummy_enclosing_function__():\n    import dill\n    __this_is_a_stub_variable__ = dill.loads(".toList =
    "def __this_is_a_big_dummy_enclosing_function__():".toList ++ ('\n' ::
      "    import dill\n    __this_is_a_stub_variable__ = dill.loads(".toList) by decide +kernel,
    show ")\n    return __this_is_a_stub_variable__\n".toList = ")\n".toList ++ ("    return __this_is_a_stub_variable__".toList ++ ['\n'])
      by decide +kernel,
    show "__this_is_a_big_dummy_enclosing_function__(); del __this_is_a_big_dummy_enclosing_function__\n".toList =
      "__this_is_a_big_dummy_enclosing_function__(); del __this_is_a_big_dummy_enclosing_function__".toList ++ ['\n'] by decide +kernel]
  simp only [List.append_assoc, List.cons_append, List.nil_append]

/-- C67 without the enclosure: the pickle is loaded at the top level, bound to the alias if there is one. -/
theorem C67_plain (pik alias : Str) (new inst : Bool) (cls modr : Str) (h : new = false ∨ inst = false) :
    dumpsource pik alias new false inst cls modr =
      "import dill\n".toList ++ (if alias = [] then [] else alias ++ " = ".toList) ++ "dill.loads(".toList ++ pik ++ ")\n".toList := by
  unfold dumpsource
  simp only [Bool.false_eq_true, if_false, h, if_true, List.append_assoc]

/-- C67 with new=True: the source of the class, then the pickle with the name of the module replaced. -/
theorem C67_new (pik alias cls modr : Str) :
    dumpsource pik alias true false true cls modr =
      "import dill\n".toList ++ cls ++ (if alias = [] then [] else alias ++ " = ".toList) ++ "dill.loads(".toList ++ pik ++
        ".replace(b".toList ++ modr ++ ",bytes(__name__,\"UTF-8\")))\n".toList := by
  unfold dumpsource
  simp only [Bool.false_eq_true, if_false, Bool.true_eq_false, or_self, List.append_assoc]

example : '\n' ∉ "b'\\x80\\x04K\\x01.'".toList := by decide

end Verif.Source
