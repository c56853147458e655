import Verif.Model.Check
set_option linter.unusedSimpArgs false
/-!
C73: `dill.check(obj, python=P)` makes the interpreter P, and nothing else, load exactly the bytes `dumps(obj, ...)` returned, and
reports how that went.  False when the path of the interpreter holds white space.
-/
namespace Verif.Check

/-! ### specification: a path that can be split off a command -/

/-- no white space at all, and not empty -/
def Plain (path : Str) : Prop := path ≠ [] ∧ ∀ c ∈ path, ¬ Temp.isSpace c = true

instance (p : Str) : Decidable (Plain p) := by unfold Plain; infer_instance

/-! ### reading back a literal -/

theorem hexVal_hexDigit : ∀ n : Fin 16, hexVal (hexDigit n) = some n.1 := by decide

/-- upper-case digits are read too -/
theorem hexVal_upper : "ABCDEF".toList.map hexVal = [10, 11, 12, 13, 14, 15].map some := by decide

theorem readLit_close (q : Char) (s : Str) : readLit q (q :: s) = some ([], s) := by
  rw [readLit.eq_def]; simp

theorem readLit_plain (q c : Char) (s : Str) (h1 : c ≠ q) (h2 : c ≠ '\\')
    (h3 : ¬ (c = '\n' ∨ c = '\r' ∨ c.toNat = 0 ∨ 128 ≤ c.toNat)) :
    readLit q (c :: s) = (readLit q s).map fun p => (UInt8.ofNat c.toNat :: p.1, p.2) := by
  rw [readLit.eq_def]; simp only [h1, h2, h3, if_false]

theorem readLit_esc (q : Char) (hq : q = '\'' ∨ q = '"') (b : UInt8) (s : Str) :
    readLit q (escByte q b ++ s) = (readLit q s).map fun p => (b :: p.1, p.2) := by
  have hb : b.toNat < 256 := b.toNat_lt
  have hbb : UInt8.ofNat b.toNat = b := by simp
  have key : ∀ n : Fin 256, n.1 = b.toNat →
      readLit q (escByte q b ++ s) = (readLit q s).map fun p => (b :: p.1, p.2) := by
    intro n hn
    unfold escByte
    simp only [← hn]
    by_cases h1 : n.1 = q.toNat ∨ n.1 = 92
    · rw [if_pos h1]
      rcases hq with rfl | rfl
      · rcases h1 with h | h
        · have : b = 39 := by rw [← hbb, ← hn, h]; rfl
          subst this
          simp [readLit, h]
        · have : b = 92 := by rw [← hbb, ← hn, h]; rfl
          subst this
          simp [readLit, h]
      · rcases h1 with h | h
        · have : b = 34 := by rw [← hbb, ← hn, h]; rfl
          subst this
          simp [readLit, h]
        · have : b = 92 := by rw [← hbb, ← hn, h]; rfl
          subst this
          simp [readLit, h]
    · rw [if_neg h1]
      have hbs : ('\\' = q) = False := by rcases hq with rfl | rfl <;> simp
      by_cases h2 : n.1 = 9
      · have : b = 9 := by rw [← hbb, ← hn, h2]; rfl
        subst this
        rw [if_pos h2]; simp [readLit, hbs]
      rw [if_neg h2]
      by_cases h3 : n.1 = 10
      · have : b = 10 := by rw [← hbb, ← hn, h3]; rfl
        subst this
        rw [if_pos h3]; simp [readLit, hbs]
      rw [if_neg h3]
      by_cases h4 : n.1 = 13
      · have : b = 13 := by rw [← hbb, ← hn, h4]; rfl
        subst this
        rw [if_pos h4]; simp [readLit, hbs]
      rw [if_neg h4]
      by_cases h5 : n.1 < 32 ∨ 127 ≤ n.1
      · rw [if_pos h5]
        have e1 := hexVal_hexDigit ⟨n.1 / 16, by omega⟩
        have e2 := hexVal_hexDigit ⟨n.1 % 16, by omega⟩
        simp only at e1 e2
        have e3 : n.1 / 16 * 16 + n.1 % 16 = b.toNat := by omega
        simp only [List.cons_append, List.nil_append, readLit, hbs, if_false, if_true, e1, e2]
        cases hr : readLit q s with
        | none => rfl
        | some p =>
          obtain ⟨bs, r⟩ := p
          simp only [Option.map_some, e3, hbb]
      · rw [if_neg h5]
        have hc : (Char.ofNat n.1).toNat = n.1 := by
          have : n.1.isValidChar := Or.inl (by omega)
          simp [Char.ofNat, this]
          rfl
        have c1 : Char.ofNat n.1 ≠ q := fun h => h1 (Or.inl (by rw [← hc, h]))
        have c2 : Char.ofNat n.1 ≠ '\\' := fun h => h1 (Or.inr (by rw [← hc, h]; rfl))
        have c3 : ¬ (Char.ofNat n.1 = '\n' ∨ Char.ofNat n.1 = '\r' ∨ (Char.ofNat n.1).toNat = 0 ∨
            128 ≤ (Char.ofNat n.1).toNat) := by
          rintro (h | h | h | h)
          · exact h3 (by rw [← hc, h]; rfl)
          · exact h4 (by rw [← hc, h]; rfl)
          · rw [hc] at h; omega
          · rw [hc] at h; omega
        rw [List.cons_append, List.nil_append, readLit_plain _ _ _ c1 c2 c3, hc, hn, hbb]
  exact key ⟨b.toNat, hb⟩ rfl

theorem quoteFor_or (bs : Bytes) : quoteFor bs = '\'' ∨ quoteFor bs = '"' := by
  unfold quoteFor; split
  · exact Or.inr rfl
  · exact Or.inl rfl

theorem readLit_flat (q : Char) (hq : q = '\'' ∨ q = '"') (bs : Bytes) (s : Str) :
    readLit q (bs.flatMap (escByte q) ++ q :: s) = some (bs, s) := by
  induction bs with
  | nil => exact readLit_close q s
  | cons b bs ih =>
    rw [List.flatMap_cons, List.append_assoc, readLit_esc q hq, ih]
    rfl

theorem esc_ne_nil (q : Char) (b : UInt8) : escByte q b ≠ [] := by
  unfold escByte; simp only []; repeat' split
  all_goals simp

theorem esc_head (q : Char) (hq : q = '\'' ∨ q = '"') (b : UInt8) (s : Str) : (escByte q b ++ s).head? ≠ some q := by
  intro h
  have := readLit_esc q hq b s
  cases hs : escByte q b with
  | nil => exact esc_ne_nil q b hs
  | cons c t =>
    rw [hs] at h this
    simp only [List.cons_append, List.head?_cons, Option.some.injEq] at h
    subst h
    rw [List.cons_append, readLit_close] at this
    cases hr : readLit c s with
    | none => rw [hr] at this; cases this
    | some p => rw [hr] at this; simp at this

theorem readBytes_cons (q : Char) (t : Str) : readBytes ('b' :: q :: t) =
    if q = '\'' ∨ q = '"' then if t.take 2 = [q, q] then none else readLit q t else none := rfl

/-- The text `repr` gives for a bytes object is a literal of that object, whatever follows it (other than a quote
character after an empty one: not the case in the command). -/
theorem readBytes_repr (bs : Bytes) (s : Str) (hs : s.head? ≠ some '\'' ) :
    readBytes (reprBytes bs ++ s) = some (bs, s) := by
  have hq := quoteFor_or bs
  have ht : ((bs.flatMap (escByte (quoteFor bs)) ++ [quoteFor bs] ++ s).take 2 = [quoteFor bs, quoteFor bs]) = False := by
    rw [eq_iff_iff]; refine ⟨fun h => ?_, fun h => h.elim⟩
    cases bs with
    | nil =>
      have : quoteFor [] = '\'' := by simp [quoteFor]
      rw [this] at h
      cases s with
      | nil => simp at h
      | cons c s => simp at h; subst h; simp at hs
    | cons b bs =>
      have h1 := esc_head _ hq b (bs.flatMap (escByte (quoteFor (b :: bs))) ++ ([quoteFor (b :: bs)] ++ s))
      rw [List.flatMap_cons, List.append_assoc, List.append_assoc] at h
      revert h h1
      generalize escByte (quoteFor (b :: bs)) b ++
        (List.flatMap (escByte (quoteFor (b :: bs))) bs ++ ([quoteFor (b :: bs)] ++ s)) = l
      intro h h1
      cases l with
      | nil => simp at h
      | cons c l => simp at h; exact h1 (by rw [h.1]; rfl)
  have hl := readLit_flat (quoteFor bs) hq bs s
  have e : reprBytes bs ++ s = 'b' :: quoteFor bs :: (bs.flatMap (escByte (quoteFor bs)) ++ [quoteFor bs] ++ s) := by
    simp [reprBytes]
  rw [e]
  rw [readBytes_cons, if_pos hq, if_neg (by rw [ht]; exact id), List.append_assoc]
  exact hl

/-! ### the characters of the command -/

theorem escByte_printable (q : Char) (hq : q = '\'' ∨ q = '"') (b : UInt8) :
    ∀ c ∈ escByte q b, 32 ≤ c.toNat ∧ c.toNat < 127 := by
  have hex : ∀ n : Fin 16, 32 ≤ (hexDigit n).toNat ∧ (hexDigit n).toNat < 127 := by decide
  have hb : b.toNat < 256 := b.toNat_lt
  intro c hc
  unfold escByte at hc
  simp only at hc
  have hv : ∀ n, n < 127 → (Char.ofNat n).toNat = n := by
    intro n hn
    have : n.isValidChar := Or.inl (by omega)
    simp [Char.ofNat, this]
    rfl
  have hqn : q.toNat < 127 ∧ 32 ≤ q.toNat := by rcases hq with rfl | rfl <;> decide
  split at hc
  · rename_i h
    simp only [List.mem_cons, List.mem_nil_iff, or_false] at hc
    rcases hc with rfl | rfl
    · decide
    · have : b.toNat < 127 := by rcases h with h | h <;> omega
      rw [hv _ this]
      rcases h with h | h <;> omega
  · split at hc
    · simp only [List.mem_cons, List.mem_nil_iff, or_false] at hc; rcases hc with rfl | rfl <;> decide
    split at hc
    · simp only [List.mem_cons, List.mem_nil_iff, or_false] at hc; rcases hc with rfl | rfl <;> decide
    split at hc
    · simp only [List.mem_cons, List.mem_nil_iff, or_false] at hc; rcases hc with rfl | rfl <;> decide
    split at hc
    · simp only [List.mem_cons, List.mem_nil_iff, or_false] at hc
      rcases hc with rfl | rfl | rfl | rfl
      · decide
      · decide
      · exact hex ⟨b.toNat / 16, by omega⟩
      · exact hex ⟨b.toNat % 16, by omega⟩
    · rename_i h
      simp only [List.mem_cons, List.mem_nil_iff, or_false] at hc
      subst hc
      rw [hv _ (by omega)]; omega

theorem reprBytes_printable (bs : Bytes) : ∀ c ∈ reprBytes bs, 32 ≤ c.toNat ∧ c.toNat < 127 := by
  intro c hc
  have hq := quoteFor_or bs
  have hqn : 32 ≤ (quoteFor bs).toNat ∧ (quoteFor bs).toNat < 127 := by rcases hq with h | h <;> rw [h] <;> decide
  simp only [reprBytes, List.mem_cons, List.mem_append, List.mem_flatMap, List.mem_nil_iff, or_false] at hc
  rcases hc with rfl | rfl | ⟨b, _, h⟩ | rfl
  · decide
  · exact hqn
  · exact escByte_printable _ hq b c h
  · exact hqn

/-! ### splitting the command -/

theorem word_append (p : Str) (hp : ∀ c ∈ p, ¬ Temp.isSpace c = true) (c : Char) (hc : Temp.isSpace c = true) (s : Str) :
    word (p ++ c :: s) = (p, c :: s) := by
  induction p with
  | nil => simp [word, hc]
  | cons d p ih =>
    have hd := hp d (by simp)
    simp only [List.cons_append, word, hd, if_false, ih (fun c h => hp c (by simp [h]))]
    simp

theorem split_command (p : Str) (hp : Plain p) (bs : Bytes) :
    split 2 (command p bs) =
      [p, "-c".toList, "import dill; print(dill.loads(".toList ++ reprBytes bs ++ "))".toList] := by
  obtain ⟨hne, hsp⟩ := hp
  have e : command p bs = p ++ ' ' :: ("-c".toList ++ ' ' ::
      ("import dill; print(dill.loads(".toList ++ reprBytes bs ++ "))".toList)) := by
    simp [command]
  have h1 : (command p bs).dropWhile Temp.isSpace = command p bs := by
    rw [e]
    cases p with
    | nil => exact absurd rfl hne
    | cons c p =>
      have := hsp c (by simp)
      simp [List.dropWhile, this]
  unfold split
  rw [h1]
  have hcons : command p bs ≠ [] := by rw [e]; simp
  split
  · rename_i h; exact absurd h hcons
  · rename_i r hr
    rw [e, word_append p hsp ' ' (by decide)]
    rfl

theorem loadedBy_code (bs : Bytes) :
    loadedBy ("import dill; print(dill.loads(".toList ++ reprBytes bs ++ "))".toList) = some bs := by
  have h := readBytes_repr bs "))".toList (by decide)
  unfold loadedBy
  rw [List.append_assoc]
  simp only [List.take_left, List.drop_left, if_true, h]

/-! ### C73 -/

/-- the values that are false in Python -/
def Falsy (v : Val) : Prop := v = .none ∨ v = .bool false ∨ v = .str []

theorem truthy_false_iff (v : Val) : v.truthy = false ↔ Falsy v := by
  unfold Falsy
  cases v with
  | none => simp [Val.truthy]
  | bool b => simp [Val.truthy]
  | str s => cases s <;> simp [Val.truthy]
  | other n => simp [Val.truthy]

theorem truthy_true_iff (v : Val) : v.truthy = true ↔ ¬ Falsy v := by
  rw [← truthy_false_iff]; simp

/-- the interpreter the call asks for: the `python` keyword unless missing or None, else the running one -/
def Asked {E : Type} (sys : Sys E) (kwds : Dict String Val) (p : Str) : Prop :=
  (∃ v, Dict.get kwds "python" = some v ∧ v ≠ .none ∧ p = sys.fmt v) ∨
  ((Dict.get kwds "python" = none ∨ Dict.get kwds "python" = some .none) ∧ p = sys.executable)

/-- If the path of the interpreter holds no white space: exactly one process is started, of that interpreter, with `-c`
and a program that passes to dill.loads exactly the bytes dumps returned; the program is printable ASCII on one line
(so it holds no NUL, which no argument of a process can); and the report printed is SUCCESS exactly when the status is 0. -/
theorem C73_check_partial {E : Type} (sys : Sys E) (kwds : Dict String Val) (p : Str) (bs : Bytes)
    (hp : Asked sys kwds p) (hplain : Plain p)
    (hd : sys.dumps (check sys kwds).dumped = .ok bs) :
    ∃ code, (check sys kwds).procs = [[p, "-c".toList, code]] ∧ loadedBy code = some bs ∧
      (∀ c ∈ code, 32 ≤ c.toNat ∧ c.toNat < 127) ∧
      (∀ n, sys.call [p, "-c".toList, code] = .ok n → (check sys kwds).result = .ok () ∧
        ((∃ v, Dict.get kwds "verbose" = some v ∧ ¬ Falsy v) →
          (check sys kwds).printed = if n = 0 then ["SUCCESS"] else ["LOAD FAILED"]) ∧
        ((∀ v, Dict.get kwds "verbose" = some v → Falsy v) → (check sys kwds).printed = [])) ∧
      (∀ e, sys.call [p, "-c".toList, code] = .error e → (check sys kwds).result = .error e) := by
  refine ⟨"import dill; print(dill.loads(".toList ++ reprBytes bs ++ "))".toList, ?_⟩
  have hpy : interpreter sys (Dict.del kwds "verbose") = p := by
    unfold interpreter
    rw [Dict.get_del_ne _ (by decide)]
    rcases hp with ⟨v, h1, h2, h3⟩ | ⟨h1 | h1, h3⟩
    · rw [h1]; cases v <;> simp_all
    · rw [h1]; simp [h3]
    · rw [h1]; simp [h3]
  have hk : (check sys kwds).dumped = Dict.del (Dict.del kwds "verbose") "python" := by
    unfold check; simp only []
    cases sys.dumps (Dict.del (Dict.del kwds "verbose") "python") with
    | error e => rfl
    | ok b =>
      simp only []
      generalize split 2 _ = argv
      cases sys.call argv <;> rfl
  rw [hk] at hd
  have hs := split_command p hplain bs
  have hcheck : check sys kwds =
      (match sys.call [p, "-c".toList, "import dill; print(dill.loads(".toList ++ reprBytes bs ++ "))".toList] with
      | .error e => ⟨Dict.del (Dict.del kwds "verbose") "python",
          [[p, "-c".toList, "import dill; print(dill.loads(".toList ++ reprBytes bs ++ "))".toList]], [], .error e⟩
      | .ok n => ⟨Dict.del (Dict.del kwds "verbose") "python",
          [[p, "-c".toList, "import dill; print(dill.loads(".toList ++ reprBytes bs ++ "))".toList]],
          if ((Dict.get kwds "verbose").getD (.bool false)).truthy then
            [if n = 0 then "SUCCESS" else "LOAD FAILED"] else [], .ok ()⟩) := by
    unfold check
    simp only [hd, hpy, hs]
    cases sys.call _ <;> rfl
  rw [hcheck]
  refine ⟨?_, loadedBy_code bs, ?_, ?_, ?_⟩
  · cases sys.call _ <;> rfl
  · intro c hc
    simp only [List.mem_append] at hc
    rcases hc with (h | h) | h
    · revert c; decide
    · exact reprBytes_printable bs c h
    · revert c; decide
  · intro n hn
    rw [hn]
    refine ⟨rfl, ?_, ?_⟩
    · rintro ⟨v, hv, ht⟩; rw [← truthy_true_iff] at ht
      simp only [hv, Option.getD_some, ht, if_true]
      split <;> rfl
    · intro hv
      have : ((Dict.get kwds "verbose").getD (.bool false)).truthy = false := by
        cases h : Dict.get kwds "verbose" with
        | none => rfl
        | some v => exact (truthy_false_iff v).2 (hv v h)
      simp [this]
  · intro e he
    rw [he]

/-- dumps gets every keyword of the call except `verbose` and `python`, unchanged. -/
theorem C73_keywords {E : Type} (sys : Sys E) (kwds : Dict String Val) (k : String) :
    Dict.get (check sys kwds).dumped k = if k = "verbose" ∨ k = "python" then none else Dict.get kwds k := by
  have hk : (check sys kwds).dumped = Dict.del (Dict.del kwds "verbose") "python" := by
    unfold check; simp only []
    cases sys.dumps (Dict.del (Dict.del kwds "verbose") "python") with
    | error e => rfl
    | ok b =>
      simp only []
      generalize split 2 _ = argv
      cases sys.call argv <;> rfl
  rw [hk, Dict.get_del, Dict.get_del]
  by_cases h1 : k = "python" <;> by_cases h2 : k = "verbose" <;> simp [h1, h2]

/-- When the object cannot be dumped the error of dumps comes out, no process is started, and the only thing printed is
DUMP FAILED, if verbose. -/
theorem C73_dump_failed {E : Type} (sys : Sys E) (kwds : Dict String Val) (e : E)
    (hd : sys.dumps (check sys kwds).dumped = .error e) :
    (check sys kwds).result = .error e ∧ (check sys kwds).procs = [] ∧
    ((∃ v, Dict.get kwds "verbose" = some v ∧ ¬ Falsy v) → (check sys kwds).printed = ["DUMP FAILED"]) ∧
    ((∀ v, Dict.get kwds "verbose" = some v → Falsy v) → (check sys kwds).printed = []) := by
  have hk : (check sys kwds).dumped = Dict.del (Dict.del kwds "verbose") "python" := by
    unfold check; simp only []
    cases sys.dumps (Dict.del (Dict.del kwds "verbose") "python") with
    | error e => rfl
    | ok b =>
      simp only []
      generalize split 2 _ = argv
      cases sys.call argv <;> rfl
  rw [hk] at hd
  have hc : check sys kwds = ⟨Dict.del (Dict.del kwds "verbose") "python", [],
      if ((Dict.get kwds "verbose").getD (.bool false)).truthy then ["DUMP FAILED"] else [], .error e⟩ := by
    unfold check; simp only [hd]
  rw [hc]
  refine ⟨rfl, rfl, ?_, ?_⟩
  · rintro ⟨v, hv, ht⟩; rw [← truthy_true_iff] at ht; simp [hv, ht]
  · intro hv
    have : ((Dict.get kwds "verbose").getD (.bool false)).truthy = false := by
      cases h : Dict.get kwds "verbose" with
      | none => rfl
      | some v => exact (truthy_false_iff v).2 (hv v h)
    simp [this]

/-- The FIXME of line 2234: an interpreter in a directory with a space in its name is not started at all. -/
def spaced : Sys Unit where
  dumps _ := .ok [0x80, 4, 0x4b, 1, 0x2e]
  fmt v := match v with | .str s => s | _ => []
  executable := "/usr/bin/python3".toList
  call _ := .ok 0

theorem C73_path_with_space :
    ¬ (∀ (sys : Sys Unit) (kwds : Dict String Val) (p : Str) (bs : Bytes), Asked sys kwds p →
        sys.dumps (check sys kwds).dumped = .ok bs → ∃ code, (check sys kwds).procs = [[p, "-c".toList, code]]) := by
  intro h
  obtain ⟨code, hc⟩ := h spaced [("python", .str "/opt/my python/bin/python3".toList)] "/opt/my python/bin/python3".toList
    [0x80, 4, 0x4b, 1, 0x2e] (Or.inl ⟨_, rfl, by decide, rfl⟩) rfl
  have : (check spaced [("python", .str "/opt/my python/bin/python3".toList)]).procs.head?.bind List.head? =
      some "/opt/my".toList := by decide +kernel
  rw [hc] at this
  simp at this

/-- The documented keywords of loads do not reach the other interpreter, and neither does `verbose`: the process depends
on the bytes and the path only. -/
theorem C73_load_options_dropped {E : Type} (sys : Sys E) (kwds : Dict String Val) (k : String) (v : Val)
    (hk : k ≠ "python") (bs : Bytes) (hp : ∀ p, Asked sys kwds p → Plain p)
    (h1 : sys.dumps (check sys kwds).dumped = .ok bs) (h2 : sys.dumps (check sys (Dict.set kwds k v)).dumped = .ok bs) :
    (check sys (Dict.set kwds k v)).procs = (check sys kwds).procs := by
  have hex : ∃ p, Asked sys kwds p := by
    cases h : Dict.get kwds "python" with
    | none => exact ⟨_, Or.inr ⟨Or.inl h, rfl⟩⟩
    | some w =>
      by_cases hw : w = .none
      · subst hw; exact ⟨_, Or.inr ⟨Or.inr h, rfl⟩⟩
      · exact ⟨_, Or.inl ⟨w, h, hw, rfl⟩⟩
  obtain ⟨p, ha⟩ := hex
  have ha' : Asked sys (Dict.set kwds k v) p := by
    unfold Asked at *
    rw [Dict.get_set_ne _ _ (Ne.symm hk)]
    exact ha
  have hpl := hp p ha
  have key : ∀ kw, Asked sys kw p → sys.dumps (check sys kw).dumped = .ok bs →
      (check sys kw).procs = [[p, "-c".toList, "import dill; print(dill.loads(".toList ++ reprBytes bs ++ "))".toList]] := by
    intro kw hkw hd
    obtain ⟨code, hc, -⟩ := C73_check_partial sys kw p bs hkw hpl hd
    have hkk : (check sys kw).dumped = Dict.del (Dict.del kw "verbose") "python" := by
      unfold check; simp only []
      cases sys.dumps (Dict.del (Dict.del kw "verbose") "python") with
      | error e => rfl
      | ok b =>
        simp only []
        generalize split 2 _ = argv
        cases sys.call argv <;> rfl
    have hpy : interpreter sys (Dict.del kw "verbose") = p := by
      unfold interpreter
      rw [Dict.get_del_ne _ (by decide)]
      rcases hkw with ⟨v, h1, h2, h3⟩ | ⟨h1 | h1, h3⟩
      · rw [h1]; cases v <;> simp_all
      · rw [h1]; simp [h3]
      · rw [h1]; simp [h3]
    rw [hkk] at hd
    have hs := split_command p hpl bs
    unfold check
    simp only [hd, hpy, hs]
    cases sys.call _ <;> rfl
  rw [key _ ha h1, key _ ha' h2]

/-! ### concrete cases -/

/-- a pickle of both quotes, a backslash, a NUL, a newline and high bytes -/
example : reprBytes [0x80, 4, 39, 34, 92, 0, 10, 0xff, 0x2e] = "b'\\x80\\x04\\'\"\\\\\\x00\\n\\xff.'".toList := by
  decide +kernel
example : reprBytes [39] = "b\"'\"".toList := by decide +kernel
example : reprBytes [] = "b''".toList := by decide +kernel

example : Asked spaced [("verbose", .bool true)] "/usr/bin/python3".toList ∧ Plain "/usr/bin/python3".toList ∧
    spaced.dumps (check spaced [("verbose", .bool true)]).dumped = .ok [0x80, 4, 0x4b, 1, 0x2e] ∧
    (check spaced [("verbose", .bool true)]).printed = ["SUCCESS"] ∧
    (check spaced [("verbose", .bool true)]).procs = [["/usr/bin/python3".toList, "-c".toList,
      "import dill; print(dill.loads(b'\\x80\\x04K\\x01.'))".toList]] :=
  ⟨Or.inr ⟨Or.inl rfl, rfl⟩, by decide, rfl, by decide +kernel, by decide +kernel⟩

example : (check { spaced with dumps := fun _ => .error () } [("verbose", .bool true), ("byref", .bool true)]).printed =
    ["DUMP FAILED"] := by decide +kernel

end Verif.Check
