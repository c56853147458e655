import Verif.Model.Settings
set_option linter.unusedSimpArgs false
set_option linter.unusedVariables false
namespace Verif.Settings

deriving instance DecidableEq for Except

/-! ### specification -/

/-- The value an option should take: the argument, when one is passed that is not None, and otherwise the
setting. -/
def Effective (settings kw : Table) (k : String) (v : Val) : Prop :=
  (kw.get k = some v ∧ v ≠ .none) ∨ ((kw.get k = none ∨ kw.get k = some .none) ∧ settings.get k = some v)

/-- The protocol: an integer made from the argument or taken from the settings; None means pickle's default and a
negative number the highest protocol. -/
def EffectiveProtocol (int? : Nat → Option Int) (settings kw : Table) (p : Int) : Prop :=
  ∃ v, Effective settings kw "protocol" v ∧
    (v = .int p ∧ 0 ≤ p ∧ p ≤ 5 ∨ (∃ n, v = .int n ∧ n < 0 ∧ p = 5) ∨ (v = .none ∧ p = 4) ∨
      (∃ k n, v = .other k ∧ int? k = some n ∧ (n = p ∧ 0 ≤ p ∧ p ≤ 5 ∨ n < 0 ∧ p = 5)))

/-- the value last assigned to a setting, else the initial one. -/
def lastSet (init : Table) (k : String) : List Op → Option Val
  | [] => init.get k
  | op :: ops => match op with
    | .set k' v => lastSet (init.set k' v) k ops
    | _ => lastSet init k ops

/-! ### C42 -/

theorem orSetting_ok {settings kw : Table} {k : String} {r v : Val} (hr : r = (kw.get k).getD .none)
    (h : orSetting settings k r = .ok v) : Effective settings kw k v := by
  unfold orSetting at h
  cases hk : kw.get k with
  | none =>
    rw [hk] at hr
    simp only [Option.getD_none] at hr
    subst hr
    simp only at h
    cases hs : settings.get k with
    | none => simp [hs] at h
    | some w => simp only [hs, Except.ok.injEq] at h; subst h; exact .inr ⟨.inl hk, hs⟩
  | some w =>
    rw [hk] at hr
    simp only [Option.getD_some] at hr
    subst hr
    cases r with
    | none =>
      cases hs : settings.get k with
      | none => simp [hs] at h
      | some w => simp only [hs, Except.ok.injEq] at h; subst h; exact .inr ⟨.inr hk, hs⟩
    | int n => simp only [Except.ok.injEq] at h; subst h; exact .inl ⟨hk, by simp⟩
    | other n => simp only [Except.ok.injEq] at h; subst h; exact .inl ⟨hk, by simp⟩

theorem picklerInit_ok {settings kw : Table} {p : Val} {c : PickleCfg} (h : picklerInit settings p kw = .ok c) :
    normProtocol p = .ok c.proto ∧ orSetting settings "byref" ((kw.get "byref").getD .none) = .ok c.byref ∧
    orSetting settings "fmode" ((kw.get "fmode").getD .none) = .ok c.fmode ∧
    orSetting settings "recurse" ((kw.get "recurse").getD .none) = .ok c.recurse := by
  unfold picklerInit popNone at h
  dsimp only at h
  split at h
  · cases h
  cases hn : normProtocol p with
  | error e => simp [hn] at h
  | ok proto =>
    simp only [hn] at h
    split at h
    · cases h
    rename_i b hb
    split at h
    · cases h
    rename_i f hf
    split at h
    · cases h
    rename_i r hr
    simp only [Except.ok.injEq] at h
    subst h
    rw [Dict.get_del_ne _ (by decide)] at hf
    rw [Dict.get_del_ne _ (by decide), Dict.get_del_ne _ (by decide)] at hr
    exact ⟨rfl, hb, hf, hr⟩

theorem update3_get (d : Table) (a b c : Val) :
    (d.update [("byref", a), ("fmode", b), ("recurse", c)]).get "byref" = some a ∧
    (d.update [("byref", a), ("fmode", b), ("recurse", c)]).get "fmode" = some b ∧
    (d.update [("byref", a), ("fmode", b), ("recurse", c)]).get "recurse" = some c := by
  simp [Dict.update, Dict.get_set]

/-- C42 for dump/dumps: every option of the pickler is the argument when one is given, else the setting. -/
theorem C42_dump_options (int? : Nat → Option Int) (settings kw : Table) (c : PickleCfg)
    (h : dump int? settings kw = .ok c) :
    EffectiveProtocol int? settings kw c.proto ∧ Effective settings kw "byref" c.byref ∧
    Effective settings kw "fmode" c.fmode ∧ Effective settings kw "recurse" c.recurse := by
  unfold dump popNone at h
  dsimp only at h
  cases hp : dumpProtocol int? settings ((kw.get "protocol").getD .none) with
  | error e => simp [hp] at h
  | ok p =>
    simp only [hp] at h
    obtain ⟨hn, hb, hf, hr⟩ := picklerInit_ok h
    obtain ⟨u1, u2, u3⟩ := update3_get ((((kw.del "protocol").del "byref").del "fmode").del "recurse")
      (((kw.del "protocol").get "byref").getD .none)
      ((((kw.del "protocol").del "byref").get "fmode").getD .none)
      (((((kw.del "protocol").del "byref").del "fmode").get "recurse").getD .none)
    rw [u1, Option.getD_some] at hb
    rw [u2, Option.getD_some] at hf
    rw [u3, Option.getD_some] at hr
    generalize c.proto = proto at hn
    refine ⟨?_, orSetting_ok ?_ hb, orSetting_ok ?_ hf, orSetting_ok ?_ hr⟩
    · -- the protocol
      have norm : ∀ v p', normProtocol v = .ok p' → (v = .int p' ∧ 0 ≤ p' ∧ p' ≤ 5) ∨
          (∃ n, v = .int n ∧ n < 0 ∧ p' = 5) ∨ (v = .none ∧ p' = 4) := by
        intro v p' h
        cases v with
        | none => simp [normProtocol, defaultProtocol] at h; exact .inr (.inr ⟨rfl, h.symm⟩)
        | other k => simp [normProtocol] at h
        | int n =>
          simp only [normProtocol, highestProtocol] at h
          by_cases h1 : n < 0
          · simp only [h1, if_true, Except.ok.injEq] at h; exact .inr (.inl ⟨n, rfl, h1, h.symm⟩)
          · simp only [h1, if_false] at h
            by_cases h2 : n ≤ 5
            · simp only [h2, if_true, Except.ok.injEq] at h; subst h; exact .inl ⟨rfl, by omega, h2⟩
            · simp [h2] at h
      have fromSettings : (kw.get "protocol" = none ∨ kw.get "protocol" = some .none) →
          EffectiveProtocol int? settings kw proto := by
        intro hk
        have : (kw.get "protocol").getD .none = .none := by rcases hk with h | h <;> rw [h] <;> rfl
        rw [this] at hp
        simp only [dumpProtocol] at hp
        cases hs : settings.get "protocol" with
        | none => simp [hs] at hp
        | some v =>
          simp only [hs, Except.ok.injEq] at hp
          subst hp
          refine ⟨v, .inr ⟨hk, hs⟩, ?_⟩
          rcases norm v proto hn with h | h | h
          · exact .inl h
          · exact .inr (.inl h)
          · exact .inr (.inr (.inl h))
      cases hk : kw.get "protocol" with
      | none => exact fromSettings (.inl hk)
      | some v =>
        cases v with
        | none => exact fromSettings (.inr hk)
        | int n =>
          rw [hk] at hp
          simp only [Option.getD_some, dumpProtocol, toInt, Except.ok.injEq] at hp
          subst hp
          refine ⟨.int n, .inl ⟨hk, by simp⟩, ?_⟩
          rcases norm _ proto hn with h | h | h
          · exact .inl h
          · exact .inr (.inl h)
          · exact .inr (.inr (.inl h))
        | other k =>
          rw [hk] at hp
          simp only [Option.getD_some, dumpProtocol, toInt] at hp
          cases hi : int? k with
          | none => simp [hi] at hp
          | some n =>
            simp only [hi, Except.ok.injEq] at hp
            subst hp
            refine ⟨.other k, .inl ⟨hk, by simp⟩, .inr (.inr (.inr ⟨k, n, rfl, hi, ?_⟩))⟩
            rcases norm _ proto hn with ⟨h, h'⟩ | ⟨n', h, h'⟩ | ⟨h, _⟩
            · cases h; exact .inl ⟨rfl, h'⟩
            · cases h; exact .inr h'
            · cases h
    · rw [Dict.get_del_ne _ (by decide)]
    · rw [Dict.get_del_ne _ (by decide), Dict.get_del_ne _ (by decide)]
    · rw [Dict.get_del_ne _ (by decide), Dict.get_del_ne _ (by decide), Dict.get_del_ne _ (by decide)]

/-- C42 for load/loads. -/
theorem C42_load_options (settings kw : Table) (v : Val) (h : load settings kw = .ok v) :
    Effective settings kw "ignore" v := by
  unfold load at h
  simp only [popNone] at h
  split at h
  · cases h
  · exact orSetting_ok rfl h

/-- C42 for copy: it is dump and load with the same rules. -/
theorem C42_copy_options (int? : Nat → Option Int) (settings kw : Table) (c : PickleCfg) (v : Val)
    (h : copy int? settings kw = .ok (c, v)) :
    EffectiveProtocol int? settings kw c.proto ∧ Effective settings kw "byref" c.byref ∧
    Effective settings kw "fmode" c.fmode ∧ Effective settings kw "recurse" c.recurse ∧
    Effective settings kw "ignore" v := by
  unfold copy at h
  cases hs : settings.get "ignore" with
  | none => simp [hs] at h
  | some dflt =>
    simp only [hs] at h
    cases hd : dump int? settings (kw.del "ignore") with
    | error e => simp [hd] at h
    | ok c' =>
      simp only [hd] at h
      cases hl : load settings [("ignore", (kw.get "ignore").getD dflt)] with
      | error e => simp [hl] at h
      | ok i =>
        simp only [hl, Except.ok.injEq, Prod.mk.injEq] at h
        obtain ⟨rfl, rfl⟩ := h
        obtain ⟨h1, h2, h3, h4⟩ := C42_dump_options int? settings _ c' hd
        have lift : ∀ k v, k ≠ "ignore" → Effective settings (kw.del "ignore") k v → Effective settings kw k v := by
          intro k v hk h
          unfold Effective at h ⊢
          rwa [Dict.get_del_ne _ hk] at h
        refine ⟨?_, lift _ _ (by decide) h2, lift _ _ (by decide) h3, lift _ _ (by decide) h4, ?_⟩
        · obtain ⟨w, hw, h⟩ := h1
          exact ⟨w, lift _ _ (by decide) hw, h⟩
        · have := C42_load_options settings _ i hl
          unfold Effective at this ⊢
          simp only [Dict.get, if_true, Option.some.injEq] at this
          cases hk : kw.get "ignore" with
          | none =>
            rw [hk] at this
            simp only [Option.getD_none] at this
            rcases this with ⟨h, _⟩ | ⟨_, h⟩
            · exact .inr ⟨.inl rfl, by rw [hs, h]⟩
            · exact .inr ⟨.inl rfl, h⟩
          | some w =>
            rw [hk] at this
            simp only [Option.getD_some] at this
            rcases this with ⟨rfl, h⟩ | ⟨h', h⟩
            · exact .inl ⟨rfl, h⟩
            · simp at h'; subst h'; exact .inr ⟨.inr rfl, h⟩

/-- With every setting present, known keywords and an acceptable protocol, dump never fails on its options. -/
theorem C42_dump_total (int? : Nat → Option Int) (settings : Table) (proto : Option Int) (byref fmode recurse : Val)
    (hs : ∀ k ∈ ["byref", "fmode", "recurse"], (settings.get k).isSome)
    (hp : ∃ n, settings.get "protocol" = some (.int n) ∧ n ≤ 5) (hp' : ∀ n, proto = some n → n ≤ 5) :
    ∃ c, dump int? settings ((match proto with | some n => [("protocol", Val.int n)] | none => []) ++
      [("byref", byref), ("fmode", fmode), ("recurse", recurse)]) = .ok c := by
  obtain ⟨ps, hps, hle⟩ := hp
  have os : ∀ k ∈ ["byref", "fmode", "recurse"], ∀ v, ∃ w, orSetting settings k v = .ok w := by
    intro k hk v
    obtain ⟨w, hw⟩ := Option.isSome_iff_exists.1 (hs k hk)
    cases v with
    | none => exact ⟨w, by simp [orSetting, hw]⟩
    | int n => exact ⟨_, rfl⟩
    | other n => exact ⟨_, rfl⟩
  obtain ⟨b, hb⟩ := os "byref" (by simp) byref
  obtain ⟨f, hf⟩ := os "fmode" (by simp) fmode
  obtain ⟨r, hr⟩ := os "recurse" (by simp) recurse
  have norm : ∀ n : Int, n ≤ 5 → ∃ p, normProtocol (.int n) = .ok p := by
    intro n hn
    by_cases h : n < 0
    · exact ⟨5, by simp [normProtocol, h, highestProtocol]⟩
    · exact ⟨n, by simp [normProtocol, h, highestProtocol, hn]⟩
  cases proto with
  | none =>
    obtain ⟨p, hpp⟩ := norm ps hle
    refine ⟨⟨p, b, f, r⟩, ?_⟩
    simp [dump, popNone, Dict.get, Dict.del, dumpProtocol, hps, picklerInit, Dict.update, Dict.set, hpp, hb, hf, hr,
      Dict.keys, badKw]
  | some n =>
    obtain ⟨p, hpp⟩ := norm n (hp' n rfl)
    refine ⟨⟨p, b, f, r⟩, ?_⟩
    simp [dump, popNone, Dict.get, Dict.del, dumpProtocol, toInt, picklerInit, Dict.update, Dict.set, hpp, hb, hf, hr,
      Dict.keys, badKw]

/-- C42: whatever calls are made, the settings hold exactly what was last assigned to them. -/
theorem C42_calls_keep_settings (int? : Nat → Option Int) : ∀ (ops : List Op) (settings : Table) (k : String),
    (run int? settings ops).1.get k = lastSet settings k ops
  | [], s, k => rfl
  | op :: ops, s, k => by
    cases op with
    | set k' v => simp only [run, step, lastSet]; exact C42_calls_keep_settings int? ops _ k
    | dump kw => simp only [run, step, lastSet]; exact C42_calls_keep_settings int? ops _ k
    | load kw => simp only [run, step, lastSet]; exact C42_calls_keep_settings int? ops _ k
    | copy kw => simp only [run, step, lastSet]; exact C42_calls_keep_settings int? ops _ k

/-- C42: a call made after any history sees the settings as last assigned (not those at import). -/
theorem C42_settings_at_call (int? : Nat → Option Int) (settings : Table) (ops : List Op) (kw : Table)
    (c : PickleCfg) (h : dump int? (run int? settings ops).1 kw = .ok c) (hk : kw.get "recurse" = none) :
    lastSet settings "recurse" ops = some c.recurse := by
  rcases (C42_dump_options int? _ kw c h).2.2.2 with ⟨h1, _⟩ | ⟨_, h2⟩
  · rw [hk] at h1; cases h1
  · rw [← C42_calls_keep_settings int?, h2]

/-- the keywords load accepts -/
def LoadKeyword (k : String) : Prop := k = "ignore" ∨ k = "fix_imports" ∨ k = "encoding" ∨ k = "errors" ∨ k = "buffers"

/-- the keywords dump accepts -/
def DumpKeyword (k : String) : Prop :=
  k = "protocol" ∨ k = "byref" ∨ k = "fmode" ∨ k = "recurse" ∨ k = "fix_imports" ∨ k = "buffer_callback"

theorem badKw_false (allowed : List String) (kw : Table) :
    badKw allowed kw = false ↔ ∀ k, kw.get k ≠ none → k ∈ allowed := by
  simp only [badKw, List.any_eq_false, Bool.not_eq_true, Bool.not_eq_false', List.contains_iff_mem]
  constructor
  · intro h k hk
    by_cases hm : k ∈ kw.keys
    · have := h k hm; simpa using this
    · exact absurd ((Dict.get_eq_none_iff kw k).2 hm) hk
  · intro h k hk
    have := h k (fun he => ((Dict.get_eq_none_iff kw k).1 he) hk)
    simpa using this

/-- C42: load works on its options exactly when every keyword is one of its own or of the stock Unpickler's, and
`ignore` is given or set; otherwise it raises. -/
theorem C42_load_accepts (settings kw : Table) :
    (∃ v, load settings kw = .ok v) ↔
      (∀ k, kw.get k ≠ none → LoadKeyword k) ∧
      ((∃ v, kw.get "ignore" = some v ∧ v ≠ .none) ∨ (settings.get "ignore").isSome) := by
  unfold load
  simp only [popNone]
  have hk : badKw unpicklerKw (kw.del "ignore") = false ↔ ∀ k, kw.get k ≠ none → LoadKeyword k := by
    rw [badKw_false]
    constructor
    · intro h k hk
      by_cases e : k = "ignore"
      · exact .inl e
      · have := h k (by rwa [Dict.get_del_ne _ e])
        simp only [unpicklerKw, List.mem_cons, List.not_mem_nil, or_false] at this
        exact .inr this
    · intro h k hk
      by_cases e : k = "ignore"
      · subst e; rw [Dict.get_del_self] at hk; exact absurd rfl hk
      · rw [Dict.get_del_ne _ e] at hk
        rcases h k hk with h | h
        · exact absurd h e
        · simp only [unpicklerKw, List.mem_cons, List.not_mem_nil, or_false]; exact h
  have hv : (∃ v, orSetting settings "ignore" ((kw.get "ignore").getD .none) = .ok v) ↔
      ((∃ v, kw.get "ignore" = some v ∧ v ≠ .none) ∨ (settings.get "ignore").isSome) := by
    cases hg : kw.get "ignore" with
    | none => cases hs : settings.get "ignore" <;> simp [orSetting, hs]
    | some v =>
      cases v with
      | none => cases hs : settings.get "ignore" <;> simp [orSetting, hs]
      | int n => simp [orSetting]
      | other n => simp [orSetting]
  rw [← hk, ← hv]
  cases badKw unpicklerKw (kw.del "ignore") <;> simp

theorem update3_other (d : Table) (a b c : Val) (k : String) (h1 : k ≠ "byref") (h2 : k ≠ "fmode") (h3 : k ≠ "recurse") :
    (d.update [("byref", a), ("fmode", b), ("recurse", c)]).get k = d.get k := by
  simp [Dict.update, Dict.get_set, h1, h2, h3]

/-- C42: dump raises on a keyword that is neither its own nor the stock Pickler's. -/
theorem C42_dump_unknown (int? : Nat → Option Int) (settings kw : Table) (c : PickleCfg)
    (h : dump int? settings kw = .ok c) (k : String) (hk : kw.get k ≠ none) : DumpKeyword k := by
  by_cases e0 : k = "protocol"
  · exact .inl e0
  by_cases e1 : k = "byref"
  · exact .inr (.inl e1)
  by_cases e2 : k = "fmode"
  · exact .inr (.inr (.inl e2))
  by_cases e3 : k = "recurse"
  · exact .inr (.inr (.inr (.inl e3)))
  unfold dump popNone at h
  dsimp only at h
  cases hp : dumpProtocol int? settings ((kw.get "protocol").getD .none) with
  | error e => simp [hp] at h
  | ok p =>
    simp only [hp] at h
    unfold picklerInit popNone at h
    dsimp only at h
    generalize hd : ((((kw.del "protocol").del "byref").del "fmode").del "recurse") = d at h
    generalize hu : Dict.update d _ = u at h
    have hgu : u.get k = kw.get k := by
      rw [← hu, update3_other _ _ _ _ _ e1 e2 e3, ← hd, Dict.get_del_ne _ e3, Dict.get_del_ne _ e2, Dict.get_del_ne _ e1,
        Dict.get_del_ne _ e0]
    split at h
    · cases h
    · rename_i hb
      have := (badKw_false _ _).1 hb k (by
        rw [Dict.get_del_ne _ e3, Dict.get_del_ne _ e2, Dict.get_del_ne _ e1, hgu]; exact hk)
      simp only [picklerKw, List.mem_cons, List.not_mem_nil, or_false] at this
      exact .inr (.inr (.inr (.inr this)))

/-- C42: dump with keywords of its own and of the stock Pickler, an acceptable protocol and every setting there does not fail
on its options. -/
theorem C42_dump_accepts (int? : Nat → Option Int) (settings kw : Table) (hkw : ∀ k, kw.get k ≠ none → DumpKeyword k)
    (hs : ∀ k ∈ ["byref", "fmode", "recurse"], (settings.get k).isSome)
    (hp : ∃ n, settings.get "protocol" = some (.int n) ∧ n ≤ 5)
    (hp' : ∀ v, kw.get "protocol" = some v → v ≠ .none → ∃ n, v = .int n ∧ n ≤ 5) :
    ∃ c, dump int? settings kw = .ok c := by
  obtain ⟨ps, hps, hle⟩ := hp
  have hn : ∀ n : Int, n ≤ 5 → ∃ w, normProtocol (.int n) = .ok w := by
    intro n hn
    simp only [normProtocol, highestProtocol]
    split
    · exact ⟨_, rfl⟩
    · exact ⟨_, if_pos hn⟩
  have hproto : ∃ p q, dumpProtocol int? settings ((kw.get "protocol").getD .none) = .ok p ∧ normProtocol p = .ok q := by
    have hdef : ∃ p q, dumpProtocol int? settings .none = .ok p ∧ normProtocol p = .ok q := by
      obtain ⟨w, hw⟩ := hn ps hle
      exact ⟨_, w, by simp [dumpProtocol, hps], hw⟩
    cases hg : kw.get "protocol" with
    | none => exact hdef
    | some v =>
      by_cases hv : v = .none
      · subst hv; exact hdef
      · obtain ⟨n, rfl, hle'⟩ := hp' v hg hv
        obtain ⟨w, hw⟩ := hn n hle'
        exact ⟨_, w, rfl, hw⟩
  obtain ⟨p, q, hp1, hq⟩ := hproto
  have os : ∀ k ∈ ["byref", "fmode", "recurse"], ∀ v, ∃ w, orSetting settings k v = .ok w := by
    intro k hk v
    obtain ⟨w, hw⟩ := Option.isSome_iff_exists.1 (hs k hk)
    cases v with
    | none => exact ⟨w, by simp [orSetting, hw]⟩
    | int n => exact ⟨_, rfl⟩
    | other n => exact ⟨_, rfl⟩
  unfold dump popNone
  dsimp only
  rw [hp1]
  dsimp only
  unfold picklerInit popNone
  dsimp only
  generalize hd : ((((kw.del "protocol").del "byref").del "fmode").del "recurse") = d
  generalize hu : Dict.update d _ = u
  have hb : badKw picklerKw (((u.del "byref").del "fmode").del "recurse") = false := by
    rw [badKw_false]
    intro k hk
    by_cases e3 : k = "recurse"
    · subst e3; rw [Dict.get_del_self] at hk; exact absurd rfl hk
    rw [Dict.get_del_ne _ e3] at hk
    by_cases e2 : k = "fmode"
    · subst e2; rw [Dict.get_del_self] at hk; exact absurd rfl hk
    rw [Dict.get_del_ne _ e2] at hk
    by_cases e1 : k = "byref"
    · subst e1; rw [Dict.get_del_self] at hk; exact absurd rfl hk
    rw [Dict.get_del_ne _ e1, ← hu, update3_other _ _ _ _ _ e1 e2 e3, ← hd, Dict.get_del_ne _ e3, Dict.get_del_ne _ e2,
      Dict.get_del_ne _ e1] at hk
    by_cases e0 : k = "protocol"
    · subst e0; rw [Dict.get_del_self] at hk; exact absurd rfl hk
    rw [Dict.get_del_ne _ e0] at hk
    rcases hkw k hk with h | h | h | h | h
    · exact absurd h e0
    · exact absurd h e1
    · exact absurd h e2
    · exact absurd h e3
    · simp only [picklerKw, List.mem_cons, List.not_mem_nil, or_false]; exact h
  rw [hb]
  dsimp only
  rw [hq]
  dsimp only
  obtain ⟨w1, h1⟩ := os "byref" (by simp) ((u.get "byref").getD .none)
  obtain ⟨w2, h2⟩ := os "fmode" (by simp) (((u.del "byref").get "fmode").getD .none)
  obtain ⟨w3, h3⟩ := os "recurse" (by simp) ((((u.del "byref").del "fmode").get "recurse").getD .none)
  rw [h1, h2, h3]
  exact ⟨_, rfl⟩

theorem run_append (int? : Nat → Option Int) : ∀ (pre post : List Op) (s : Table),
    run int? s (pre ++ post) =
      ((run int? (run int? s pre).1 post).1, (run int? s pre).2 ++ (run int? (run int? s pre).1 post).2)
  | [], post, s => rfl
  | op :: pre, post, s => by
    simp only [List.cons_append, run]
    rw [run_append int? pre post]
    simp

/-- C42: in any history, each call works with its own arguments and the settings assigned before it, and neither with
settings assigned later nor with another call's. -/
theorem C42_each_call (int? : Nat → Option Int) (s : Table) (pre post : List Op) (kw : Table) :
    (run int? s (pre ++ .dump kw :: post)).2 =
      (run int? s pre).2 ++ .dump (dump int? (run int? s pre).1 kw) :: (run int? (run int? s pre).1 post).2 ∧
    (run int? s (pre ++ .load kw :: post)).2 =
      (run int? s pre).2 ++ .load (load (run int? s pre).1 kw) :: (run int? (run int? s pre).1 post).2 ∧
    (run int? s (pre ++ .copy kw :: post)).2 =
      (run int? s pre).2 ++ .copy (copy int? (run int? s pre).1 kw) :: (run int? (run int? s pre).1 post).2 := by
  refine ⟨?_, ?_, ?_⟩ <;> · rw [run_append]; rfl

def defaults : Table :=
  [("protocol", .int 4), ("byref", .other 0), ("fmode", .int 0), ("recurse", .other 0), ("ignore", .other 0)]

example : dump (fun _ => none) defaults [("recurse", .other 1), ("protocol", .int (-1))] =
    .ok ⟨5, .other 0, .int 0, .other 1⟩ := by decide

/-- the buffer callback of the stock Pickler is accepted, and a misspelt option is not -/
example : dump (fun _ => none) defaults [("buffer_callback", .other 7)] = .ok ⟨4, .other 0, .int 0, .other 0⟩ ∧
    dump (fun _ => none) defaults [("recursive", .other 7)] = .error .typeError ∧
    load defaults [("encoding", .other 7)] = .ok (.other 0) ∧ load defaults [("recurse", .other 1)] = .error .typeError := by
  decide

/-! ### C43 -/

/-- C43: with ignore=False, an object whose class says it is from `__main__` gets the class of that name in
`__main__`, when there is one and it can be assigned. -/
theorem C43_repointed (W : World) (obj : Obj) (c : Cls) (hm : W.modOf (W.classOf obj) = W.mainName)
    (hc : W.mainAttr (W.nameOf (W.classOf obj)) = some c) (hs : W.setClass obj c = none) :
    (loadFix W false obj).1 obj = c ∧ (loadFix W false obj).2 = none ∧
      ∀ o, o ≠ obj → (loadFix W false obj).1 o = W.classOf o := by
  simp only [loadFix, hm, if_true, Bool.not_false, hc, hs]
  exact ⟨trivial, trivial, fun o ho => by simp [ho]⟩

/-- C43: otherwise nothing changes: ignore=True, a class of another module, no such name in `__main__`, or an
object whose class cannot be assigned (AttributeError or TypeError). -/
theorem C43_left_alone (W : World) (obj : Obj) (ignore : Bool)
    (h : ignore = true ∨ W.modOf (W.classOf obj) ≠ W.mainName ∨
      W.mainAttr (W.nameOf (W.classOf obj)) = none ∨
      ∃ c, W.mainAttr (W.nameOf (W.classOf obj)) = some c ∧
        (W.setClass obj c = some .attributeError ∨ W.setClass obj c = some .typeError)) :
    loadFix W ignore obj = (W.classOf, none) := by
  unfold loadFix
  by_cases hm : W.modOf (W.classOf obj) = W.mainName
  · simp only [hm, if_true]
    rcases h with rfl | h | h | ⟨c, hc, h | h⟩
    · simp
    · exact absurd hm h
    · cases ignore <;> simp [h]
    · cases ignore <;> simp [hc, h]
    · cases ignore <;> simp [hc, h]
  · simp [hm]

/-- C43: loading changes the class of no other object, ever, and an exception escapes only if assigning
`__class__` raised something other than AttributeError or TypeError. -/
theorem C43_only_the_result (W : World) (ignore : Bool) (obj : Obj) :
    (∀ o, o ≠ obj → (loadFix W ignore obj).1 o = W.classOf o) ∧
    ((loadFix W ignore obj).2.isSome → ∃ c, W.mainAttr (W.nameOf (W.classOf obj)) = some c ∧
      W.setClass obj c = some .other) := by
  unfold loadFix
  split
  · split
    · split
      · simp
      · rename_i c hc
        cases hs : W.setClass obj c with
        | none => simp only; exact ⟨fun o ho => by simp [ho], by simp⟩
        | some e =>
          cases e with
          | attributeError => simp
          | typeError => simp
          | other => exact ⟨fun _ _ => rfl, fun _ => ⟨c, hc, hs⟩⟩
    · simp
  · simp

def exW : World where
  classOf o := if o = 1 then 10 else 11
  modOf c := if c = 10 then "__main__" else "collections"
  nameOf c := if c = 10 then "A" else "OrderedDict"
  mainName := "__main__"
  mainAttr n := if n = "A" then some 12 else none
  setClass _ _ := none

example : (loadFix exW false 1).1 1 = 12 ∧ (loadFix exW true 1).1 1 = 10 ∧ (loadFix exW false 2).1 2 = 11 := by
  decide

end Verif.Settings
