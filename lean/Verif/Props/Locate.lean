import Verif.Spec.Locate
set_option linter.unusedSimpArgs false
set_option linter.unusedVariables false
namespace Verif.Locate

deriving instance DecidableEq for Except

theorem getAttribute_leads {E : Env} : ∀ {p : Path} {o f par : Obj}, getAttribute E o p = some (f, par) →
    Leads E o p f ∧ ∃ l, p.getLast? = some l ∧ l ≠ "<locals>" ∧ E.attr par l = some f
  | [], _, _, _, h => by simp [getAttribute] at h
  | [s], o, f, par, h => by
    simp only [getAttribute] at h
    by_cases hs : s = "<locals>"
    · simp [hs] at h
    · simp only [hs, if_false, Option.map_eq_some_iff, Prod.mk.injEq] at h
      obtain ⟨o', ha, rfl, rfl⟩ := h
      exact ⟨.one hs ha, s, rfl, hs, ha⟩
  | s :: t :: ss, o, f, par, h => by
    simp only [getAttribute] at h
    by_cases hs : s = "<locals>"
    · simp [hs] at h
    · simp only [hs, if_false] at h
      cases ha : E.attr o s with
      | none => simp [ha] at h
      | some o' =>
        simp only [ha] at h
        obtain ⟨hl, l, h1, h2, h3⟩ := getAttribute_leads (p := t :: ss) h
        exact ⟨.more hs ha hl, l, by simpa using h1, h2, h3⟩

theorem leads_getAttribute {E : Env} {p : Path} {o f : Obj} (h : Leads E o p f) :
    ∃ par, getAttribute E o p = some (f, par) := by
  induction h with
  | @one o s r hs ha => exact ⟨o, by simp [getAttribute, hs, ha]⟩
  | @more o s o' ss r hs ha hl ih =>
    obtain ⟨par, ih⟩ := ih
    cases ss with
    | nil => cases hl
    | cons t ss => exact ⟨par, by simp only [getAttribute, hs, if_false, ha]; exact ih⟩

theorem leads_det {E : Env} {p : Path} {o f g : Obj} (h : Leads E o p f) (h' : Leads E o p g) : f = g := by
  obtain ⟨_, h⟩ := leads_getAttribute h
  obtain ⟨_, h'⟩ := leads_getAttribute h'
  rw [h] at h'; cases h'; rfl

theorem findClass_plain {E : Env} {proto : Nat} {m n : Path} : ¬ Hijacked m n → 3 ≤ proto →
    findClass E proto m n = match E.mods m with
      | none => none
      | some mo => if 4 ≤ proto then (getAttribute E mo n).map (·.1)
        else match n with
          | [s] => E.attr mo s
          | _ => none := by
  intro h hp
  unfold Hijacked at h
  simp only [not_or] at h
  obtain ⟨h1, h2, h3⟩ := h
  have : ¬ proto < 3 := by omega
  simp only [findClass, h1, h2, h3, if_false, this]
  cases E.mods m <;> first | rfl | (simp only; split <;> first | rfl | (split <;> rfl))

theorem typemap_load {E : Env} (h1 : E.revTypemap.WF)
    (h2 : ∀ k, k ∈ E.revTypemap.keys → E.revLate.get k = none) {o : Obj} {k : String}
    (h : typemap E o = some k) : loadType E k = some o := by
  simp only [typemap, Option.map_eq_some_iff] at h
  obtain ⟨⟨k', o'⟩, hf, rfl⟩ := h
  have hm := List.mem_of_find?_eq_some hf
  have hp := List.find?_some hf
  simp only [beq_iff_eq] at hp
  subst hp
  simp only [List.mem_reverse] at hm
  have hg : E.revTypemap.get k' = some o' := by
    clear hf h2
    generalize E.revTypemap = d at h1 hm
    induction d with
    | nil => cases hm
    | cons p d ih =>
      obtain ⟨a, b⟩ := p
      simp only [Dict.WF, Dict.keys_cons, List.nodup_cons] at h1
      simp only [Dict.get]
      rcases List.mem_cons.1 hm with h | h
      · cases h; simp
      · have : a ≠ k' := by
          rintro rfl
          exact h1.1 (List.mem_map.2 ⟨_, h, rfl⟩)
        simp only [this, if_false]
        exact ih h1.2 h
  have hk : k' ∈ E.revTypemap.keys := List.mem_map.2 ⟨_, hm, rfl⟩
  have hupd : ∀ (e d : Dict String Obj), e.get k' = none → (d.update e).get k' = d.get k' := by
    intro e
    induction e with
    | nil => intro d _; rfl
    | cons p e ih =>
      intro d he
      obtain ⟨a, b⟩ := p
      simp only [Dict.get] at he
      by_cases ha : a = k'
      · simp [ha] at he
      · simp only [ha, if_false] at he
        have := ih (d.set a b) he
        simp only [Dict.update, List.foldl_cons] at this ⊢
        rw [this, Dict.get_set, if_neg (Ne.symm ha)]
  rw [loadType, hupd _ _ (h2 k' hk), hg]

mutual
theorem saveGlobal_load {E : Env} {c : Cfg} (hs : Sane E c.proto) : ∀ {fuel : Nat} {o : Obj} {r : Ref},
    saveGlobal E c fuel o = .ok r → LeadsBack E o ∧
      (load E c.proto r = .obj o ∨ (¬ r.ByName ∧ load E c.proto r = .fresh))
  | 0, o, r, h => by simp [saveGlobal] at h
  | fuel + 1, o, r, h => by
    simp only [saveGlobal] at h
    cases hm : E.mods (whichmodule E o (objName E o)) with
    | none => simp [hm] at h
    | some mo =>
      simp only [hm] at h
      cases hg : getAttribute E mo (objName E o) with
      | none => simp [hg] at h
      | some p =>
        obtain ⟨o2, par⟩ := p
        simp only [hg] at h
        by_cases h2 : ¬ o2 = o
        · simp [h2] at h
        replace h2 : o2 = o := Classical.not_not.1 h2
        subst h2
        simp only [ne_eq, not_true_eq_false, if_false] at h
        obtain ⟨hl, l, hlast, hll, hattr⟩ := getAttribute_leads hg
        have hback : LeadsBack E o2 := by
          refine ⟨_, _, ?_, hm, hl⟩
          unfold whichmodule
          cases E.info o2 |>.modName <;> simp
        refine ⟨hback, ?_⟩
        simp only [hlast, Option.getD_some] at h
        have hl' : par = mo → Leads E mo [l] o2 := fun e => by subst e; exact .one hll hattr
        have hln : Leads E mo (if par = mo then [l] else objName E o2) o2 := by
          by_cases e : par = mo
          · simp only [e, if_true]; exact hl' e
          · simp only [e, if_false]; exact hl
        by_cases h4 : 4 ≤ c.proto
        · simp only [h4, if_true, Except.ok.injEq] at h
          subst h
          left
          simp only [load]
          rw [findClass_plain (hs.noHijack _ _ _ _ hm hln) (by omega)]
          obtain ⟨par', hg'⟩ := leads_getAttribute hln
          simp only [hm, h4, if_true, hg', Option.map_some]
        · simp only [h4, if_false] at h
          by_cases hp : par = mo
          · subst hp
            simp only [not_true_eq_false, if_false, if_true] at h
            by_cases h3 : 3 ≤ c.proto
            · simp only [h3, if_true, Except.ok.injEq] at h
              subst h
              left
              simp only [load]
              rw [findClass_plain (hs.noHijack _ _ _ _ hm (hl' rfl)) h3]
              simp only [hm, h4, if_false, hattr]
            · simp only [h3, if_false, Except.ok.injEq] at h
              subst h
              left
              have h3' : c.proto < 3 := by omega
              obtain ⟨hf1, hf2⟩ := hs.fix h3' _ _ _ _ hm hattr
              simp only [load]
              unfold Hijacked at hf2
              simp only [not_or] at hf2
              obtain ⟨a1, a2, a3⟩ := hf2
              simp only [findClass, a1, a2, a3, if_false, h3', if_true, hf1, hm, h4, hattr]
          · simp only [hp, not_false_eq_true, if_true] at h
            cases hsv : save E c fuel par with
            | error e => simp [hsv] at h
            | ok r' =>
              simp only [hsv, Except.ok.injEq] at h
              subst h
              rcases save_load hs hsv with h | ⟨hn, h⟩
              · left; simp only [load, h, hattr]
              · right; exact ⟨hn, by simp only [load, h]⟩

theorem save_load {E : Env} {c : Cfg} (hs : Sane E c.proto) : ∀ {fuel : Nat} {o : Obj} {r : Ref},
    save E c fuel o = .ok r →
      (load E c.proto r = .obj o ∨ (¬ r.ByName ∧ load E c.proto r = .fresh))
  | 0, o, r, h => by simp [save] at h
  | fuel + 1, o, r, h => by
    have hv : ∀ {r : Ref}, Except.ok (ε := Err) Ref.value = .ok r →
        (load E c.proto r = .obj o ∨ (¬ r.ByName ∧ load E c.proto r = .fresh)) := by
      intro r h; cases h; right; exact ⟨id, rfl⟩
    simp only [save] at h
    cases hk : (E.info o).kind with
    | other => simp only [hk] at h; exact hv h
    | fn =>
      simp only [hk] at h
      by_cases hl : locate E c o
      · simp only [hl, Bool.not_true, Bool.false_eq_true, if_false] at h
        exact (saveGlobal_load hs h).2
      · simp only [hl, Bool.not_false, if_true] at h; exact hv h
    | cls =>
      simp only [hk] at h
      cases ht : typemap E o with
      | some k =>
        simp only [ht, Except.ok.injEq] at h
        subst h
        left
        simp only [load, typemap_load hs.typemapWF hs.lateNew ht]
      | none =>
        simp only [ht] at h
        by_cases h1 : E.isNamedtuple o
        · simp only [h1, if_true] at h; exact hv h
        simp only [h1, Bool.false_eq_true, if_false] at h
        by_cases h2 : o = E.typeOf E.noneObj
        · simp only [h2, if_true, Except.ok.injEq] at h
          subst h; left
          simp [load, findClass, h2]
        simp only [h2, if_false] at h
        by_cases h3 : o = E.typeOf E.notImplemented
        · simp only [h3, if_true, Except.ok.injEq] at h
          subst h; left; simp [load, h3]
        simp only [h3, if_false] at h
        by_cases h4 : o = E.typeOf E.ellipsis
        · simp only [h4, if_true, Except.ok.injEq] at h
          subst h; left; simp [load, h4]
        simp only [h4, if_false] at h
        by_cases h5 : o = E.enumMeta
        · simp only [h5, if_true, Except.ok.injEq] at h
          subst h; left
          simp only [load, hs.enumMeta, h5]
        simp only [h5, if_false] at h
        by_cases h6 : E.exceptHookArgs = some o
        · simp only [h6, if_true, Except.ok.injEq] at h
          subst h; left
          simp only [load, hs.hookArgs _ h6]
        simp only [h6, if_false] at h
        split at h
        · exact hv h
        · exact (saveGlobal_load hs h).2
end

/-- C06, first half: whatever dill stores by name loads as the identical object. -/
theorem C06_by_name_same_object {E : Env} {c : Cfg} (hs : Sane E c.proto) {fuel : Nat} {o : Obj} {r : Ref}
    (h : save E c fuel o = .ok r) (hr : r.ByName) : load E c.proto r = .obj o := by
  rcases save_load hs h with h | ⟨hn, _⟩
  · exact h
  · exact absurd hr hn

/-- C06: a load never quietly gives some other existing object, and never fails. -/
theorem C06_never_another_object {E : Env} {c : Cfg} (hs : Sane E c.proto) {fuel : Nat} {o : Obj} {r : Ref}
    (h : save E c fuel o = .ok r) : load E c.proto r = .obj o ∨ load E c.proto r = .fresh := by
  rcases save_load hs h with h | ⟨_, h⟩
  · exact .inl h
  · exact .inr h

/-- saveGlobal only succeeds for objects that lead back, whatever the interpreter looks like. -/
theorem saveGlobal_leadsBack {E : Env} {c : Cfg} {fuel : Nat} {o : Obj} {r : Ref}
    (h : saveGlobal E c fuel o = .ok r) : LeadsBack E o := by
  cases fuel with
  | zero => simp [saveGlobal] at h
  | succ fuel =>
    simp only [saveGlobal] at h
    cases hm : E.mods (whichmodule E o (objName E o)) with
    | none => simp [hm] at h
    | some mo =>
      simp only [hm] at h
      cases hg : getAttribute E mo (objName E o) with
      | none => simp [hg] at h
      | some p =>
        obtain ⟨o2, par⟩ := p
        simp only [hg] at h
        by_cases h2 : ¬ o2 = o
        · simp [h2] at h
        replace h2 : o2 = o := Classical.not_not.1 h2
        subst h2
        refine ⟨_, _, ?_, hm, (getAttribute_leads hg).1⟩
        unfold whichmodule
        cases E.info o2 |>.modName <;> simp

/-- C06, second half: when the object's name does not lead back to it, dumps raises or pickles the
contents; this needs no assumption on the interpreter. -/
theorem C06_wrong_name_not_stored {E : Env} {c : Cfg} {fuel : Nat} {o : Obj}
    (hsp : ¬ Special E o) (hb : ¬ LeadsBack E o) :
    (∃ e, save E c fuel o = .error e) ∨ save E c fuel o = .ok .value := by
  cases fuel with
  | zero => exact .inl ⟨.recursion, by simp [save]⟩
  | succ fuel =>
    have hg : ∃ e, saveGlobal E c fuel o = .error e := by
      cases h : saveGlobal E c fuel o with
      | error e => exact ⟨e, rfl⟩
      | ok r => exact absurd (saveGlobal_leadsBack h) hb
    unfold Special at hsp
    simp only [not_or, Bool.not_eq_true, Option.isSome_eq_false_iff, Option.isNone_iff_eq_none] at hsp
    obtain ⟨h1, h2, h3, h4, h5, h6⟩ := hsp
    simp only [save]
    cases hk : (E.info o).kind with
    | other => exact .inr rfl
    | fn =>
      simp only
      split
      · exact .inr rfl
      · exact .inl hg
    | cls =>
      simp only [h1, h2, h3, h4, h5, h6, if_false]
      split
      · exact .inr rfl
      split
      · exact .inr rfl
      · exact .inl hg

theorem snoc_of_length {p : Path} (h : 1 < p.length) : ∃ pre l, p = pre ++ [l] ∧ pre ≠ [] := by
  have hn : p ≠ [] := by rintro rfl; simp at h
  refine ⟨p.dropLast, p.getLast hn, (List.dropLast_concat_getLast hn).symm, ?_⟩
  intro e
  have := congrArg List.length e
  simp at this; omega

theorem importModule_means {E : Env} {m : Path} {mo : Obj} (h : importModule E m = some mo) : Means E m mo := by
  unfold importModule at h
  split at h
  · exact .entry h
  split at h
  · rename_i h1
    obtain ⟨pre, l, rfl, hn⟩ := snoc_of_length h1
    simp only [List.dropLast_concat, List.getLast?_append, List.getLast?_singleton, Option.some_or,
      Option.getD_some] at h
    cases hp : E.mods pre with
    | none => simp [hp] at h
    | some p =>
      simp only [hp] at h
      cases ha : E.attr p l with
      | none => simp [ha] at h
      | some s =>
        simp only [ha] at h
        split at h
        · cases h; exact .attrOf rfl hn hp ha
        · exact .entry h
  · exact .entry h

theorem imports_importModule {E : Env} {m : Path} {mo : Obj} (h : Imports E m mo) : importModule E m = some mo := by
  unfold importModule
  split
  · exact h.entry
  split
  · rename_i h0 h1
    obtain ⟨pre, l, rfl, hn⟩ := snoc_of_length h1
    have hr : pre.head? ≠ some "__runtime__" := by
      intro e
      apply h0
      refine ⟨?_, h1⟩
      cases pre with
      | nil => exact absurd rfl hn
      | cons a t => simpa using e
    obtain ⟨p, s, hp, ha, hs⟩ := h.parent pre l rfl hn hr
    simp only [List.dropLast_concat, List.getLast?_append, List.getLast?_singleton, Option.some_or,
      Option.getD_some, hp, ha]
    rcases hs with rfl | hs
    · split
      · rfl
      · exact h.entry
    · simp [hs, h.entry]
  · exact h.entry

theorem not_located {E : Env} {c : Cfg} {o : Obj}
    (h : (E.info o).modName = none ∨ (E.info o).modName = some ["__main__"] ∨
      ((E.info o).modName.isSome ∧ (E.info o).modName = c.sessionMain) ∨
      (∃ m q, (E.info o).modName = some m ∧ (E.info o).qualname = some q ∧
        ∀ mo, Means E m mo → ¬ Leads E mo q o)) : locate E c o = false := by
  unfold locate
  rcases h with h | h | ⟨h1, h2⟩ | ⟨m, q, h1, h2, h3⟩
  · simp [h]
  · simp [h]
  · cases hm : (E.info o).modName with
    | none => rfl
    | some m => rw [hm] at h2; simp [← h2]
  · simp only [h1, h2]
    by_cases a : m = ["__main__"]
    · simp [a]
    by_cases b : c.sessionMain = some m
    · simp [b]
    simp only [a, b, if_false]
    cases hi : importModule E m with
    | none => rfl
    | some mo =>
      simp only
      cases hg : getAttribute E mo q with
      | none => rfl
      | some p =>
        obtain ⟨f, par⟩ := p
        simp only [beq_eq_false_iff_ne, ne_eq]
        rintro rfl
        exact h3 _ (importModule_means hi) (getAttribute_leads hg).1

/-- Functions of `__main__`, functions without a module and functions of the module saved as a session
are always pickled by value, as are functions whose module or name leads elsewhere. -/
theorem C06_function_by_value {E : Env} {c : Cfg} {fuel : Nat} {o : Obj}
    (hk : (E.info o).kind = .fn)
    (h : (E.info o).modName = none ∨ (E.info o).modName = some ["__main__"] ∨
      ((E.info o).modName.isSome ∧ (E.info o).modName = c.sessionMain) ∨
      (∃ m q, (E.info o).modName = some m ∧ (E.info o).qualname = some q ∧
        ∀ mo, Means E m mo → ¬ Leads E mo q o)) :
    save E c (fuel + 1) o = .ok .value := by
  have hl := not_located h
  simp only [save, hk, hl, Bool.not_false, if_true]

/-- The same for ordinary classes, unless byref was asked for or the class is already being pickled. -/
theorem C06_class_by_value {E : Env} {c : Cfg} {fuel : Nat} {o : Obj}
    (hk : (E.info o).kind = .cls) (hsp : ¬ Special E o) (hb : c.byref = false) (hr : c.recursive o = false)
    (h : (E.info o).modName = none ∨ (E.info o).modName = some ["__main__"] ∨
      ((E.info o).modName.isSome ∧ (E.info o).modName = c.sessionMain) ∨
      (∃ m q, (E.info o).modName = some m ∧ (E.info o).qualname = some q ∧
        ∀ mo, Means E m mo → ¬ Leads E mo q o)) :
    save E c (fuel + 1) o = .ok .value := by
  have hl := not_located h
  unfold Special at hsp
  simp only [not_or, Bool.not_eq_true, Option.isSome_eq_false_iff, Option.isNone_iff_eq_none] at hsp
  obtain ⟨a1, a2, a3, a4, a5, a6⟩ := hsp
  simp only [save, hk, a1, a2, a3, a4, a5, a6, hb, hr, hl, Bool.not_false, Bool.and_self, if_false, if_true]
  split <;> rfl

/-- With byref, and for a class met again while it is being pickled, an ordinary class is never copied: it is
stored by name or the pickling fails. -/
theorem C06_class_by_name_only {E : Env} {c : Cfg} {fuel : Nat} {o : Obj}
    (hk : (E.info o).kind = .cls) (hsp : ¬ Special E o) (hnt : E.isNamedtuple o = false)
    (hb : c.byref = true ∨ c.recursive o = true) :
    save E c fuel o ≠ .ok .value := by
  intro h
  cases fuel with
  | zero => simp [save] at h
  | succ fuel =>
    unfold Special at hsp
    simp only [not_or, Bool.not_eq_true, Option.isSome_eq_false_iff, Option.isNone_iff_eq_none] at hsp
    obtain ⟨a1, a2, a3, a4, a5, a6⟩ := hsp
    have hf : (!c.byref && !c.recursive o && !locate E c o) = false := by
      rcases hb with hb | hb <;> simp [hb]
    simp only [save, hk, a1, a2, a3, a4, a5, a6, hnt, hf, Bool.false_eq_true, if_false] at h
    cases fuel with
    | zero => simp [saveGlobal] at h
    | succ fuel =>
      simp only [saveGlobal] at h
      repeat' split at h
      all_goals cases h

/-- An object without a `__module__` that is stored by name (protocol 4 on) is stored under the first module of
sys.modules, other than `__main__` and `__mp_main__`, in which its name leads to it; only if there is none,
under `__main__`. -/
theorem C06_module_searched {E : Env} {c : Cfg} {fuel : Nat} {o : Obj} {r : Ref} (hk : (E.info o).kind = .cls)
    (hsp : ¬ Special E o) (hp : 4 ≤ c.proto) (hm : (E.info o).modName = none)
    (h : save E c fuel o = .ok r) (hv : r ≠ .value) :
    ∃ m n, r = .glob m n ∧
      ((∃ a b mo, E.modKeys = a ++ m :: b ∧ m ≠ ["__main__"] ∧ m ≠ ["__mp_main__"] ∧ E.mods m = some mo ∧
          Leads E mo ((E.info o).qualname.getD (E.info o).name) o ∧
          ∀ k ∈ a, k ≠ ["__main__"] → k ≠ ["__mp_main__"] → ∀ mo', E.mods k = some mo' →
            ¬ Leads E mo' ((E.info o).qualname.getD (E.info o).name) o) ∨
       (m = ["__main__"] ∧ ∀ k ∈ E.modKeys, k ≠ ["__main__"] → k ≠ ["__mp_main__"] → ∀ mo', E.mods k = some mo' →
            ¬ Leads E mo' ((E.info o).qualname.getD (E.info o).name) o)) := by
  have hg : ∃ f, saveGlobal E c f o = .ok r := by
    cases fuel with
    | zero => simp [save] at h
    | succ fuel =>
      refine ⟨fuel, ?_⟩
      unfold Special at hsp
      simp only [not_or, Bool.not_eq_true, Option.isSome_eq_false_iff, Option.isNone_iff_eq_none] at hsp
      obtain ⟨a1, a2, a3, a4, a5, a6⟩ := hsp
      simp only [save, hk, a1, a2, a3, a4, a5, a6, if_false] at h
      split at h
      · cases h; exact absurd rfl hv
      split at h
      · cases h; exact absurd rfl hv
      · exact h
  obtain ⟨f, hg⟩ := hg
  cases f with
  | zero => simp [saveGlobal] at hg
  | succ f =>
    have ht : ∀ k, (k ≠ ["__main__"] && k ≠ ["__mp_main__"] &&
        (match E.mods k with
        | none => false
        | some m => match getAttribute E m (objName E o) with
          | none => false
          | some (f, _) => f == o)) = true ↔
        (k ≠ ["__main__"] ∧ k ≠ ["__mp_main__"] ∧ ∃ mo, E.mods k = some mo ∧ Leads E mo (objName E o) o) := by
      intro k
      simp only [Bool.and_eq_true, decide_eq_true_eq, and_assoc]
      refine and_congr_right fun _ => and_congr_right fun _ => ?_
      cases E.mods k with
      | none => simp
      | some mo =>
        simp only [Option.some.injEq, exists_eq_left']
        constructor
        · intro hh
          cases hga : getAttribute E mo (objName E o) with
          | none => simp [hga] at hh
          | some q =>
            obtain ⟨f, par⟩ := q
            simp only [hga, beq_iff_eq] at hh
            subst hh
            exact (getAttribute_leads hga).1
        · intro hh
          obtain ⟨par, hga⟩ := leads_getAttribute hh
          simp [hga]
    simp only [saveGlobal] at hg
    cases hmo : E.mods (whichmodule E o (objName E o)) with
    | none => simp [hmo] at hg
    | some mo =>
      simp only [hmo] at hg
      cases hga : getAttribute E mo (objName E o) with
      | none => simp [hga] at hg
      | some q =>
        obtain ⟨o2, par⟩ := q
        simp only [hga, hp, if_true] at hg
        split at hg
        · cases hg
        · cases hg
          refine ⟨_, _, rfl, ?_⟩
          unfold whichmodule
          rw [hm]
          simp only
          generalize hfd : E.modKeys.find? _ = fd
          cases fd with
          | some k =>
            left
            obtain ⟨hk1, a, b, hab, hno⟩ := List.find?_eq_some_iff_append.1 hfd
            obtain ⟨k1, k2, mo', k3, k4⟩ := (ht k).1 hk1
            refine ⟨a, b, mo', hab, k1, k2, k3, k4, ?_⟩
            intro k' hk' n1 n2 mo'' hm'' hl''
            have := hno k' hk'
            have ht' := (ht k').2 ⟨n1, n2, mo'', hm'', hl''⟩
            exact absurd (this.symm.trans (congrArg (! ·) ht')) (by simp)
          | none =>
            right
            refine ⟨rfl, ?_⟩
            intro k' hk' n1 n2 mo'' hm'' hl''
            have := List.find?_eq_none.1 hfd k' hk'
            exact this ((ht k').2 ⟨n1, n2, mo'', hm'', hl''⟩)

/-- Conversely a function or ordinary class that its module and qualified name lead back to is stored by
that name (protocol 4 on), not copied. -/
theorem C06_located_stored_by_name {E : Env} {c : Cfg} {fuel : Nat} {o mo : Obj} {m q : Path}
    (hk : (E.info o).kind = .fn ∨ ((E.info o).kind = .cls ∧ ¬ Special E o ∧ E.isNamedtuple o = false))
    (hm : (E.info o).modName = some m) (hq : (E.info o).qualname = some q)
    (hmain : m ≠ ["__main__"]) (hses : c.sessionMain ≠ some m)
    (hi' : Imports E m mo) (hl : Leads E mo q o)
    (hp : 4 ≤ c.proto) :
    ∃ n, save E c (fuel + 2) o = .ok (.glob m n) ∧ Leads E mo n o ∧ (n = q ∨ n.length = 1) := by
  obtain ⟨par, hg⟩ := leads_getAttribute hl
  have hi := imports_importModule hi'
  have hmo := hi'.entry
  have hloc : locate E c o = true := by
    simp [locate, hm, hq, hmain, hses, hi, hg]
  have hname : objName E o = q := by simp [objName, hq]
  have hwh : whichmodule E o q = m := by simp [whichmodule, hm]
  obtain ⟨_, l, h1, h2, h3⟩ := getAttribute_leads hg
  have hsg : saveGlobal E c (fuel + 1) o = .ok (.glob m (if par = mo then [l] else q)) := by
    simp [saveGlobal, hname, hwh, hmo, hg, hp, h1]
  refine ⟨if par = mo then [l] else q, ?_, ?_, ?_⟩
  · simp only [save]
    rcases hk with hk | ⟨hk, hsp, hnt⟩
    · simp only [hk, hloc, Bool.not_true, Bool.false_eq_true, if_false, hsg]
    · unfold Special at hsp
      simp only [not_or, Bool.not_eq_true, Option.isSome_eq_false_iff, Option.isNone_iff_eq_none] at hsp
      obtain ⟨a1, a2, a3, a4, a5, a6⟩ := hsp
      simp only [hk, a1, a2, a3, a4, a5, a6, hnt, hloc, Bool.not_true, Bool.and_false,
        Bool.false_eq_true, if_false, hsg]
  · by_cases e : par = mo
    · simp only [e, if_true]; subst e; exact .one h2 h3
    · simp only [e, if_false]; exact hl
  · by_cases e : par = mo
    · simp [e]
    · simp [e]

/-! A concrete interpreter: module `pkg.mod` (1) with class `C` (2) holding method `f` (3); the builtins
(4); function `g` (5) whose `__qualname__` says `h`, where `h` (6) is another function; `enum` (7) with
EnumMeta (8); NoneType 20, NotImplementedType 21, EllipsisType 22; `pkg` 9; `int` 10 is in the typemap. -/
def exE : Env where
  mods p := if p = ["pkg", "mod"] then some 1 else if p = ["builtins"] then some 4
    else if p = ["enum"] then some 7 else if p = ["pkg"] then some 9 else none
  modKeys := [["builtins"], ["enum"], ["pkg"], ["pkg", "mod"]]
  attr o s := if o = 1 ∧ s = "C" then some 2 else if o = 2 ∧ s = "f" then some 3
    else if o = 1 ∧ s = "g" then some 5 else if o = 1 ∧ s = "h" then some 6
    else if o = 7 ∧ s = "EnumMeta" then some 8 else if o = 9 ∧ s = "mod" then some 1
    else if o = 4 ∧ s = "int" then some 10 else none
  info o := if o = 2 then ⟨.cls, some ["pkg", "mod"], some ["C"], ["C"]⟩
    else if o = 3 then ⟨.fn, some ["pkg", "mod"], some ["C", "f"], ["f"]⟩
    else if o = 5 then ⟨.fn, some ["pkg", "mod"], some ["h"], ["h"]⟩
    else if o = 6 then ⟨.fn, some ["pkg", "mod"], some ["h"], ["h"]⟩
    else if o = 8 then ⟨.cls, some ["enum"], some ["EnumType"], ["EnumType"]⟩
    else if o = 10 then ⟨.cls, some ["builtins"], some ["int"], ["int"]⟩
    else if o = 20 then ⟨.cls, some ["builtins"], some ["NoneType"], ["NoneType"]⟩
    else ⟨.other, none, none, ["x"]⟩
  isModOrType o := o = 1 ∨ o = 2 ∨ o = 4 ∨ o = 7 ∨ o = 8 ∨ o = 9 ∨ o = 10
  isNamedtuple _ := false
  revTypemap := [("int", 10), ("IntType", 10)]
  revLate := [("PyCapsuleType", 11)]
  typeOf o := if o = 30 then 20 else if o = 31 then 21 else 22
  noneObj := 30
  notImplemented := 31
  ellipsis := 32
  enumMeta := 8
  exceptHookArgs := none
  mainDict := 40
  fixDump p := if p.1 = ["builtins"] then (["__builtin__"], p.2) else p
  fixLoad p := if p.1 = ["__builtin__"] then (["builtins"], p.2) else p

def exC (proto : Nat) : Cfg := { proto := proto, byref := false, sessionMain := none, recursive := fun _ => false }

theorem exE_mods {m : Path} {mo : Obj} (h : exE.mods m = some mo) :
    m = ["pkg", "mod"] ∨ m = ["builtins"] ∨ m = ["enum"] ∨ m = ["pkg"] := by
  simp only [exE] at h
  by_cases h1 : m = ["pkg", "mod"]
  · exact .inl h1
  by_cases h2 : m = ["builtins"]
  · exact .inr (.inl h2)
  by_cases h3 : m = ["enum"]
  · exact .inr (.inr (.inl h3))
  by_cases h4 : m = ["pkg"]
  · exact .inr (.inr (.inr h4))
  simp [h1, h2, h3, h4] at h

/-- the example interpreter meets every hypothesis, for every protocol. -/
theorem C06_sane_example (proto : Nat) : Sane exE proto where
  noHijack m n mo o hm _ := by
    rcases exE_mods hm with rfl | rfl | rfl | rfl <;> simp [Hijacked]
  typemapWF := by decide
  lateNew := by decide
  enumMeta := by
    by_cases h : proto < 3 <;> by_cases h4 : 4 ≤ proto <;>
      simp [findClass, exE, h, h4, getAttribute]
  hookArgs o h := by simp [exE] at h
  fix _ m n mo o hm ha := by
    rcases exE_mods hm with rfl | rfl | rfl | rfl
    · simp [exE, Hijacked]
    · simp only [exE] at ha hm
      simp at hm; subst hm
      simp at ha
      simp [exE, Hijacked, ha.1]
    · simp [exE, Hijacked]
    · simp [exE, Hijacked]

example : save exE (exC 4) 9 3 = .ok (.glob ["pkg", "mod"] ["C", "f"]) ∧
    save exE (exC 2) 9 3 = .ok (.attr (.glob ["pkg", "mod"] ["C"]) "f") ∧
    save exE (exC 4) 9 5 = .ok .value ∧ save exE (exC 2) 9 10 = .ok (.loadType "IntType") ∧
    save exE { exC 4 with byref := true } 9 20 = .ok (.glob ["__builtin__"] ["NoneType"]) ∧
    load exE 2 (.attr (.glob ["pkg", "mod"] ["C"]) "f") = .obj 3 := by decide +kernel

/-- `pkg.mod` imports healthily, and does so even when a variable of `pkg` shadows it -/
example : Imports exE ["pkg", "mod"] 1 where
  entry := by decide
  parent pre l h _ _ := by
    obtain ⟨rfl, rfl⟩ : pre = ["pkg"] ∧ l = "mod" := by
      match pre, h with
      | [a], h => simpa [eq_comm] using h
      | [], h => simp at h
      | _ :: _ :: _, h => simp at h
    exact ⟨9, 1, by decide, by decide, .inl rfl⟩

/-- class 2 without a `__module__`, saved with byref: found in `pkg.mod`; class 12 is nowhere -/
def exNoMod : Env :=
  { exE with info := fun o => if o = 2 then ⟨.cls, none, some ["C"], ["C"]⟩ else ⟨.cls, none, some ["D"], ["D"]⟩ }

example : save exNoMod { exC 4 with byref := true } 9 2 = .ok (.glob ["pkg", "mod"] ["C"]) ∧
    save exNoMod { exC 4 with byref := true } 9 12 = .error .pickling ∧
    save exNoMod (exC 4) 9 2 = .ok .value := by decide +kernel

example : ¬ LeadsBack exE 5 := by
  rintro ⟨m, mo, h1, h2, h3⟩
  rcases h1 with h1 | h1
  · simp [exE] at h1
    subst h1
    simp [exE] at h2
    subst h2
    cases h3 with
    | one _ h => simp [exE] at h
    | more _ _ h => cases h
  · simp [exE] at h1

/-- Why `Sane` asks that nobody takes the reserved names: a function of a module that is really called
`dill.dill` is stored under its correct name, and loads as the same-named function of `dill._dill`. -/
def exHijack : Env :=
  { exE with
    mods := fun p => if p = ["dill", "dill"] then some 1 else if p = ["dill", "_dill"] then some 50
      else if p = ["dill"] then some 51 else none
    attr := fun o s => if o = 1 ∧ s = "h" then some 6 else if o = 50 ∧ s = "h" then some 60
      else if o = 51 ∧ s = "dill" then some 1 else none
    info := fun _ => ⟨.fn, some ["dill", "dill"], some ["h"], ["h"]⟩
    isModOrType := fun o => o = 1 }

theorem C06_reserved_names_hijacked :
    save exHijack (exC 4) 9 6 = .ok (.glob ["dill", "dill"] ["h"]) ∧
    load exHijack 4 (.glob ["dill", "dill"] ["h"]) = .obj 60 := by decide +kernel

end Verif.Locate
