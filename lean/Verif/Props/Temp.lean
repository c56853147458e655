import Verif.Model.Temp
/-! C34, C35. -/
set_option linter.unusedSimpArgs false
namespace Verif.Temp

/-! ### C34 -/

/-- C34: after `with capture(name)`, `sys.<name>` is what it was before, whatever the body does (nested
captures, assignments to `sys.<name>`, exceptions), in every state. -/
theorem C34_stream_restored (name : String) (body : Prog) (s : Sys) :
    (exec (.capture name body) s).1.attr name = s.attr name := by
  unfold exec
  split
  · rfl
  · rename_i orig h
    simp [setAttr, h]

/-- programs that do not assign streams by hand -/
def noAssign : Prog → Prop
  | .assign _ _ => False
  | .seq a b => noAssign a ∧ noAssign b
  | .tryCatch a => noAssign a
  | .capture _ a => noAssign a
  | _ => True

/-- C34: if nothing assigns `sys.<name>` by hand, every stream name is restored by every program, at every
exit point and nesting. -/
theorem C34_all_streams_restored (p : Prog) (hp : noAssign p) (s : Sys) :
    (exec p s).1.attr = s.attr := by
  induction p generalizing s with
  | skip => rfl
  | raise => rfl
  | write n t => unfold exec; split <;> rfl
  | assign => exact hp.elim
  | seq a b iha ihb =>
    have := iha hp.1 s
    unfold exec
    split
    · rename_i s' h; rw [h] at this; exact this
    · rename_i s' h; rw [h] at this; rw [ihb hp.2 s']; exact this
  | tryCatch a ih => exact ih hp s
  | capture n body ih =>
    unfold exec
    split
    · rfl
    · rename_i orig h
      funext m
      have := congrFun (ih hp (setAttr n (some s.next) { s with next := s.next + 1, text := fun j => if j = s.next then [] else s.text j })) m
      by_cases hm : m = n
      · subst hm; simp [setAttr, h]
      · simp only [setAttr, if_neg hm] at this ⊢
        exact this

/-- Specification of where output goes, without any stream objects: the writes of a program that are not
captured inside it, in order, and whether it ends with an exception. -/
def visible : Prog → List (String × String) × Bool
  | .skip => ([], false)
  | .raise => ([], true)
  | .write n t => ([(n, t)], false)
  | .assign _ _ => ([], false)
  | .seq a b =>
    if (visible a).2 then visible a else ((visible a).1 ++ (visible b).1, (visible b).2)
  | .tryCatch a => ((visible a).1, false)
  | .capture n a => ((visible a).1.filter (·.1 ≠ n), (visible a).2)

/-- names used -/
def uses : Prog → List String
  | .write n _ => [n]
  | .seq a b => uses a ++ uses b
  | .tryCatch a => uses a
  | .capture n a => n :: uses a
  | _ => []

/-- the text a stream object should receive -/
def received (attr : String → Option Nat) (j : Nat) (w : List (String × String)) : List String :=
  (w.filter (fun x => attr x.1 = some j)).map (·.2)

theorem received_append (attr j a b) : received attr j (a ++ b) = received attr j a ++ received attr j b := by
  simp [received]

theorem received_capture (attr : String → Option Nat) (n : String) (k j : Nat)
    (w : List (String × String)) (hk : j ≠ k) :
    received (fun m => if m = n then some k else attr m) j w =
      received attr j (w.filter (·.1 ≠ n)) := by
  unfold received
  rw [List.filter_filter]
  congr 1
  apply List.filter_congr
  intro x _
  by_cases h : x.1 = n
  · simp [h, Ne.symm hk]
  · simp [h]

theorem exec_text (p : Prog) (hp : noAssign p) (s : Sys) (hn : ∀ n ∈ uses p, s.attr n ≠ none)
    (hf : ∀ n k, s.attr n = some k → k < s.next) :
    (exec p s).2 = (visible p).2 ∧ s.next ≤ (exec p s).1.next ∧
    ∀ j, j < s.next → (exec p s).1.text j = s.text j ++ received s.attr j (visible p).1 := by
  induction p generalizing s with
  | skip => simp [exec, visible, received]
  | raise => simp [exec, visible, received]
  | write n t =>
    cases h : s.attr n with
    | none => exact absurd h (hn n (by simp [uses]))
    | some k =>
      simp only [exec, h, visible, received]
      refine ⟨trivial, Nat.le_refl _, ?_⟩
      intro j _
      by_cases hj : j = k
      · subst hj; simp [h]
      · have : ¬ k = j := fun e => hj e.symm
        simp [hj, h, this]
  | assign => exact hp.elim
  | seq a b iha ihb =>
    obtain ⟨e1, n1, t1⟩ := iha hp.1 s (fun n h => hn n (by simp [uses, h])) hf
    have ha := C34_all_streams_restored a hp.1 s
    unfold exec visible
    generalize exec a s = ra at e1 n1 t1 ha
    obtain ⟨s', ex⟩ := ra
    simp only at e1 n1 t1 ha
    cases ex with
    | true => rw [← e1]; simp only [if_true]; exact ⟨e1, n1, t1⟩
    | false =>
      rw [← e1]
      obtain ⟨e2, n2, t2⟩ := ihb hp.2 s' (fun n h => by rw [ha]; exact hn n (by simp [uses, h]))
        (fun n k h => by rw [ha] at h; exact Nat.lt_of_lt_of_le (hf n k h) n1)
      simp only [Bool.false_eq_true, if_false]
      refine ⟨e2, Nat.le_trans n1 n2, ?_⟩
      intro j hj
      rw [t2 j (Nat.lt_of_lt_of_le hj n1), t1 j hj, ha, received_append, List.append_assoc]
  | tryCatch a ih =>
    obtain ⟨e1, n1, t1⟩ := ih hp s hn hf
    exact ⟨rfl, n1, t1⟩
  | capture n body ih =>
    cases h : s.attr n with
    | none => exact absurd h (hn n (by simp [uses]))
    | some orig =>
      obtain ⟨e1, n1, t1⟩ := ih hp (setAttr n (some s.next) { s with
          next := s.next + 1, text := fun j => if j = s.next then [] else s.text j })
        (fun m hm => by
          simp only [setAttr]; split
          · simp
          · exact hn m (by simp [uses, hm]))
        (fun m k hm => by
          simp only [setAttr] at hm ⊢
          split at hm
          · cases hm; omega
          · have := hf m k hm; omega)
      simp only [exec, h, visible]
      refine ⟨e1, ?_, ?_⟩
      · simp only [setAttr] at n1 ⊢; omega
      · intro j hj
        have := t1 j (by simp only [setAttr]; omega)
        have hne : j ≠ s.next := by omega
        simp only [setAttr, if_neg hne] at this ⊢
        rw [this, received_capture _ _ _ _ _ hne]

/-- C34: output written under a name inside `with capture(name)` goes to the innermost capture of that name
only: the new buffer holds exactly the writes not captured by a nested capture of the same name, in order
and up to the point where the body raises, and every stream that existed before receives exactly the writes
the specification `visible` lets through to it - none of those made under `name`, unless that stream is also
known under another name. -/
theorem C34_output_goes_to_innermost (name : String) (body : Prog) (hp : noAssign body) (s : Sys)
    (hn : ∀ n ∈ name :: uses body, s.attr n ≠ none) (hf : ∀ n k, s.attr n = some k → k < s.next) :
    let r := exec (.capture name body) s
    r.1.text s.next = ((visible body).1.filter (·.1 = name)).map (·.2) ∧
    (∀ j, j < s.next → r.1.text j =
      s.text j ++ (((visible body).1.filter (fun x => x.1 ≠ name ∧ s.attr x.1 = some j)).map (·.2))) ∧
    r.2 = (visible body).2 := by
  intro r
  obtain ⟨e, _, t⟩ := exec_text (.capture name body) hp s hn hf
  refine ⟨?_, ?_, e⟩
  · cases h : s.attr name with
    | none => exact absurd h (hn name (by simp))
    | some orig =>
      obtain ⟨e1, n1, t1⟩ := exec_text body hp (setAttr name (some s.next) { s with
          next := s.next + 1, text := fun j => if j = s.next then [] else s.text j })
        (fun m hm => by
          simp only [setAttr]; split
          · simp
          · exact hn m (by simp [hm]))
        (fun m k hm => by
          simp only [setAttr] at hm ⊢
          split at hm
          · cases hm; omega
          · have := hf m k hm; omega)
      have := t1 s.next (by simp only [setAttr]; omega)
      simp only [setAttr, if_true] at this
      simp only [r, exec, h]
      simp only [setAttr]
      rw [this]
      simp only [List.nil_append, received]
      congr 1
      apply List.filter_congr
      intro x _
      by_cases hx : x.1 = name
      · simp [hx]
      · simp only [hx, if_false, decide_false]
        have : s.attr x.1 ≠ some s.next := fun e => by have := hf _ _ e; omega
        simp [this]
  · intro j hj
    rw [t j hj]
    simp only [visible, received, List.filter_filter]
    congr 2
    apply List.filter_congr
    intro x _
    simp [Bool.and_comm]

def sys0 : Sys := ⟨fun n => if n = "stdout" then some 0 else if n = "stderr" then some 1 else none,
  fun _ => [], 2⟩

example : let r := exec (.capture "stdout" (.seq (.write "stdout" "a") (.seq (.write "stderr" "e")
      (.seq (.capture "stdout" (.write "stdout" "b")) (.seq (.write "stdout" "c") .raise))))) sys0
    r.1.text 2 = ["a", "c"] ∧ r.1.text 3 = ["b"] ∧ r.1.text 0 = [] ∧ r.1.text 1 = ["e"] ∧ r.2 = true ∧
    r.1.attr "stdout" = some 0 := by decide
example : ∀ n ∈ ["stdout", "stderr"], sys0.attr n ≠ none := by decide
example : ∀ n k, sys0.attr n = some k → k < sys0.next := by
  intro n k h; simp only [sys0] at h ⊢; split at h
  · cases h; decide
  · split at h <;> cases h; decide

/-! ### C35 -/

theorem isBreak_isSpace (c : Char) (h : isBreak c = true) : isSpace c = true := by
  simp only [isBreak, isSpace, Bool.or_eq_true, Bool.and_eq_true, decide_eq_true_eq, beq_iff_eq] at *
  omega

theorem strip_tagged (src m : List Char) (hm1 : ∀ c, m.head? = some c → isSpace c = false)
    (hm2 : ∀ c, m.getLast? = some c → isSpace c = false) (hne : m ≠ []) :
    strip (src ++ ('\n' :: (m ++ ['\n']))) = m ∨
    ∃ pre, strip (src ++ ('\n' :: (m ++ ['\n']))) = pre ++ '\n' :: m := by
  have hnl : isSpace '\n' = true := by decide
  have hd : ∀ l, (m ++ l).dropWhile isSpace = m ++ l := by
    intro l
    cases m with
    | nil => exact absurd rfl hne
    | cons c cs => simp [hm1 c rfl]
  have hr : ∀ a, (((a ++ (m ++ ['\n'])).reverse).dropWhile isSpace).reverse = a ++ m := by
    intro a
    rw [List.reverse_append, List.reverse_append, List.reverse_singleton, List.singleton_append,
      List.cons_append, List.dropWhile_cons_of_pos hnl]
    have : (m.reverse ++ a.reverse).dropWhile isSpace = m.reverse ++ a.reverse := by
      cases h : m.reverse with
      | nil => simp at h; exact absurd h hne
      | cons c cs =>
        have : m.getLast? = some c := by
          rw [List.getLast?_eq_head?_reverse, h]; rfl
        simp [hm2 c this]
    rw [this, ← List.reverse_append, List.reverse_reverse]
  unfold strip
  rw [List.dropWhile_append]
  split
  · left
    rw [List.dropWhile_cons_of_pos hnl, hd]
    exact hr []
  · right
    refine ⟨src.dropWhile isSpace, ?_⟩
    have := hr (src.dropWhile isSpace ++ ['\n'])
    simpa using this

theorem splitlinesAux_noBreak (m acc : List Char) (h : ∀ c ∈ m, isBreak c = false)
    (hne : m ≠ [] ∨ acc ≠ []) : splitlinesAux m acc = [acc.reverse ++ m] := by
  induction m generalizing acc with
  | nil =>
    rcases hne with h | h
    · exact absurd rfl h
    · cases acc with
      | nil => exact absurd rfl h
      | cons c cs => simp [splitlinesAux]
  | cons c cs ih =>
    have hc : isBreak c = false := h c (by simp)
    have hcr : c ≠ '\r' := by rintro rfl; exact absurd hc (by decide)
    rw [splitlinesAux]
    · rw [hc]
      simp only [Bool.false_eq_true, if_false]
      rw [ih (c :: acc) (fun d hd => h d (by simp [hd])) (.inr (by simp))]
      simp
    · intro rest e _; exact hcr e

theorem getLast?_cons_of {α} (x : α) (l : List α) (y : α) (h : l.getLast? = some y) :
    (x :: l).getLast? = some y := by
  cases l with
  | nil => simp at h
  | cons a as => rw [List.getLast?_cons_cons]; exact h

theorem splitlinesAux_last (pre m acc : List Char) (h : ∀ c ∈ m, isBreak c = false) (hne : m ≠ []) :
    (splitlinesAux (pre ++ '\n' :: m) acc).getLast? = some m := by
  have base : (splitlinesAux m []).getLast? = some m := by
    rw [splitlinesAux_noBreak m [] h (.inl hne)]; simp
  generalize hn : pre.length = n
  induction n using Nat.strongRecOn generalizing pre acc with
  | _ n ih =>
    match pre, hn with
    | [], _ =>
      rw [List.nil_append, splitlinesAux]
      · rw [if_pos (by decide)]; exact getLast?_cons_of _ _ _ base
      · intro rest e _; exact absurd e (by decide)
    | c :: rest, hn =>
      by_cases hcr : c = '\r' ∧ ∃ r, rest ++ '\n' :: m = '\n' :: r
      · obtain ⟨rfl, r, hr⟩ := hcr
        rw [List.cons_append, hr, splitlinesAux]
        apply getLast?_cons_of
        cases rest with
        | nil => simp at hr; rw [← hr]; exact base
        | cons d ds =>
          simp at hr; rw [← hr.2]
          exact ih ds.length (by simp at hn; omega) ds [] rfl
      · rw [List.cons_append, splitlinesAux]
        · split
          · apply getLast?_cons_of
            exact ih rest.length (by simp at hn; omega) rest [] rfl
          · exact ih rest.length (by simp at hn; omega) rest (c :: acc) rfl
        · intro r e1 e2; exact hcr ⟨e1, r, e2⟩

theorem splitAux_word (w acc : List Char) (h : ∀ c ∈ w, isSpace c = false) (hne : w ≠ [] ∨ acc ≠ []) :
    splitAux w acc = [acc.reverse ++ w] := by
  induction w generalizing acc with
  | nil =>
    rcases hne with h | h
    · exact absurd rfl h
    · cases acc with
      | nil => exact absurd rfl h
      | cons c cs => simp [splitAux]
  | cons c cs ih =>
    have hc : isSpace c = false := h c (by simp)
    simp only [splitAux, hc, Bool.false_eq_true, if_false]
    rw [ih (c :: acc) (fun d hd => h d (by simp [hd])) (.inr (by simp))]
    simp

/-- C35, at the level of texts: whatever source text (any characters, any line breaks, other tags inside
it, none at all), the name in the appended tag is the one read back. -/
theorem C35_tag_read_back (src name : List Char) (hne : name ≠ [])
    (hn : ∀ c ∈ name, isSpace c = false) :
    findName (src ++ ("\n#NAME: ".toList ++ (name ++ ['\n']))) = .name name := by
  have e : src ++ ("\n#NAME: ".toList ++ (name ++ ['\n'])) =
      src ++ ('\n' :: (("#NAME: ".toList ++ name) ++ ['\n'])) := by simp
  rw [e]
  have hb : ∀ c ∈ "#NAME: ".toList ++ name, isBreak c = false := by
    intro c hc
    rw [List.mem_append] at hc
    rcases hc with hc | hc
    · have : ∀ c ∈ "#NAME: ".toList, isBreak c = false := by decide
      exact this c hc
    · cases hbc : isBreak c with
      | false => rfl
      | true => have := isBreak_isSpace c hbc; rw [hn c hc] at this; exact this.symm
  have hsplit : split ("#NAME: ".toList ++ name) = ["#NAME:".toList, name] := by
    show splitAux ('#' :: 'N' :: 'A' :: 'M' :: 'E' :: ':' :: ' ' :: name) [] = _
    have hs : isSpace ' ' = true := by decide
    have h1 : isSpace '#' = false := by decide
    have h2 : isSpace 'N' = false := by decide
    have h3 : isSpace 'A' = false := by decide
    have h4 : isSpace 'M' = false := by decide
    have h5 : isSpace 'E' = false := by decide
    have h6 : isSpace ':' = false := by decide
    simp only [splitAux, hs, h1, h2, h3, h4, h5, h6, Bool.false_eq_true, if_false, if_true,
      List.isEmpty_cons, splitAux_word name [] hn (.inl hne)]
    rfl
  have hfin : ∀ t, (splitlines t).getLast? = some ("#NAME: ".toList ++ name) →
      (match (splitlines t).getLast? with
        | none => Found.indexError
        | some l => match split l with
          | [] => .indexError
          | t :: ts => if t = "#NAME:".toList then .name ((t :: ts).getLastD []) else .unknownName)
        = .name name := by
    intro t ht
    rw [ht]
    simp only [hsplit]
    rw [if_pos trivial]
    rfl
  unfold findName
  apply hfin
  rcases strip_tagged src ("#NAME: ".toList ++ name)
    (by intro c hc; have : c = '#' := by simpa using hc.symm
        subst this; decide)
    (by
      intro c hc
      rw [List.getLast?_append] at hc
      cases hl : name.getLast? with
      | none => rw [List.getLast?_eq_none_iff] at hl; exact absurd hl hne
      | some d =>
        rw [hl] at hc
        have : d = c := by simpa using hc
        subst this
        exact hn _ (List.mem_of_getLast? hl)) (by simp) with h | ⟨pre, h⟩
  · rw [h]
    unfold splitlines
    rw [splitlinesAux_noBreak _ [] hb (.inl (by simp))]
    simp
  · rw [h]
    exact splitlinesAux_last pre _ [] hb (by simp)

theorem ofNat_toNat (c : Char) : Char.ofNat c.toNat = c := Char.ofNat_toNat c

theorem latin1_utf8_ascii (s : List Char) (h : ∀ c ∈ s, c.toNat < 128) :
    ∃ b, latin1 s = some b ∧ utf8 b = some s := by
  induction s with
  | nil => exact ⟨[], rfl, by simp [utf8]⟩
  | cons c cs ih =>
    obtain ⟨b, h1, h2⟩ := ih (fun d hd => h d (by simp [hd]))
    have hc := h c (by simp)
    refine ⟨c.toNat :: b, ?_, ?_⟩
    · rw [latin1, if_pos (by omega), h1]; rfl
    · unfold utf8
      rw [if_pos (by omega), h2, Option.map_some, ofNat_toNat]

/-- the name dump_source has to record: the alias when one is given, else the object's own name. -/
def NameFor (alias got name : List Char) : Prop := (alias ≠ [] ∧ name = alias) ∨ (alias = [] ∧ name = got)

theorem NameFor.eq {alias got name : List Char} (h : NameFor alias got name) : dumpedName alias got = name := by
  rcases h with ⟨h, rfl⟩ | ⟨rfl, rfl⟩
  · simp [dumpedName, h]
  · simp [dumpedName]

/-- C35 for ASCII texts and names: dumping succeeds and loading without an alias recovers the name stored
(the alias given to the dump, or the object's own name). -/
theorem C35_name_recovered_partial (src alias got name : List Char) (hnm : NameFor alias got name)
    (hsrc : ∀ c ∈ src, c.toNat < 128) (hname : ∀ c ∈ name, c.toNat < 128)
    (hne : name ≠ []) (hn : ∀ c ∈ name, isSpace c = false) :
    ∃ bytes, dumpSource src alias got = some bytes ∧ loadName [] bytes = .name name := by
  obtain rfl := hnm.eq
  obtain ⟨b, h1, h2⟩ := latin1_utf8_ascii
    (src ++ ("\n#NAME: ".toList ++ (dumpedName alias got ++ ['\n']))) (by
      intro c hc
      simp only [List.mem_append] at hc
      rcases hc with h | h | h | h
      · exact hsrc c h
      · have : ∀ c ∈ "\n#NAME: ".toList, c.toNat < 128 := by decide
        exact this c h
      · exact hname c h
      · have : ∀ c ∈ ['\n'], c.toNat < 128 := by decide
        exact this c h)
  refine ⟨b, h1, ?_⟩
  unfold loadName
  rw [h2]
  exact C35_tag_read_back src _ hne hn

/-- the full property: any text, any name without white space -/
def C35_full : Prop := ∀ src alias got name, NameFor alias got name → name ≠ [] →
  (∀ c ∈ name, isSpace c = false) →
  ∃ bytes, dumpSource src alias got = some bytes ∧ loadName [] bytes = .name name

/-- dump writes Latin-1, load reads UTF-8: a name or comment with a non-ASCII letter cannot be read back. -/
theorem C35_latin1_not_utf8 :
    ∃ b, dumpSource "é=1".toList [] "é".toList = some b ∧ loadName [] b = .decodeError := by
  refine ⟨[0xe9, 0x3d, 0x31, 0x0a, 0x23, 0x4e, 0x41, 0x4d, 0x45, 0x3a, 0x20, 0xe9, 0x0a], ?_, ?_⟩
  · decide +kernel
  · simp [loadName, utf8]

/-- ... or is read back as another name. -/
theorem C35_wrong_name : ∃ b, dumpSource [] [] "Ã©".toList = some b ∧ loadName [] b = .name "é".toList := by
  refine ⟨[0x0a, 0x23, 0x4e, 0x41, 0x4d, 0x45, 0x3a, 0x20, 0xc3, 0xa9, 0x0a], ?_, ?_⟩
  · decide +kernel
  · simp [loadName, utf8]; decide +kernel

/-- ... and texts outside Latin-1 cannot be dumped at all. -/
theorem C35_not_encodable : dumpSource [] [] "λ".toList = none := by decide +kernel

theorem C35_full_false : ¬ C35_full := by
  intro h
  obtain ⟨b, hb, _⟩ := h [] [] "λ".toList "λ".toList (.inr ⟨rfl, rfl⟩) (by decide) (by decide +kernel)
  rw [C35_not_encodable] at hb; cases hb

/-- dump_source succeeds exactly on Latin-1 texts. -/
theorem latin1_some (t : List Char) : (∃ b, latin1 t = some b ∧ b = t.map Char.toNat) ↔ ∀ c ∈ t, c.toNat < 256 := by
  induction t with
  | nil => simp [latin1]
  | cons c t ih =>
    simp only [latin1, List.mem_cons, forall_eq_or_imp]
    constructor
    · rintro ⟨b, h, hb⟩
      split at h
      · rename_i hc
        obtain ⟨b', h', rfl⟩ := Option.map_eq_some_iff.1 h
        simp only [List.map_cons, List.cons.injEq] at hb
        exact ⟨hc, ih.1 ⟨b', h', hb.2⟩⟩
      · cases h
    · rintro ⟨hc, ht⟩
      obtain ⟨b, h, rfl⟩ := ih.2 ht
      exact ⟨_, by rw [if_pos hc, h]; rfl, by simp⟩

theorem latin1_val {t : List Char} {b : List Nat} (h : latin1 t = some b) : b = t.map Char.toNat := by
  induction t generalizing b with
  | nil => simp only [latin1, Option.some.injEq] at h; exact h.symm
  | cons c t ih =>
    simp only [latin1] at h
    split at h
    · obtain ⟨b', h', rfl⟩ := Option.map_eq_some_iff.1 h
      rw [ih h']; rfl
    · cases h

theorem utf8_shorter : ∀ (n : Nat) (b : List Nat) (t : List Char), b.length ≤ n → utf8 b = some t →
    t.length ≤ b.length ∧ (t.length = b.length → ∀ x ∈ b, x < 128) := by
  intro n
  induction n with
  | zero =>
    intro b t hn h
    have : b = [] := List.eq_nil_of_length_eq_zero (by omega)
    subst this
    simp only [utf8, Option.some.injEq] at h; subst h; simp
  | succ n ih =>
    intro b t hn h
    cases b with
    | nil => simp only [utf8, Option.some.injEq] at h; subst h; simp
    | cons x b =>
      rw [utf8.eq_def] at h
      simp only at h
      simp only [List.length_cons] at hn
      split at h
      · rename_i hx
        obtain ⟨t', h', rfl⟩ := Option.map_eq_some_iff.1 h
        obtain ⟨g1, g2⟩ := ih b t' (by omega) h'
        refine ⟨by simp; omega, ?_⟩
        intro hl y hy
        rcases List.mem_cons.1 hy with rfl | hy
        · exact hx
        · exact g2 (by simpa using hl) y hy
      · have key : ∀ (b' : List Nat) (t' : List Char), b'.length < b.length → utf8 b' = some t' → t = t'.headD 'a' :: t ∨
            t.length ≤ t'.length + 1 → t.length < (x :: b).length := by
          intro b' t' hb hu ht
          have := (ih b' t' (by omega) hu).1
          rcases ht with ht | ht
          · have := congrArg List.length ht; simp at this
          · simp only [List.length_cons]; omega
        have fin : t.length < (x :: b).length → t.length ≤ (x :: b).length ∧ (t.length = (x :: b).length → ∀ y ∈ x :: b, y < 128) :=
          fun h => ⟨by omega, fun e => by omega⟩
        apply fin
        repeat' split at h
        all_goals first
          | cases h
          | (obtain ⟨t', h', rfl⟩ := Option.map_eq_some_iff.1 h
             exact key _ t' (by simp only [List.length_cons]; omega) h' (.inr (by simp)))

/-- C35: dump_source can store a text exactly when all its characters are Latin-1. -/
theorem C35_dump_iff (src alias got name : List Char) (hnm : NameFor alias got name) :
    (∃ b, dumpSource src alias got = some b) ↔ (∀ c ∈ src, c.toNat < 256) ∧ (∀ c ∈ name, c.toNat < 256) := by
  obtain rfl := hnm.eq
  have : (∃ b, dumpSource src alias got = some b) ↔
      ∀ c ∈ src ++ ("\n#NAME: ".toList ++ (dumpedName alias got ++ ['\n'])), c.toNat < 256 := by
    rw [← latin1_some]
    exact ⟨fun ⟨b, h⟩ => ⟨b, h, latin1_val h⟩, fun ⟨b, h, _⟩ => ⟨b, h⟩⟩
  rw [this]
  have h1 : ∀ c ∈ "\n#NAME: ".toList, c.toNat < 256 := by decide
  simp only [List.mem_append, List.mem_singleton]
  constructor
  · intro h
    exact ⟨fun c hc => h c (.inl hc), fun c hc => h c (.inr (.inr (.inl hc)))⟩
  · rintro ⟨a, b⟩ c (hc | hc | hc | rfl)
    · exact a c hc
    · exact h1 c hc
    · exact b c hc
    · decide

/-- C35: what load_source reads is the text that was dumped exactly when it is ASCII. -/
theorem C35_exactly_ascii (t : List Char) (b : List Nat) (h : latin1 t = some b) : utf8 b = some t ↔ ∀ c ∈ t, c.toNat < 128 := by
  obtain rfl := latin1_val h
  constructor
  · intro hu c hc
    exact (utf8_shorter _ _ _ (Nat.le_refl _) hu).2 (by simp) c.toNat (List.mem_map_of_mem hc)
  · intro ha
    obtain ⟨b', h1, h2⟩ := latin1_utf8_ascii t ha
    rw [h1] at h
    cases h
    exact h2

/-- an alias given to the load is used as is -/
theorem C35_alias_wins (alias : List Char) (hne : alias ≠ []) (src a g : List Char)
    (hsrc : ∀ c ∈ src, c.toNat < 128) (hname : ∀ c ∈ dumpedName a g, c.toNat < 128) :
    ∃ b, dumpSource src a g = some b ∧ loadName alias b = .name alias := by
  obtain ⟨b, h1, h2⟩ := latin1_utf8_ascii
    (src ++ ("\n#NAME: ".toList ++ (dumpedName a g ++ ['\n']))) (by
      intro c hc
      simp only [List.mem_append] at hc
      rcases hc with h | h | h | h
      · exact hsrc c h
      · have : ∀ c ∈ "\n#NAME: ".toList, c.toNat < 128 := by decide
        exact this c h
      · exact hname c h
      · have : ∀ c ∈ ['\n'], c.toNat < 128 := by decide
        exact this c h)
  refine ⟨b, h1, ?_⟩
  unfold loadName
  rw [h2]
  simp [hne]

example : findName "#NAME: old\r\n#NAME: x y\n\n#NAME: f\n".toList = .name "f".toList := by decide +kernel
example : (∀ c ∈ "_f".toList, isSpace c = false) ∧ "_f".toList ≠ [] := by decide

end Verif.Temp
