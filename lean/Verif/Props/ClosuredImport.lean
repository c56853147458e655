import Verif.Model.ClosuredImport
import Verif.Props.PyStr
import Verif.Props.Outermost
set_option linter.unusedSimpArgs false
/-! C85: the import `importable` finds for a closure. -/
namespace Verif.ClosuredImport
open Source

/-! ### Specification -/

/-- letters, digits and the underscore -/
def WordChar (c : Char) : Prop := c.isAlphanum = true ∨ c = '_'

instance (c : Char) : Decidable (WordChar c) := by unfold WordChar; infer_instance

theorem isWord_iff (c : Char) : isWord c = true ↔ WordChar c := by simp [isWord, WordChar]

/-- the line has `...= CALL...` with a word character or white space before the `=` -/
def Assigns (call line : Str) : Prop :=
  ∃ (pre : Str) (c : Char) (ws rest : Str), line = pre ++ c :: '=' :: ws ++ call ++ rest ∧ '\n' ∉ pre ∧
    (WordChar c ∨ PyStr.isSpace c = true) ∧ ∀ x ∈ ws, PyStr.isSpace x = true

/-- the names of the objects in the modules -/
abbrev Names := Str → Str → Option Obj

/-- what an answer leads to when its import is executed -/
def Answer.leadsTo (ns : Names) (imported : Obj → Option Obj) : Answer → Option Obj
  | .name mod n => ns mod n
  | .getimport o => imported o

/-! ### The regular expression -/

theorem lstripWs_split (s : Str) : ∃ ws : Str, s = ws ++ lstripWs s ∧ ∀ x ∈ ws, PyStr.isSpace x = true := by
  induction s with
  | nil => exact ⟨[], rfl, by simp⟩
  | cons c s ih =>
    unfold lstripWs
    by_cases h : PyStr.isSpace c = true
    · obtain ⟨ws, h1, h2⟩ := ih
      refine ⟨c :: ws, ?_, by simpa [h] using h2⟩
      rw [if_pos h, List.cons_append, ← h1]
    · exact ⟨[], by simp [h], by simp⟩

theorem lstripWs_append (ws s : Str) (h : ∀ x ∈ ws, PyStr.isSpace x = true) : lstripWs (ws ++ s) = lstripWs s := by
  induction ws with
  | nil => rfl
  | cons c ws ih =>
    rw [List.cons_append, lstripWs, if_pos (h c (by simp)), ih fun x hx => h x (by simp [hx])]

theorem callsAfter_iff (call s : Str) (c : Char) (t : Str) (hc : call = c :: t) (hs : PyStr.isSpace c = false) :
    callsAfter call s = true ↔ ∃ ws rest : Str, s = ws ++ call ++ rest ∧ ∀ x ∈ ws, PyStr.isSpace x = true := by
  unfold callsAfter
  rw [List.isPrefixOf_iff_prefix]
  constructor
  · rintro ⟨rest, h⟩
    obtain ⟨ws, h1, h2⟩ := lstripWs_split s
    exact ⟨ws, rest, by rw [List.append_assoc, h, ← h1], h2⟩
  · rintro ⟨ws, rest, h1, h2⟩
    rw [h1, List.append_assoc, lstripWs_append _ _ h2, hc, List.cons_append, lstripWs, if_neg (by simp [hs])]
    exact ⟨rest, by simp⟩

theorem matchesCall_iff (call : Str) (c0 : Char) (t : Str) (hc : call = c0 :: t) (hs : PyStr.isSpace c0 = false) (line : Str) :
    matchesCall call line = true ↔ Assigns call line := by
  induction line with
  | nil =>
    constructor
    · intro h; cases h
    · rintro ⟨pre, c, ws, rest, h, _⟩
      have := congrArg List.length h
      simp at this
  | cons c line ih =>
    cases line with
    | nil =>
      constructor
      · intro h; cases h
      · rintro ⟨pre, c, ws, rest, h, _⟩
        have := congrArg List.length h
        simp at this
        omega
    | cons d s =>
      rw [matchesCall]
      simp only [Bool.or_eq_true, Bool.and_eq_true, beq_iff_eq, bne_iff_ne, ne_eq, ih, callsAfter_iff call _ c0 t hc hs]
      constructor
      · rintro (⟨⟨rfl, h1⟩, ws, rest, h2, h3⟩ | ⟨h1, pre, e, ws, rest, h2, h3, h4⟩)
        · exact ⟨[], c, ws, rest, by simp [h2], by simp, h1.imp_left (isWord_iff c).1, h3⟩
        · refine ⟨c :: pre, e, ws, rest, by rw [h2]; simp, ?_, h4⟩
          simp only [List.mem_cons, not_or]
          exact ⟨fun h => h1 h.symm, h3⟩
      · rintro ⟨pre, e, ws, rest, h2, h3, h4, h5⟩
        cases pre with
        | nil =>
          left
          simp only [List.nil_append, List.cons_append, List.cons.injEq] at h2
          obtain ⟨rfl, rfl, rfl⟩ := h2
          exact ⟨⟨rfl, h4.imp_left (isWord_iff _).2⟩, ws, rest, by simp, h5⟩
        | cons p pre =>
          right
          simp only [List.cons_append, List.cons.injEq] at h2
          obtain ⟨rfl, h2⟩ := h2
          simp only [List.mem_cons, not_or] at h3
          exact ⟨fun h => h3.1 h.symm, pre, e, ws, rest, by rw [h2], h3.2, h4, h5⟩

theorem lastCandidate_some {name call : Str} {lines : List Str} {l : Str} (h : lastCandidate name call lines = some l) :
    l ∈ lines ∧ matchesCall call l = true := by
  have := List.mem_of_getLast? h
  simp only [List.mem_filter, Bool.and_eq_true] at this
  exact ⟨this.1, this.2.2⟩

/-! ### C85 -/

/-- an identifier -/
def Ident (s : Str) : Prop := s ≠ [] ∧ ∀ c ∈ s, WordChar c

theorem word_not_space {c : Char} (h : WordChar c) : PyStr.isSpace c = false := by
  rcases h with h | rfl
  · exact PyStr.isSpace_alphanum h
  · decide

theorem word_not_eq {c : Char} (h : WordChar c) : c ≠ '=' := by
  rintro rfl; exact absurd h (by decide)

theorem matchesCall_ident {en : Str} (rest line : Str) (h : Ident en) :
    matchesCall (en ++ '(' :: rest) line = true ↔ Assigns (en ++ '(' :: rest) line := by
  obtain ⟨hne, hw⟩ := h
  cases en with
  | nil => exact absurd rfl hne
  | cons c t => exact matchesCall_iff _ c (t ++ '(' :: rest) rfl (word_not_space (hw c (by simp))) line

/-- C85, where a name comes from: it is the last word before the first `=` of a line, in the file of the enclosing function or
in that of a function of the closure, that assigns a call of the enclosing function.  (Nothing more is known about the line.) -/
theorem C85_from_a_line (W : World) (f : Obj) (mod n : Str)
    (hid : ∀ (e : Obj) (s : Str), W.getname e = some s → Ident s)
    (h : closuredimport W f = some (.name mod n)) :
    ∃ (encl src : Obj) (en tail : Str) (lines : List Str) (line : Str), W.outermost f = some encl ∧ W.getname encl = some en ∧
      (src = encl ∨ ∃ p ∈ W.free f, src = p.2) ∧ W.modname src = some mod ∧ W.file src = some lines ∧ line ∈ lines ∧
      Assigns (en ++ '(' :: tail) line ∧ boundName line = some n := by
  -- one function
  have hone : ∀ (x : Obj) (name k : Str), (name, x) ∈ W.free f → forFunction W f x name = some (k, .name mod n) →
      ∃ (encl src : Obj) (en tail : Str) (lines : List Str) (line : Str), W.outermost f = some encl ∧ W.getname encl = some en ∧
      (src = encl ∨ ∃ p ∈ W.free f, src = p.2) ∧ W.modname src = some mod ∧ W.file src = some lines ∧ line ∈ lines ∧
      Assigns (en ++ '(' :: tail) line ∧ boundName line = some n := by
    intro x name k hx h
    unfold forFunction at h
    cases h1 : W.getsource x with
    | none => simp [h1] at h
    | some src =>
      cases hd : startsAt src with
      | true => simp [h1, hd] at h
      | false =>
        cases h2 : W.outermost f with
        | none => simp [h1, hd, h2] at h
        | some encl =>
          cases h3 : W.getname encl with
          | none => simp [h1, hd, h2, h3] at h
          | some en =>
            cases h4 : W.getname x with
            | none => simp [h1, hd, h2, h3, h4] at h
            | some fn =>
              cases h5 : W.modname encl with
              | none => simp [h1, hd, h2, h3, h4, h5] at h
              | some m =>
                cases h6 : W.file encl with
                | none => simp [h1, hd, h2, h3, h4, h5, h6] at h
                | some lines =>
                  cases h7 : lastCandidate en (en ++ '(' :: fn) lines with
                  | some c =>
                    cases h8 : boundName c with
                    | none => simp [h1, hd, h2, h3, h4, h5, h6, h7, h8] at h
                    | some b =>
                      simp [h1, hd, h2, h3, h4, h5, h6, h7, h8] at h
                      obtain ⟨_, rfl, rfl⟩ := h
                      obtain ⟨g1, g2⟩ := lastCandidate_some h7
                      exact ⟨encl, encl, en, fn, lines, c, rfl, h3, .inl rfl, h5, h6, g1,
                        (matchesCall_ident fn c (hid _ _ h3)).mp g2, h8⟩
                  | none =>
                    cases h9 : W.modname x with
                    | none => simp [h1, hd, h2, h3, h4, h5, h6, h7, h9] at h
                    | some m2 =>
                      cases h10 : W.file x with
                      | none => simp [h1, hd, h2, h3, h4, h5, h6, h7, h9, h10] at h
                      | some lines2 =>
                        cases h11 : lastCandidate fn (en ++ '(' :: fn) lines2 with
                        | none => simp [h1, hd, h2, h3, h4, h5, h6, h7, h9, h10, h11] at h
                        | some c =>
                          cases h8 : boundName c with
                          | none => simp [h1, hd, h2, h3, h4, h5, h6, h7, h8, h9, h10, h11] at h
                          | some b =>
                            simp [h1, hd, h2, h3, h4, h5, h6, h7, h8, h9, h10, h11] at h
                            obtain ⟨_, rfl, rfl⟩ := h
                            obtain ⟨g1, g2⟩ := lastCandidate_some h11
                            exact ⟨encl, x, en, fn, lines2, c, rfl, h3, .inr ⟨_, hx, rfl⟩, h9, h10, g1,
                              (matchesCall_ident fn c (hid _ _ h3)).mp g2, h8⟩
  -- every value of the dict comes from one function
  have hall : ∀ (l : List (Str × Obj)) (d d' : Dict Str Answer), (∀ p ∈ l, p ∈ W.free f) → overFunctions W f l d = some d' →
      ∀ p ∈ d', p ∈ d ∨ ∃ (x : Obj) (name k : Str), (name, x) ∈ W.free f ∧ forFunction W f x name = some (k, p.2) := by
    intro l
    induction l with
    | nil => intro d d' _ h p hp; simp [overFunctions] at h; subst h; exact .inl hp
    | cons q l ih =>
      intro d d' hl h p hp
      obtain ⟨name, x⟩ := q
      unfold overFunctions at h
      cases hx : W.isFunction x with
      | false =>
        simp only [hx, if_true] at h
        exact ih d d' (fun q hq => hl q (by simp [hq])) h p hp
      | true =>
        simp only [hx, Bool.true_eq_false, if_false] at h
        cases hf : forFunction W f x name with
        | none => simp [hf] at h
        | some r =>
          obtain ⟨k, a⟩ := r
          simp [hf] at h
          rcases ih _ d' (fun q hq => hl q (by simp [hq])) h p hp with h' | h'
          · have hset : p ∈ d ∨ p.2 = a := by
              clear h ih hp
              induction d with
              | nil => simp [Dict.set] at h'; right; rw [h']
              | cons e d ihd =>
                obtain ⟨k', v'⟩ := e
                unfold Dict.set at h'
                split at h'
                · rcases List.mem_cons.mp h' with rfl | h'
                  · exact .inr rfl
                  · exact .inl (by simp [h'])
                · rcases List.mem_cons.mp h' with rfl | h'
                  · exact .inl (by simp)
                  · rcases ihd h' with h' | h'
                    · exact .inl (by simp [h'])
                    · exact .inr h'
            rcases hset with h' | h'
            · exact .inl h'
            · exact .inr ⟨x, name, k, hl _ (by simp), by rw [hf, h']⟩
          · exact .inr h'
  unfold closuredimport at h
  cases hd : overFunctions W f (W.free f) [] with
  | none => simp [hd] at h
  | some d =>
    simp only [hd, Option.bind_eq_bind, Option.bind_some] at h
    match d, hd, h with
    | [], _, h =>
      unfold noFunctions at h
      cases h2 : W.outermost f with
      | none => cases hf : W.forced f <;> simp [h2, hf] at h
      | some encl =>
        simp only [h2] at h
        by_cases hc : ((W.modname encl).isNone || decide (encl = f)) = true
        · rw [if_pos hc] at h; cases hf : W.forced f <;> simp [hf] at h
        · rw [if_neg hc] at h
          cases h5 : W.modname encl with
          | none => simp [h5] at h
          | some m =>
            cases h6 : W.file encl with
            | none => simp [h5, h6] at h
            | some lines =>
              cases h3 : W.getname encl with
              | none => simp [h5, h6, h3] at h
              | some en =>
                cases h7 : lastCandidate en (en ++ ['(']) lines with
                | none => simp [h5, h6, h3, h7] at h
                | some c =>
                  cases h8 : boundName c with
                  | none => simp [h5, h6, h3, h7, h8] at h
                  | some b =>
                    simp [h5, h6, h3, h7, h8] at h
                    obtain ⟨rfl, rfl⟩ := h
                    obtain ⟨g1, g2⟩ := lastCandidate_some h7
                    exact ⟨encl, encl, en, [], lines, c, rfl, h3, .inl rfl, h5, h6, g1,
                      (matchesCall_ident [] c (hid _ _ h3)).mp g2, h8⟩
    | [(k, a)], hd, h =>
      simp at h
      subst h
      rcases hall _ _ _ (fun p hp => hp) hd _ (List.mem_singleton.mpr rfl) with h' | ⟨x, name, k', h1, h2⟩
      · cases h'
      · exact hone x name k' h1 h2
    | _ :: _ :: _, _, h => simp at h

/-- C85, as far as it goes: if every line of those files that assigns a call of the enclosing function binds a name that holds
this very closure, the import leads to the closure. -/
theorem C85_right_partial (W : World) (ns : Names) (imported : Obj → Option Obj) (f : Obj) (mod n : Str)
    (hid : ∀ (e : Obj) (s : Str), W.getname e = some s → Ident s)
    (hlines : ∀ (encl src : Obj) (en tail mod n : Str) (lines : List Str) (line : Str), W.outermost f = some encl →
      W.getname encl = some en → W.modname src = some mod → W.file src = some lines → line ∈ lines →
      Assigns (en ++ '(' :: tail) line → boundName line = some n → ns mod n = some f)
    (h : closuredimport W f = some (.name mod n)) :
    (Answer.name mod n).leadsTo ns imported = some f := by
  obtain ⟨encl, src, en, tail, lines, line, h1, h2, _, h4, h5, h6, h7, h8⟩ := C85_from_a_line W f mod n hid h
  exact hlines encl src en tail mod n lines line h1 h2 h4 h5 h6 h7 h8

theorem splitWs_word (s : Str) (cur : Str) (h : ∀ c ∈ s, PyStr.isSpace c = false) (hne : cur ++ s ≠ []) (ws : Str)
    (hw : ∀ c ∈ ws, PyStr.isSpace c = true) : PyStr.splitWsGo cur (s ++ ws) = [cur.reverse ++ s] := by
  induction s generalizing cur with
  | nil =>
    simp only [List.nil_append, List.append_nil] at hne ⊢
    cases ws with
    | nil => cases cur with
      | nil => exact absurd rfl hne
      | cons c cur => simp [PyStr.splitWsGo]
    | cons w ws =>
      cases cur with
      | nil => exact absurd rfl hne
      | cons c cur =>
        have h0 : ∀ ws : Str, (∀ c ∈ ws, PyStr.isSpace c = true) → PyStr.splitWsGo [] ws = [] := by
          intro ws
          induction ws with
          | nil => intro _; simp [PyStr.splitWsGo]
          | cons c ws ih => intro h; simp [PyStr.splitWsGo, h c (by simp), ih fun x hx => h x (by simp [hx])]
        simp [PyStr.splitWsGo, hw w (by simp), h0 ws fun c hc => hw c (by simp [hc])]
  | cons c s ih =>
    rw [List.cons_append, PyStr.splitWsGo, if_neg (by simp [h c (by simp)]),
      ih (c :: cur) (fun x hx => h x (by simp [hx])) (by simp)]
    simp

theorem boundName_simple (name ws rest : Str) (hn : Ident name) (hw : ∀ c ∈ ws, PyStr.isSpace c = true) :
    boundName (name ++ ws ++ '=' :: rest) = some name := by
  have hb : beforeEq (name ++ ws ++ '=' :: rest) = name ++ ws := by
    unfold beforeEq
    rw [List.takeWhile_append_of_pos]
    · simp
    · intro c hc
      rcases List.mem_append.mp hc with hc | hc
      · simpa using word_not_eq (hn.2 c hc)
      · have := hw c hc
        simp only [bne_iff_ne, ne_eq]
        rintro rfl
        exact absurd this (by decide)
  have : PyStr.splitWs (name ++ ws) = [name] := by
    have := splitWs_word name [] (fun c hc => word_not_space (hn.2 c hc)) (by simpa using hn.1) ws hw
    simpa [PyStr.splitWs] using this
  rw [boundName, hb, this]; rfl

theorem contains_self (en pre post : Str) : contains en (pre ++ en ++ post) = true :=
  (Outermost.contains_iff _ _).mpr ⟨pre, post, rfl⟩

/-- C85, an answer: for a closure over values whose enclosing function `en` is called in an assignment on exactly one line of
its file, `NAME = en(...)`, the import is the one of NAME from the module of the enclosing function. -/
theorem C85_single_line (W : World) (f encl : Obj) (en name mod ws args : Str) (before after : List Str) (hne : encl ≠ f)
    (hfree : ∀ p ∈ W.free f, W.isFunction p.2 = false) (ho : W.outermost f = some encl) (hen : W.getname encl = some en)
    (hid : Ident en) (hname : Ident name) (hmod : W.modname encl = some mod)
    (hws : ∀ c ∈ ws, PyStr.isSpace c = true)
    (hfile : W.file encl = some (before ++ (name ++ ws ++ "= ".toList ++ en ++ '(' :: args) :: after))
    (hother : ∀ l, l ∈ before ∨ l ∈ after → ¬ Assigns (en ++ ['(']) l) (hnl : '\n' ∉ ws) :
    closuredimport W f = some (.name mod name) := by
  have hloop : ∀ l : List (Str × Obj), (∀ p ∈ l, W.isFunction p.2 = false) → overFunctions W f l [] = some [] := by
    intro l
    induction l with
    | nil => intro _; rfl
    | cons p l ih =>
      intro h
      obtain ⟨n, x⟩ := p
      have hx : W.isFunction x = false := h (n, x) (by simp)
      rw [overFunctions, if_pos hx]
      exact ih fun q hq => h q (by simp [hq])
  have hline : name ++ ws ++ "= ".toList ++ en ++ '(' :: args = name ++ ws ++ '=' :: (' ' :: en ++ '(' :: args) := by simp
  have has : Assigns (en ++ ['(']) (name ++ ws ++ "= ".toList ++ en ++ '(' :: args) := by
    -- the character before the sign
    rcases List.eq_nil_or_concat ws with rfl | ⟨ws', w, rfl⟩
    · obtain ⟨nm, c, rfl⟩ : ∃ nm c, name = nm ++ [c] := by
        rcases List.eq_nil_or_concat name with rfl | ⟨nm, c, rfl⟩
        · exact absurd rfl hname.1
        · exact ⟨nm, c, by simp⟩
      refine ⟨nm, c, [' '], args, by simp, ?_, .inl (hname.2 c (by simp)), by simp [PyStr.isSpace]⟩
      intro hc
      exact absurd (hname.2 '\n' (by simp [hc])) (by decide)
    · simp only [List.concat_eq_append] at hws hnl ⊢
      refine ⟨name ++ ws', w, [' '], args, by simp, ?_, .inr (hws w (by simp)), by simp [PyStr.isSpace]⟩
      intro hc
      rcases List.mem_append.mp hc with hc | hc
      · exact absurd (hname.2 '\n' hc) (by decide)
      · exact hnl (by simp [hc])
  have hcand : lastCandidate en (en ++ ['(']) (before ++ (name ++ ws ++ "= ".toList ++ en ++ '(' :: args) :: after) =
      some (name ++ ws ++ "= ".toList ++ en ++ '(' :: args) := by
    have hno : ∀ L : List Str, (∀ l ∈ L, ¬ Assigns (en ++ ['(']) l) →
        (L.filter fun l => contains en l && matchesCall (en ++ ['(']) l) = [] := by
      intro L hL
      rw [List.filter_eq_nil_iff]
      intro l hl
      simp only [Bool.and_eq_true, not_and]
      intro _ hm
      exact hL l hl ((matchesCall_ident [] l hid).mp hm)
    unfold lastCandidate
    rw [List.filter_append, List.filter_cons, hno before fun l hl => hother l (.inl hl), hno after fun l hl => hother l (.inr hl),
      if_pos]
    · simp
    · rw [Bool.and_eq_true]
      exact ⟨contains_self en _ _, (matchesCall_ident [] _ hid).mpr has⟩
  unfold closuredimport
  rw [hloop _ hfree]
  simp only [Option.bind_eq_bind, Option.bind_some, noFunctions, ho, hmod, hne, hfile, hen, hcand, Option.isNone_some,
    decide_false, Bool.or_false, Bool.false_eq_true, if_false]
  rw [hline, boundName_simple name ws _ hname hws]
  rfl

/-! ### Cases -/

/-- a module `m` with `def make(n):` and some lines; object 0 is the closure asked about, 1 is `make`, 2 the value of `n` -/
def module1 (lines : List Str) : World where
  free := fun o => if o = 0 then [("n".toList, 2)] else []
  isFunction := fun o => o ≤ 1
  getsource := fun _ => some []
  outermost := fun _ => some 1
  getname := fun o => if o = 1 then some "make".toList else none
  forced := fun _ => none
  modname := fun _ => some "m".toList
  file := fun _ => some lines

example : closuredimport (module1 ["def make(n):\n".toList, "    return lambda: n\n".toList, "add2 = make(2)\n".toList,
    "print(add2())\n".toList]) 0 = some (.name "m".toList "add2".toList) := by
  have hm : ∀ l : Str, matchesCall ("make".toList ++ ['(']) l = false → ¬ Assigns ("make".toList ++ ['(']) l := by
    intro l h h'
    have hid : Ident "make".toList := ⟨by decide, by decide⟩
    rw [(matchesCall_ident [] l hid).mpr h'] at h
    cases h
  refine C85_single_line _ 0 1 "make".toList "add2".toList "m".toList " ".toList "2)\n".toList
    ["def make(n):\n".toList, "    return lambda: n\n".toList] ["print(add2())\n".toList] (by decide) (by decide +kernel) rfl rfl
    ⟨by decide, by decide⟩ ⟨by decide, by decide⟩ rfl (by decide) rfl ?_ (by decide)
  intro l hl
  apply hm
  rcases hl with hl | hl
  · rcases List.mem_cons.mp hl with rfl | hl
    · decide +kernel
    · rw [List.mem_singleton] at hl; subst hl; decide +kernel
  · rw [List.mem_singleton] at hl; subst hl; decide +kernel

/-- the names in `m` after `add2 = make(2)` and `add3 = make(3)`: object 0 is `add2` -/
def names1 : Names := fun mod n =>
  if mod = "m".toList then if n = "add2".toList then some 0 else if n = "add3".toList then some 3 else none else none

/-- the hypotheses of `C85_right_partial` hold when there is one such line -/
example : (Answer.name "m".toList "add2".toList).leadsTo names1 some = some 0 := by
  refine C85_right_partial (module1 ["add2 = make(2)\n".toList]) names1 some 0 _ _ ?_ ?_ (by decide +kernel)
  · intro e s h
    by_cases he : e = 1
    · have : s = "make".toList := by
        simp only [module1, he, if_true, Option.some.injEq] at h
        exact h.symm
      subst this
      exact ⟨by decide, by decide⟩
    · simp [module1, he] at h
  · intro encl src en tail mod n lines line _ _ hm hf hl _ hb
    have hm : mod = "m".toList := (Option.some.inj hm).symm
    have hf : lines = ["add2 = make(2)\n".toList] := (Option.some.inj hf).symm
    subst hm hf
    rw [List.mem_singleton] at hl
    subst hl
    have : some n = some "add2".toList := hb.symm.trans (by decide +kernel)
    rw [Option.some.inj this]
    decide +kernel

/-- C85 is false when the enclosing function was called twice: the import found for `add2` is that of `add3`. -/
theorem C85_wrong_closure :
    closuredimport (module1 ["add2 = make(2)\n".toList, "add3 = make(3)\n".toList]) 0 =
      some (.name "m".toList "add3".toList) ∧
    (Answer.name "m".toList "add3".toList).leadsTo names1 some = some 3 ∧
    (Answer.name "m".toList "add2".toList).leadsTo names1 some = some 0 := by
  decide +kernel

/-- a comment counts as well; the name may not exist at all -/
theorem C85_comment :
    closuredimport (module1 ["add2 = make(2)\n".toList, "# old = make(9)\n".toList]) 0 = some (.name "m".toList "old".toList) ∧
    names1 "m".toList "old".toList = none := by decide +kernel

/-- a comparison earlier on the line: `if n == 1: add2 = make(2)` gives the name `n` -/
theorem C85_comparison :
    closuredimport (module1 ["if n == 1: add2 = make(2)\n".toList]) 0 = some (.name "m".toList "n".toList) := by decide +kernel

/-- `h = wrap(f)` and `k = wrap(f2)`; objects: 0 is h, 1 is wrap, 2 is f -/
def module2 (lines : List Str) : World where
  free := fun o => if o = 0 then [("g".toList, 2)] else []
  isFunction := fun _ => true
  getsource := fun _ => some "def f(): return 1\n".toList
  outermost := fun _ => some 1
  getname := fun o => if o = 1 then some "wrap".toList else some "f".toList
  forced := fun _ => none
  modname := fun _ => some "m".toList
  file := fun _ => some lines

example : closuredimport (module2 ["h = wrap(f)\n".toList]) 0 = some (.name "m".toList "h".toList) := by decide +kernel

/-- C85 is false when the name of the function is the beginning of another name. -/
theorem C85_prefix : closuredimport (module2 ["h = wrap(f)\n".toList, "k = wrap(f2)\n".toList]) 0 =
    some (.name "m".toList "k".toList) := by decide +kernel

/-- C85 is false when a function of the closure has a decorator of its own: the import is that of this function, whatever is
asked for. -/
theorem C85_decorated_helper (W : World) (f x : Obj) (name src : Str) (hfree : W.free f = [(name, x)])
    (hx : W.isFunction x = true) (hs : W.getsource x = some ('@' :: src)) : closuredimport W f = some (.getimport x) := by
  have hd : startsAt ('@' :: src) = true := by simp [startsAt, lstripWs, PyStr.isSpace]
  simp [closuredimport, hfree, overFunctions, hx, forFunction, hs, hd, Dict.set]

end Verif.ClosuredImport
