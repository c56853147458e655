import Verif.Model.GetImport
/-! Properties of import strings, C48 and C50.  The statement a string denotes is given by `parse`, written
independently of the builder: split into words and recognise Python's six shapes. -/
set_option linter.unusedSimpArgs false
namespace Verif.GetImport

deriving instance DecidableEq for Except

/-! ### specification -/

/-- a one-line Python statement -/
inductive Stmt where
  /-- `t` -/
  | expr (t : Str)
  /-- `a = t` -/
  | assign (a t : Str)
  /-- `import t` / `from h import t`, with `as a` or not -/
  | imp (h : Option Str) (t : Str) (a : Option Str)
  deriving DecidableEq

def flush (cur : Str) : List Str := match cur with | [] => [] | _ :: _ => [cur]

/-- the words of a text: blanks and newlines separate -/
def words (cur : Str) : Str → List Str
  | [] => flush cur
  | c :: cs => if c = ' ' ∨ c = '\n' then flush cur ++ words [] cs else words (cur ++ [c]) cs

def parseWords (ws : List Str) : Option Stmt :=
  match ws with
  | [t] => some (.expr t)
  | [k, t] => if k = ['i','m','p','o','r','t'] then some (.imp none t none) else none
  | [a, e, t] => if e = ['='] then some (.assign a t) else none
  | [k, x, y, z] =>
    if k = ['i','m','p','o','r','t'] ∧ y = ['a','s'] then some (.imp none x (some z))
    else if k = ['f','r','o','m'] ∧ y = ['i','m','p','o','r','t'] then some (.imp (some x) z none)
    else none
  | [k, h, k', t, k'', a] =>
    if k = ['f','r','o','m'] ∧ k' = ['i','m','p','o','r','t'] ∧ k'' = ['a','s'] then some (.imp (some h) t (some a))
    else none
  | _ => none

def parse (s : Str) : Option Stmt := parseWords (words [] s)

/-- the object the statement mentions -/
def Stmt.mentions : Stmt → Str
  | .expr t => t
  | .assign _ t => t
  | .imp _ t _ => t

/-- the new name the statement gives to the object, if it renames it -/
def Stmt.renamed : Stmt → Option Str
  | .expr _ => none
  | .assign a _ => some a
  | .imp _ _ a => a

def Stmt.isImport : Stmt → Bool
  | .imp _ _ _ => true
  | _ => false

/-- where an import statement imports from -/
def Stmt.source : Stmt → Option Str
  | .imp h _ _ => h
  | _ => none

/-- a (dotted) name: not empty, no blanks -/
def Name (s : Str) : Prop := s ≠ [] ∧ ∀ c ∈ s, c ≠ ' ' ∧ c ≠ '\n'

/-- no blanks, maybe empty -/
def NoBlank (s : Str) : Prop := ∀ c ∈ s, c ≠ ' ' ∧ c ≠ '\n'

/-- `p` is `h` or a package enclosing it -/
def Encloses (p h : Str) : Prop := p = h ∨ ∃ r, h = p ++ '.' :: r

/-! ### lemmas -/

theorem words_name (cur t rest : Str) (h : NoBlank t) : words cur (t ++ rest) = words (cur ++ t) rest := by
  induction t generalizing cur with
  | nil => simp
  | cons c t ih =>
    have hc := h c (by simp)
    rw [List.cons_append, words]
    rw [if_neg (by intro hh; rcases hh with hh | hh <;> simp_all)]
    rw [ih _ (fun x hx => h x (by simp [hx]))]
    simp

theorem flush_name {t : Str} (h : t ≠ []) : flush t = [t] := by
  cases t <;> simp_all [flush]

theorem words_sep (cur rest : Str) : words cur (' ' :: rest) = flush cur ++ words [] rest := by simp [words]
theorem words_nl (cur rest : Str) : words cur ('\n' :: rest) = flush cur ++ words [] rest := by simp [words]

theorem words_word {t : Str} (rest : Str) (h : Name t) : words [] (t ++ ' ' :: rest) = t :: words [] rest := by
  rw [words_name _ _ _ h.2, words_sep]; simp [flush_name h.1]

theorem words_last {t : Str} (h : Name t) : words [] (t ++ ['\n']) = [t] := by
  rw [words_name _ _ _ h.2, words_nl, List.nil_append, flush_name h.1]; rfl

theorem name_lit (s : Str) (h1 : s ≠ []) (h2 : s.all (fun c => c != ' ' && c != '\n') = true) : Name s :=
  ⟨h1, fun c hc => by simpa using List.all_eq_true.1 h2 c hc⟩

def rename (alias t : Str) : Option Str := if alias = [] ∨ alias = t then none else some alias

theorem parse_assign {alias t : Str} (ht : Name t) (ha : NoBlank alias) :
    ∃ st, parse (assign alias t) = some st ∧ st.mentions = t ∧ st.renamed = rename alias t ∧ st.isImport = false ∧
      st.source = none := by
  unfold parse assign rename
  by_cases h : alias = [] ∨ alias = t
  · rw [if_pos h, if_pos h]
    refine ⟨.expr t, ?_, rfl, rfl, rfl, rfl⟩
    have : words [] ([] ++ t ++ "\n".toList) = [t] := by simpa using words_last ht
    rw [this]; rfl
  · rw [if_neg h, if_neg h]
    have hA : Name alias := ⟨fun e => h (Or.inl e), ha⟩
    refine ⟨.assign alias t, ?_, rfl, rfl, rfl, rfl⟩
    have : words [] (alias ++ " = ".toList ++ t ++ "\n".toList) = [alias, ['='], t] := by
      have e : alias ++ " = ".toList ++ t ++ "\n".toList = alias ++ ' ' :: (['='] ++ ' ' :: (t ++ ['\n'])) := by simp
      rw [e, words_word _ hA, words_word _ (name_lit _ (by decide) (by decide)), words_last ht]
    rw [this]; rfl

theorem parse_importStr {head alias t : Str} (ht : Name t) (ha : NoBlank alias) (hh : NoBlank head) :
    ∃ st, parse (importStr head t alias) = some st ∧ st.mentions = t ∧ st.renamed = rename alias t ∧
      st.isImport = true ∧ st.source = (if head = [] then none else some head) := by
  unfold parse importStr rename
  by_cases hd : head = []
  · rw [if_pos hd, if_pos hd]
    by_cases h : alias = [] ∨ alias = t
    · rw [if_pos h, if_pos h]
      refine ⟨.imp none t none, ?_, rfl, rfl, rfl, rfl⟩
      have : words [] ("import ".toList ++ t ++ "\n".toList) = [['i','m','p','o','r','t'], t] := by
        have e : "import ".toList ++ t ++ "\n".toList = ['i','m','p','o','r','t'] ++ ' ' :: (t ++ ['\n']) := by simp
        rw [e, words_word _ (name_lit _ (by decide) (by decide)), words_last ht]
      rw [this]; rfl
    · rw [if_neg h, if_neg h]
      have hA : Name alias := ⟨fun e => h (Or.inl e), ha⟩
      refine ⟨.imp none t (some alias), ?_, rfl, rfl, rfl, rfl⟩
      have : words [] ("import ".toList ++ t ++ (" as ".toList ++ alias ++ "\n".toList)) =
          [['i','m','p','o','r','t'], t, ['a','s'], alias] := by
        have e : "import ".toList ++ t ++ (" as ".toList ++ alias ++ "\n".toList) =
            ['i','m','p','o','r','t'] ++ ' ' :: (t ++ ' ' :: (['a','s'] ++ ' ' :: (alias ++ ['\n']))) := by simp
        rw [e, words_word _ (name_lit _ (by decide) (by decide)), words_word _ ht,
          words_word _ (name_lit _ (by decide) (by decide)), words_last hA]
      rw [this]; rfl
  · rw [if_neg hd, if_neg hd]
    have hH : Name head := ⟨hd, hh⟩
    by_cases h : alias = [] ∨ alias = t
    · rw [if_pos h, if_pos h]
      refine ⟨.imp (some head) t none, ?_, rfl, rfl, rfl, rfl⟩
      have : words [] ("from ".toList ++ head ++ " import ".toList ++ t ++ "\n".toList) =
          [['f','r','o','m'], head, ['i','m','p','o','r','t'], t] := by
        have e : "from ".toList ++ head ++ " import ".toList ++ t ++ "\n".toList =
            ['f','r','o','m'] ++ ' ' :: (head ++ ' ' :: (['i','m','p','o','r','t'] ++ ' ' :: (t ++ ['\n']))) := by simp
        rw [e, words_word _ (name_lit _ (by decide) (by decide)), words_word _ hH,
          words_word _ (name_lit _ (by decide) (by decide)), words_last ht]
      rw [this]; rfl
    · rw [if_neg h, if_neg h]
      have hA : Name alias := ⟨fun e => h (Or.inl e), ha⟩
      refine ⟨.imp (some head) t (some alias), ?_, rfl, rfl, rfl, rfl⟩
      have : words [] ("from ".toList ++ head ++ " import ".toList ++ t ++ (" as ".toList ++ alias ++ "\n".toList)) =
          [['f','r','o','m'], head, ['i','m','p','o','r','t'], t, ['a','s'], alias] := by
        have e : "from ".toList ++ head ++ " import ".toList ++ t ++ (" as ".toList ++ alias ++ "\n".toList) =
            ['f','r','o','m'] ++ ' ' :: (head ++ ' ' :: (['i','m','p','o','r','t'] ++ ' ' ::
              (t ++ ' ' :: (['a','s'] ++ ' ' :: (alias ++ ['\n']))))) := by simp
        rw [e, words_word _ (name_lit _ (by decide) (by decide)), words_word _ hH,
          words_word _ (name_lit _ (by decide) (by decide)), words_word _ ht,
          words_word _ (name_lit _ (by decide) (by decide)), words_last hA]
      rw [this]; rfl

/-- the parent of a dotted name is the name up to its last dot; an undotted name is its own parent -/
theorem parent_spec (h : Str) : ('.' ∉ h ∧ parent h = h) ∨ ∃ r, '.' ∉ r ∧ h = parent h ++ '.' :: r := by
  have hs := List.takeWhile_append_dropWhile (p := (· != '.')) (l := h.reverse)
  have hT : ∀ c ∈ h.reverse.takeWhile (· != '.'), c ≠ '.' := by
    generalize h.reverse = l
    induction l with
    | nil => simp
    | cons x l ih =>
      intro c hc
      rw [List.takeWhile_cons] at hc
      split at hc
      · next hx =>
        rcases List.mem_cons.1 hc with e | e
        · subst e; simpa using hx
        · exact ih c e
      · cases hc
  unfold parent
  cases hd : h.reverse.dropWhile (· != '.') with
  | nil =>
    left
    rw [hd, List.append_nil] at hs
    refine ⟨fun hm => ?_, rfl⟩
    exact hT '.' (by rw [hs]; simpa using hm) rfl
  | cons d r =>
    right
    have hdot : d = '.' := by
      have := List.head?_dropWhile_not (fun c => c != '.') h.reverse
      rw [hd] at this; simpa using this
    subst hdot
    refine ⟨(h.reverse.takeWhile (· != '.')).reverse, fun hm => hT '.' (by simpa using hm) rfl, ?_⟩
    rw [hd] at hs
    have := congrArg List.reverse hs
    simp at this
    simpa using this.symm

theorem parent_lt {h : Str} (hp : parent h ≠ h) : (parent h).length < h.length := by
  rcases parent_spec h with ⟨-, e⟩ | ⟨r, -, e⟩
  · exact absurd e hp
  · have := congrArg List.length e; simp at this; omega

theorem encloses_parent (h : Str) : Encloses (parent h) h := by
  rcases parent_spec h with ⟨-, e⟩ | ⟨r, -, e⟩
  · exact Or.inl e
  · exact Or.inr ⟨r, e⟩

theorem encloses_trans {a b c : Str} (h1 : Encloses a b) (h2 : Encloses b c) : Encloses a c := by
  rcases h1 with h1 | ⟨r, h1⟩
  · exact h1 ▸ h2
  · rcases h2 with h2 | ⟨q, h2⟩
    · exact Or.inr ⟨r, h2 ▸ h1⟩
    · refine Or.inr ⟨r ++ '.' :: q, ?_⟩; rw [h2, h1]; simp

theorem noBlank_of_encloses {p h : Str} (e : Encloses p h) (hn : NoBlank h) : NoBlank p := by
  rcases e with e | ⟨r, e⟩
  · exact e ▸ hn
  · intro c hc; exact hn c (by rw [e]; simp [hc])

/-- what is claimed of a returned string -/
def Good (E : Env) (head tail alias : Str) (verify : Bool) (s : Str) : Prop :=
  ∃ t st, (t = tail ∨ (tail = "ellipsis".toList ∧ t = "EllipsisType".toList)) ∧
    parse s = some st ∧ st.mentions = t ∧ st.renamed = rename alias t ∧
    (st.isImport = false → ∃ h, Encloses h head ∧
      (h = "builtins".toList ∨ h = "__builtin__".toList ∨
        (h = "types".toList ∧ (t = "None".toList ∨ t = "Ellipsis".toList ∨ t = "NotImplemented".toList)))) ∧
    (∀ h, st.source = some h → Encloses h head ∨ h = "types".toList ∨ h = "builtins".toList) ∧
    (st.isImport = true → verify = true → E.exec s = .ok ∨
      (∃ h, st.source = some h ∧ (startsWith "dill.".toList h = true ∨ ('.' ∉ h ∧ E.exec s = .importError))))

theorem good_of_getimport (E : Env) (n : Nat) : ∀ (head tail alias : Str) (verify builtin : Bool) (s : Str),
    NoBlank head → Name tail → NoBlank alias →
    getimport E n head tail alias verify builtin = .ok s → Good E head tail alias verify s := by
  induction n with
  | zero => intro head tail alias verify builtin s _ _ _ h; simp [getimport] at h
  | succ n ih =>
    intro head tail alias verify builtin s hh ht ha h
    unfold getimport at h
    by_cases c1 : tail = "None".toList ∧ head = "types".toList
    · rw [if_pos c1] at h
      cases h
      obtain ⟨st, p1, p2, p3, p4, p5⟩ := parse_assign ht ha
      refine ⟨tail, st, Or.inl rfl, p1, p2, p3, fun _ => ⟨head, Or.inl rfl, Or.inr (Or.inr ⟨c1.2, Or.inl c1.1⟩)⟩, ?_, ?_⟩
      · intro x hx; rw [p5] at hx; cases hx
      · intro x; rw [p4] at x; cases x
    rw [if_neg c1] at h
    simp only at h
    -- the effective head and tail
    generalize hH : (if (tail = "Ellipsis".toList ∨ tail = "NotImplemented".toList) ∧ head = "types".toList then
        "builtins".toList else head) = H at h
    have hHnb : NoBlank H := by
      rw [← hH]; split
      · exact (name_lit _ (by decide) (by decide)).2
      · exact hh
    have hHsrc : H = head ∨ (H = "builtins".toList ∧ head = "types".toList ∧
        (tail = "Ellipsis".toList ∨ tail = "NotImplemented".toList)) := by
      rw [← hH]; split
      · next c => exact Or.inr ⟨rfl, c.2, c.1⟩
      · exact Or.inl rfl
    by_cases cB : H = "builtins".toList ∨ H = "__builtin__".toList
    · simp only [cB, true_and] at h
      generalize hT : (if tail = "ellipsis".toList then "EllipsisType".toList else tail) = T at h
      have hTn : Name T := by
        rw [← hT]; split
        · exact name_lit _ (by decide) (by decide)
        · exact ht
      have hTsrc : T = tail ∨ (tail = "ellipsis".toList ∧ T = "EllipsisType".toList) := by
        rw [← hT]; split
        · next c => exact Or.inr ⟨c, rfl⟩
        · exact Or.inl rfl
      have hTail : (tail = "Ellipsis".toList ∨ tail = "NotImplemented".toList) → T = tail := by
        intro hx
        rcases hTsrc with e | ⟨e, -⟩
        · exact e
        · rcases hx with hx | hx <;> rw [e] at hx <;> exact absurd hx (by decide)
      by_cases c2 : E.inTypes T = false ∧ builtin = false
      · rw [if_pos c2] at h
        cases h
        obtain ⟨st, p1, p2, p3, p4, p5⟩ := parse_assign hTn ha
        refine ⟨T, st, hTsrc, p1, p2, p3, fun _ => ?_, ?_, ?_⟩
        · rcases hHsrc with e | ⟨e1, e2, e3⟩
          · refine ⟨head, Or.inl rfl, ?_⟩
            rw [← e]
            rcases cB with c | c
            · exact Or.inl c
            · exact Or.inr (Or.inl c)
          · refine ⟨head, Or.inl rfl, Or.inr (Or.inr ⟨e2, ?_⟩)⟩
            rw [hTail e3]; exact Or.inr e3
        · intro x hx; rw [p5] at hx; cases hx
        · intro x; rw [p4] at x; cases x
      rw [if_neg c2] at h
      generalize hK : (if E.inTypes T = true then "types".toList else H) = K at h
      have hKnb : NoBlank K := by
        rw [← hK]; split
        · exact (name_lit _ (by decide) (by decide)).2
        · exact hHnb
      have hKnd : '.' ∉ K := by
        rw [← hK]; split
        · decide
        · rcases cB with c | c <;> rw [c] <;> decide
      have hKne : K ≠ [] := by
        rw [← hK]; split
        · decide
        · rcases cB with c | c <;> rw [c] <;> decide
      have hKsrc : Encloses K head ∨ K = "types".toList ∨ K = "builtins".toList := by
        rw [← hK]; split
        · exact Or.inr (Or.inl rfl)
        · rcases hHsrc with e | e
          · exact Or.inl (Or.inl e)
          · exact Or.inr (Or.inr e.1)
      obtain ⟨st, p1, p2, p3, p4, p5⟩ := parse_importStr hTn ha hKnb
      rw [if_neg hKne] at p5
      have fin : ∀ (hs : s = importStr K T alias),
          (verify = true → E.exec s = .ok ∨ startsWith "dill.".toList K = true ∨ E.exec s = .importError) →
          Good E head tail alias verify s := by
        intro hs hv
        refine ⟨T, st, hTsrc, hs ▸ p1, p2, p3, ?_, ?_, ?_⟩
        · intro x; rw [p4] at x; cases x
        · intro x hx; rw [p5] at hx; cases hx; exact hKsrc
        · intro _ v
          rcases hv v with e | e | e
          · exact Or.inl e
          · exact Or.inr ⟨K, p5, Or.inl e⟩
          · exact Or.inr ⟨K, p5, Or.inr ⟨hKnd, e⟩⟩
      by_cases c3 : verify = true ∧ startsWith "dill.".toList K = false
      · rw [if_pos c3] at h
        cases hx : E.exec (importStr K T alias) with
        | ok => rw [hx] at h; cases h; exact fin rfl (fun _ => Or.inl hx)
        | syntaxError => rw [hx] at h; cases h
        | otherError => rw [hx] at h; cases h
        | importError =>
          rw [hx] at h
          have hp : parent K = K := by
            rcases parent_spec K with e | ⟨r, -, e⟩
            · exact e.2
            · exact absurd (by rw [e]; simp) hKnd
          simp only [hp, hKne, if_false, ne_eq, not_true_eq_false] at h
          cases h
          exact fin rfl (fun _ => Or.inr (Or.inr hx))
      · rw [if_neg c3] at h
        cases h
        refine fin rfl (fun v => Or.inr (Or.inl ?_))
        cases hx : startsWith "dill.".toList K with
        | true => rfl
        | false => exact absurd ⟨v, hx⟩ c3
    · -- an ordinary package
      simp only [cB, false_and, if_false] at h
      have hHh : H = head := by
        rcases hHsrc with e | e
        · exact e
        · exact absurd (Or.inl e.1) cB
      rw [hHh] at h
      obtain ⟨st, p1, p2, p3, p4, p5⟩ := parse_importStr (head := head) ht ha hh
      have fin : ∀ (hs : s = importStr head tail alias),
          (verify = true → E.exec s = .ok ∨ startsWith "dill.".toList head = true ∨
            (head ≠ [] ∧ '.' ∉ head ∧ E.exec s = .importError)) →
          Good E head tail alias verify s := by
        intro hs hv
        refine ⟨tail, st, Or.inl rfl, hs ▸ p1, p2, p3, ?_, ?_, ?_⟩
        · intro x; rw [p4] at x; cases x
        · intro x hx; rw [p5] at hx
          by_cases he : head = []
          · rw [if_pos he] at hx; cases hx
          · rw [if_neg he] at hx; cases hx; exact Or.inl (Or.inl rfl)
        · intro _ v
          rcases hv v with e | e | ⟨e0, e1, e2⟩
          · exact Or.inl e
          · have he : head ≠ [] := by intro he; rw [he] at e; exact absurd e (by decide)
            rw [if_neg he] at p5
            exact Or.inr ⟨head, p5, Or.inl e⟩
          · rw [if_neg e0] at p5
            exact Or.inr ⟨head, p5, Or.inr ⟨e1, e2⟩⟩
      by_cases c3 : verify = true ∧ startsWith "dill.".toList head = false
      · rw [if_pos c3] at h
        cases hx : E.exec (importStr head tail alias) with
        | ok => rw [hx] at h; cases h; exact fin rfl (fun _ => Or.inl hx)
        | syntaxError => rw [hx] at h; cases h
        | otherError => rw [hx] at h; cases h
        | importError =>
          rw [hx] at h
          simp only at h
          by_cases c4 : parent head = []
          · rw [if_pos c4] at h; cases h
          rw [if_neg c4] at h
          by_cases c5 : parent head ≠ head
          · rw [if_pos c5] at h
            have hE := encloses_parent head
            obtain ⟨t, st', g1, g2, g3, g4, g5, g6, g7⟩ :=
              ih (parent head) tail alias verify false s (noBlank_of_encloses hE hh) ht ha h
            refine ⟨t, st', g1, g2, g3, g4, ?_, ?_, g7⟩
            · intro x
              obtain ⟨k, k1, k2⟩ := g5 x
              exact ⟨k, encloses_trans k1 hE, k2⟩
            · intro k hk
              rcases g6 k hk with e | e
              · exact Or.inl (encloses_trans e hE)
              · exact Or.inr e
          · rw [if_neg c5] at h
            cases h
            have hp : parent head = head := Classical.not_not.1 c5
            refine fin rfl (fun _ => Or.inr (Or.inr ⟨hp ▸ c4, ?_, hx⟩))
            rcases parent_spec head with e | ⟨r, -, e⟩
            · exact e.1
            · rw [hp] at e
              have := congrArg List.length e
              simp at this
      · rw [if_neg c3] at h
        cases h
        refine fin rfl (fun v => Or.inr (Or.inl ?_))
        cases hx : startsWith "dill.".toList head with
        | true => rfl
        | false => exact absurd ⟨v, hx⟩ c3

/-! ### C48 -/

/-- The returned string is one Python statement, mentioning the requested name (or `EllipsisType` for `ellipsis`), and
giving it the alias exactly when an alias was asked for that differs from the name; it imports from the requested
module, a package enclosing it, `types` or `builtins`, and is not an import only for names of the builtins. -/
theorem C48_form (E : Env) (n : Nat) (head tail alias : Str) (verify builtin : Bool) (s : Str)
    (hh : ∀ c ∈ head, c ≠ ' ' ∧ c ≠ '\n') (ht : Name tail) (ha : ∀ c ∈ alias, c ≠ ' ' ∧ c ≠ '\n')
    (h : getimport E n head tail alias verify builtin = .ok s) :
    ∃ t st, parse s = some st ∧ st.mentions = t ∧
      (t = tail ∨ (tail = "ellipsis".toList ∧ t = "EllipsisType".toList)) ∧
      st.renamed = (if alias = [] ∨ alias = t then none else some alias) ∧
      (st.isImport = false → ∃ p, Encloses p head ∧
        (p = "builtins".toList ∨ p = "__builtin__".toList ∨
          (p = "types".toList ∧ (t = "None".toList ∨ t = "Ellipsis".toList ∨ t = "NotImplemented".toList)))) ∧
      (∀ p, st.source = some p → Encloses p head ∨ p = "types".toList ∨ p = "builtins".toList) := by
  obtain ⟨t, st, g1, g2, g3, g4, g5, g6, -⟩ := good_of_getimport E n head tail alias verify builtin s hh ht ha h
  exact ⟨t, st, g2, g3, g1, g4, g5, g6⟩

/-- Without verification, the import of a name outside `builtins` and `types` is from exactly the requested module. -/
theorem C48_unverified_exact (E : Env) (n : Nat) (head tail alias : Str) (builtin : Bool)
    (hh : ∀ c ∈ head, c ≠ ' ' ∧ c ≠ '\n') (ht : Name tail) (ha : ∀ c ∈ alias, c ≠ ' ' ∧ c ≠ '\n')
    (h1 : head ≠ "builtins".toList) (h2 : head ≠ "__builtin__".toList) (h3 : head ≠ "types".toList) :
    ∃ s, getimport E (n + 1) head tail alias false builtin = .ok s ∧
      parse s = some (.imp (if head = [] then none else some head) tail
        (if alias = [] ∨ alias = tail then none else some alias)) := by
  refine ⟨importStr head tail alias, ?_, ?_⟩
  · simp only [getimport, h1, h2, h3, and_false, if_false, false_and, or_self, Bool.false_eq_true]
  · obtain ⟨st, p1, p2, p3, p4, p5⟩ := parse_importStr (head := head) ht ha hh
    cases st with
    | expr => cases p4
    | assign => cases p4
    | imp a b c =>
      simp only [Stmt.mentions, Stmt.renamed, Stmt.source] at p2 p3 p5
      rw [p1, p2, p3, p5]; rfl

/-- The search through enclosing packages ends: it never needs more steps than the module name has characters. -/
theorem C48_terminates (E : Env) (n : Nat) (head tail alias : Str) (verify builtin : Bool)
    (hn : head.length < n) : getimport E n head tail alias verify builtin ≠ .error .timeout := by
  have key : ∀ (n : Nat) (head tail alias : Str) (verify builtin : Bool), head.length < n →
      getimport E n head tail alias verify builtin ≠ .error .timeout := by
    intro n
    induction n with
    | zero => intro head _ _ _ _ h; omega
    | succ n ih =>
      intro head tail alias verify builtin hn
      unfold getimport
      by_cases c1 : tail = "None".toList ∧ head = "types".toList
      · rw [if_pos c1]; simp
      rw [if_neg c1]
      simp only
      generalize hH : (if (tail = "Ellipsis".toList ∨ tail = "NotImplemented".toList) ∧ head = "types".toList then
        "builtins".toList else head) = H
      generalize (if (H = "builtins".toList ∨ H = "__builtin__".toList) ∧ tail = "ellipsis".toList then
        "EllipsisType".toList else tail) = T
      by_cases c2 : (H = "builtins".toList ∨ H = "__builtin__".toList) ∧ E.inTypes T = false ∧ builtin = false
      · rw [if_pos c2]; simp
      rw [if_neg c2]
      generalize hK : (if (H = "builtins".toList ∨ H = "__builtin__".toList) ∧ E.inTypes T = true then
        "types".toList else H) = K
      by_cases c3 : verify = true ∧ startsWith "dill.".toList K = false
      · rw [if_pos c3]
        cases E.exec (importStr K T alias) with
        | ok => simp
        | syntaxError => simp
        | otherError => simp
        | importError =>
          simp only
          by_cases c4 : parent K = []
          · rw [if_pos c4]; simp
          rw [if_neg c4]
          by_cases c5 : parent K ≠ K
          · rw [if_pos c5]
            apply ih
            have hKh : K = head := by
              have nd : ∀ X : Str, '.' ∉ X → parent X = X := by
                intro X hX
                rcases parent_spec X with e | ⟨r, -, e⟩
                · exact e.2
                · exact absurd (by rw [e]; simp) hX
              have e1 : K = H := by
                rw [← hK]; split
                · next c =>
                  rw [if_pos c] at hK
                  exact absurd (nd K (by rw [← hK]; decide)) c5
                · rfl
              have e2 : H = head := by
                rw [← hH]; split
                · next c =>
                  rw [if_pos c] at hH
                  exact absurd (nd K (by rw [e1, ← hH]; decide)) c5
                · rfl
              rw [e1, e2]
            have := parent_lt c5
            rw [hKh] at this ⊢
            omega
          · rw [if_neg c5]; simp
      · rw [if_neg c3]; simp
  exact key n head tail alias verify builtin hn

/-! ### C50 -/

/-- What verification really guarantees: an import string returned with `verify=True` was executed without error, or
imports from inside `dill`, or imports from a top-level module - and then it may have raised `ImportError`. -/
theorem C50_verified_partial (E : Env) (n : Nat) (head tail alias : Str) (builtin : Bool) (s : Str) (st : Stmt)
    (hh : ∀ c ∈ head, c ≠ ' ' ∧ c ≠ '\n') (ht : Name tail) (ha : ∀ c ∈ alias, c ≠ ' ' ∧ c ≠ '\n')
    (h : getimport E n head tail alias true builtin = .ok s) (hp : parse s = some st) (hi : st.isImport = true) :
    E.exec s = .ok ∨ ∃ p, st.source = some p ∧
      ("dill.".toList <+: p ∨ ('.' ∉ p ∧ E.exec s = .importError)) := by
  obtain ⟨t, st', g1, g2, g3, g4, g5, g6, g7⟩ := good_of_getimport E n head tail alias true builtin s hh ht ha h
  rw [hp] at g2; cases g2
  rcases g7 hi rfl with h | ⟨p, h1, h2 | h2⟩
  · exact .inl h
  · exact .inr ⟨p, h1, .inl (by simpa [startsWith, List.isPrefixOf_iff_prefix] using h2)⟩
  · exact .inr ⟨p, h1, .inr h2⟩

/-- `import tail` (no module) is only returned if it worked. -/
theorem C50_plain_import (E : Env) (n : Nat) (tail alias : Str) (builtin : Bool) (s : Str)
    (h : getimport E (n + 1) [] tail alias true builtin = .ok s) : E.exec s = .ok := by
  have e1 : ¬ ([] : Str) = "types".toList := by decide
  have e2 : ¬ ([] : Str) = "builtins".toList := by decide
  have e3 : ¬ ([] : Str) = "__builtin__".toList := by decide
  have e4 : startsWith "dill.".toList [] = false := by decide
  simp only [getimport, e1, e2, e3, and_false, if_false, false_and, or_self, e4, and_self, if_true] at h
  cases hx : E.exec (importStr [] tail alias) with
  | ok => rw [hx] at h; cases h; exact hx
  | syntaxError => rw [hx] at h; cases h
  | otherError => rw [hx] at h; cases h
  | importError =>
    have hp : parent ([] : Str) = [] := by decide
    rw [hx] at h; simp [hp] at h

/-- a world where `m` does not define `f` -/
def broken : Env := { inTypes := fun _ => false, exec := fun _ => .importError }

/-- The claim fails: with `verify=True` the string `from m import f` is returned although executing it raised
`ImportError`. -/
theorem C50_failing_import_returned :
    ∃ s, getimport broken 10 "m".toList "f".toList [] true false = .ok s ∧
      parse s = some (.imp (some "m".toList) "f".toList none) ∧ broken.exec s = .importError :=
  ⟨"from m import f\n".toList, by decide +kernel, by decide +kernel, rfl⟩

/-- Even a missing top-level package of a dotted module: `from a import f` is returned for `a.b`. -/
theorem C50_failing_package_returned :
    ∃ s, getimport broken 10 "a.b".toList "f".toList [] true false = .ok s ∧
      parse s = some (.imp (some "a".toList) "f".toList none) ∧ broken.exec s = .importError :=
  ⟨"from a import f\n".toList, by decide +kernel, by decide +kernel, rfl⟩

/-! ### examples -/

/-- only `from a import f as g` works -/
def world : Env :=
  { inTypes := fun t => t == "NoneType".toList
    exec := fun s => if s = "from a import f as g\n".toList then .ok else .importError }

example : getimport world 10 "a.b".toList "f".toList "g".toList true false =
    .ok "from a import f as g\n".toList := by decide +kernel
example : getimport world 10 "builtins".toList "len".toList "g".toList true false =
    .ok "g = len\n".toList := by decide +kernel
example : getimport world 10 "builtins".toList "NoneType".toList "g".toList false false =
    .ok "from types import NoneType as g\n".toList := by decide +kernel
example : getimport world 10 [] "os".toList [] true false = .error .importError := by decide +kernel
example : Name "f".toList := ⟨by decide, by decide⟩

end Verif.GetImport
