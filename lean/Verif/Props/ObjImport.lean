import Verif.Model.ObjImport
import Verif.Props.GetImport
/-! C91: the text `getimport(obj, alias)` returns, once executed, makes the name denote the object.
The statements are those of `Verif.GetImport.parse`; what they do is said here. -/
set_option linter.unusedSimpArgs false
namespace Verif.ObjImport
open Verif.GetImport (Str Env Exec Stmt Name NoBlank parse assign importStr parse_importStr parse_assign)

/-! ### Specification -/

/-- the Python environment in which a text is executed -/
structure Py (O : Type) where
  /-- the attributes of importable modules -/
  attr : Str → Str → Option O
  /-- the importable modules -/
  mod : Str → Option O
  /-- what an expression is worth in a fresh namespace (the builtins) -/
  val : Str → Option O

/-- what an import statement imports -/
def imported {O : Type} (P : Py O) : Stmt → Option O
  | .imp (some h) t _ => P.attr h t
  | .imp none t _ => P.mod t
  | _ => none

/-- what the name `a` denotes in a fresh namespace once the statement has been executed -/
def after {O : Type} (P : Py O) (st : Stmt) (a : Str) : Option O :=
  match st with
  | .expr _ => P.val a
  | .assign x t => if a = x then P.val t else P.val a
  | .imp h t x => if a = x.getD t then imported P (.imp h t x) else P.val a

/-- `exec` runs the import statements that find their object -/
def Runs {O : Type} (E : Env) (P : Py O) : Prop :=
  ∀ s st, parse s = some st → st.isImport = true → imported P st ≠ none → E.exec s = .ok

/-- executing `s` makes `a` denote `o` -/
def MakesDenote {O : Type} (P : Py O) (s a : Str) (o : O) : Prop := ∃ st, parse s = some st ∧ after P st a = some o

/-- what Python prints for a module of that name: `<module 'M' from '...'>`, `<module 'M' (built-in)>`, `<module 'M'>` -/
def ModuleRepr (r M : Str) : Prop :=
  r = "<module '".toList ++ M ++ "'>".toList ∨ ∃ w, r = "<module '".toList ++ M ++ "' ".toList ++ w

/-- the name of a module: no blanks and none of the characters `'`, `"` and `>` -/
def ModuleName (M : Str) : Prop := M ≠ [] ∧ ∀ c ∈ M, PyStr.isSpace c = false ∧ c ≠ '\'' ∧ c ≠ '"' ∧ c ≠ '>'

/-- `<function f at 0x7f...>`: a `<` and later a `>` -/
def AngleRepr (r : Str) : Prop := ∃ a b c, r = a ++ '<' :: b ++ '>' :: c

/-- the name the object is to have: the alias, or without one its own name -/
def wanted (alias n : Str) : Str := if alias = [] then n else alias

/-! ### Lemmas -/

theorem isSpace_blank {c : Char} (h : PyStr.isSpace c = false) : c ≠ ' ' ∧ c ≠ '\n' := by
  constructor <;> (rintro rfl; revert h; decide)

theorem splitWsGo_word (w : Str) (hw : ∀ c ∈ w, PyStr.isSpace c = false) (s : Char) (hs : PyStr.isSpace s = true) (r : Str) :
    ∀ cur, cur ++ w ≠ [] → PyStr.splitWsGo cur (w ++ s :: r) = (cur.reverse ++ w) :: PyStr.splitWsGo [] r := by
  induction w with
  | nil =>
    intro cur hne
    cases cur with
    | nil => exact absurd rfl hne
    | cons c cur => simp [PyStr.splitWsGo, hs]
  | cons c w ih =>
    intro cur _
    have hc := hw c (by simp)
    simp only [List.cons_append, PyStr.splitWsGo, hc, Bool.false_eq_true, if_false]
    rw [ih (fun x hx => hw x (by simp [hx])) (c :: cur) (by simp)]
    simp

theorem splitWsGo_last (w : Str) (hw : ∀ c ∈ w, PyStr.isSpace c = false) :
    ∀ cur, cur ++ w ≠ [] → PyStr.splitWsGo cur w = [cur.reverse ++ w] := by
  induction w with
  | nil =>
    intro cur hne
    cases cur with
    | nil => exact absurd rfl hne
    | cons c cur => simp [PyStr.splitWsGo]
  | cons c w ih =>
    intro cur _
    have hc := hw c (by simp)
    simp only [PyStr.splitWsGo, hc, Bool.false_eq_true, if_false]
    rw [ih (fun x hx => hw x (by simp [hx])) (c :: cur) (by simp)]
    simp

theorem dropWhile_head {c : Char} {s : Str} (h : s.head? ≠ some c) : s.dropWhile (· == c) = s := by
  cases s with
  | nil => rfl
  | cons a s =>
    have : (a == c) = false := by simpa using fun e : a = c => h (by simp [e])
    simp only [List.dropWhile, this]

theorem rstrip_last {c : Char} {s : Str} (h : s.getLast? ≠ some c) : PyStr.rstrip c s = s := by
  unfold PyStr.rstrip
  rw [dropWhile_head (by simpa using h), List.reverse_reverse]

theorem strip1_id {c : Char} {s : Str} (h1 : s.head? ≠ some c) (h2 : s.getLast? ≠ some c) : strip1 c s = s := by
  unfold strip1
  rw [dropWhile_head h1, rstrip_last h2]

theorem getLast_snoc (s : Str) (c : Char) : (s ++ [c]).getLast? = some c := by simp

theorem rstrip_snoc (c : Char) (s : Str) : PyStr.rstrip c (s ++ [c]) = PyStr.rstrip c s := by
  unfold PyStr.rstrip; simp

theorem head_not_mem {c : Char} {s : Str} (h : c ∉ s) : s.head? ≠ some c := by
  cases s with
  | nil => simp
  | cons a s => intro e; simp at e; exact h (by simp [e])

theorem last_not_mem {c : Char} {s : Str} (h : c ∉ s) : s.getLast? ≠ some c :=
  fun e => h (List.mem_of_getLast? e)

/-- the module name is found in the repr of the module -/
theorem moduleOf_repr {r M : Str} (hM : ModuleName M) (h : ModuleRepr r M) : moduleOf r = some M := by
  obtain ⟨hne, hc⟩ := hM
  have q1 : '\'' ∉ M := fun h => (hc _ h).2.1 rfl
  have hq : ∀ c ∈ ('\'' :: M ++ ['\'']), PyStr.isSpace c = false := by
    intro c hcm
    simp at hcm
    rcases hcm with rfl | h | rfl
    · decide
    · exact (hc c h).1
    · decide
  have hsq : ∀ x : Char, x ≠ '\'' → strip1 x ('\'' :: M ++ ['\'']) = '\'' :: M ++ ['\''] := by
    intro x hx
    refine strip1_id (by simp; exact fun e => hx e.symm) ?_
    rw [getLast_snoc]; simp; exact fun e => hx e.symm
  have hquote : strip1 '\'' ('\'' :: M ++ ['\'']) = M := by
    unfold strip1
    have : ('\'' :: M ++ ['\'']).dropWhile (· == '\'') = (M ++ ['\'']).dropWhile (· == '\'') := by simp [List.dropWhile]
    rw [this]
    have e2 : (M ++ ['\'']).dropWhile (· == '\'') = M ++ ['\''] := by
      cases M with
      | nil => exact absurd rfl hne
      | cons a M =>
        have : a ≠ '\'' := fun e => q1 (by simp [e])
        simp [List.dropWhile, this]
    rw [e2, rstrip_snoc, rstrip_last (last_not_mem q1)]
  unfold moduleOf PyStr.splitWs
  rcases h with rfl | ⟨w, rfl⟩
  · have e : "<module '".toList ++ M ++ "'>".toList = "<module".toList ++ ' ' :: ('\'' :: M ++ ['\''] ++ ['>']) := by simp
    rw [e, splitWsGo_word _ (by decide) _ (by decide) _ _ (by simp), splitWsGo_last _ ?_ _ (by simp)]
    · simp only [List.reverse_nil, List.nil_append, List.getElem?_cons_succ, List.getElem?_cons_zero]
      have e3 : strip1 '>' ('\'' :: M ++ ['\''] ++ ['>']) = '\'' :: M ++ ['\''] := by
        unfold strip1
        rw [dropWhile_head (by simp), rstrip_snoc, rstrip_last (by rw [getLast_snoc]; simp)]
      rw [e3, hsq '"' (by decide), hquote]
    · intro c hcm
      rw [List.mem_append] at hcm
      rcases hcm with h | h
      · exact hq c h
      · simp at h; subst h; decide
  · have e : "<module '".toList ++ M ++ "' ".toList ++ w = "<module".toList ++ ' ' :: (('\'' :: M ++ ['\'']) ++ ' ' :: w) := by simp
    rw [e, splitWsGo_word _ (by decide) _ (by decide) _ _ (by simp), splitWsGo_word _ hq _ (by decide) _ _ (by simp)]
    simp only [List.reverse_nil, List.nil_append, List.getElem?_cons_succ, List.getElem?_cons_zero]
    rw [hsq '>' (by decide), hsq '"' (by decide), hquote]

theorem splitGo_dot (p s : Str) : ∀ cur, PyStr.splitGo ['.'] 0 cur (p ++ '.' :: s) =
    PyStr.splitGo ['.'] 0 cur p ++ PyStr.splitGo ['.'] 0 [] s := by
  induction p with
  | nil => intro cur; simp [PyStr.splitGo, List.isPrefixOf]
  | cons c p ih =>
    intro cur
    by_cases h : c = '.'
    · subst h; simp [PyStr.splitGo, List.isPrefixOf, ih]
    · have h' : ¬ '.' = c := fun e => h e.symm
      simp [PyStr.splitGo, List.isPrefixOf, h', ih]

theorem splitGo_nodot (l : Str) (h : '.' ∉ l) : ∀ cur, PyStr.splitGo ['.'] 0 cur l = [cur.reverse ++ l] := by
  induction l with
  | nil => intro cur; simp [PyStr.splitGo]
  | cons c l ih =>
    intro cur
    have hc : ¬ '.' = c := fun e => h (by rw [← e]; simp)
    simp [PyStr.splitGo, List.isPrefixOf, hc, ih (fun e => h (by simp [e]))]

theorem splitGo_ne (s : Str) : ∀ cur, PyStr.splitGo ['.'] 0 cur s ≠ [] := by
  induction s with
  | nil => intro cur; simp [PyStr.splitGo]
  | cons c s ih =>
    intro cur
    by_cases h : '.' = c
    · subst h; simp [PyStr.splitGo, List.isPrefixOf]
    · simp [PyStr.splitGo, List.isPrefixOf, h, ih]

theorem joinDot_cons (a : Str) {l : List Str} (h : l ≠ []) : joinDot (a :: l) = a ++ '.' :: joinDot l := by
  cases l with
  | nil => exact absurd rfl h
  | cons b l => rfl

theorem joinDot_splitGo (s : Str) : ∀ cur, joinDot (PyStr.splitGo ['.'] 0 cur s) = cur.reverse ++ s := by
  induction s with
  | nil => intro cur; simp [PyStr.splitGo, joinDot]
  | cons c s ih =>
    intro cur
    by_cases h : '.' = c
    · subst h
      simp only [PyStr.splitGo, List.isPrefixOf, beq_self_eq_true, Bool.and_true, if_true]
      rw [joinDot_cons _ (by simpa using splitGo_ne s [])]
      simpa using ih []
    · simp [PyStr.splitGo, List.isPrefixOf, h, ih]

theorem joinDot_split (s : Str) : joinDot (PyStr.split ['.'] s) = s := by
  unfold PyStr.split; simpa using joinDot_splitGo s []

theorem split_snoc (p l : Str) (h : '.' ∉ l) : PyStr.split ['.'] (p ++ '.' :: l) = PyStr.split ['.'] p ++ [l] := by
  unfold PyStr.split; rw [splitGo_dot, splitGo_nodot l h]; rfl

theorem split_nodot (l : Str) (h : '.' ∉ l) : PyStr.split ['.'] l = [l] := by
  unfold PyStr.split; rw [splitGo_nodot l h]; rfl

theorem objectStyle_iff (r : Str) : objectStyle r = true ↔ AngleRepr r := by
  unfold objectStyle AngleRepr
  constructor
  · intro h
    have hm : '>' ∈ r.dropWhile (· != '<') := by simpa using h
    have hsplit := List.takeWhile_append_dropWhile (p := (· != '<')) (l := r)
    cases hd : r.dropWhile (· != '<') with
    | nil => rw [hd] at hm; simp at hm
    | cons x d =>
      have hx : x = '<' := by
        have := List.head?_dropWhile_not (· != '<') r
        rw [hd] at this; simpa using this
      subst hx
      rw [hd] at hm hsplit
      have hm' : '>' ∈ d := by simpa using hm
      obtain ⟨b, c, rfl⟩ := List.append_of_mem hm'
      exact ⟨r.takeWhile (· != '<'), b, c, by rw [List.append_assoc]; exact hsplit.symm⟩
  · rintro ⟨a, b, c, rfl⟩
    have : ∀ a : Str, '>' ∈ (a ++ '<' :: b ++ '>' :: c).dropWhile (· != '<') := by
      intro a
      induction a with
      | nil => simp [List.dropWhile]
      | cons x a ih =>
        by_cases hx : x = '<'
        · subst hx; simp [List.dropWhile]
        · simp only [List.cons_append, List.dropWhile]
          have : (x != '<') = true := by simpa using hx
          rw [this]
          exact ih
    simpa using this a

theorem builtinMod_false {m : Str} (h1 : m ≠ "builtins".toList) (h2 : m ≠ "__builtin__".toList) : builtinMod m = false := by
  unfold builtinMod
  rw [Bool.or_eq_false_iff]
  exact ⟨by simpa using h1, by simpa using h2⟩

theorem moduleName_noBlank {M : Str} (h : ModuleName M) : NoBlank M := fun c hc => isSpace_blank (h.2 c hc).1

/-- an import that finds its object is the one that is returned -/
theorem importFrom_found {O : Type} {E : Env} {P : Py O} (hR : Runs E P) (head tail alias : Str) (verify builtin : Bool) (o : O)
    (ht : Name tail) (ha : NoBlank alias) (hh : NoBlank head)
    (h1 : head ≠ "builtins".toList) (h2 : head ≠ "__builtin__".toList)
    (h3 : head = "types".toList → tail ≠ "None".toList ∧ tail ≠ "Ellipsis".toList ∧ tail ≠ "NotImplemented".toList)
    (ho : (if head = [] then P.mod tail else P.attr head tail) = some o) :
    ∃ s, importFrom E head tail alias verify builtin = .ok s ∧ MakesDenote P s (wanted alias tail) o ∧ E.exec s = .ok := by
  obtain ⟨st, p1, p2, p3, p4, p5⟩ := parse_importStr (head := head) ht ha hh
  have himp : imported P st = some o := by
    cases st with
    | expr => cases p4
    | assign => cases p4
    | imp x y z =>
      simp only [Stmt.mentions, Stmt.source] at p2 p5
      subst p2
      by_cases e : head = []
      · rw [if_pos e] at p5 ho; subst p5; exact ho
      · rw [if_neg e] at p5 ho; subst p5; exact ho
  have hex : E.exec (importStr head tail alias) = .ok := hR _ _ p1 p4 (by rw [himp]; simp)
  refine ⟨importStr head tail alias, ?_, ⟨st, p1, ?_⟩, hex⟩
  · unfold importFrom
    rw [GetImport.getimport]
    have c1 : ¬ (tail = "None".toList ∧ head = "types".toList) := fun h => (h3 h.2).1 h.1
    have c2 : ¬ ((tail = "Ellipsis".toList ∨ tail = "NotImplemented".toList) ∧ head = "types".toList) := by
      rintro ⟨h | h, e⟩
      · exact (h3 e).2.1 h
      · exact (h3 e).2.2 h
    rw [if_neg c1]
    simp only
    rw [if_neg c2]
    have c3 : ¬ (head = "builtins".toList ∨ head = "__builtin__".toList) := fun h => h.elim h1 h2
    simp only [c3, false_and, if_false]
    split
    · rw [hex]
    · rfl
  · cases st with
    | expr => cases p4
    | assign => cases p4
    | imp x y z =>
      have hw : wanted alias tail = z.getD y := by
        simp only [Stmt.mentions, Stmt.renamed, GetImport.rename] at p2 p3
        rw [p3, p2]
        unfold wanted
        by_cases e : alias = []
        · simp [e]
        · by_cases e2 : alias = tail
          · simp [e, e2]
          · simp [e, e2]
      simp only [after]
      rw [if_pos hw]
      exact himp

theorem importOf_object {O : Type} {E : Env} {P : Py O} (hR : Runs E P) (F : Facts) (head tail alias : Str) (verify builtin : Bool) (o : O)
    (hq : joinDot (namespace' E F).dropLast = head ∧ (namespace' E F).getLast? = some tail) (hr : AngleRepr F.repr)
    (ht : Name tail) (ha : NoBlank alias) (hh : NoBlank head)
    (h1 : head ≠ "builtins".toList) (h2 : head ≠ "__builtin__".toList)
    (h3 : head = "types".toList → tail ≠ "None".toList ∧ tail ≠ "Ellipsis".toList ∧ tail ≠ "NotImplemented".toList)
    (ho : (if head = [] then P.mod tail else P.attr head tail) = some o) :
    ∃ s, importOf E F alias verify builtin = .ok s ∧ MakesDenote P s (wanted alias tail) o ∧ E.exec s = .ok := by
  obtain ⟨s, e1, e2, e3⟩ := importFrom_found hR head tail alias verify builtin o ht ha hh h1 h2 h3 ho
  refine ⟨s, ?_, e2, e3⟩
  unfold importOf
  simp only [hq.1, hq.2, Option.getD_some, reprName, (objectStyle_iff _).2 hr, if_true, importTail, e1]

/-- `_namespace` of an object with a name, out of the builtins -/
theorem namespace_named {E : Env} {F : Facts} {M N : Str} (hM : ModuleName M) (hm : ModuleRepr F.modStr M) (hmod : F.isMod = false)
    (hN : getname F false = .ok (some N)) (hne : N ≠ []) (h1 : M ≠ "builtins".toList) (h2 : M ≠ "__builtin__".toList) :
    namespace' E F = PyStr.split ['.'] M ++ [N] := by
  unfold namespace' moduleNamespace
  rw [moduleOf_repr hM hm]
  have : ¬ (some N = some []) := by simpa using hne
  simp only [hmod, Bool.false_eq_true, if_false, hN, if_neg this, Option.or, builtinMod_false h1 h2, Bool.false_and]

/-! ### C91 -/

/-- C91 for functions and classes: an object that its module holds under its own name.  The text was executed without error
when `verify` asks for it, and executing it makes the alias (the name, without alias) denote the object. -/
theorem C91_named_partial {O : Type} (E : Env) (P : Py O) (hR : Runs E P) (F : Facts) (M N alias : Str) (verify builtin : Bool) (o : O)
    (hM : ModuleName M) (hm : ModuleRepr F.modStr M) (hmn : F.modName = some M) (hmod : F.isMod = false)
    (hN : F.name = some N) (hname : Name N) (hl : N ≠ "<lambda>".toList) (hr : AngleRepr F.repr) (ha : NoBlank alias)
    (h1 : M ≠ "builtins".toList) (h2 : M ≠ "__builtin__".toList)
    (h3 : M = "types".toList → N ≠ "None".toList ∧ N ≠ "Ellipsis".toList ∧ N ≠ "NotImplemented".toList)
    (ho : P.attr M N = some o) :
    ∃ s, getimport E F none alias verify builtin false = .ok s ∧ MakesDenote P s (wanted alias N) o ∧ E.exec s = .ok := by
  have hg : getname F false = .ok (some N) := by
    unfold getname
    rw [hmn, hN]
    simp only [if_neg hl, builtinMod_false h1 h2, Bool.false_and, Bool.false_eq_true, if_false]
  have hq := namespace_named (E := E) hM hm hmod hg hname.1 h1 h2
  refine importOf_object hR F M N alias verify builtin o ?_ hr hname ha (moduleName_noBlank hM) h1 h2 h3 ?_
  · rw [hq]; simp [joinDot_split]
  · rw [if_neg hM.1]; exact ho

/-- C91 for a lambda: the source is `T = ...` (the first `=` of the source) and the module holds the lambda under that name. -/
theorem C91_lambda_partial {O : Type} (E : Env) (P : Py O) (hR : Runs E P) (F : Facts) (M T b1 b2 rest alias : Str) (verify builtin : Bool) (o : O)
    (hM : ModuleName M) (hm : ModuleRepr F.modStr M) (hmn : F.modName = some M) (hmod : F.isMod = false)
    (hN : F.name = some "<lambda>".toList) (hsrc : F.src = some (b1 ++ T ++ b2 ++ '=' :: rest)) (hname : T ≠ [])
    (hT : ∀ c ∈ T, PyStr.isSpace c = false ∧ c ≠ '=') (hb1 : ∀ c ∈ b1, PyStr.isSpace c = true) (hb2 : ∀ c ∈ b2, PyStr.isSpace c = true)
    (hr : AngleRepr F.repr) (ha : NoBlank alias)
    (h1 : M ≠ "builtins".toList) (h2 : M ≠ "__builtin__".toList)
    (h3 : M = "types".toList → T ≠ "None".toList ∧ T ≠ "Ellipsis".toList ∧ T ≠ "NotImplemented".toList)
    (ho : P.attr M T = some o) :
    ∃ s, getimport E F none alias verify builtin false = .ok s ∧ MakesDenote P s (wanted alias T) o ∧ E.exec s = .ok := by
  have hb : Source.beforeEq (b1 ++ T ++ b2 ++ '=' :: rest) = b1 ++ T ++ b2 := by
    unfold Source.beforeEq
    rw [List.takeWhile_append_of_pos]
    · simp
    · intro c hc
      simp only [List.mem_append] at hc
      have : ∀ x, PyStr.isSpace x = true → x ≠ '=' := by rintro x hx rfl; revert hx; decide
      rcases hc with (hc | hc) | hc
      · simpa using this c (hb1 c hc)
      · simpa using (hT c hc).2
      · simpa using this c (hb2 c hc)
  have hlsp : ∀ (ws s : Str), (∀ c ∈ ws, PyStr.isSpace c = true) → Source.lstripWs (ws ++ s) = Source.lstripWs s := by
    intro ws s h
    induction ws with
    | nil => rfl
    | cons c ws ih => simp [Source.lstripWs, h c (by simp), ih fun x hx => h x (by simp [hx])]
  have hlT : ∀ (T s : Str), T ≠ [] → (∀ c ∈ T, PyStr.isSpace c = false) → Source.lstripWs (T ++ s) = T ++ s := by
    intro T s hne h
    cases T with
    | nil => exact absurd rfl hne
    | cons c T => simp [Source.lstripWs, h c (by simp)]
  have hs : Source.stripWs (b1 ++ T ++ b2) = T := by
    unfold Source.stripWs
    rw [List.append_assoc, hlsp _ _ hb1, hlT _ _ hname (fun c hc => (hT c hc).1), List.reverse_append,
      hlsp _ _ (by simpa using hb2)]
    have := hlT T.reverse [] (by simpa using hname) (fun c hc => (hT c (by simpa using hc)).1)
    simp only [List.append_nil] at this
    rw [this, List.reverse_reverse]
  have hg : getname F false = .ok (some T) := by
    unfold getname
    rw [hmn, hN]
    simp only [if_true, hsrc, hb, hs]
  have hq := namespace_named (E := E) hM hm hmod hg hname h1 h2
  refine importOf_object hR F M T alias verify builtin o ?_ hr ⟨hname, fun c hc => isSpace_blank (hT c hc).1⟩ ha (moduleName_noBlank hM) h1 h2 h3 ?_
  · rw [hq]; simp [joinDot_split]
  · rw [if_neg hM.1]; exact ho

/-- C91 for modules: a top-level module. -/
theorem C91_module {O : Type} (E : Env) (P : Py O) (hR : Runs E P) (F : Facts) (M alias : Str) (verify builtin : Bool) (o : O)
    (hM : ModuleName M) (hd : '.' ∉ M) (hm : ModuleRepr F.modStr M) (hmod : F.isMod = true) (hr : AngleRepr F.repr) (ha : NoBlank alias)
    (ho : P.mod M = some o) :
    ∃ s, getimport E F none alias verify builtin false = .ok s ∧ MakesDenote P s (wanted alias M) o ∧ E.exec s = .ok := by
  have hq : namespace' E F = [M] := by
    unfold namespace' moduleNamespace
    rw [moduleOf_repr hM hm]
    simp only [hmod, if_true, split_nodot M hd]
  refine importOf_object hR F [] M alias verify builtin o ?_ hr ⟨hM.1, moduleName_noBlank hM⟩ ha (by simp [NoBlank])
    (by decide) (by decide) (fun h => absurd h (by decide)) ?_
  · rw [hq]; simp [joinDot]
  · rw [if_pos rfl]; exact ho

/-- C91 for modules: a module of a package, which is an attribute of the package. -/
theorem C91_submodule {O : Type} (E : Env) (P : Py O) (hR : Runs E P) (F : Facts) (p l alias : Str) (verify builtin : Bool) (o : O)
    (hM : ModuleName (p ++ '.' :: l)) (hp : p ≠ []) (hl : l ≠ []) (hd : '.' ∉ l) (hm : ModuleRepr F.modStr (p ++ '.' :: l)) (hmod : F.isMod = true)
    (hr : AngleRepr F.repr) (ha : NoBlank alias) (h1 : p ≠ "builtins".toList) (h2 : p ≠ "__builtin__".toList) (h3 : p ≠ "types".toList)
    (ho : P.attr p l = some o) :
    ∃ s, getimport E F none alias verify builtin false = .ok s ∧ MakesDenote P s (wanted alias l) o ∧ E.exec s = .ok := by
  have hq : namespace' E F = PyStr.split ['.'] p ++ [l] := by
    unfold namespace' moduleNamespace
    rw [moduleOf_repr hM hm]
    simp only [hmod, if_true, split_snoc p l hd]
  have hb := moduleName_noBlank hM
  refine importOf_object hR F p l alias verify builtin o ?_ hr ⟨hl, fun c hc => hb c (by simp [hc])⟩ ha (fun c hc => hb c (by simp [hc]))
    h1 h2 (fun h => absurd h h3) ?_
  · rw [hq]; simp [joinDot_split]
  · rw [if_neg hp]; exact ho

/-! #### instances -/

/-- what Python prints for a class: `<class 'M.C'>` -/
def ClassRepr (r M C : Str) : Prop := r = "<class '".toList ++ (M ++ '.' :: C) ++ "'>".toList

theorem classQual_repr {r M C : Str} (h : ClassRepr r M C) : classQual r = M ++ '.' :: C := by
  unfold ClassRepr at h
  subst h
  have e : ("<class '".toList ++ (M ++ '.' :: C) ++ "'>".toList).dropWhile (· != '\'') = '\'' :: ((M ++ '.' :: C) ++ "'>".toList) := by
    have : ∀ x : Str, ("<class '".toList ++ x).dropWhile (· != '\'') = '\'' :: x := by
      intro x; rfl
    rw [List.append_assoc, this]
  unfold classQual
  rw [e]
  simp only [List.length_append]
  have : ("'>".toList).length = 2 := by decide
  rw [this, Nat.add_sub_cancel, ← List.length_append, List.take_left']
  rfl

theorem beforeParen_of {C x : Str} (h : '(' ∉ C) : beforeParen (C ++ '(' :: x) = C := by
  unfold beforeParen
  rw [List.takeWhile_append_of_pos]
  · simp
  · intro c hc
    have : c ≠ '(' := fun e => h (e ▸ hc)
    simpa using this

/-- C91 for an instance: the text is for its class.  The class is at the top of its module; the repr of the instance is either
of the form `<...>` or `C(...)`, and `str` of the instance is not one of inf, nan, Inf, NaN. -/
theorem C91_instance_partial {O : Type} (E : Env) (P : Py O) (hR : Runs E P) (F : Facts) (M C alias : Str) (verify builtin : Bool) (o : O)
    (hM : NoBlank M) (hMne : M ≠ []) (hC : Name C) (hCd : '.' ∉ C) (hCp : '(' ∉ C) (hCl : ¬ "<".toList <+: C)
    (hcls : ClassRepr F.clsStr M C) (hcm : F.clsMod = some M) (hmod : F.isMod = false) (hn : F.name = none)
    (hm : F.modName = none → F.modStr = "None".toList ∧ F.scalar = none)
    (hinst : ∃ b, isInstance F = .ok b) (hnan : F.str ∉ ["inf".toList, "nan".toList, "Inf".toList, "NaN".toList])
    (hr : AngleRepr F.repr ∨ (¬ AngleRepr F.repr ∧ ∃ x, F.repr = C ++ '(' :: x)) (ha : NoBlank alias)
    (h1 : M ≠ "builtins".toList) (h2 : M ≠ "__builtin__".toList)
    (h3 : M = "types".toList → C ≠ "None".toList ∧ C ≠ "Ellipsis".toList ∧ C ≠ "NotImplemented".toList)
    (ho : P.attr M C = some o) :
    ∃ s, getimport E F none alias verify builtin false = .ok s ∧ MakesDenote P s (wanted alias C) o ∧ E.exec s = .ok := by
  have hmn : moduleNamespace E F = none := by
    unfold moduleNamespace
    cases hmo : moduleOf F.modStr with
    | none => rfl
    | some m =>
      simp only [hmod, Bool.false_eq_true, if_false]
      cases hmm : F.modName with
      | none =>
        rw [(hm hmm).1] at hmo
        rw [show moduleOf "None".toList = none by decide] at hmo; cases hmo
      | some m' =>
        have : getname F false = .ok none := by
          unfold getname; rw [hmm, hn]; rfl
        rw [this]
        simp [hn]
  have hq : namespace' E F = PyStr.split ['.'] M ++ [C] := by
    unfold namespace'
    rw [hmn]
    simp only [nanNames, if_neg hnan, classNamespace, hcm, builtinMod_false h1 h2, Bool.false_eq_true, if_false]
    rw [classQual_repr hcls, split_snoc M C hCd]
  have hq' : joinDot (namespace' E F).dropLast = M ∧ (namespace' E F).getLast? = some C := by
    rw [hq]; simp [joinDot_split]
  have ho' : (if M = [] then P.mod C else P.attr M C) = some o := by rw [if_neg hMne]; exact ho
  rcases hr with hr | ⟨hr, x, hx⟩
  · exact importOf_object hR F M C alias verify builtin o hq' hr hC ha hM h1 h2 h3 ho'
  · obtain ⟨s, e1, e2, e3⟩ := importFrom_found hR M C alias verify builtin o hC ha hM h1 h2 h3 ho'
    refine ⟨s, ?_, e2, e3⟩
    have hos : objectStyle F.repr = false := by
      cases h : objectStyle F.repr with
      | false => rfl
      | true => exact absurd ((objectStyle_iff _).1 h) hr
    have hlt : GetImport.startsWith "<".toList F.repr = false := by
      rw [hx]
      cases hC' : C with
      | nil => exact absurd hC' hC.1
      | cons c C' =>
        have : ¬ '<' = c := by rintro rfl; exact hCl ⟨C', by rw [hC']; rfl⟩
        simp [GetImport.startsWith, List.isPrefixOf, this]
    have hname : reprName F M = .ok C := by
      unfold reprName
      obtain ⟨b, hb⟩ := hinst
      rw [hos, builtinMod_false h1 h2, hb]
      simp only [Bool.false_eq_true, if_false]
      cases b with
      | false => simp only [hx, beforeParen_of hCp]
      | true =>
        have hg : getname F true = .ok (some F.repr) := by
          unfold getname
          cases hmm : F.modName with
          | none => simp [(hm hmm).2]
          | some m => rw [hn]; simp only [hlt, Bool.true_eq_false, Bool.false_eq_true, if_false]
        simp only [hg]
        rw [hx, beforeParen_of hCp]
    unfold getimport importOf
    simp only [Bool.false_eq_true, if_false, hq'.1, hq'.2, Option.getD_some, hname, if_neg hC.1, e1]

/-! #### builtins -/

/-- C91 for a builtin function or class with `builtin=False`: a name of the builtins (one the `types` module has not). -/
theorem C91_builtin_partial {O : Type} (E : Env) (P : Py O) (F : Facts) (N alias : Str) (verify : Bool) (o : O)
    (hm : ModuleRepr F.modStr "builtins".toList) (hmn : F.modName = some "builtins".toList) (hmod : F.isMod = false)
    (hN : F.name = some N) (hname : Name N) (hl : N ≠ "<lambda>".toList) (hel : N ≠ "ellipsis".toList) (hr : AngleRepr F.repr)
    (ha : NoBlank alias) (ht : E.inTypes N = false) (ho : P.val N = some o) :
    ∃ s, getimport E F none alias verify false false = .ok s ∧ MakesDenote P s (wanted alias N) o := by
  have hM : ModuleName "builtins".toList := ⟨by decide, by decide⟩
  have hg : getname F false = .ok (some N) := by
    unfold getname
    rw [hmn, hN]
    have : (N == "ellipsis".toList) = false := by simpa using hel
    simp only [if_neg hl, this, Bool.and_false, Bool.false_eq_true, if_false]
  have hq : namespace' E F = ["builtins".toList, N] := by
    unfold namespace' moduleNamespace
    rw [moduleOf_repr hM hm]
    have : ¬ (some N = some []) := by simpa using hname.1
    simp only [hmod, Bool.false_eq_true, if_false, hg, if_neg this, Option.or, ht, Bool.and_false]
    rw [split_nodot _ (by decide)]; rfl
  obtain ⟨st, p1, p2, p3, p4, _⟩ := parse_assign (alias := alias) hname ha
  refine ⟨assign alias N, ?_, st, p1, ?_⟩
  · unfold getimport importOf importTail importFrom
    simp only [Bool.false_eq_true, if_false, hq, reprName, (objectStyle_iff _).2 hr, if_true]
    have e : joinDot (["builtins".toList, N].dropLast) = "builtins".toList := rfl
    simp only [e]
    rw [GetImport.getimport]
    have c1 : ¬ (N = "None".toList ∧ "builtins".toList = "types".toList) := fun h => absurd h.2 (by decide)
    have c2 : ¬ ((N = "Ellipsis".toList ∨ N = "NotImplemented".toList) ∧ "builtins".toList = "types".toList) :=
      fun h => absurd h.2 (by decide)
    simp only [List.getLast?_cons_cons, List.getLast?_singleton, Option.getD_some, if_neg c1, if_neg c2, hel, and_false, if_false]
    rw [if_pos (by simp [ht])]
  · cases st with
    | imp => cases p4
    | expr t =>
      simp only [Stmt.mentions, Stmt.renamed, GetImport.rename] at p2 p3
      simp only [after]
      rw [← ho]
      congr 1
      unfold wanted
      by_cases e : alias = []
      · rw [if_pos e]
      · rw [if_neg e]
        by_cases e2 : alias = N
        · exact e2
        · simp [e, e2] at p3
    | assign x t =>
      simp only [Stmt.mentions, Stmt.renamed, GetImport.rename] at p2 p3
      simp only [after]
      have : wanted alias N = x := by
        unfold wanted
        by_cases e : alias = []
        · simp [e] at p3
        · by_cases e2 : alias = N
          · simp [e2] at p3
          · simp [e, e2] at p3; simp [e, p3]
      rw [if_pos this, p2]; exact ho

/-- C91 for a builtin function or class with `builtin=True` when the verified import is no Python (an alias that is no name): the text gives
the builtin's name to the alias. -/
theorem C91_builtin_bad_alias (E : Env) (F : Facts) (N alias : Str)
    (hm : ModuleRepr F.modStr "builtins".toList) (hmn : F.modName = some "builtins".toList) (hmod : F.isMod = false)
    (hN : F.name = some N) (hname : N ≠ []) (hl : N ≠ "<lambda>".toList) (hel : N ≠ "ellipsis".toList) (hr : AngleRepr F.repr)
    (ht : E.inTypes N = false) (ha : alias ≠ [] ∧ alias ≠ N)
    (hx : E.exec ("from builtins import ".toList ++ N ++ " as ".toList ++ alias ++ "\n".toList) = .syntaxError) :
    getimport E F none alias true true false = .ok (alias ++ " = ".toList ++ N ++ "\n".toList) := by
  have hM : ModuleName "builtins".toList := ⟨by decide, by decide⟩
  have hg : getname F false = .ok (some N) := by
    unfold getname
    rw [hmn, hN]
    have : (N == "ellipsis".toList) = false := by simpa using hel
    simp only [if_neg hl, this, Bool.and_false, Bool.false_eq_true, if_false]
  have hq : namespace' E F = ["builtins".toList, N] := by
    unfold namespace' moduleNamespace
    rw [moduleOf_repr hM hm]
    have : ¬ (some N = some []) := by simpa using hname
    simp only [hmod, Bool.false_eq_true, if_false, hg, if_neg this, Option.or, ht, Bool.and_false]
    rw [split_nodot _ (by decide)]; rfl
  have hi : importStr "builtins".toList N alias = "from builtins import ".toList ++ N ++ " as ".toList ++ alias ++ "\n".toList := by
    unfold importStr
    rw [if_neg (by decide), if_neg (by rintro (h | h); exact ha.1 h; exact ha.2 h)]
    have : "from ".toList ++ "builtins".toList ++ " import ".toList = "from builtins import ".toList := by decide
    rw [this]; simp only [List.append_assoc]
  unfold getimport importOf importTail importFrom
  simp only [Bool.false_eq_true, if_false, hq, reprName, (objectStyle_iff _).2 hr, if_true]
  have e : joinDot (["builtins".toList, N].dropLast) = "builtins".toList := rfl
  simp only [e]
  rw [GetImport.getimport]
  have c1 : ¬ (N = "None".toList ∧ "builtins".toList = "types".toList) := fun h => absurd h.2 (by decide)
  have c2 : ¬ ((N = "Ellipsis".toList ∨ N = "NotImplemented".toList) ∧ "builtins".toList = "types".toList) :=
    fun h => absurd h.2 (by decide)
  simp only [List.getLast?_cons_cons, List.getLast?_singleton, Option.getD_some, if_neg c1, if_neg c2, hel, and_false, if_false]
  rw [if_neg (by simp)]
  simp only [ht, Bool.false_eq_true, and_false, if_false]
  rw [if_pos (by decide), hi, hx]
  simp only [show builtinMod "builtins".toList = true by decide, if_true, assign]
  rw [if_neg (by rintro (h | h); exact ha.1 h; exact ha.2 h)]

/-- C91 for builtin data (numbers, strings, lists, ...) with `builtin=False`, or with a verified import that is no Python: the text
is the repr, given to the alias if there is one. -/
theorem C91_data_partial (E : Env) (F : Facts) (C alias : Str) (verify builtin : Bool)
    (hm : F.modStr = "None".toList) (hmod : F.isMod = false)
    (hcls : F.clsStr = "<class '".toList ++ C ++ "'>".toList) (hC : '.' ∉ C) (hCe : C ≠ "ellipsis".toList)
    (hcm : F.clsMod = some "builtins".toList) (ht : E.inTypes C = false)
    (hr : ¬ AngleRepr F.repr) (hrne : F.repr ≠ []) (hre : F.repr ≠ "ellipsis".toList) (htr : E.inTypes F.repr = false)
    (hnan : F.str ∉ ["inf".toList, "nan".toList, "Inf".toList, "NaN".toList])
    (hb : builtin = false ∨ (verify = true ∧ E.exec (importStr "builtins".toList F.repr alias) = .syntaxError)) :
    getimport E F none alias verify builtin false =
      .ok ((if alias = [] ∨ alias = F.repr then [] else alias ++ " = ".toList) ++ F.repr ++ "\n".toList) := by
  have hcq : classQual F.clsStr = C := by
    rw [hcls]
    have e : ("<class '".toList ++ C ++ "'>".toList).dropWhile (· != '\'') = '\'' :: (C ++ "'>".toList) := by
      have : ∀ x : Str, ("<class '".toList ++ x).dropWhile (· != '\'') = '\'' :: x := by
        intro x; rfl
      rw [List.append_assoc, this]
    unfold classQual
    rw [e]
    simp only [List.length_append]
    have : ("'>".toList).length = 2 := by decide
    rw [this, Nat.add_sub_cancel, List.take_left']
    rfl
  have hmn : moduleNamespace E F = none := by
    unfold moduleNamespace
    rw [hm, show moduleOf "None".toList = none by decide]
  have hq : namespace' E F = ["builtins".toList, C] := by
    unfold namespace'
    rw [hmn]
    simp only [nanNames, if_neg hnan, classNamespace, hcm, hcq, split_nodot C hC]
    simp only [show builtinMod "builtins".toList = true by decide, if_true, List.getLast?_singleton, Option.getD_some, hCe, if_false, ht,
      Bool.false_eq_true]
    rfl
  have hos : objectStyle F.repr = false := by
    cases h : objectStyle F.repr with
    | false => rfl
    | true => exact absurd ((objectStyle_iff _).1 h) hr
  unfold getimport importOf
  simp only [Bool.false_eq_true, if_false, hq, reprName, hos]
  have e : joinDot (["builtins".toList, C].dropLast) = "builtins".toList := rfl
  simp only [e, show builtinMod "builtins".toList = true by decide, if_true, if_neg hrne, importFrom]
  rw [GetImport.getimport]
  have c1 : ¬ (F.repr = "None".toList ∧ "builtins".toList = "types".toList) := fun h => absurd h.2 (by decide)
  have c2 : ¬ ((F.repr = "Ellipsis".toList ∨ F.repr = "NotImplemented".toList) ∧ "builtins".toList = "types".toList) :=
    fun h => absurd h.2 (by decide)
  simp only [if_neg c1, if_neg c2, hre, and_false, if_false]
  rcases hb with rfl | ⟨rfl, hx⟩
  · rw [if_pos (by simp [htr])]; rfl
  · cases builtin with
    | false => rw [if_pos (by simp [htr])]; rfl
    | true =>
      rw [if_neg (by simp)]
      simp only [htr, Bool.false_eq_true, and_false, if_false]
      rw [if_pos (by decide), hx]
      rfl

/-- C91 for a builtin class that `types` holds under the same name (`NoneType`, `NotImplementedType`, ...), and for the class of `...`,
which `types` holds as `EllipsisType`: executing the text makes that name (or the alias) denote what `types` holds under it. -/
theorem C91_types_partial {O : Type} (E : Env) (P : Py O) (hR : Runs E P) (F : Facts) (N N' alias : Str) (verify builtin : Bool) (o : O)
    (hm : ModuleRepr F.modStr "builtins".toList) (hmn : F.modName = some "builtins".toList) (hmod : F.isMod = false)
    (hN : F.name = some N) (hname : Name N') (hl : N ≠ "<lambda>".toList)
    (hN' : (N = "ellipsis".toList ∧ N' = "EllipsisType".toList) ∨ (N ≠ "ellipsis".toList ∧ N' = N)) (hr : AngleRepr F.repr)
    (ha : NoBlank alias) (ht : E.inTypes N' = true)
    (h3 : N' ≠ "None".toList ∧ N' ≠ "Ellipsis".toList ∧ N' ≠ "NotImplemented".toList)
    (ho : P.attr "types".toList N' = some o) :
    ∃ s, getimport E F none alias verify builtin false = .ok s ∧ MakesDenote P s (wanted alias N') o := by
  have hM : ModuleName "builtins".toList := ⟨by decide, by decide⟩
  have hg : getname F false = .ok (some N') := by
    unfold getname
    rw [hmn, hN]
    simp only [if_neg hl]
    rcases hN' with ⟨rfl, rfl⟩ | ⟨h, rfl⟩
    · rw [if_pos (by decide)]
    · have : (N' == "ellipsis".toList) = false := by simpa using h
      simp only [this, Bool.and_false, Bool.false_eq_true, if_false]
  have hq : namespace' E F = ["types".toList, N'] := by
    unfold namespace' moduleNamespace
    rw [moduleOf_repr hM hm]
    have : ¬ (some N' = some []) := by simpa using hname.1
    simp only [hmod, Bool.false_eq_true, if_false, hg, if_neg this, Option.or, ht, Bool.and_true]
    rw [if_pos (by decide)]
  obtain ⟨s, e1, e2, _⟩ := importOf_object (P := P) hR F "types".toList N' alias verify builtin o
    (by rw [hq]; exact ⟨rfl, rfl⟩) hr hname ha (by unfold NoBlank; decide) (by decide) (by decide) (fun _ => h3) (by rw [if_neg (by decide)]; exact ho)
  exact ⟨s, by unfold getimport; simpa using e1, e2⟩

theorem classNamespace_types (E : Env) (F : Facts) (C T : Str) (hcls : F.clsStr = "<class '".toList ++ C ++ "'>".toList) (hC : '.' ∉ C)
    (hcm : F.clsMod = some "builtins".toList) (hT : (C = "ellipsis".toList ∧ T = "EllipsisType".toList) ∨ (C ≠ "ellipsis".toList ∧ T = C))
    (ht : E.inTypes T = true) : classNamespace E F = ["types".toList, T] := by
  have hcq : classQual F.clsStr = C := by
    rw [hcls]
    have e : ("<class '".toList ++ C ++ "'>".toList).dropWhile (· != '\'') = '\'' :: (C ++ "'>".toList) := by
      have : ∀ x : Str, ("<class '".toList ++ x).dropWhile (· != '\'') = '\'' :: x := by
        intro x; rfl
      rw [List.append_assoc, this]
    unfold classQual
    rw [e]
    simp only [List.length_append]
    have : ("'>".toList).length = 2 := by decide
    rw [this, Nat.add_sub_cancel, List.take_left']
    rfl
  have hl : (if C = "ellipsis".toList then "EllipsisType".toList else C) = T := by
    rcases hT with ⟨h, h'⟩ | ⟨h, h'⟩
    · rw [if_pos h, h']
    · rw [if_neg h, h']
  simp only [classNamespace, hcm, hcq, split_nodot C hC, show builtinMod "builtins".toList = true by decide, if_true,
    List.getLast?_singleton, Option.getD_some, hl, ht]
  rfl

/-- C91 for `None`, `...` and `NotImplemented`: the text is their name, given to the alias if there is one. -/
theorem C91_singletons (E : Env) (F : Facts) (V C alias : Str) (verify : Bool)
    (hVC : (V = "None".toList ∧ C = "NoneType".toList) ∨ (V = "Ellipsis".toList ∧ C = "ellipsis".toList) ∨
      (V = "NotImplemented".toList ∧ C = "NotImplementedType".toList))
    (hm : F.modStr = "None".toList) (hmn : F.modName = none) (hmod : F.isMod = false) (hty : F.typeMod = some "builtins".toList)
    (hsp : F.special = false)
    (hcls : F.clsStr = "<class '".toList ++ C ++ "'>".toList) (hcm : F.clsMod = some "builtins".toList)
    (hr : F.repr = V) (hs : F.str = V)
    (ht1 : E.inTypes "NoneType".toList = true) (ht2 : E.inTypes "EllipsisType".toList = true)
    (ht3 : E.inTypes "NotImplementedType".toList = true) (ht : E.inTypes V = false) :
    getimport E F none alias verify false false =
      .ok ((if alias = [] ∨ alias = V then [] else alias ++ " = ".toList) ++ V ++ "\n".toList) := by
  have hmn' : moduleNamespace E F = none := by
    unfold moduleNamespace
    rw [hm, show moduleOf "None".toList = none by decide]
  have hi : isInstance F = .ok false := by
    unfold isInstance
    simp only [hsp, hmn, hty, Bool.false_eq_true, if_false]
    decide
  have main : ∀ T : Str, namespace' E F = ["types".toList, T] → reprName F "types".toList = .ok V →
      getimport E F none alias verify false false = (match importFrom E "types".toList V alias verify false with
        | .ok s => .ok s
        | .error .importError => importTail E "types".toList T alias verify false
        | .error .syntaxError => importTail E "types".toList T alias verify false
        | .error e => .error (liftErr e)) := by
    intro T h1 h2
    unfold getimport importOf
    have e : joinDot (["types".toList, T].dropLast) = "types".toList := rfl
    have hV : V ≠ [] := by rcases hVC with ⟨rfl, _⟩ | ⟨rfl, _⟩ | ⟨rfl, _⟩ <;> decide
    simp only [Bool.false_eq_true, if_false, h1, e, h2, if_neg hV]
    simp only [List.getLast?_cons_cons, List.getLast?_singleton, Option.getD_some,
      show builtinMod "types".toList = false by decide, Bool.false_eq_true, if_false]
    cases importFrom E "types".toList V alias verify false with
    | ok => rfl
    | error x => cases x <;> rfl
  have hrn : reprName F "types".toList = .ok V := by
    unfold reprName
    have : objectStyle V = false := by rcases hVC with ⟨rfl, _⟩ | ⟨rfl, _⟩ | ⟨rfl, _⟩ <;> decide
    simp only [hr, this, Bool.false_eq_true, if_false, show builtinMod "types".toList = false by decide, hi]
    rcases hVC with ⟨rfl, _⟩ | ⟨rfl, _⟩ | ⟨rfl, _⟩ <;> decide
  have hq : ∃ T, namespace' E F = ["types".toList, T] := by
    unfold namespace'
    rw [hmn']
    have hn : F.str ∉ nanNames := by
      rw [hs]; rcases hVC with ⟨rfl, _⟩ | ⟨rfl, _⟩ | ⟨rfl, _⟩ <;> decide
    simp only [if_neg hn]
    rcases hVC with ⟨_, rfl⟩ | ⟨_, rfl⟩ | ⟨_, rfl⟩
    · exact ⟨_, classNamespace_types E F _ "NoneType".toList hcls (by decide) hcm (.inr ⟨by decide, rfl⟩) ht1⟩
    · exact ⟨_, classNamespace_types E F _ "EllipsisType".toList hcls (by decide) hcm (.inl ⟨rfl, rfl⟩) ht2⟩
    · exact ⟨_, classNamespace_types E F _ "NotImplementedType".toList hcls (by decide) hcm (.inr ⟨by decide, rfl⟩) ht3⟩
  obtain ⟨T, hq⟩ := hq
  have himp : importFrom E "types".toList V alias verify false =
      .ok ((if alias = [] ∨ alias = V then [] else alias ++ " = ".toList) ++ V ++ "\n".toList) := by
    unfold importFrom
    rw [GetImport.getimport]
    rcases hVC with ⟨rfl, _⟩ | ⟨rfl, _⟩ | ⟨rfl, _⟩
    · rw [if_pos ⟨rfl, rfl⟩]; rfl
    · have c1 : ¬ ("Ellipsis".toList = "None".toList ∧ "types".toList = "types".toList) := by decide
      have c2 : ("Ellipsis".toList = "Ellipsis".toList ∨ "Ellipsis".toList = "NotImplemented".toList) ∧ "types".toList = "types".toList := by decide
      rw [if_neg c1]
      simp only [if_pos c2]
      rw [if_pos (by simp; exact ht)]
      rfl
    · have c1 : ¬ ("NotImplemented".toList = "None".toList ∧ "types".toList = "types".toList) := by decide
      have c2 : ("NotImplemented".toList = "Ellipsis".toList ∨ "NotImplemented".toList = "NotImplemented".toList) ∧ "types".toList = "types".toList := by decide
      rw [if_neg c1]
      simp only [if_pos c2]
      rw [if_pos (by simp; exact ht)]
      rfl
  rw [main T hq hrn, himp]

/-! ### C92: `_importable` -/

/-- C92: code, classes and modules, builtin data, builtin classes' instances and `array` objects are asked for by one import. -/
theorem C92_plain (F : Facts)
    (h : F.special = true ∨ (F.modName = none ∧ ∃ t, F.typeMod = some t ∧ t ≠ "numpy".toList) ∨
      (∃ m, F.modName = some m ∧ (F.plainType = false ∨ ∃ o, F.ownMod = some o ∧
        (o = "builtins".toList ∨ o = "__builtin__".toList ∨ F.name = some "array".toList)))) :
    isInstance F = .ok false := by
  unfold isInstance
  cases hs : F.special with
  | true => simp
  | false =>
    rw [hs] at h
    simp only [Bool.false_eq_true, if_false, false_or] at h ⊢
    rcases h with ⟨h1, t, h2, h3⟩ | ⟨m, h1, h2 | ⟨o, h3, h4⟩⟩
    · rw [h1, h2]; simp only; rw [beq_false_of_ne h3]
    · rw [h1, h2]; simp
    · rw [h1, h3]
      simp only
      split
      · rfl
      · rcases h4 with rfl | rfl | h4
        · rfl
        · rfl
        · split
          · rfl
          · have : getname F true = .ok (some "array".toList) := by
              unfold getname
              rw [h1, h4]
              simp only
              rw [if_neg (by decide), if_neg (by simp)]
            rw [this]
            decide

/-- C92: objects of numpy without a module, and instances of other classes that a repr describes, are asked for by an import of their
class and their repr. -/
theorem C92_instances (F : Facts) (hs : F.special = false)
    (h : (F.modName = none ∧ F.typeMod = some "numpy".toList) ∨
      (∃ m o, F.modName = some m ∧ F.plainType = true ∧ F.ownMod = some o ∧ o ≠ "builtins".toList ∧ o ≠ "__builtin__".toList ∧
        F.name = none ∧ F.repr ≠ "array".toList)) :
    isInstance F = .ok true := by
  unfold isInstance
  rw [hs]
  simp only [Bool.false_eq_true, if_false]
  rcases h with ⟨h1, h2⟩ | ⟨m, o, h1, h2, h3, h4, h5, h6, h7⟩
  · rw [h1, h2]; simp
  · rw [h1, h2, h3]
    simp only [Bool.true_eq_false, if_false, builtinMod_false h4 h5, Bool.false_eq_true]
    have : ∃ r, getname F true = .ok r ∧ r ≠ some "array".toList := by
      unfold getname
      rw [h1, h6]
      simp only [Bool.true_eq_false, if_false]
      split
      · exact ⟨none, rfl, by simp⟩
      · exact ⟨_, rfl, by simpa using h7⟩
    obtain ⟨r, e1, e2⟩ := this
    rw [e1]
    simp only
    congr 1
    simpa using e2

/-- C92: the order in which the ways are tried.  With `source=True` (or unset, for an object of `__main__`) the source wins if there
is one; with `source=False` the import wins if there is one. -/
theorem C92_source_first (E : Env) (F : Facts) (outer : Option Facts) (src : Str) (inMain : Bool) (alias : Str) (source : Option Bool)
    (enclosing force builtin : Bool) (h : source = some true ∨ (source = none ∧ inMain = true)) :
    importable E F outer (some src) inMain alias source enclosing force builtin = .ok src := by
  unfold importable
  rcases h with rfl | ⟨rfl, rfl⟩ <;> simp

theorem C92_import_first (E : Env) (F : Facts) (outer : Option Facts) (src : Option Str) (inMain : Bool) (alias i : Str) (source : Option Bool)
    (enclosing force builtin : Bool) (h : source = some false ∨ (source = none ∧ inMain = false) ∨ src = none)
    (hF : isInstance F = .ok false) (hi : getimport E F outer alias (!force) builtin enclosing = .ok i) :
    importable E F outer src inMain alias source enclosing force builtin = .ok i := by
  unfold importable wantImport
  have e : (if (source.getD inMain) = true then src else none) = none := by
    rcases h with rfl | ⟨rfl, rfl⟩ | rfl <;> simp
  simp only [e, hF, hi, Except.toOption]

/-- C92 when no import is found: the source, if there is one, is the answer whichever way was preferred. -/
theorem C92_source_last (E : Env) (F : Facts) (outer : Option Facts) (src : Str) (inMain : Bool) (alias : Str) (source : Option Bool)
    (enclosing force builtin : Bool) (x e : Exc)
    (hF : isInstance F = .error x ∨ (isInstance F = .ok false ∧ getimport E F outer alias (!force) builtin enclosing = .error e) ∨
      (isInstance F = .ok true ∧ getimport E F outer [] (!force) builtin enclosing = .error e)) :
    importable E F outer (some src) inMain alias source enclosing force builtin = .ok src := by
  have hw : wantImport E F outer alias enclosing force builtin = none := by
    unfold wantImport
    rcases hF with h | ⟨h, h'⟩ | ⟨h, h'⟩
    · simp [h]
    · simp [h, h', Except.toOption]
    · simp [h, h']
  unfold importable
  simp only [hw]
  cases source.getD inMain <;> simp

/-- C92: without source and without import, the name (or with `force` the repr) of the object is the answer, under the alias. -/
theorem C92_name_last (E : Env) (F : Facts) (outer : Option Facts) (inMain : Bool) (alias n : Str) (source : Option Bool)
    (enclosing force builtin : Bool) (x e : Exc)
    (hF : isInstance F = .error x ∨ (isInstance F = .ok false ∧ getimport E F outer alias (!force) builtin enclosing = .error e))
    (hn : getname F force = .ok (some n)) (hne : n ≠ []) (hlt : ¬ "<".toList <+: n) :
    importable E F outer none inMain alias source enclosing force builtin =
      .ok ((if alias = [] ∨ alias = n then [] else alias ++ " = ".toList) ++ n ++ "\n".toList) := by
  have hw : wantImport E F outer alias enclosing force builtin = none := by
    unfold wantImport
    rcases hF with h | ⟨h, h'⟩
    · simp [h]
    · simp [h, h', Except.toOption]
  have hl : GetImport.startsWith "<".toList n = false := by
    cases h : GetImport.startsWith "<".toList n with
    | false => rfl
    | true => exact absurd (by simpa only [GetImport.startsWith, List.isPrefixOf_iff_prefix] using h) hlt
  unfold importable
  have : (decide (n = []) || GetImport.startsWith "<".toList n) = false := by rw [hl]; simpa using hne
  simp only [hw, ite_self, hn, this, Bool.false_eq_true, if_false]
  rfl

/-- C92 for an instance that its repr describes, asked for as an import: an import of its class, under its own name, followed by the
repr given to the alias. -/
theorem C92_instance {O : Type} (E : Env) (P : Py O) (hR : Runs E P) (F : Facts) (M C x alias : Str) (src : Option Str) (inMain force builtin : Bool) (o : O)
    (hM : NoBlank M) (hMne : M ≠ []) (hC : Name C) (hCd : '.' ∉ C) (hCp : '(' ∉ C) (hCl : ¬ "<".toList <+: C)
    (hcls : ClassRepr F.clsStr M C) (hcm : F.clsMod = some M) (hmod : F.isMod = false) (hn : F.name = none)
    (hm : F.modName = none → F.modStr = "None".toList ∧ F.scalar = none)
    (hinst : isInstance F = .ok true) (hnan : F.str ∉ ["inf".toList, "nan".toList, "Inf".toList, "NaN".toList])
    (hr : ¬ AngleRepr F.repr) (hx : F.repr = C ++ '(' :: x)
    (h1 : M ≠ "builtins".toList) (h2 : M ≠ "__builtin__".toList)
    (h3 : M = "types".toList → C ≠ "None".toList ∧ C ≠ "Ellipsis".toList ∧ C ≠ "NotImplemented".toList)
    (ho : P.attr M C = some o) :
    ∃ i, importable E F none src inMain alias (some false) false force builtin =
        .ok (i ++ ((if alias = [] ∨ alias = F.repr then [] else alias ++ " = ".toList) ++ F.repr ++ "\n".toList)) ∧
      MakesDenote P i C o := by
  obtain ⟨i, e1, e2, _⟩ := C91_instance_partial E P hR F M C [] (!force) builtin o hM hMne hC hCd hCp hCl hcls hcm hmod hn hm ⟨_, hinst⟩ hnan
    (.inr ⟨hr, x, hx⟩) (by simp [NoBlank]) h1 h2 h3 ho
  refine ⟨i, ?_, by simpa [wanted] using e2⟩
  have hlt : GetImport.startsWith "<".toList F.repr = false := by
    rw [hx]
    cases hC' : C with
    | nil => exact absurd hC' hC.1
    | cons c C' =>
      have : ¬ '<' = c := by rintro rfl; exact hCl ⟨C', by rw [hC']; rfl⟩
      simp [GetImport.startsWith, List.isPrefixOf, this]
  have hg : getname F true = .ok (some F.repr) := by
    unfold getname
    cases hmm : F.modName with
    | none => simp [(hm hmm).2]
    | some m => rw [hn]; simp only [hlt, Bool.true_eq_false, Bool.false_eq_true, if_false]
  have hne : ¬ F.repr = [] := by rw [hx]; simp
  unfold importable wantImport
  simp only [Option.getD_some, Bool.false_eq_true, if_false, hinst, e1, hg, if_neg hne]
  rfl

/-! ### Where the claims fail -/

/-- identifier characters and dots -/
def wordChars (s : Str) : Bool := s.all fun c => c.isAlphanum || c == '_' || c == '.'

/-- an interpreter for the environment `P`, in which the module `types` has the names `ts` -/
def run (P : Py Nat) (ts : List Str) : Env where
  inTypes t := ts.contains t
  exec s := match parse s with
    | some (.imp h t a) =>
      if (imported P (.imp h t a)).isSome then .ok
      else if wordChars t && (t.head?.map Char.isDigit) != some true then .importError else .syntaxError
    | _ => .syntaxError

theorem run_runs (P : Py Nat) (ts : List Str) : Runs (run P ts) P := by
  intro s st h1 h2 h3
  cases st with
  | expr => cases h2
  | assign => cases h2
  | imp h t a =>
    simp only [run, h1]
    rw [if_pos (by cases hx : imported P (.imp h t a) with | none => exact absurd hx h3 | some _ => rfl)]

/-- module `m` has a function `f` (0), a class `A` (1), a class `B` (2), `g` (3); `numpy` has `nan` (4); `len` is 5 -/
def demo : Py Nat where
  attr h t :=
    if h = "m".toList then
      (if t = "f".toList then some 0 else if t = "A".toList then some 1 else if t = "B".toList then some 2
        else if t = "g".toList then some 3 else none)
    else if h = "numpy".toList ∧ t = "nan".toList then some 4
    else if h = "pk".toList ∧ t = "sub".toList then some 8
    else none
  mod t := if t = "m".toList then some 6 else if t = "pk".toList then some 7 else none
  val t := if t = "len".toList then some 5 else none

def demoE : Env := run demo ["FunctionType".toList, "NoneType".toList, "EllipsisType".toList, "NotImplementedType".toList]

def fn (name rep : Str) : Facts :=
  { modStr := "<module 'm' from '/tmp/m.py'>".toList, modName := some "m".toList, isMod := false, name := some name, src := none,
    str := rep, repr := rep, clsMod := some "builtins".toList, clsStr := "<class 'function'>".toList, special := true,
    typeMod := some "builtins".toList, plainType := true, ownMod := some "m".toList, scalar := none }

/-- a method: `A.f` of module `m`, where `m` has also a function `f` -/
def methodF : Facts := fn "f".toList "<function A.f at 0x7f>".toList

/-- C91 fails for a method, verified or not: the text for `A.f` imports the function `f` of the module, another object. -/
theorem C91_method_misses : ∀ verify, ∃ s, getimport demoE methodF none [] verify false false = .ok s ∧
    s = "from m import f\n".toList ∧ demoE.exec s = .ok ∧ MakesDenote demo s "f".toList 0 :=
  fun v => ⟨"from m import f\n".toList, by cases v <;> decide +kernel, rfl, by decide +kernel,
    .imp (some "m".toList) "f".toList none, by decide +kernel, by decide +kernel⟩

def inst (m cls rep str : Str) (mod : Option Str) : Facts :=
  { modStr := "<module 'x' from '/tmp/x.py'>".toList, modName := mod, isMod := false, name := none, src := none,
    str := str, repr := rep, clsMod := some m, clsStr := cls, special := false,
    typeMod := some m, plainType := true, ownMod := some m, scalar := none }

/-- an instance of the class `B` nested in the class `A` of module `m`; `m` has another class `B` -/
def nestedI : Facts := inst "m".toList "<class 'm.A.B'>".toList "<m.A.B object at 0x7f>".toList "<m.A.B object at 0x7f>".toList (some "m".toList)

/-- C91 fails for an instance of a nested class: the verified text imports another class of the module. -/
theorem C91_nested_class_misses : getimport demoE nestedI none [] true false false = .ok "from m import B\n".toList ∧
    demoE.exec "from m import B\n".toList = .ok ∧ MakesDenote demo "from m import B\n".toList "B".toList 2 :=
  ⟨by decide +kernel, by decide +kernel, .imp (some "m".toList) "B".toList none, by decide +kernel, by decide +kernel⟩

def data (cls rep str : Str) : Facts :=
  { modStr := "None".toList, modName := none, isMod := false, name := none, src := none,
    str := str, repr := rep, clsMod := some "builtins".toList, clsStr := cls, special := false,
    typeMod := some "builtins".toList, plainType := true, ownMod := none, scalar := none }

/-- C91 fails for the string "<b>": the text is the type of the string. -/
theorem C91_angle_data_misses : getimport demoE (data "<class 'str'>".toList "'<b>'".toList "<b>".toList) none [] true false false =
    .ok "str\n".toList := by decide +kernel

/-- C91 fails for the string "nan": the text imports the float of numpy. -/
theorem C91_nan_string_misses : getimport demoE (data "<class 'str'>".toList "'nan'".toList "nan".toList) none [] true false false =
    .ok "from numpy import nan\n".toList := by decide +kernel

/-- C91 fails for `decimal.Decimal('NaN')`: the text imports `Decimal` from numpy, which was tried and failed. -/
theorem C91_decimal_nan_misses :
    getimport demoE (inst "decimal".toList "<class 'decimal.Decimal'>".toList "Decimal('NaN')".toList "NaN".toList (some "decimal".toList))
      none [] true false false = .ok "from numpy import Decimal\n".toList ∧
    demoE.exec "from numpy import Decimal\n".toList = .importError := ⟨by decide +kernel, by decide +kernel⟩

/-- C91 fails for a namespace object: its repr does not start with the name of its class. -/
theorem C91_repr_name_misses :
    getimport demoE (inst "types".toList "<class 'types.SimpleNamespace'>".toList "namespace(a=1)".toList "namespace(a=1)".toList
      (some "types".toList)) none [] true false false = .ok "from types import namespace\n".toList ∧
    demoE.exec "from types import namespace\n".toList = .importError := ⟨by decide +kernel, by decide +kernel⟩

/-- a lambda that is an argument of a call -/
def argLambda : Facts := { fn "<lambda>".toList "<function <lambda> at 0x7f>".toList with src := some "run(lambda x=1: x)\n".toList }

/-- C91 fails for a lambda that was not assigned: without verification the text is no Python, with it the call raises SyntaxError. -/
theorem C91_argument_lambda_misses :
    getimport demoE argLambda none [] false false false = .ok "from m import run(lambda x\n".toList ∧
    getimport demoE argLambda none [] true false false = .error .syntaxError := ⟨by decide +kernel, by decide +kernel⟩

/-- C91 and C92 fail for a number with `builtin=True` and no verification (the defaults of `_importable`): the text is no Python. -/
theorem C92_unverified_number :
    getimport demoE (data "<class 'int'>".toList "100".toList "100".toList) none [] false true false = .ok "from builtins import 100\n".toList ∧
    importable demoE (data "<class 'int'>".toList "100".toList "100".toList) none none false [] none false true true =
      .ok "from builtins import 100\n".toList ∧
    demoE.exec "from builtins import 100\n".toList = .syntaxError := ⟨by decide +kernel, by decide +kernel, by decide +kernel⟩

/-- the type of functions: `function` of `builtins`, which has no such name -/
def functionType : Facts :=
  { modStr := "<module 'builtins' (built-in)>".toList, modName := some "builtins".toList, isMod := false, name := some "function".toList, src := none,
    str := "<class 'function'>".toList, repr := "<class 'function'>".toList, clsMod := some "builtins".toList, clsStr := "<class 'type'>".toList,
    special := true, typeMod := some "builtins".toList, plainType := true, ownMod := some "builtins".toList, scalar := none }

/-- C91 fails for `types.FunctionType`: the text is a name the builtins do not have. -/
theorem C91_function_type_misses : getimport demoE functionType none [] true false false = .ok "function\n".toList ∧
    ¬ ∃ o, MakesDenote demo "function\n".toList "function".toList o := by
  refine ⟨by decide +kernel, ?_⟩
  rintro ⟨o, st, h1, h2⟩
  rw [show parse "function\n".toList = some (.expr "function".toList) by decide +kernel] at h1
  cases h1
  rw [show after demo (.expr "function".toList) "function".toList = none by decide +kernel] at h2
  cases h2

/-! ### concrete cases -/

example : getimport demoE (fn "f".toList "<function f at 0x7f>".toList) none "h".toList true false false = .ok "from m import f as h\n".toList := by decide +kernel
example : ModuleRepr (fn "f".toList []).modStr "m".toList := .inr ⟨"from '/tmp/m.py'>".toList, by decide +kernel⟩
example : ModuleName "m".toList := ⟨by decide, by decide⟩
example : AngleRepr "<function f at 0x7f>".toList := ⟨[], "function f at 0x7f".toList, [], by decide +kernel⟩
example : demo.attr "m".toList "f".toList = some 0 := by decide +kernel
/-- `g = lambda x: x` -/
def gLambda : Facts := { fn "<lambda>".toList "<function <lambda> at 0x7f>".toList with src := some "  g = lambda x: x\n".toList }
example : getimport demoE gLambda none [] true false false = .ok "from m import g\n".toList := by decide +kernel
example : gLambda.src = some ("  ".toList ++ "g".toList ++ " ".toList ++ '=' :: " lambda x: x\n".toList) := by decide +kernel
def modF (m : Str) : Facts := { fn m [] with modStr := "<module '".toList ++ m ++ "' from 'x'>".toList, isMod := true, repr := "<module>".toList }
example : getimport demoE (modF "pk.sub".toList) none [] true false false = .ok "from pk import sub\n".toList := by decide +kernel
example : getimport demoE (modF "m".toList) none "q".toList true false false = .ok "import m as q\n".toList := by decide +kernel
/-- an instance of `A` with the repr `A(1)` -/
def anA : Facts := inst "m".toList "<class 'm.A'>".toList "A(1)".toList "A(1)".toList (some "m".toList)
example : getimport demoE anA none [] true false false = .ok "from m import A\n".toList := by decide +kernel
example : ClassRepr anA.clsStr "m".toList "A".toList := by unfold ClassRepr; decide +kernel
example : isInstance anA = .ok true := by decide +kernel
example : importable demoE anA none none false "x".toList (some false) false true true = .ok "from m import A\nx = A(1)\n".toList := by decide +kernel
def lenF : Facts := { functionType with name := some "len".toList, repr := "<built-in function len>".toList }
example : getimport demoE lenF none "n".toList true false false = .ok "n = len\n".toList := by decide +kernel
example : getimport demoE (data "<class 'int'>".toList "100".toList "100".toList) none "n".toList true true false = .ok "n = 100\n".toList := by decide +kernel
example : demoE.exec (importStr "builtins".toList "100".toList "n".toList) = .syntaxError := by decide +kernel
/-- an instance without import: `isInstance` is fine, the class cannot be imported; its source is the answer -/
example : importable demoE { nestedI with clsStr := "<class 'm.h.<locals>.C'>".toList } none (some "class C: pass\n".toList) false [] none false false true =
    .ok "class C: pass\n".toList := by decide +kernel
example : importable demoE (data "<class 'int'>".toList "100".toList "100".toList) none none false "n".toList none false false true =
    .ok "n = 100\n".toList := by decide +kernel
/-- the ways left: a lambda that is an argument has no import, but a source -/
example : importable demoE argLambda none (some "lambda".toList) false [] (some false) false false true = .ok "lambda".toList := by decide +kernel
/-- an object whose class is in no module and whose repr is its text -/
example : importable demoE { data "<class 'z.Z'>".toList "Z(1)".toList "Z(1)".toList with typeMod := none } none none false "n".toList none false true true =
    .ok "n = Z(1)\n".toList := by decide +kernel

/-- the class of `...` -/
def ellipsisType : Facts := { functionType with name := some "ellipsis".toList, repr := "<class 'ellipsis'>".toList, str := "<class 'ellipsis'>".toList }
example : getimport demoE ellipsisType none [] false false false = .ok "from types import EllipsisType\n".toList := by decide +kernel
example : ModuleRepr ellipsisType.modStr "builtins".toList ∧ ellipsisType.modName = some "builtins".toList ∧ AngleRepr ellipsisType.repr :=
  ⟨by first | exact .inl (by decide +kernel) | exact .inr ⟨"(built-in)>".toList, by decide +kernel⟩, by decide +kernel,
    ⟨[], "class 'ellipsis'".toList, [], by decide +kernel⟩⟩
example : getimport demoE (data "<class 'NoneType'>".toList "None".toList "None".toList) none "n".toList true false false = .ok "n = None\n".toList := by
  decide +kernel
example : getimport demoE (data "<class 'ellipsis'>".toList "Ellipsis".toList "Ellipsis".toList) none [] true false false = .ok "Ellipsis\n".toList := by
  decide +kernel
example : (data "<class 'NoneType'>".toList "None".toList "None".toList).special = false ∧
    (data "<class 'NoneType'>".toList "None".toList "None".toList).typeMod = some "builtins".toList := by decide +kernel
/-- a function is no instance, an object of `m.A` is -/
example : (fn "f".toList []).special = true ∧ nestedI.special = false ∧ nestedI.ownMod = some "m".toList ∧ nestedI.plainType = true := by decide +kernel

end Verif.ObjImport
