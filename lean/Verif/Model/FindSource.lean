/-
Model of the search in `dill.source.findsource` (/repo/dill/source.py:175-258): given the lines of the file or of the interpreter's
history, find the line where the definition of a function, method, code object or class starts.

Parameters: the character classes `\s` and `\w` of the re module; `_matchlambda(obj, line)` (source.py:52-102, which evaluates the
line).  Not modelled: where the lines come from (source.py:115-173).  `co_firstlineno` is at least 1.
-/
namespace Verif.FindSource

abbrev Line := List Char

/-- `\s` and `\w`; of them only what is needed: letters are word characters and no spaces, `@` is no space -/
structure Cls where
  sp : Char → Bool
  wd : Char → Bool
  d_sp : sp 'd' = false
  c_sp : sp 'c' = false
  at_sp : sp '@' = false

/-- `re.match(r'^(\s*def\s)', line)`, source.py:189, 196 -/
def matchDef (k : Cls) (s : Line) : Bool :=
  match s.dropWhile k.sp with
  | 'd' :: 'e' :: 'f' :: c :: _ => k.sp c
  | _ => false

/-- `re.match(r'^(\s*@)', line)`, source.py:184 -/
def matchAt (k : Cls) (s : Line) : Bool :=
  match s.dropWhile k.sp with
  | '@' :: _ => true
  | _ => false

/-- what follows is `lambda` and a colon or a space -/
def lambdaHere (k : Cls) : Line → Bool
  | 'l' :: 'a' :: 'm' :: 'b' :: 'd' :: 'a' :: c :: _ => c == ':' || k.sp c
  | _ => false

/-- `re.match(r'(.*(?<!\w)lambda(:|\s))', line)`, source.py:188, 194; `prev` says that the character before is a word
character; the dot does not match a newline -/
def matchLambda (k : Cls) (prev : Bool) : Line → Bool
  | [] => false
  | c :: s => (!prev && lambdaHere k (c :: s)) || (c != '\n' && matchLambda k (k.wd c) s)

/-- what the search is for: a function or method with a name, a lambda, or a bare code object, frame or traceback -/
inductive Kind where
  | fn (name : List Char)
  | lambda
  | code

/-- `pat1.match(line)`, source.py:188-196, 206-211 -/
def pat1 (k : Cls) (kind : Kind) (stdin : Bool) (s : Line) : Bool :=
  if stdin then
    match kind with
    | .fn _ => matchDef k s
    | .lambda => matchLambda k false s
    | .code => matchDef k s || matchLambda k false s || matchAt k s
  else matchDef k s || matchLambda k false s || matchAt k s

/-- `name in line` -/
def isIn (name : List Char) : Line → Bool
  | [] => name.isEmpty
  | c :: s => name.isPrefixOf (c :: s) || isIn name s

/-- `hats`, source.py:222-225: the number of lines with `@` right above -/
def hats (k : Cls) (lines : List Line) : Nat → Nat
  | 0 => 0
  | n + 1 => match lines[n]? with
    | some l => if matchAt k l then hats k lines n + 1 else 0
    | none => 0

/-- the loop, source.py:214-228: `while lnum > 0` -/
def search (k : Cls) (kind : Kind) (stdin : Bool) (isMatch : Line → Bool) (lines : List Line) : Nat → Option Nat
  | 0 => some 0
  | n + 1 =>
    match lines[n + 1]? with
    | none => none
    | some line =>
      if pat1 k kind stdin line then
        if !stdin then some (n + 1)
        else match kind with
          | .lambda => if isMatch line then some (n + 1) else search k kind stdin isMatch lines n
          | .fn name => if isIn name line then some (n + 1 - hats k lines (n + 1)) else search k kind stdin isMatch lines n
          | .code => some (n + 1 - hats k lines (n + 1))
      else search k kind stdin isMatch lines n

inductive Exc where
  | noLines | noClass | indexError
  deriving DecidableEq

/-- `findsource` of a function, method, code, frame or traceback, source.py:175-229 -/
def findCode (k : Cls) (kind : Kind) (stdin : Bool) (firstlineno : Nat) (isMatch : Line → Bool) (lines : List Line) : Except Exc Nat :=
  if lines = [] then .error .noLines
  else match search k kind stdin isMatch lines (if stdin then lines.length - 1 else firstlineno - 1) with
    | some n => .ok n
    | none => .error .indexError

/-- the rest of `class\s*NAME\b` after `class` -/
def afterClass (k : Cls) (name : List Char) (s : Line) : Bool :=
  let r := s.dropWhile k.sp
  name.isPrefixOf r && match r.drop name.length with
    | [] => true
    | c :: _ => !k.wd c

/-- `re.compile(r'^(\s*)class\s*' + name + r'\b').match(line)`, source.py:238: the group, that is the leading spaces -/
def matchClass (k : Cls) (name : List Char) (s : Line) : Option Line :=
  match s.dropWhile k.sp with
  | 'c' :: 'l' :: 'a' :: 's' :: 's' :: r => if afterClass k name r then some (s.takeWhile k.sp) else none
  | _ => none

/-- the loop over all lines from the last to the first, source.py:242-250: a line at top level, or the candidates -/
def classLoop (k : Cls) (name : List Char) (lines : List Line) : Nat → List (Line × Nat) → Nat ⊕ List (Line × Nat)
  | 0, cands => .inr cands
  | i + 1, cands =>
    match lines[i]? with
    | none => .inr cands
    | some l =>
      match matchClass k name l with
      | none => classLoop k name lines i cands
      | some ws => if l.head? = some 'c' then .inl i else classLoop k name lines i (cands ++ [(ws, i)])

/-- comparison of strings -/
def strLt : Line → Line → Bool
  | _, [] => false
  | [], _ :: _ => true
  | a :: s, b :: t => if a.toNat = b.toNat then strLt s t else a.toNat < b.toNat

/-- comparison of the pairs -/
def candLt (a b : Line × Nat) : Bool := strLt a.1 b.1 || (a.1 == b.1 && a.2 < b.2)

/-- `candidates.sort()`, `candidates[0]`, source.py:251-255: the least of all -/
def least : Line × Nat → List (Line × Nat) → Line × Nat
  | a, [] => a
  | a, b :: l => if candLt b a then least b l else least a l

/-- `findsource` of a class or of an instance, source.py:175-176, 231-257 -/
def findClass (k : Cls) (name : List Char) (lines : List Line) : Except Exc Nat :=
  if lines = [] then .error .noLines
  else match classLoop k name lines lines.length [] with
    | .inl i => .ok i
    | .inr [] => .error .noClass
    | .inr (a :: l) => .ok (least a l).2

end Verif.FindSource
