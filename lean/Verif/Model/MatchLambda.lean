import Verif.Model.FindSource
/-! Model of `_matchlambda`, /repo/dill/source.py:52-102, and of the search that uses it: `findsource` of a lambda typed at the
prompt, source.py:204-229.  The pattern is the one of Verif.Model.FindSource.

Compiling is a parameter: what `eval` of the text `lambda ARGS : BODY` (in dill's own namespace) gives.  What dill asks of the lambda -
its bytecode, its free variables, its variable names, its global variables - is a record. -/
namespace Verif.MatchLambda
open Verif.FindSource (Line Cls isIn)

abbrev Code := List Nat

inductive Exc where
  | valueError | typeError | attributeError | indexError | noLines
  deriving DecidableEq, Repr

/-- `eval("lambda %s : %s" % (lhs, rhs))` -/
inductive Evaluated where
  /-- it raises -/
  | raises
  /-- something that has no code -/
  | other
  /-- a function with this bytecode -/
  | fn (c : Code)
  deriving DecidableEq

structure Env where
  eval : Line → Line → Evaluated
  /-- the bytecode of `lambda : '__this_is_a_big_dummy_function__'`, source.py:56 -/
  dummy : Code

/-- what is asked of the lambda -/
structure Lam where
  /-- `co_code` -/
  code : Code
  /-- `freevars(func).keys()` -/
  free : List Line
  /-- `varnames(func)`, both parts -/
  vars : List Line
  /-- `globalvars(func).keys()` -/
  globs : List Line

/-- the text after the first occurrence of `needle` -/
def afterFirst (needle : Line) : Line → Option Line
  | [] => if needle.isEmpty then some [] else none
  | c :: s => if needle.isPrefixOf (c :: s) then some ((c :: s).drop needle.length) else afterFirst needle s

def lambdaWord : Line := "lambda ".toList

/-- `a, b = s.split(":", 1)`: `none` is the ValueError -/
def splitColon (s : Line) : Option (Line × Line) :=
  if ':' ∈ s then some (s.takeWhile (· != ':'), (s.dropWhile (· != ':')).drop 1) else none

/-- `line.split('lambda ',1)[-1].split(":", 1)`, source.py:58 and 82 -/
def splitLambda (line : Line) : Option (Line × Line) := splitColon ((afterFirst lambdaWord line).getD line)

/-- `line.count('lambda ') > 1` -/
def twoLambdas (line : Line) : Bool :=
  match afterFirst lambdaWord line with
  | some r => isIn lambdaWord r
  | none => false

/-- `getcode(_).co_code`, with the dummy when `eval` raises, source.py:59-63; `none` is the AttributeError -/
def codeOf (E : Env) (lhs rhs : Line) : Option Code :=
  match E.eval lhs rhs with
  | .raises => some E.dummy
  | .other => none
  | .fn c => some c

/-- `set((i,j) for (i,j) in zip(_,code) if i != j)`, source.py:90 -/
def diffs (a b : Code) : List (Nat × Nat) := ((a.zip b).filter fun p => p.1 != p.2).eraseDups

/-- `indentsize(line)` is not zero: inspect.indentsize expands tabs and counts the white space that `lstrip()` takes away -/
def indented (k : Cls) : Line → Bool
  | c :: _ => k.sp c
  | [] => false

/-- `_matchlambda(func, line)`, source.py:52-102.  From line 97 on, `_.split(_[0])` splits bytes by a number: a TypeError in Python 3. -/
def matchLambda (k : Cls) (E : Env) (L : Lam) (line : Line) : Except Exc Bool :=
  match splitLambda line with
  | none => .error .valueError
  | some (lhs, rhs) =>
    match codeOf E lhs rhs with
    | none => .error .attributeError
    | some c =>
      if L.free = [] then .ok (c == L.code)
      else if (L.free.all fun n => isIn n line) = false then .ok false
      else if (L.vars.all fun n => isIn n line) = false then .ok false
      else if (L.globs.all fun n => isIn n line) = false then .ok false
      else if twoLambdas line && L.free.contains lhs then
        match splitLambda rhs with
        | none => .error .valueError
        | some (lhs', rhs') =>
          match codeOf E lhs' rhs' with
          | none => .error .attributeError
          | some c' =>
            if c'.length ≠ L.code.length then .ok false
            else .ok ((diffs c' L.code).length == 1)
      else if indented k line = false then .ok false
      else .error .typeError

/-- the loop of `findsource`, source.py:214-229, for a lambda with the file name `<stdin>` -/
def search (k : Cls) (E : Env) (L : Lam) (lines : List Line) : Nat → Except Exc Nat
  | 0 => .ok 0
  | n + 1 =>
    match lines[n + 1]? with
    | none => .error .indexError
    | some line =>
      if FindSource.matchLambda k false line then
        match matchLambda k E L line with
        | .error e => .error e
        | .ok true => .ok (n + 1)
        | .ok false => search k E L lines n
      else search k E L lines n

/-- `findsource(f)` for a lambda typed at the prompt, source.py:171-172 and 204-229; `lines` is the history -/
def findLambda (k : Cls) (E : Env) (L : Lam) (lines : List Line) : Except Exc Nat :=
  if lines = [] then .error .noLines else search k E L lines (lines.length - 1)

end Verif.MatchLambda
