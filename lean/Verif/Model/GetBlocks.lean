/-! Model of `getblocks` and `getsourcelines`, /repo/dill/source.py:261-349, for an object found at a given line of a
source file. `inspect.getblock`, `inspect.indentsize` and the two regular expressions are parameters. Not modelled:
`findsource`, modules, `lstrip`. -/
namespace Verif.GetBlocks

abbrev Line := List Char
abbrev Block := List Line

structure Src where
  lines : List Line
  pat1 : Line → Bool                      -- starts a def, or contains a lambda (line 286)
  pat2 : Line → Bool                      -- is a decorator line (line 287)
  size : Line → Nat                       -- inspect.indentsize
  getblock : List Line → Option Block     -- inspect.getblock; none is TokenError

/-- the variables of the loop -/
structure St where
  line : Nat
  skip : Nat
  code : Block
  blocks : List (Block × Nat)             -- `blocks` and `_lnum` together

/-- `t in s` for strings -/
def infixOf (t : Line) : Line → Bool
  | [] => t.isEmpty
  | c :: s => t.isPrefixOf (c :: s) || infixOf t s

/-- `target in ''.join(code)` -/
def contains (target : Line) (code : Block) : Bool := infixOf target code.flatten

def decorators (p : Line → Bool) : List Line → Nat
  | [] => 0
  | l :: ls => if p l then decorators p ls + 1 else 0

/-- one iteration of the loop, source.py:296-324 -/
def step (S : Src) (ind : Nat) (target : Line) (s : St) : St :=
  let cur := S.lines.getD s.line []
  if S.pat1 cur then
    let code := if s.skip = 0 then (S.getblock (S.lines.drop s.line)).getD [cur] else s.code
    if S.size cur > ind then ⟨s.line + code.length - s.skip, 0, code, s.blocks⟩
    else if contains target code then
      ⟨s.line + code.length - s.skip, 0, code, s.blocks ++ [(code, s.line - s.skip)]⟩
    else ⟨s.line + 1, 0, code, s.blocks⟩
  else if S.pat2 cur then
    let code := (S.getblock (S.lines.drop s.line)).getD [cur]
    let skip := 1 + decorators S.pat2 code.tail
    ⟨s.line + skip, skip, code, s.blocks⟩
  else ⟨s.line + 1, 0, s.code, s.blocks⟩

/-- `while line <= lnum`; `none` when the fuel runs out -/
def loop (S : Src) (lnum ind : Nat) (target : Line) : Nat → St → Option St
  | 0, _ => none
  | n + 1, s => if s.line ≤ lnum then loop S lnum ind target n (step S ind target s) else some s

inductive Err where
  | tokenError | indexError | timeout
  deriving DecidableEq

/-- `getblocks(object, enclosing=enclosing, locate=True)` for an object whose source starts at line `lnum`, with the
given fuel for the loop -/
def getblocks (S : Src) (lnum : Nat) (enclosing : Bool) (fuel : Nat) : Except Err (List (Block × Nat)) :=
  match S.lines[lnum]? with
  | none => .error .indexError
  | some l =>
    let ind := S.size l
    match S.getblock (S.lines.drop lnum) with
    | none => .error .tokenError
    | some block =>
      if !enclosing || ind == 0 then .ok [(block, lnum)]
      else match loop S lnum ind block.flatten fuel ⟨0, 0, [], []⟩ with
        | none => .error .timeout
        | some s => if s.blocks.isEmpty then .ok [(block, lnum)] else .ok s.blocks

/-- `getsourcelines(object, enclosing=enclosing)`, source.py:333-349 -/
def getsourcelines (S : Src) (lnum : Nat) (enclosing : Bool) (fuel : Nat) : Except Err (Block × Nat) :=
  match getblocks S lnum enclosing fuel with
  | .error e => .error e
  | .ok bs => match bs.getLast? with
    | none => .error .indexError
    | some b => .ok b

end Verif.GetBlocks
