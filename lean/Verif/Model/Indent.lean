import Verif.Model.PyStr
/-! Model of `indent`, `_outdent` and `outdent`, /repo/dill/source.py:483-533, with `inspect.indentsize`,
`str.expandtabs`, `str.split('\n')` and `'\n'.join`. White space is what `str.isspace` says. -/
namespace Verif.Indent
open PyStr

/-- `s.expandtabs()`, from the given column -/
def expandtabs : Nat → List Char → List Char
  | _, [] => []
  | col, c :: s =>
    if c = '\t' then List.replicate (8 - col % 8) ' ' ++ expandtabs 0 s
    else c :: expandtabs (if c = '\n' ∨ c = '\r' then 0 else col + 1) s

/-- `inspect.indentsize` -/
def indentsize (s : List Char) : Nat :=
  let e := expandtabs 0 s
  e.length - (e.dropWhile isSpace).length

/-- `s.split('\n')` -/
def splitNL : List Char → List (List Char)
  | [] => [[]]
  | c :: s =>
    if c = '\n' then [] :: splitNL s
    else match splitNL s with
      | [] => [[c]]
      | l :: ls => (c :: l) :: ls

/-- `'\n'.join(lines)` -/
def joinNL : List (List Char) → List Char
  | [] => []
  | [l] => l
  | l :: ls => l ++ '\n' :: joinNL ls

/-- `if lines[-1].strip() == '': lines[-1] = ''` -/
def fixLast : List (List Char) → List (List Char)
  | [] => []
  | [l] => if l.all isSpace then [[]] else [l]
  | l :: ls => l :: fixLast ls

/-- `indent(code, spaces)`, source.py:483-511; an integer `spaces` is `' '*spaces` -/
def indent (code spaces : List Char) : List Char :=
  let ind := indentsize code
  let lines := (splitNL code).map fun l => if ind > indentsize l then l else spaces ++ l
  joinNL (fixLast lines)

/-- the common first lines of `_outdent` and `outdent`, 516-517 and 528-529 -/
def clamp (spaces : Option Int) (ind : Nat) : Nat :=
  match spaces with
  | none => ind
  | some n => if n > ind ∨ n < 0 then ind else n.toNat

def outdentLine (spaces : Nat) (l : List Char) : List Char :=
  let ind := indentsize l
  l.drop (if spaces > ind then ind else spaces)

/-- `_outdent(lines, spaces, all)`, 514-524; `none` is the IndexError of `lines[0]` -/
def outdentLines (lines : List (List Char)) (spaces : Option Int) (all : Bool) : Option (List (List Char)) :=
  match lines with
  | [] => none
  | l :: ls =>
    let n := clamp spaces (indentsize l)
    match all with
    | true => some ((l :: ls).map (outdentLine n))
    | false => some (outdentLine n l :: ls)

/-- `outdent(code, spaces, all)`, 526-532 -/
def outdent (code : List Char) (spaces : Option Int) (all : Bool) : List Char :=
  let n := clamp spaces (indentsize code)
  match all with
  | false => code.drop n
  | true => match outdentLines (splitNL code) (some n) true with
    | some ls => joinNL ls
    | none => []

end Verif.Indent
