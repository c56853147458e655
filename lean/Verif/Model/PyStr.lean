/-! Python string operations used by several parts of the model, on lists of characters.  Written from the
language reference (str.split, str.rstrip, int), not from /repo. -/
namespace Verif.PyStr

/-- `s.split(sep)` for a non-empty separator: `skip` characters of a separator remain to be dropped, `cur` is
the current piece, reversed. -/
def splitGo (sep : List Char) : Nat → List Char → List Char → List (List Char)
  | _, cur, [] => [cur.reverse]
  | k + 1, cur, _ :: s => splitGo sep k cur s
  | 0, cur, c :: s =>
    if sep.isPrefixOf (c :: s) then cur.reverse :: splitGo sep (sep.length - 1) [] s
    else splitGo sep 0 (c :: cur) s

def split (sep s : List Char) : List (List Char) := splitGo sep 0 [] s

/-- `str.isspace` for one character: those CPython treats as white space (Objects/unicodetype_db.h) -/
def isSpace (c : Char) : Bool :=
  let n := c.toNat
  (9 ≤ n && n ≤ 13) || (0x1c ≤ n && n ≤ 0x20) || n == 0x85 || n == 0xa0 || n == 0x1680 ||
  (0x2000 ≤ n && n ≤ 0x200a) || n == 0x2028 || n == 0x2029 || n == 0x202f || n == 0x205f || n == 0x3000

/-- `s.split()`: runs of white space separate, empty pieces are dropped -/
def splitWsGo : List Char → List Char → List (List Char)
  | cur, [] => if cur.isEmpty then [] else [cur.reverse]
  | cur, c :: s =>
    if isSpace c then (if cur.isEmpty then splitWsGo [] s else cur.reverse :: splitWsGo [] s)
    else splitWsGo (c :: cur) s

def splitWs (s : List Char) : List (List Char) := splitWsGo [] s

/-- `s.rstrip(c)` for one character -/
def rstrip (c : Char) (s : List Char) : List Char := (s.reverse.dropWhile (· == c)).reverse

/-- `int(s)` for a plain decimal numeral; `none` is ValueError. (Signs, spaces and underscores, which `int`
accepts, do not occur in what the model applies it to.) -/
def int10 (s : List Char) : Option Nat :=
  if s.isEmpty then none else if s.all Char.isDigit then some (Nat.ofDigitChars 10 s 0) else none

/-- `str(n)` -/
def str10 (n : Nat) : List Char := Nat.toDigits 10 n

end Verif.PyStr
