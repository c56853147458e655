/-
Model of dill.temp: capture (/repo/dill/temp.py:22-40), the name tag written by dump_source / dumpIO_source
(/repo/dill/temp.py:106-118, 236-248) and read back by load_source / loadIO_source
(/repo/dill/temp.py:61-75, 205-221).
-/
namespace Verif.Temp

/-! ### capture -/

/-- `sys`'s stream attributes (by name) and the text held by each stream object; stream identities are
allocated in order. -/
structure Sys where
  attr : String → Option Nat
  text : Nat → List String
  next : Nat

/-- Python programs over `sys.<name>`: writing to the current stream of a name, rebinding a name by hand,
raising, catching everything, sequencing, and `with capture(name)`. -/
inductive Prog where
  | skip
  | raise
  | write (name : String) (s : String)
  | assign (name : String) (stream : Nat)
  | seq (a b : Prog)
  | tryCatch (a : Prog)
  | capture (name : String) (body : Prog)

def setAttr (name : String) (v : Option Nat) (s : Sys) : Sys :=
  { s with attr := fun n => if n = name then v else s.attr n }

/-- Execution; the Bool is true when an exception is propagating at the end.
`capture` is temp.py:35-40: `getattr` (AttributeError if missing), `setattr` of a new StringIO, the body,
and `setattr` of the original in a `finally`. -/
def exec : Prog → Sys → Sys × Bool
  | .skip, s => (s, false)
  | .raise, s => (s, true)
  | .write n t, s =>
    match s.attr n with
    | none => (s, true)
    | some k => ({ s with text := fun j => if j = k then s.text j ++ [t] else s.text j }, false)
  | .assign n k, s => (setAttr n (some k) s, false)
  | .seq a b, s =>
    match exec a s with
    | (s, true) => (s, true)
    | (s, false) => exec b s
  | .tryCatch a, s => ((exec a s).1, false)
  | .capture n body, s =>
    match s.attr n with
    | none => (s, true)
    | some orig =>
      let k := s.next
      let s := { s with next := k + 1, text := fun j => if j = k then [] else s.text j }
      let s := setAttr n (some k) s
      let (s, ex) := exec body s
      (setAttr n (some orig) s, ex)

/-! ### the name tag -/

/-- `str.isspace` for the characters CPython treats as white space (Objects/unicodetype_db.h). -/
def isSpace (c : Char) : Bool :=
  let n := c.toNat
  (9 ≤ n && n ≤ 13) || (0x1c ≤ n && n ≤ 0x20) || n == 0x85 || n == 0xa0 || n == 0x1680 ||
  (0x2000 ≤ n && n ≤ 0x200a) || n == 0x2028 || n == 0x2029 || n == 0x202f || n == 0x205f || n == 0x3000

/-- `str.splitlines` boundaries. -/
def isBreak (c : Char) : Bool :=
  let n := c.toNat
  (10 ≤ n && n ≤ 13) || (0x1c ≤ n && n ≤ 0x1e) || n == 0x85 || n == 0x2028 || n == 0x2029

/-- `str.strip()`. -/
def strip (s : List Char) : List Char :=
  (((s.dropWhile isSpace).reverse).dropWhile isSpace).reverse

/-- `str.splitlines()`, `acc` holding the current line reversed; "\r\n" is one boundary. -/
def splitlinesAux : List Char → List Char → List (List Char)
  | [], acc => if acc.isEmpty then [] else [acc.reverse]
  | '\r' :: '\n' :: rest, acc => acc.reverse :: splitlinesAux rest []
  | c :: rest, acc =>
    if isBreak c then acc.reverse :: splitlinesAux rest [] else splitlinesAux rest (c :: acc)
def splitlines (s : List Char) : List (List Char) := splitlinesAux s []

/-- `str.split()`. -/
def splitAux : List Char → List Char → List (List Char)
  | [], acc => if acc.isEmpty then [] else [acc.reverse]
  | c :: rest, acc =>
    if isSpace c then (if acc.isEmpty then splitAux rest [] else acc.reverse :: splitAux rest [])
    else splitAux rest (c :: acc)
def split (s : List Char) : List (List Char) := splitAux s []

/-- `codecs.latin_1_encode`, temp.py:43-45. -/
def latin1 : List Char → Option (List Nat)
  | [] => some []
  | c :: cs => if c.toNat < 256 then (latin1 cs).map (c.toNat :: ·) else none

/-- UTF-8 decoding (`bytes.decode()` in loadIO_source; the usual locale encoding in load_source).  Overlong
forms are not rejected here; it does not matter for what is proved. -/
def utf8 : List Nat → Option (List Char)
  | [] => some []
  | b :: bs =>
    if b < 0x80 then (utf8 bs).map (Char.ofNat b :: ·)
    else if b < 0xc0 then none
    else if b < 0xe0 then
      match bs with
      | b1 :: bs => if 0x80 ≤ b1 ∧ b1 < 0xc0 then
          (utf8 bs).map (Char.ofNat ((b - 0xc0) * 64 + (b1 - 0x80)) :: ·) else none
      | _ => none
    else if b < 0xf0 then
      match bs with
      | b1 :: b2 :: bs => if 0x80 ≤ b1 ∧ b1 < 0xc0 ∧ 0x80 ≤ b2 ∧ b2 < 0xc0 then
          (utf8 bs).map (Char.ofNat ((b - 0xe0) * 4096 + (b1 - 0x80) * 64 + (b2 - 0x80)) :: ·) else none
      | _ => none
    else if b < 0xf8 then
      match bs with
      | b1 :: b2 :: b3 :: bs =>
        if 0x80 ≤ b1 ∧ b1 < 0xc0 ∧ 0x80 ≤ b2 ∧ b2 < 0xc0 ∧ 0x80 ≤ b3 ∧ b3 < 0xc0 then
          (utf8 bs).map (Char.ofNat ((b - 0xf0) * 262144 + (b1 - 0x80) * 4096 + (b2 - 0x80) * 64
            + (b3 - 0x80)) :: ·) else none
      | _ => none
    else none

/-- The name written: `str(alias) or getname(object)`, temp.py:111-112. -/
def dumpedName (alias got : List Char) : List Char := if alias.isEmpty then got else alias

/-- `dump_source`/`dumpIO_source`: the bytes written for the source text `src` (what `importable` returned);
`none` = UnicodeEncodeError. -/
def dumpSource (src alias got : List Char) : Option (List Nat) :=
  latin1 (src ++ ("\n#NAME: ".toList ++ (dumpedName alias got ++ ['\n'])))

/-- Outcome of finding the name in `load_source`/`loadIO_source` (the text is then exec'ed and the name
evaluated in it). -/
inductive Found where
  | name (n : List Char)
  | decodeError
  | unknownName     -- IOError
  | indexError
  deriving DecidableEq

def findName (source : List Char) : Found :=
  match (splitlines (strip source)).getLast? with
  | none => .indexError
  | some l =>
    match split l with
    | [] => .indexError
    | t :: ts => if t = "#NAME:".toList then .name ((t :: ts).getLastD []) else .unknownName

/-- `load_source`/`loadIO_source` up to the point where the name is known. -/
def loadName (alias : List Char) (bytes : List Nat) : Found :=
  match utf8 bytes with
  | none => .decodeError
  | some source => if alias.isEmpty then findName source else .name alias

end Verif.Temp
