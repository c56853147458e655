import Verif.Model.Dict
import Verif.Model.Temp
/-
Model of dill.check (/repo/dill/_dill.py:2205-2244): the command it builds, what the other interpreter reads out of it, and what
is printed.  The text `repr(_obj)` of a bytes object is CPython's PyBytes_Repr (Objects/bytesobject.c, not dill code); the reader
is the part of Python's grammar that the command uses: one line `import dill; print(dill.loads(<bytes literal>))`, the
literal read as by the tokenizer and _PyBytes_DecodeEscape.
Simplifications: dumps and the starting of a process are arbitrary functions given as arguments; the system's limit on the
length of an argument and the decoding of the command line (the command is ASCII apart from the path) are left out.
-/
namespace Verif.Check

abbrev Bytes := List UInt8
abbrev Str := List Char

/-! ### bytes literals -/

/-- one lower-case hexadecimal digit, for `n < 16` -/
def hexDigit (n : Nat) : Char := if n < 10 then Char.ofNat (48 + n) else Char.ofNat (87 + n)

/-- the character with that code, as it is written in a literal delimited by `q` -/
def escByte (q : Char) (b : UInt8) : Str :=
  let n := b.toNat
  if n = q.toNat ∨ n = 92 then ['\\', Char.ofNat n]
  else if n = 9 then ['\\', 't']
  else if n = 10 then ['\\', 'n']
  else if n = 13 then ['\\', 'r']
  else if n < 32 ∨ 127 ≤ n then ['\\', 'x', hexDigit (n / 16), hexDigit (n % 16)]
  else [Char.ofNat n]

/-- the delimiter: `"` when the value holds `'` and no `"`, else `'` -/
def quoteFor (bs : Bytes) : Char :=
  if 39 ∈ bs.map (·.toNat) ∧ ¬ 34 ∈ bs.map (·.toNat) then '"' else '\''

/-- `repr(bs)`; used at _dill.py:2240 -/
def reprBytes (bs : Bytes) : Str :=
  let q := quoteFor bs
  'b' :: q :: (bs.flatMap (escByte q) ++ [q])

/-- value of a hexadecimal digit, either case -/
def hexVal (c : Char) : Option Nat :=
  let n := c.toNat
  if 48 ≤ n ∧ n ≤ 57 then some (n - 48)
  else if 97 ≤ n ∧ n ≤ 102 then some (n - 87)
  else if 65 ≤ n ∧ n ≤ 70 then some (n - 55)
  else none

/-- Reads the rest of a short bytes literal delimited by `q`: its value and the text after it.  A raw newline or a
character that is not ASCII is a SyntaxError, as is an `\x` without two digits; the other escapes of the language
(octal, `\a`, an escaped newline, an unknown escape) are left out: `none`. -/
def readLit (q : Char) : Str → Option (Bytes × Str)
  | [] => none
  | c :: s =>
    if c = q then some ([], s)
    else if c = '\\' then
      match s with
      | 'x' :: h :: l :: s =>
        match hexVal h, hexVal l, readLit q s with
        | some h, some l, some (bs, r) => some (UInt8.ofNat (h * 16 + l) :: bs, r)
        | _, _, _ => none
      | 't' :: s => (readLit q s).map fun p => (9 :: p.1, p.2)
      | 'n' :: s => (readLit q s).map fun p => (10 :: p.1, p.2)
      | 'r' :: s => (readLit q s).map fun p => (13 :: p.1, p.2)
      | '\\' :: s => (readLit q s).map fun p => (92 :: p.1, p.2)
      | '\'' :: s => (readLit q s).map fun p => (39 :: p.1, p.2)
      | '"' :: s => (readLit q s).map fun p => (34 :: p.1, p.2)
      | _ => none
    else if c = '\n' ∨ c = '\r' ∨ c.toNat = 0 ∨ 128 ≤ c.toNat then none
    else (readLit q s).map fun p => (UInt8.ofNat c.toNat :: p.1, p.2)

/-- Reads a bytes literal: `b`, a delimiter, the rest.  Three delimiters in a row begin a triple-quoted literal: left
out, `none`. -/
def readBytes : Str → Option (Bytes × Str)
  | 'b' :: q :: s =>
    if q = '\'' ∨ q = '"' then
      if s.take 2 = [q, q] then none else readLit q s
    else none
  | _ => none

/-- The bytes passed to `dill.loads` by the interpreter started as `python -c code`; `none` for any other code. -/
def loadedBy (code : Str) : Option Bytes :=
  let pre := "import dill; print(dill.loads(".toList
  if code.take pre.length = pre then
    match readBytes (code.drop pre.length) with
    | some (bs, r) => if r = "))".toList then some bs else none
    | none => none
  else none

/-! ### str.split -/

/-- the first word and the text after it -/
def word : Str → Str × Str
  | [] => ([], [])
  | c :: s => if Temp.isSpace c then ([], c :: s) else ((c :: (word s).1), (word s).2)

/-- `s.split(None, n)`: at most `n` words, then what is left without leading white space, if anything (CPython
Objects/stringlib/split.h, not dill code) -/
def split : Nat → Str → List Str
  | 0, s => match s.dropWhile Temp.isSpace with
    | [] => []
    | r => [r]
  | n + 1, s => match s.dropWhile Temp.isSpace with
    | [] => []
    | r => (word r).1 :: split n (word r).2

/-! ### check -/

/-- keyword values: None, a string, a truth value, anything else -/
inductive Val where
  | none
  | str (s : Str)
  | bool (b : Bool)
  | other (n : Nat)
  deriving DecidableEq

/-- `bool(v)` -/
def Val.truthy : Val → Bool
  | .none => false
  | .str s => !s.isEmpty
  | .bool b => b
  | .other _ => true

/-- What `check` uses of the system: `dumps(obj, *args, **kwds)` (the object and the positional arguments are fixed), the text
`'%s' % v`, `sys.executable`, and `subprocess.call`; the last returns the exit status or raises. -/
structure Sys (E : Type) where
  dumps : Dict String Val → Except E Bytes
  fmt : Val → Str
  executable : Str
  call : List Str → Except E Int

/-- What is observable: the keywords dumps got, the processes started, the lines printed, and how the call ended. -/
structure Out (E : Type) where
  dumped : Dict String Val
  procs : List (List Str)
  printed : List String
  result : Except E Unit

/-- the command, line 2240 -/
def command (python : Str) (bs : Bytes) : Str :=
  python ++ " -c import dill; print(dill.loads(".toList ++ reprBytes bs ++ "))".toList

/-- lines 2220-2223: the `python` keyword, `sys.executable` when it is missing or None -/
def interpreter {E : Type} (sys : Sys E) (kwds : Dict String Val) : Str :=
  match (Dict.get kwds "python").getD .none with
  | .none => sys.executable
  | v => sys.fmt v

/-- `check(obj, *args, **kwds)`: _dill.py:2205-2244.  Line 2219 pops verbose, 2220-2223 python, 2227-2233 the dump in
try/finally, 2240-2241 the process, 2242-2244 the report. -/
def check {E : Type} (sys : Sys E) (kwds : Dict String Val) : Out E :=
  let verbose := ((Dict.get kwds "verbose").getD (.bool false)).truthy
  let kwds := Dict.del kwds "verbose"
  let python := interpreter sys kwds
  let kwds := Dict.del kwds "python"
  match sys.dumps kwds with
  | .error e => ⟨kwds, [], if verbose then ["DUMP FAILED"] else [], .error e⟩
  | .ok bs =>
    let argv := split 2 (command python bs)
    match sys.call argv with
    | .error e => ⟨kwds, [argv], [], .error e⟩
    | .ok n =>
      let msg := if n = 0 then "SUCCESS" else "LOAD FAILED"
      ⟨kwds, [argv], if verbose then [msg] else [], .ok ()⟩

end Verif.Check
