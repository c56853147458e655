/-
Model of the identification of the module stored in a session file.
Writing: the first bytes `Pickler.dump(main)` writes in dump_module (/repo/dill/session.py:296-318) with
`save_module` (/repo/dill/_dill.py:1727-1760: `save_reduce(_import_module, (mod_name,), …)`) and CPython 3.12's
`dump`, `save_reduce`, `save_global`, `save_str`, `save_tuple`, `memoize` (pickle.py:470-520, 615-697, 845-900,
1048-1107), for protocols 0 to 5.
Reading: `_identify_module` /repo/dill/session.py:363-384 over `pickletools.genops` (pickletools.py:2268-2298,
with the argument readers of pickletools.py:212-900).

Bytes and code points are natural numbers.  A `str` is the list of its code points (surrogates included).
Names longer than 2^32-1 bytes (BINUNICODE8) are not modelled.  The checks genops makes on numeric and quoted
string arguments that never occur in a header are a parameter (`lineOk`).
-/
namespace Verif.Identify

abbrev Str := List Nat
abbrev Bytes := List Nat

def str (s : String) : Str := s.toList.map Char.toNat

/-! ### codecs (CPython) -/

/-- `str.encode('utf-8', 'surrogatepass')`, one code point. -/
def utf8Enc1 (c : Nat) : Bytes :=
  if c < 0x80 then [c]
  else if c < 0x800 then [0xC0 + c / 64, 0x80 + c % 64]
  else if c < 0x10000 then [0xE0 + c / 4096, 0x80 + c / 64 % 64, 0x80 + c % 64]
  else [0xF0 + c / 262144, 0x80 + c / 4096 % 64, 0x80 + c / 64 % 64, 0x80 + c % 64]

def utf8Enc (s : Str) : Bytes := s.flatMap utf8Enc1

def cont (b : Nat) : Bool := 0x80 ≤ b && b < 0xC0

/-- `str(data, 'utf-8', 'surrogatepass')`; `none` is UnicodeDecodeError, a ValueError. -/
def utf8Dec : Bytes → Option Str
  | [] => some []
  | b :: bs =>
    if b < 0x80 then (utf8Dec bs).map (b :: ·)
    else match bs with
      | [] => none
      | b1 :: bs =>
        if !cont b1 then none
        else if 0xC2 ≤ b && b < 0xE0 then
          (utf8Dec bs).map (((b - 0xC0) * 64 + (b1 - 0x80)) :: ·)
        else match bs with
          | [] => none
          | b2 :: bs =>
            if !cont b2 then none
            else if 0xE0 ≤ b && b < 0xF0 then
              let c := (b - 0xE0) * 4096 + (b1 - 0x80) * 64 + (b2 - 0x80)
              if c < 0x800 then none else (utf8Dec bs).map (c :: ·)
            else match bs with
              | [] => none
              | b3 :: bs =>
                if !cont b3 then none
                else if 0xF0 ≤ b && b < 0xF5 then
                  let c := (b - 0xF0) * 262144 + (b1 - 0x80) * 4096 + (b2 - 0x80) * 64 + (b3 - 0x80)
                  if c < 0x10000 || 0x110000 ≤ c then none else (utf8Dec bs).map (c :: ·)
                else none

/-- a hexadecimal digit, lower case. -/
def hex (d : Nat) : Nat := if d < 10 then 48 + d else 87 + d

def unhex (b : Nat) : Option Nat :=
  if 48 ≤ b ∧ b < 58 then some (b - 48)
  else if 97 ≤ b ∧ b < 103 then some (b - 87)
  else if 65 ≤ b ∧ b < 71 then some (b - 55)
  else none

/-- `\uXXXX`. -/
def esc4 (c : Nat) : Bytes :=
  [92, 117, hex (c / 4096 % 16), hex (c / 256 % 16), hex (c / 16 % 16), hex (c % 16)]

/-- `\UXXXXXXXX`. -/
def esc8 (c : Nat) : Bytes :=
  [92, 85, hex (c / 268435456 % 16), hex (c / 16777216 % 16), hex (c / 1048576 % 16), hex (c / 65536 % 16),
   hex (c / 4096 % 16), hex (c / 256 % 16), hex (c / 16 % 16), hex (c % 16)]

/-- pickle.py:859-864: escape backslash, NUL, newline, carriage return and ctrl-Z, then
`encode('raw-unicode-escape')`. -/
def rawEnc1 (c : Nat) : Bytes :=
  if c = 92 ∨ c = 0 ∨ c = 10 ∨ c = 13 ∨ c = 26 then esc4 c
  else if c < 256 then [c]
  else if c < 0x10000 then esc4 c
  else esc8 c

def rawEnc (s : Str) : Bytes := s.flatMap rawEnc1

/-- read `n` hexadecimal digits. -/
def unhexN : Nat → Nat → Bytes → Option (Nat × Bytes)
  | 0, acc, bs => some (acc, bs)
  | n + 1, acc, b :: bs => match unhex b with
    | some d => unhexN n (acc * 16 + d) bs
    | none => none
  | _ + 1, _, [] => none

/-- `str(data, 'raw-unicode-escape')`, with the length as bound on the recursion. -/
def rawDecN : Nat → Bytes → Option Str
  | _, [] => some []
  | 0, _ => none
  | k + 1, b :: bs =>
    if b ≠ 92 then (rawDecN k bs).map (b :: ·)
    else match bs with
      | [] => some [92]
      | e :: bs =>
        if e = 117 then match unhexN 4 0 bs with
          | some (c, bs) => (rawDecN k bs).map (c :: ·)
          | none => none
        else if e = 85 then match unhexN 8 0 bs with
          | some (c, bs) => if c < 0x110000 then (rawDecN k bs).map (c :: ·) else none
          | none => none
        else (rawDecN k bs).map (fun s => 92 :: e :: s)

def rawDec (bs : Bytes) : Option Str := rawDecN bs.length bs

/-! ### genops -/

inductive ArgKind
  | none
  /-- a fixed number of bytes -/
  | fixed (n : Nat)
  /-- up to a newline -/
  | line
  /-- two such lines -/
  | line2
  /-- a little-endian length of `n` bytes, then that many bytes; `signed` lengths may not be negative -/
  | counted (n : Nat) (signed : Bool)
  deriving DecidableEq

/-- pickletools.py:1102-2170, the opcodes with their kinds of argument. -/
def argKind (op : Nat) : Option ArgKind :=
  match op with
  | 73 => some .line        -- INT
  | 74 => some (.fixed 4)   -- BININT
  | 75 => some (.fixed 1)   -- BININT1
  | 77 => some (.fixed 2)   -- BININT2
  | 76 => some .line        -- LONG
  | 138 => some (.counted 1 false)  -- LONG1
  | 139 => some (.counted 4 true)   -- LONG4
  | 83 => some .line        -- STRING
  | 84 => some (.counted 4 true)    -- BINSTRING
  | 85 => some (.counted 1 false)   -- SHORT_BINSTRING
  | 66 => some (.counted 4 false)   -- BINBYTES
  | 67 => some (.counted 1 false)   -- SHORT_BINBYTES
  | 142 => some (.counted 8 false)  -- BINBYTES8
  | 150 => some (.counted 8 false)  -- BYTEARRAY8
  | 86 => some .line        -- UNICODE
  | 140 => some (.counted 1 false)  -- SHORT_BINUNICODE
  | 88 => some (.counted 4 false)   -- BINUNICODE
  | 141 => some (.counted 8 false)  -- BINUNICODE8
  | 70 => some .line        -- FLOAT
  | 71 => some (.fixed 8)   -- BINFLOAT
  | 103 => some .line       -- GET
  | 104 => some (.fixed 1)  -- BINGET
  | 106 => some (.fixed 4)  -- LONG_BINGET
  | 112 => some .line       -- PUT
  | 113 => some (.fixed 1)  -- BINPUT
  | 114 => some (.fixed 4)  -- LONG_BINPUT
  | 130 => some (.fixed 1)  -- EXT1
  | 131 => some (.fixed 2)  -- EXT2
  | 132 => some (.fixed 4)  -- EXT4
  | 99 => some .line2       -- GLOBAL
  | 105 => some .line2      -- INST
  | 128 => some (.fixed 1)  -- PROTO
  | 149 => some (.fixed 8)  -- FRAME
  | 80 => some .line        -- PERSID
  -- no argument: NEXT_BUFFER READONLY_BUFFER NONE NEWTRUE NEWFALSE EMPTY_LIST APPEND APPENDS LIST EMPTY_TUPLE
  -- TUPLE TUPLE1 TUPLE2 TUPLE3 EMPTY_DICT DICT SETITEM SETITEMS EMPTY_SET ADDITEMS FROZENSET POP DUP MARK
  -- POP_MARK MEMOIZE STACK_GLOBAL REDUCE BUILD OBJ NEWOBJ NEWOBJ_EX STOP BINPERSID
  | 151 | 152 | 78 | 136 | 137 | 93 | 97 | 101 | 108 | 41 | 116 | 133 | 134 | 135 | 125 | 100 | 115 | 117
  | 143 | 144 | 145 | 48 | 50 | 40 | 49 | 148 | 147 | 82 | 98 | 111 | 129 | 146 | 46 | 81 => some .none
  | _ => Option.none

/-- `f.readline()` without its newline and what follows; `none` if there is no newline. -/
def readLine : Bytes → Option (Bytes × Bytes)
  | [] => none
  | b :: bs => if b = 10 then some ([], bs) else match readLine bs with
    | some (l, r) => some (b :: l, r)
    | none => none

/-- `f.read(n)` when it must give all `n` bytes. -/
def readN (n : Nat) (bs : Bytes) : Option (Bytes × Bytes) :=
  if n ≤ bs.length then some (bs.take n, bs.drop n) else none

/-- a little-endian unsigned integer. -/
def leNat : Bytes → Nat
  | [] => 0
  | b :: bs => b + 256 * leNat bs

/-- the raw bytes of an argument; `none` is ValueError. -/
def readArg : ArgKind → Bytes → Option (Bytes × Bytes)
  | .none, bs => some ([], bs)
  | .fixed n, bs => readN n bs
  | .line, bs => readLine bs
  | .line2, bs => match readLine bs with
    | some (l1, bs) => match readLine bs with
      | some (l2, bs) => some (l1 ++ [32] ++ l2, bs)
      | none => none
    | none => none
  | .counted k signed, bs => match readN k bs with
    | some (len, bs) =>
      if signed && 2 ^ (8 * k - 1) ≤ leNat len then none else readN (leNat len) bs
    | none => none

/-- the value of an argument: text for the opcodes that hold text (utf-8, raw-unicode-escape, or ascii for
GLOBAL and INST); for PUT and GET a decimal number; for the others `lineOk` says whether the reader
accepts (fixed-size numbers are always accepted, see `readOp`).  `none` is ValueError. -/
def decodeArg (lineOk : Nat → Bytes → Bool) (op : Nat) (raw : Bytes) : Option Str :=
  if op = 140 ∨ op = 88 ∨ op = 141 then utf8Dec raw
  else if op = 86 then rawDec raw
  else if op = 99 ∨ op = 105 then (if raw.all (· < 128) then some raw else none)
  else if op = 112 ∨ op = 103 then
    (if raw ≠ [] ∧ raw.all (fun b => 48 ≤ b && b < 58) then some [] else none)
  else if lineOk op raw then some [] else none

/-- one step of genops, pickletools.py:2277-2295; `none` is ValueError. -/
def readOp (lineOk : Nat → Bytes → Bool) : Bytes → Option (Nat × Str × Bytes)
  | [] => none
  | op :: bs => match argKind op with
    | none => none
    | some .none => some (op, [], bs)
    | some (.fixed n) => (readN n bs).map (fun p => (op, [], p.2))
    | some k => match readArg k bs with
      | none => none
      | some (raw, rest) => match decodeArg lineOk op raw with
        | none => none
        | some s => some (op, s, rest)

/-- `_identify_module`: the name, or UnpicklingError, or None (`noName`). -/
inductive Result
  | name (s : Str)
  | noName
  | unpicklingError
  deriving DecidableEq, Repr

/-- `arg.endswith('_import_module')`. -/
def endsImport (s : Str) : Bool := (str "_import_module").isSuffixOf s

/-- the loop of session.py:369-378 over genops. -/
def identifyLoop (lineOk : Nat → Bytes → Bool) : Nat → Bool → Bytes → Result
  | 0, _, _ => .unpicklingError
  | fuel + 1, found, bs => match readOp lineOk bs with
    | none => .unpicklingError
    | some (op, s, rest) =>
      if !found then
        let found := (op = 99 ∨ op = 140) && endsImport s
        if op = 46 then .unpicklingError else identifyLoop lineOk fuel found rest
      else if op = 86 ∨ op = 88 ∨ op = 140 then .name s
      else if op = 46 then .unpicklingError
      else identifyLoop lineOk fuel true rest

/-- what `file.peek(256)` gives: a chunk, or NotImplementedError. -/
inductive Peeked
  | chunk (bs : Bytes)
  | notImplemented

/-- `_identify_module(file, main)`, session.py:363-384. -/
def identify (lineOk : Nat → Bytes → Bool) (p : Peeked) (mainGiven : Bool) : Result :=
  match p with
  | .notImplemented => if mainGiven then .noName else .unpicklingError
  | .chunk bs => identifyLoop lineOk (bs.length + 1) false bs

/-! ### what dump_module writes first -/

/-- `pack("<I", n)`. -/
def le4 (n : Nat) : Bytes := [n % 256, n / 256 % 256, n / 65536 % 256, n / 16777216 % 256]

/-- `save_str`, pickle.py:845-865, without the memo entry. -/
def saveStr (proto : Nat) (s : Str) : Bytes :=
  if 1 ≤ proto then
    let e := utf8Enc s
    if e.length ≤ 255 ∧ 4 ≤ proto then 140 :: e.length :: e
    else 88 :: le4 e.length ++ e
  else 86 :: rawEnc s ++ [10]

/-- the memo opcode written after the first object, pickle.py:485-520: MEMOIZE, BINPUT 0 or PUT 0. -/
def memo0 (proto : Nat) : Bytes :=
  if 4 ≤ proto then [148] else if 1 ≤ proto then [113, 0] else [112, 48, 10]

/-- `save_tuple` of a 1-tuple starts with MARK below protocol 2, pickle.py:868-897. -/
def tupleStart (proto : Nat) : Bytes := if 2 ≤ proto then [] else [40]

/-- the bytes of a session file up to and including the module's name.  `frame` is the 8-byte frame length.
At protocol 4 on, the function `_import_module` is stored as two memoized strings and STACK_GLOBAL; below,
by GLOBAL.  The name of the module being saved is a string not written before (`name` is neither
"dill._dill" nor "_import_module"). -/
def header (proto : Nat) (frame : Bytes) (name : Str) : Bytes :=
  (if 2 ≤ proto then [128, proto] else []) ++
  (if 4 ≤ proto then 149 :: frame else []) ++
  (if 4 ≤ proto then
    saveStr proto (str "dill._dill") ++ [148] ++ saveStr proto (str "_import_module") ++ [148] ++ [147]
  else 99 :: str "dill._dill" ++ [10] ++ str "_import_module" ++ [10]) ++
  memo0 proto ++ tupleStart proto ++ saveStr proto name

/-- the same for the module dill._dill itself at protocol 4: its `__name__` is the very string object
already stored as the module of `_import_module`, so the memo entry 0 is fetched instead (BINGET). -/
def headerSelf (proto : Nat) (frame : Bytes) : Bytes :=
  [128, proto] ++ 149 :: frame ++
  saveStr proto (str "dill._dill") ++ [148] ++ saveStr proto (str "_import_module") ++ [148] ++ [147] ++
  [148] ++ [104, 0]

end Verif.Identify
