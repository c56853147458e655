import Verif.Model.Core
/-
Model of the bytes of a pickle at protocols 2, 3, 4 and 5: what `pickle._Pickler` (the base class of dill's Pickler,
_dill.py:347-431) writes for each abstract opcode of Model/Core, and what `pickle._Unpickler` (the base class of dill's Unpickler,
_dill.py:432-463) reads.  From CPython 3.11: pickle.py _Framer 200-260, _Unframer 263-317, put/get 514-538,
save_none/save_bool/save_long 740-790, save_float 782-787, save_bytes 789-807, encode_long 354-382, save_str 851-870, save_global 1056-1115, load 1187-1212 and the
load_* functions 1229-1745.
The choices a pickler makes that Model/Core does not determine are arguments, and the theorems hold for all of them: where frames
begin and end (CPython: every 64 KiB, at opcode boundaries, large strings outside), and, for a global at protocol 4, whether
its module and name strings were memoised before (by object identity).
Simplifications: strings have no lone surrogates; at protocols 2 and 3 names of globals have no newline and are found at the top level
of their module (these protocols write a nested name as a call of getattr); at protocol 2 a bytes object is a reduction (a call of
codecs.encode, pickle.py:790-796), that is, a node of Core and not an atom, and the translation of names to those of Python 2
(fix_imports) is left out: it is the subject of C105; BUILD is one opcode and the class of the object decides
whether `__setstate__` is called, so the reader takes that decision for each BUILD from a list.  A short read from the file is an
error here at once (except for a frame); `_Unpickler` over a plain file notices some short reads (struct.error, IndexError) and
otherwise goes on with a shorter string, name or integer until the next opcode is read, which is then EOFError
(pickle.py:1210-1211): no object either way.  A string that Core holds as an atom is not memoised (CPython memoises every
string object; Core's `leaf` is the memoised form).
-/
namespace Verif.Wire
open Core

abbrev Bytes := List UInt8

/-! ### numbers -/

/-- `struct.pack('<B' / '<H' / '<I', n)`: `k` bytes, little endian -/
def le : Nat → Nat → Bytes
  | 0, _ => []
  | k + 1, n => UInt8.ofNat (n % 256) :: le k (n / 256)

/-- `struct.unpack` of the same -/
def unle : Bytes → Nat
  | [] => 0
  | b :: bs => b.toNat + 256 * unle bs

/-- `x.to_bytes(k, 'little', signed=True)` for an `x` that fits -/
def toBytes (k : Nat) (x : Int) : Bytes := le k (x % 256 ^ k).toNat

/-- `int.from_bytes(bs, 'little', signed=True)` -/
def fromBytes (bs : Bytes) : Int :=
  if 256 ^ bs.length ≤ 2 * unle bs then (unle bs : Int) - 256 ^ bs.length else unle bs

/-- `x.bit_length()` -/
def bitLength (x : Int) : Nat := if x = 0 then 0 else Nat.log2 x.natAbs + 1

/-- `encode_long(x)` -/
def encodeLong (x : Int) : Bytes :=
  if x = 0 then []
  else
    let r := toBytes (bitLength x / 8 + 1) x
    match r.getLast?, r.dropLast.getLast? with
    | some a, some b => if x < 0 ∧ a = 0xff ∧ b.toNat ≥ 128 then r.dropLast else r
    | _, _ => r

/-- `save_long` in the binary protocols; `none` is struct.error -/
def encInt (i : Int) : Option Bytes :=
  if 0 ≤ i ∧ i ≤ 0xff then some (0x4b :: le 1 i.toNat)
  else if 0 ≤ i ∧ i ≤ 0xffff then some (0x4d :: le 2 i.toNat)
  else if -0x80000000 ≤ i ∧ i ≤ 0x7fffffff then some (0x4a :: toBytes 4 i)
  else
    let e := encodeLong i
    if e.length < 256 then some (0x8a :: le 1 e.length ++ e)
    else if e.length < 2 ^ 31 then some (0x8b :: le 4 e.length ++ e)
    else none

/-! ### strings and names -/

def utf8 (s : String) : Bytes := s.toUTF8.data.toList

def ofUtf8 (bs : Bytes) : Option String := String.fromUTF8? ⟨bs.toArray⟩

/-- `save_str` at protocol 3: BINUNICODE; `none` is struct.error -/
def encStr (s : String) : Option Bytes :=
  if (utf8 s).length < 2 ^ 32 then some (0x58 :: le 4 (utf8 s).length ++ utf8 s) else none

/-- `save_global` at protocol 3: GLOBAL, two lines; `none`: a name with a newline, outside the model -/
def encGlob (m n : String) : Option Bytes :=
  if (10 : UInt8) ∉ utf8 m ∧ (10 : UInt8) ∉ utf8 n then some (0x63 :: utf8 m ++ 10 :: utf8 n ++ [10]) else none

/-- `save_float`: BINFLOAT, `struct.pack('>d', x)` -/
def encFloat (bits : UInt64) : Bytes := 0x47 :: (le 8 bits.toNat).reverse

/-- `save_bytes` at protocol 3; `none` is struct.error -/
def encBytes (bs : Bytes) : Option Bytes :=
  if bs.length < 256 then some (0x43 :: le 1 bs.length ++ bs)
  else if bs.length < 2 ^ 32 then some (0x42 :: le 4 bs.length ++ bs)
  else none

def encAtom : Atom → Option Bytes
  | .none => some [0x4e]
  | .bool true => some [0x88]
  | .bool false => some [0x89]
  | .int i => encInt i
  | .float x => some (encFloat x)
  | .str s => encStr s
  | .bytes bs => encBytes bs
  | .emptyTuple => some [0x29]
  | .glob m n => encGlob m n

/-! ### writing -/

/-- one opcode, when `c` objects are in the memo -/
def encOp (c : Nat) : Op → Option Bytes
  | .push a => encAtom a
  | .mark => some [0x28]
  | .popMark => some [0x31]
  | .pop => some [0x30]
  | .tupleN 1 => some [0x85]
  | .tupleN 2 => some [0x86]
  | .tupleN 3 => some [0x87]
  | .tupleN _ => none
  | .tuple => some [0x74]
  | .emptyList => some [0x5d]
  | .emptyDict => some [0x7d]
  | .emptySet => some [0x8f]
  | .additems => some [0x90]
  | .frozenset => some [0x91]
  | .append => some [0x61]
  | .appends => some [0x65]
  | .setitem => some [0x73]
  | .setitems => some [0x75]
  | .memoize => if c < 256 then some (0x71 :: le 1 c) else if c < 2 ^ 32 then some (0x72 :: le 4 c) else none
  | .get i => if i < 256 then some (0x68 :: le 1 i) else if i < 2 ^ 32 then some (0x6a :: le 4 i) else none
  | .reduce => some [0x52]
  | .newobj => some [0x81]
  | .build => some [0x62]
  | .buildSet => some [0x62]

/-- the number of memoised objects after an opcode -/
def bump (c : Nat) : Op → Nat
  | .memoize => c + 1
  | _ => c

/-! ### protocols 4 and 5 -/

/-- what the reader executes: Core's opcodes and STACK_GLOBAL -/
inductive WOp where
  | op (o : Op)
  | stackGlobal
  deriving DecidableEq, Repr

/-- `save_str` at protocol 4 -/
def encStr4 (s : String) : Option Bytes :=
  if (utf8 s).length < 256 then some (0x8c :: le 1 (utf8 s).length ++ utf8 s)
  else if (utf8 s).length < 2 ^ 32 then some (0x58 :: le 4 (utf8 s).length ++ utf8 s)
  else if (utf8 s).length < 2 ^ 63 then some (0x8d :: le 8 (utf8 s).length ++ utf8 s)
  else none

/-- `save_bytes` at protocol 4 -/
def encBytes4 (bs : Bytes) : Option Bytes :=
  if bs.length < 2 ^ 32 then encBytes bs
  else if bs.length < 2 ^ 63 then some (0x8e :: le 8 bs.length ++ bs)
  else none

/-- `bytes(name, "ascii")` succeeds: the names of globals at protocol 2, pickle.py:1112-1118 -/
def ascii (s : String) : Bool := (utf8 s).all (· < 128)

/-- one opcode at protocol `p`, when `c` objects are in the memo -/
def encW (p c : Nat) : WOp → Option Bytes
  | .stackGlobal => if 4 ≤ p then some [0x93] else none
  | .op .memoize => if 4 ≤ p then some [0x94] else encOp c .memoize
  | .op (.push (.str s)) => if 4 ≤ p then encStr4 s else encStr s
  | .op (.push (.bytes bs)) => if 4 ≤ p then encBytes4 bs else if 3 ≤ p then encBytes bs else none
  | .op (.push (.glob m n)) => if 4 ≤ p then none else if 3 ≤ p ∨ (ascii m = true ∧ ascii n = true) then encGlob m n else none
  | .op .emptySet => if 4 ≤ p then encOp c .emptySet else none
  | .op .additems => if 4 ≤ p then encOp c .additems else none
  | .op .frozenset => if 4 ≤ p then encOp c .frozenset else none
  | .op o => encOp c o

def bumpW (c : Nat) : WOp → Nat
  | .op o => bump c o
  | .stackGlobal => c

/-- the bytes of each opcode -/
def items (p c : Nat) : List WOp → Option (List Bytes)
  | [] => some []
  | w :: ws =>
    match encW p c w, items p (bumpW c w) ws with
    | some a, some b => some (a :: b)
    | _, _ => none

/-- what `save_global` at protocol 4 keeps track of: where Core's memo entries are in the real memo, which real entries hold
strings, and whether the last opcode pushed a string -/
structure CSt where
  map : List Nat := []
  strs : List (Option String) := []
  last : Option String := none

/-- `self.save(name)` in `save_global`: the string is pushed and memoised, or fetched from entry `j` -/
def compStr (st : CSt) (s : String) : Option Nat → Option (CSt × List WOp)
  | none => some ({ st with strs := st.strs ++ [some s] }, [.op (.push (.str s)), .op .memoize])
  | some j => if st.strs[j]? = some (some s) then some (st, [.op (.get j)]) else none

/-- the opcodes of protocol 4 for Core's opcodes; one pair of choices for each global -/
def compile (st : CSt) (choices : List (Option Nat × Option Nat)) : List Op → Option (List WOp)
  | [] => some []
  | .push (.glob m n) :: ops =>
    match choices with
    | [] => none
    | (cm, cn) :: cs =>
      match compStr st m cm with
      | none => none
      | some (st1, w1) => match compStr st1 n cn with
        | none => none
        | some (st2, w2) => (compile { st2 with last := none } cs ops).map fun ws => w1 ++ w2 ++ .stackGlobal :: ws
  | .memoize :: ops =>
    (compile { map := st.map ++ [st.strs.length], strs := st.strs ++ [st.last], last := st.last } choices ops).map
      fun ws => .op .memoize :: ws
  | .get i :: ops =>
    match st.map[i]? with
    | none => none
    | some j => (compile { st with last := none } choices ops).map fun ws => .op (.get j) :: ws
  | .push (.str s) :: ops => (compile { st with last := some s } choices ops).map fun ws => .op (.push (.str s)) :: ws
  | o :: ops => (compile { st with last := none } choices ops).map fun ws => .op o :: ws

/-- `_Framer`: groups of whole opcodes, each written in a frame or outside -/
def frameUp (p : Nat) : List (Bool × Nat) → List Bytes → Option Bytes
  | [], [] => some []
  | [], _ :: _ => none
  | _ :: _, [] => none
  | (false, k) :: cs, is => (frameUp p cs (is.drop k)).map fun r => (is.take k).flatten ++ r
  | (true, k) :: cs, is =>
    if 4 ≤ p ∧ (is.take k).flatten.length < 2 ^ 63 then
      (frameUp p cs (is.drop k)).map fun r => 0x95 :: le 8 (is.take k).flatten.length ++ ((is.take k).flatten ++ r)
    else none

/-- the whole pickle: PROTO, the opcodes, STOP -/
def encode (p : Nat) (cuts : List (Bool × Nat)) (ws : List WOp) : Option Bytes :=
  match items p 0 ws with
  | none => none
  | some is => (frameUp p cuts (is ++ [[0x2e]])).map fun b => 0x80 :: UInt8.ofNat p :: b

/-! ### reading -/

/-- what the reader does with an opcode -/
inductive Instr where
  | op (o : Op)
  | stackGlobal
  | build
  | proto (v : Nat)
  | put (i : Nat)
  | memo
  | frame (n : Nat)
  | stop
  deriving DecidableEq, Repr

/-- how the argument of an opcode is laid out -/
inductive Layout where
  | plain (i : Instr)
  | fixed (k : Nat) (f : Bytes → Option Instr)
  | counted (k : Nat) (max : Nat) (f : Bytes → Option Instr)
  | twoLines (f : Bytes → Bytes → Option Instr)

def strInstr (b : Bytes) : Option Instr :=
  match ofUtf8 b with
  | some s => some (.op (.push (.str s)))
  | none => none

def bytesInstr (b : Bytes) : Option Instr := some (.op (.push (.bytes b)))

def globInstr (m n : Bytes) : Option Instr :=
  match ofUtf8 m, ofUtf8 n with
  | some m, some n => some (.op (.push (.glob m n)))
  | _, _ => none

/-- the dispatch table of the unpickler, restricted to the opcodes that dill's objects need -/
def layout (b : UInt8) : Option Layout :=
  match b.toNat with
  | 0x4e => some (.plain (.op (.push .none)))
  | 0x88 => some (.plain (.op (.push (.bool true))))
  | 0x89 => some (.plain (.op (.push (.bool false))))
  | 0x4b => some (.fixed 1 fun a => some (.op (.push (.int (unle a)))))
  | 0x4d => some (.fixed 2 fun a => some (.op (.push (.int (unle a)))))
  | 0x4a => some (.fixed 4 fun a => some (.op (.push (.int (fromBytes a)))))
  | 0x8a => some (.counted 1 256 fun a => some (.op (.push (.int (fromBytes a)))))
  | 0x8b => some (.counted 4 (2 ^ 31) fun a => some (.op (.push (.int (fromBytes a)))))
  | 0x58 => some (.counted 4 (2 ^ 32) strInstr)
  | 0x8c => some (.counted 1 256 strInstr)
  | 0x8d => some (.counted 8 (2 ^ 63) strInstr)
  | 0x47 => some (.fixed 8 fun a => some (.op (.push (.float (UInt64.ofNat (unle a.reverse))))))
  | 0x42 => some (.counted 4 (2 ^ 32) bytesInstr)
  | 0x43 => some (.counted 1 256 bytesInstr)
  | 0x8e => some (.counted 8 (2 ^ 63) bytesInstr)
  | 0x29 => some (.plain (.op (.push .emptyTuple)))
  | 0x63 => some (.twoLines globInstr)
  | 0x93 => some (.plain .stackGlobal)
  | 0x28 => some (.plain (.op .mark))
  | 0x31 => some (.plain (.op .popMark))
  | 0x30 => some (.plain (.op .pop))
  | 0x85 => some (.plain (.op (.tupleN 1)))
  | 0x86 => some (.plain (.op (.tupleN 2)))
  | 0x87 => some (.plain (.op (.tupleN 3)))
  | 0x74 => some (.plain (.op .tuple))
  | 0x5d => some (.plain (.op .emptyList))
  | 0x7d => some (.plain (.op .emptyDict))
  | 0x8f => some (.plain (.op .emptySet))
  | 0x90 => some (.plain (.op .additems))
  | 0x91 => some (.plain (.op .frozenset))
  | 0x61 => some (.plain (.op .append))
  | 0x65 => some (.plain (.op .appends))
  | 0x73 => some (.plain (.op .setitem))
  | 0x75 => some (.plain (.op .setitems))
  | 0x71 => some (.fixed 1 fun a => some (.put (unle a)))
  | 0x72 => some (.fixed 4 fun a => some (.put (unle a)))
  | 0x94 => some (.plain .memo)
  | 0x68 => some (.fixed 1 fun a => some (.op (.get (unle a))))
  | 0x6a => some (.fixed 4 fun a => some (.op (.get (unle a))))
  | 0x52 => some (.plain (.op .reduce))
  | 0x81 => some (.plain (.op .newobj))
  | 0x62 => some (.plain .build)
  | 0x80 => some (.fixed 1 fun a => some (.proto (unle a)))
  | 0x95 => some (.fixed 8 fun a => some (.frame (unle a)))
  | 0x2e => some (.plain .stop)
  | _ => none

/-- `_Unframer`: the rest of the current frame, and the file -/
structure Src where
  cur : Option Bytes
  file : Bytes
  deriving DecidableEq, Repr

/-- `file.read(n)`; `none`: not enough data -/
def takeN (n : Nat) (bs : Bytes) : Option (Bytes × Bytes) := if bs.length < n then none else some (bs.take n, bs.drop n)

/-- `file.readline()[:-1]`; `none`: no newline left -/
def readLine : Bytes → Option (Bytes × Bytes)
  | [] => none
  | b :: bs => if b = 10 then some ([], bs) else (readLine bs).map fun p => (b :: p.1, p.2)

/-- `_Unframer.read`, pickle.py:287-298 -/
def takeS (n : Nat) (s : Src) : Option (Bytes × Src) :=
  match s.cur with
  | some f =>
    if f = [] ∧ n ≠ 0 then (takeN n s.file).map fun p => (p.1, ⟨none, p.2⟩)
    else (takeN n f).map fun p => (p.1, ⟨some p.2, s.file⟩)
  | none => (takeN n s.file).map fun p => (p.1, ⟨none, p.2⟩)

/-- `_Unframer.readline`, pickle.py:300-311 -/
def lineS (s : Src) : Option (Bytes × Src) :=
  match s.cur with
  | some f =>
    if f = [] then (readLine s.file).map fun p => (p.1, ⟨none, p.2⟩)
    else (readLine f).map fun p => (p.1, ⟨some p.2, s.file⟩)
  | none => (readLine s.file).map fun p => (p.1, ⟨none, p.2⟩)

/-- read the argument of an opcode -/
def readArg (l : Layout) (s : Src) : Option (Instr × Src) :=
  match l with
  | .plain i => some (i, s)
  | .fixed k f =>
    match takeS k s with
    | none => none
    | some (a, s) => (f a).map fun i => (i, s)
  | .counted k max f =>
    match takeS k s with
    | none => none
    | some (a, s) =>
      if unle a < max then
        match takeS (unle a) s with
        | none => none
        | some (d, s) => (f d).map fun i => (i, s)
      else none
  | .twoLines f =>
    match lineS s with
    | none => none
    | some (m, s) =>
      match lineS s with
      | none => none
      | some (n, s) => (f m n).map fun i => (i, s)

/-- read one opcode and its argument -/
def readOne (s : Src) : Option (Instr × Src) :=
  match takeS 1 s with
  | some ([b], s) =>
    match layout b with
    | none => none
    | some l => readArg l s
  | _ => none

/-- the protocol an opcode came with, as pickle.py:102-195 lists them: protocol 2 (156-169), 3 (173-176), 4 (178-189), 5 (191-195);
1 for the older ones -/
def introduced (b : UInt8) : Nat :=
  let n := b.toNat
  if 0x96 ≤ n ∧ n ≤ 0x98 then 5
  else if 0x8c ≤ n ∧ n ≤ 0x95 then 4
  else if n = 0x42 ∨ n = 0x43 then 3
  else if 0x80 ≤ n ∧ n ≤ 0x8b then 2
  else 1

/-- the same in a Python whose highest protocol is `P`: an opcode of a later protocol is not in the table (pickle.py:1213: KeyError) -/
def readOneAt (P : Nat) (s : Src) : Option (Instr × Src) :=
  match takeS 1 s with
  | some ([b], _) => if introduced b ≤ P then readOne s else none
  | _ => none

/-- `_Unframer.load_frame`, pickle.py:313-317 (a short frame is not noticed), with load_frame's bound on the size -/
def loadFrame (n : Nat) (s : Src) : Option Src :=
  if n < 2 ^ 63 ∧ (s.cur = none ∨ s.cur = some []) then some ⟨some (s.file.take n), s.file.drop n⟩ else none

/-- the opcodes up to STOP, and what is left.  `c` objects are in the memo; a PUT that is not the next memo index
does not occur in what a pickler writes and is refused here.  `n` bounds the number of opcodes (see `decode`).  `P` is the highest
protocol of the reading Python (load_proto, pickle.py:1229-1233). -/
def decodeGo (P : Nat) : Nat → Nat → List Bool → Src → Option (List WOp × Src)
  | 0, _, _, _ => none
  | n + 1, c, kinds, s =>
    match readOneAt P s with
    | none => none
    | some (.stop, s) => some ([], s)
    | some (.proto v, s) => if v ≤ P then decodeGo P n c kinds s else none
    | some (.frame k, s) =>
      match loadFrame k s with
      | none => none
      | some s => decodeGo P n c kinds s
    | some (.put i, s) =>
      if i = c then (decodeGo P n (c + 1) kinds s).map fun p => (.op .memoize :: p.1, p.2) else none
    | some (.memo, s) => (decodeGo P n (c + 1) kinds s).map fun p => (.op .memoize :: p.1, p.2)
    | some (.stackGlobal, s) => (decodeGo P n c kinds s).map fun p => (.stackGlobal :: p.1, p.2)
    | some (.build, s) =>
      match kinds with
      | [] => none
      | k :: ks => (decodeGo P n c ks s).map fun p => (.op (if k then .buildSet else .build) :: p.1, p.2)
    | some (.op o, s) => (decodeGo P n c kinds s).map fun p => (.op o :: p.1, p.2)

/-- every opcode takes at least one byte; the file is left where the last read from it ended -/
def decode (P : Nat) (kinds : List Bool) (bs : Bytes) : Option (List WOp × Bytes) :=
  (decodeGo P (bs.length + 1) 0 kinds ⟨none, bs⟩).map fun p => (p.1, p.2.file)

/-- for each BUILD of a program, whether it calls `__setstate__` -/
def kindsOf : List Op → List Bool
  | [] => []
  | .build :: ops => false :: kindsOf ops
  | .buildSet :: ops => true :: kindsOf ops
  | _ :: ops => kindsOf ops

/-- `load_stack_global`, pickle.py:1533-1538, beside Core's opcodes -/
def stepW (w : WOp) (m : M) : Option M :=
  match w with
  | .op o => step o m
  | .stackGlobal => match m.stack with
    | .atom (.str n) :: .atom (.str md) :: s => some { m with stack := .atom (.glob md n) :: s }
    | _ => none

def execW : List WOp → M → Option M
  | [], m => some m
  | w :: ws, m => (stepW w m).bind (execW ws)

/-- `Unpickler.load` up to STOP: exactly one value on the stack, no open mark -/
def loadW (ws : List WOp) : Option (TVal × List TObj) :=
  match execW ws ⟨[], [], [], []⟩ with
  | some m => match m.stack, m.metas with
    | [v], [] => some (v, m.heap)
    | _, _ => none
  | none => none

/-- `dill.load(file)` in a Python whose highest protocol is `P`: the object, the heap of created objects, and the bytes that follow the
pickle; `none`: an exception -/
def loadFileAt (P : Nat) (kinds : List Bool) (bs : Bytes) : Option ((TVal × List TObj) × Bytes) :=
  match decode P kinds bs with
  | none => none
  | some (ws, r) => (loadW ws).map fun v => (v, r)

/-- in the Python that wrote the pickle, or any from 3.8 on -/
def loadFile (kinds : List Bool) (bs : Bytes) : Option ((TVal × List TObj) × Bytes) := loadFileAt 5 kinds bs

/-- the choices of a pickler that Core leaves open -/
structure How where
  proto : Nat
  strings : List (Option Nat × Option Nat) := []
  cuts : List (Bool × Nat)

/-- `dill.dumps(obj, protocol)`; `none`: an exception, or choices no pickler can make -/
def dumpBytes (h : How) (W : World) (fuel : Nat) (root : Val) : Option (List Op × Bytes) :=
  match dumps W fuel root with
  | .error _ => none
  | .ok ops =>
    if h.proto = 2 ∨ h.proto = 3 then (encode h.proto h.cuts (ops.map .op)).map fun b => (ops, b)
    else if h.proto = 4 ∨ h.proto = 5 then
      match compile {} h.strings ops with
      | none => none
      | some ws => (encode h.proto h.cuts ws).map fun b => (ops, b)
    else none

end Verif.Wire
