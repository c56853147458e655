/-
Model of the stream wrapper used by load_module: `_PeekableReader` /repo/dill/session.py:327-349 and
`_make_peekable` /repo/dill/session.py:351-361.

A stream is its bytes, its position, the methods it has, and an oracle for each call: `ok`, or the exception
that call raises.  `read(n)` may return fewer bytes than asked (raw streams).  `io.BufferedReader` (CPython) is
modelled by its buffer in front of the raw stream.
-/
namespace Verif.Peek

abbrev Bytes := List Nat

inductive Exc
  | attributeError
  | osError
  | notImplementedError
  | other
  deriving DecidableEq, Repr

/-- what one call does. -/
inductive Outcome
  | ok
  | raises (e : Exc)
  deriving DecidableEq, Repr

/-- how the stream will behave. -/
structure Behaviour where
  hasPeek : Bool
  hasTell : Bool
  hasSeek : Bool
  hasFlush : Bool
  flush : Outcome
  tell : Outcome
  /-- the first and the second call of seek -/
  seek1 : Outcome
  seek2 : Outcome
  read : Outcome
  /-- how many of the bytes asked for `read` returns at most -/
  short : Nat

structure Stream where
  data : Bytes
  pos : Nat
  deriving DecidableEq, Repr

/-- `read(n)` on a stream: the bytes and the advanced stream. -/
def Stream.read (s : Stream) (n : Nat) : Bytes × Stream :=
  let c := (s.data.drop s.pos).take n
  (c, { s with pos := s.pos + c.length })

/-- the result of `peek`: a chunk or an exception, and the stream afterwards. -/
abbrev Res := Except Exc Bytes × Stream

/-- the `except (AttributeError, OSError)` clause, session.py:348-349. -/
def handler (e : Exc) : Exc :=
  match e with
  | .attributeError | .osError => .notImplementedError
  | e => e

/-- `_PeekableReader.peek(n)`, session.py:339-349.  A missing method is an AttributeError. -/
def peek (b : Behaviour) (s : Stream) (n : Nat) : Res :=
  match (if b.hasFlush then b.flush else .ok) with
  | .raises e => (.error (handler e), s)
  | .ok =>
    match (if b.hasTell then b.tell else .raises .attributeError) with
    | .raises e => (.error (handler e), s)
    | .ok =>
      let position := s.pos
      match (if b.hasSeek then b.seek1 else .raises .attributeError) with
      | .raises e => (.error (handler e), s)
      | .ok =>
        let s := { s with pos := position }
        match b.read with
        | .raises e => (.error (handler e), s)
        | .ok =>
          let (chunk, s) := s.read (min n b.short)
          match b.seek2 with
          | .raises e => (.error (handler e), s)
          | .ok => (.ok chunk, { s with pos := position })

/-- an `io.BufferedReader`: bytes already taken from the raw stream but not yet returned. -/
structure Buffered where
  buf : Bytes
  raw : Stream
  deriving DecidableEq, Repr

/-- BufferedReader.peek (CPython Modules/_io/bufferedio.c): the buffered bytes if there are any, else one
raw read of at most the buffer size. -/
def Buffered.peek (b : Buffered) (size : Nat) : Bytes × Buffered :=
  if b.buf ≠ [] then (b.buf, b)
  else
    let (c, raw) := b.raw.read size
    (c, { buf := c, raw := raw })

/-- BufferedReader.read(n): first the buffered bytes, then the raw stream. -/
def Buffered.read (b : Buffered) (n : Nat) : Bytes × Buffered :=
  if n ≤ b.buf.length then (b.buf.take n, { b with buf := b.buf.drop n })
  else
    let (c, raw) := b.raw.read (n - b.buf.length)
    (b.buf ++ c, { buf := [], raw := raw })

/-- what load_module reads from. -/
inductive Wrapped
  | same                    -- the stream itself, it has a peek method
  | buffered (b : Buffered) -- io.BufferedReader(stream)
  | peekable                -- _PeekableReader(stream)
  deriving DecidableEq, Repr

/-- `_make_peekable(stream)`, session.py:351-361; `wrapOk` says whether `io.BufferedReader(stream)` works. -/
def makePeekable (b : Behaviour) (s : Stream) (wrapOk : Bool) : Wrapped :=
  if b.hasPeek then .same
  else if !(b.hasTell && b.hasSeek) then
    if wrapOk then .buffered { buf := [], raw := s } else .peekable
  else .peekable

end Verif.Peek
