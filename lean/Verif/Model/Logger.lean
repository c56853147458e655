/-
Model of dill.logger: TraceAdapter.trace_setup / trace (/repo/dill/logger.py:122-167), the size suffix of
TraceFormatter.format (/repo/dill/logger.py:203-207), trace() and TraceManager (/repo/dill/logger.py:257-285),
and of how Pickler.dump and the save functions call them (/repo/dill/_dill.py:428 and each
`logger.trace(pickler, "X: ...")` ... `logger.trace(pickler, "# X")` pair).
-/
namespace Verif.Logger

/-! ### tracing -/

/-- A line of the trace: an opening line, or a closing "# X" line with the reported size (absent when the
stream cannot tell its position). -/
inductive Line where
  | opening (label depth : Nat)
  | closing (label depth : Nat) (size : Option Int)
  deriving DecidableEq, Repr

/-- What a save function does: write bytes, save sub-objects, or raise. A `node` is a save function that
logs "X: ..." first and "# X" last (all of dill's do); `writes`/`fail` are anything in between. -/
inductive Act where
  | write (n : Nat)
  | node (label : Nat) (body : List Act)
  | fail

/-- the pickler attributes used by trace: `depth = none` models `_trace_depth is None`. -/
structure PSt where
  depth : Option Int
  sizes : List Int          -- _size_stack, top first
  pos : Int                 -- pickler._file.tell() + frame.tell()
  log : List Line           -- lines emitted, oldest first

/-- `trace_setup`, logger.py:122-130, for a dill Pickler. -/
def traceSetup (enabled : Bool) (p : PSt) : PSt :=
  if enabled then { p with depth := some 1, sizes := [] } else { p with depth := none }

/-- `trace` with a message not starting with '#', logger.py:131-167. -/
def traceOpen (tellable : Bool) (label : Nat) (p : PSt) : PSt :=
  match p.depth with
  | none => p
  | some d =>
    { p with
      sizes := if tellable then p.pos :: p.sizes else p.sizes
      log := p.log ++ [.opening label d.toNat]
      depth := some (d + 1) }

/-- `trace` with a "# X" message; `none` = IndexError from popping the empty size stack. -/
def traceClose (tellable : Bool) (label : Nat) (p : PSt) : Option PSt :=
  match p.depth with
  | none => some p
  | some d =>
    if tellable then
      match p.sizes with
      | [] => none
      | s :: ss => some { p with
          sizes := ss
          log := p.log ++ [.closing label (d - 1).toNat (some (p.pos - s))]
          depth := some (d - 1) }
    else some { p with
          log := p.log ++ [.closing label (d - 1).toNat none]
          depth := some (d - 1) }

mutual
/-- Run a save function; `.error` when it raises, with the state at that point. -/
def run (tellable : Bool) : Act → PSt → Except PSt PSt
  | .write n, p => .ok { p with pos := p.pos + n }
  | .fail, p => .error p
  | .node label body, p =>
    let p := traceOpen tellable label p
    match runs tellable body p with
    | .error p => .error p
    | .ok p => match traceClose tellable label p with
      | none => .error p
      | some p => .ok p
def runs (tellable : Bool) : List Act → PSt → Except PSt PSt
  | [], p => .ok p
  | a :: as, p => match run tellable a p with
    | .error p => .error p
    | .ok p => runs tellable as p
end

/-- `Pickler.dump`, _dill.py:426-429: set up the trace, then save. -/
def dump (enabled tellable : Bool) (as : List Act) (p : PSt) : Except PSt PSt :=
  runs tellable as (traceSetup enabled p)

/-! ### the size suffix -/

/-- What is displayed after the label: nothing, a number with a unit prefix, or an exception. -/
inductive Suffix where
  | absent
  | shown (n : Nat) (unit : String)
  | indexError
  deriving DecidableEq, Repr

/-- logger.py:203-207.  `int(math.log(size, 2))` is taken to be the exact integer logarithm. -/
def suffix (size : Nat) : Suffix :=
  if size ≥ 1 then
    let power := Nat.log2 size / 10
    let n := size >>> (power * 10)
    if power ≠ 0 then
      match ["K", "M", "G", "T", "P"][power]? with
      | some c => .shown n (c ++ "iB")
      | none => .indexError
    else .shown n "B"
  else .absent

/-! ### TraceManager -/

/-- The 'dill' logger: its own level (0 = NOTSET), the root logger's level, its handlers, the next
fresh handler identity, and for each pickling so far whether it was traced and to which handlers.
Handler 0 is `stderr_handler`. -/
structure LSt where
  level : Nat
  rootLevel : Nat
  handlers : List Nat
  next : Nat
  seen : List (Bool × List Nat)
  deriving DecidableEq, Repr

/-- `getEffectiveLevel` (root is the only ancestor of 'dill'). -/
def LSt.effective (l : LSt) : Nat := if l.level = 0 then l.rootLevel else l.level

/-- `Logger.addHandler` / `removeHandler`. -/
def addHandler (h : Nat) (l : LSt) : LSt :=
  if h ∈ l.handlers then l else { l with handlers := l.handlers ++ [h] }
def removeHandler (h : Nat) (l : LSt) : LSt := { l with handlers := l.handlers.erase h }

def setLevel (n : Nat) (l : LSt) : LSt := { l with level := n }

/-- User programs over tracing: `detect.trace(bool)`, `with detect.trace(...)` (redirected or not, whose
file may fail to open), pickling something, raising, catching, sequencing. -/
inductive Prog where
  | skip
  | dumps
  | raise
  | set (on : Bool)
  | withTrace (redirect : Bool) (opens : Bool) (body : Prog)
  | seq (a b : Prog)
  | tryCatch (a : Prog)

/-- Execution; the Bool says whether an exception is propagating. -/
def exec : Prog → LSt → LSt × Bool
  | .skip, l => (l, false)
  -- trace_setup, logger.py:131: the trace is on iff INFO (20) is enabled
  | .dumps, l => ({ l with seen := l.seen ++ [(decide (l.effective ≤ 20), l.handlers)] }, false)
  | .raise, l => (l, true)
  | .set on, l => (setLevel (if on then 20 else 30) l, false)
  | .withTrace redirect opens body, l =>
    if redirect then
      if !opens then (l, true)      -- FileHandler() raises before anything is changed
      else
        let h := l.next
        let l := { l with next := l.next + 1 }
        let l := addHandler h (removeHandler 0 l)
        let old := l.effective
        let l := setLevel 20 l
        let (l, ex) := exec body l
        -- __exit__
        let l := setLevel old l
        (addHandler 0 (removeHandler h l), ex)
    else
      let old := l.effective
      let l := setLevel 20 l
      let (l, ex) := exec body l
      (setLevel old l, ex)
  | .seq a b, l =>
    match exec a l with
    | (l, true) => (l, true)
    | (l, false) => exec b l
  | .tryCatch a, l => ((exec a l).1, false)

end Verif.Logger
