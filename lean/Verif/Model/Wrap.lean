import Verif.Model.Dict
/-! Model of `_wrap`, /repo/dill/source.py:534-549: every wrapped function executes `importable(f, alias='_')` in the namespace of
dill.source (`__globals__` and `__locals__` are both that dictionary) and then calls the global `_`.  Threads share that dictionary; the
`exec` and the reading of `_` are the atomic steps. -/
namespace Verif.Wrap

/-- functions and other values -/
abbrev Val := Nat

/-- what is wrapped: the function, and the assignments that its text makes (a source text defines the function under its own name, then
assigns `_`; an import only binds `_`); `none`: `importable` or the execution raises -/
structure Wrapped where
  fn : Val
  text : Option (List (String × Val))

/-- where a thread is in the wrapper: before the `exec` (or not in one), or after it -/
inductive Pc where
  | idle
  | executed (i : Nat)
  deriving DecidableEq

structure St where
  /-- the namespace of dill.source -/
  globals : Dict String Val
  /-- the threads -/
  pc : Nat → Pc

/-- what a call of a wrapped function does -/
inductive Outcome where
  /-- calls this -/
  | calls (f : Val)
  | importError
  | nameError
  deriving DecidableEq, Repr

/-- a step of thread `t`: start a call of the wrapped function `i` (source.py:540-545), or go on with the one it is in (546) -/
inductive Ev where
  | exec (t : Nat) (i : Nat)
  | go (t : Nat)

/-- source.py:540-546; a finished call is reported with its thread and wrapped function -/
def step (ws : Nat → Wrapped) (s : St) : Ev → St × List (Nat × Nat × Outcome)
  | .exec t i =>
    match s.pc t with
    | .executed _ => (s, [])
    | .idle =>
      match (ws i).text with
      | none => (s, [(t, i, .importError)])
      | some as => (⟨Dict.update s.globals as, fun u => if u = t then .executed i else s.pc u⟩, [])
  | .go t =>
    match s.pc t with
    | .idle => (s, [])
    | .executed i =>
      (⟨s.globals, fun u => if u = t then .idle else s.pc u⟩,
        [(t, i, match s.globals.get "_" with | some f => .calls f | none => .nameError)])

def run (ws : Nat → Wrapped) : St → List Ev → St × List (Nat × Nat × Outcome)
  | s, [] => (s, [])
  | s, e :: es => let r := step ws s e; let r' := run ws r.1 es; (r'.1, r.2 ++ r'.2)

end Verif.Wrap
