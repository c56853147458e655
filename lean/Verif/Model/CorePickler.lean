import Verif.Model.Core
/-
Using one `dill.Pickler` for several dumps and one `dill.Unpickler` for several loads
(/repo/dill/_dill.py:359-373 `Pickler.__init__`, 427-429 `Pickler.dump`, 432-461 `Unpickler`, on top of CPython's
`pickle._Pickler.dump`, `clear_memo` and `pickle.Unpickler.load`).

Simplifications: those of Model/Core; PROTO, FRAME and STOP are left out (see Model/Wire); what a failed dump wrote
before it raised is not read by anybody.
-/
namespace Verif.Core

/-- A new pickler: empty memo, `self._postproc = OrderedDict()`, _dill.py:359-373. -/
def freshPickler : P := ⟨[], []⟩

/-- `Pickler.dump`, _dill.py:427-429 and `pickle._Pickler.dump`: `self.save(obj)` on the pickler as it is; nothing is
reset before, and nothing is undone when `save` raises (no `try` in _dill.py:1112-1160). -/
def dumpOn (W : World) (n : Nat) (root : Val) (p : P) : P × Except Err (List Op) :=
  match save W n root p with
  | .ok (p', ops) => (p', .ok ops)
  | .error (e, p') => (p', .error e)

/-- `clear_memo`, inherited from `pickle._Pickler`: `self.memo.clear()`; dill does not override it, so `_postproc`
(_dill.py:372) stays. -/
def clearMemo (p : P) : P := { p with memo := [] }

/-- An unpickler between two loads: its memo (never cleared by `load`), and the objects made so far. -/
structure Unp where
  memo : List TVal
  heap : List TObj

def freshUnpickler : Unp := ⟨[], []⟩

/-- `Unpickler.load`, _dill.py:452-461 (the stack is emptied at the start of `pickle.Unpickler.load`, the memo is not). -/
def loadOn (ops : List Op) (u : Unp) : Option (TVal × Unp) :=
  match exec ops ⟨[], [], u.memo, u.heap⟩ with
  | some m => match m.stack, m.metas with
    | [v], [] => some (v, ⟨m.memo, m.heap⟩)
    | _, _ => none
  | none => none

/-- what a program does with one pickler -/
inductive Ev where
  | dump (W : World) (n : Nat) (root : Val)
  | clear

/-- one event: the pickler afterwards, and what was written or raised -/
def onEv (p : P) : Ev → P × Option (Except Err (List Op))
  | .dump W n root => ((dumpOn W n root p).1, some (dumpOn W n root p).2)
  | .clear => (clearMemo p, none)

/-- a history of events -/
def runEvs : P → List Ev → P × List (Except Err (List Op))
  | p, [] => (p, [])
  | p, e :: es =>
    let r := onEv p e
    let s := runEvs r.1 es
    (s.1, r.2.toList ++ s.2)

/-- loading several pickles in turn with one unpickler -/
def loadAll : List (List Op) → Unp → Option (List TVal × Unp)
  | [], u => some ([], u)
  | ops :: rest, u =>
    match loadOn ops u with
    | none => none
    | some (v, u1) => match loadAll rest u1 with
      | none => none
      | some (vs, u2) => some (v :: vs, u2)

end Verif.Core
