import Verif.Model.PyStr
/-! Model of saving and re-creating `threading.Lock` and `threading.RLock`, /repo/dill/_dill.py:812-826, 1364-1380,
with CPython's C RLock (Modules/_threadmodule.c: rlock_acquire, rlock_release, rlock_acquire_restore,
rlock_is_owned, rlock_repr) written as a state machine. Pickling in between carries the two numbers (ints are
copied as themselves, C01). Thread identifiers are positive. -/
namespace Verif.Locks
open PyStr

/-- `_thread.lock`: only whether it is held. -/
structure Lock where
  locked : Bool
  deriving DecidableEq, Repr

inductive Err where
  | unpickling     -- UnpicklingError("Cannot acquire lock")
  | parse          -- IndexError / ValueError in save_rlock
  | deadlock       -- the call never returns
  deriving DecidableEq, Repr

/-- `lock.acquire(False)` -/
def Lock.tryAcquire (l : Lock) : Bool × Lock := if l.locked then (false, l) else (true, ⟨true⟩)

/-- `save_lock`, _dill.py:1366-1371: the argument of `_create_lock` is `obj.locked()` -/
def saveLock (l : Lock) : Bool := l.locked

/-- `_create_lock`, _dill.py:812-818 -/
def createLock (locked : Bool) : Except Err Lock :=
  let lock : Lock := ⟨false⟩
  if locked then
    match lock.tryAcquire with
    | (true, lock) => .ok lock
    | (false, _) => .error .unpickling
  else .ok lock

/-- `dill.copy(lock)` -/
def copyLock (l : Lock) : Except Err Lock := createLock (saveLock l)

/-- C RLock: the underlying lock, `rlock_owner`, `rlock_count`. -/
structure RLock where
  mutex : Bool
  owner : Nat
  count : Nat
  deriving DecidableEq, Repr

def RLock.new : RLock := ⟨false, 0, 0⟩

/-- `rlock.acquire(blocking=False)` by thread `tid` -/
def RLock.tryAcquire (tid : Nat) (l : RLock) : Bool × RLock :=
  if 0 < l.count ∧ l.owner = tid then (true, { l with count := l.count + 1 })
  else if l.mutex then (false, l)
  else (true, ⟨true, tid, 1⟩)

/-- `rlock.release()` by thread `tid`; `none` is RuntimeError -/
def RLock.release (tid : Nat) (l : RLock) : Option RLock :=
  if l.count = 0 ∨ l.owner ≠ tid then none
  else if l.count = 1 then some ⟨false, 0, 0⟩
  else some { l with count := l.count - 1 }

/-- `rlock._is_owned()` in thread `tid` -/
def RLock.isOwned (tid : Nat) (l : RLock) : Bool := decide (0 < l.count ∧ l.owner = tid)

/-- `rlock._acquire_restore((count, owner))`: waits for the underlying lock, then overwrites the fields -/
def RLock.acquireRestore (count owner : Nat) (l : RLock) : Except Err RLock :=
  if l.mutex then .error .deadlock else .ok ⟨true, owner, count⟩

/-- `repr(rlock)`: "<%s %s object owner=%lu count=%lu at %p>"; `addr` is whatever `%p` prints -/
def RLock.repr (l : RLock) (addr : List Char) : List Char :=
  "<".toList ++ (if l.count = 0 then "unlocked" else "locked").toList ++ " _thread.RLock object owner=".toList ++
    str10 l.owner ++ " count=".toList ++ str10 l.count ++ " at ".toList ++ addr ++ ">".toList

/-- `save_rlock`, _dill.py:1373-1380: count and owner read off the repr -/
def saveRLock (r : List Char) : Except Err (Nat × Nat) :=
  match (split "count=".toList r)[1]? with
  | none => .error .parse
  | some a => match (splitWs a)[0]? with
    | none => .error .parse
    | some a => match int10 (rstrip '>' a) with
      | none => .error .parse
      | some count => match (split "owner=".toList r)[1]? with
        | none => .error .parse
        | some b => match (splitWs b)[0]? with
          | none => .error .parse
          | some b => match int10 b with
            | none => .error .parse
            | some owner => .ok (count, owner)

/-- `_create_rlock` run by thread `tid`, _dill.py:820-826; `owner` is an int, hence never None -/
def createRLock (tid : Nat) (count owner : Nat) : Except Err RLock :=
  match RLock.acquireRestore count owner RLock.new with
  | .error e => .error e
  | .ok lock => if owner ≠ 0 ∧ lock.isOwned tid = false then .error .unpickling else .ok lock

/-- `dill.copy(rlock)` in thread `tid` -/
def copyRLock (tid : Nat) (l : RLock) (addr : List Char) : Except Err RLock :=
  match saveRLock (l.repr addr) with
  | .error e => .error e
  | .ok (count, owner) => createRLock tid count owner

end Verif.Locks
