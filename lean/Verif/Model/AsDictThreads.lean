import Verif.Model.Dict
/-! Model of `load_module_asdict`, /repo/dill/session.py:573-662 (with the parts of `load_module`, 504-560, that look at sys.modules), called
in several threads.  Each call is a little program whose steps are single looks at, or changes of, sys.modules; a schedule says which
thread makes the next step.

Simplified: `update=False`, module names without dots and not of the form `__runtime__.x`, the session file can be identified and was saved
from a module of that name; a name that is missing in sys.modules cannot be imported; loading a session's contents into a module is one step
(it is one BUILD), recorded by the number of the session. -/
namespace Verif.AsDict

abbrev ModId := Nat
abbrev Tid := Nat

/-- a call of load_module_asdict, session.py:640-642: the module name in the session file, the module object the call makes, the session -/
structure Call where
  name : String
  modl : ModId
  session : Nat

inductive Err where
  | importError | valueError | assertionError | keyError
  deriving DecidableEq, Repr

/-- where a call is, session.py:641-660 -/
inductive Pc where
  | start
  /-- after `old_main = sys.modules.get(main_name)`, session.py:641 -/
  | saved
  /-- after `sys.modules[main_name] = main`, 649 -/
  | placed
  /-- after `main = _import_module(main)` in load_module, 519 -/
  | found (m : ModId)
  /-- after the checks, 528-545 -/
  | checked (m : ModId)
  /-- after load_module, 650 -/
  | loaded
  | failed (e : Err)
  /-- after the restoring of sys.modules, 654-660 -/
  | done (r : Except Err Unit)

structure St where
  /-- sys.modules -/
  mods : Dict String ModId
  /-- the sessions loaded into a module, in order -/
  dicts : ModId → List Nat
  pc : Tid → Pc
  /-- the local variable `old_main` -/
  old : Tid → Option ModId

def St.goto (s : St) (i : Tid) (p : Pc) : St := { s with pc := fun j => if j = i then p else s.pc j }

/-- `_is_imported_module`, _dill.py:1708-1709 -/
def isImported (loader : ModId → Bool) (s : St) (m : ModId) : Bool := loader m || (s.mods.map (·.2)).contains m

/-- the `finally` clause, session.py:654-660; `r` is how the call ends otherwise -/
def restore (c : Call) (i : Tid) (s : St) (r : Except Err Unit) : St :=
  match s.old i with
  | none =>
    match s.mods.get c.name with
    | none => s.goto i (.done (.error .keyError))
    | some _ => { s with mods := s.mods.del c.name }.goto i (.done r)
  | some o => { s with mods := s.mods.set c.name o }.goto i (.done r)

/-- the next step of thread `i`, session.py:641-660 and 519-557 -/
def step (loader : ModId → Bool) (c : Tid → Call) (s : St) (i : Tid) : St :=
  match s.pc i with
  | .start => { s with old := fun j => if j = i then s.mods.get (c i).name else s.old j }.goto i .saved
  | .saved => { s with mods := s.mods.set (c i).name (c i).modl }.goto i .placed
  | .placed =>
    match s.mods.get (c i).name with
    | none => s.goto i (.failed .importError)
    | some m => s.goto i (.found m)
  | .found m => if isImported loader s m then s.goto i (.checked m) else s.goto i (.failed .valueError)
  | .checked m =>
    match s.mods.get (c i).name with
    | none => s.goto i (.failed .importError)
    | some m' =>
      { s with dicts := fun x => if x = m' then s.dicts x ++ [(c i).session] else s.dicts x }.goto i
        (if m' = m then .loaded else .failed .assertionError)
  | .loaded => restore (c i) i s (.ok ())
  | .failed e => restore (c i) i s (.error e)
  | .done _ => s

/-- a schedule of calls (the threads are those of the caller; session.py:573 takes no lock) -/
def run (loader : ModId → Bool) (c : Tid → Call) (s : St) (sched : List Tid) : St := sched.foldl (step loader c) s

/-- nobody has begun (before session.py:641) -/
def init (mods : Dict String ModId) (dicts : ModId → List Nat) : St := ⟨mods, dicts, fun _ => .start, fun _ => none⟩

end Verif.AsDict
