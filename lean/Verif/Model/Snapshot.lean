/-! Model of what `dump_module` reads of the module's namespace while other threads run: `save_module`, /repo/dill/_dill.py:1739-1741,
copies the dictionary first (`dict.copy` is one step, C code under the interpreter lock); `_stash_modules`, /repo/dill/session.py:133-173,
which runs first with `refimported=True`, iterates over the live dictionary, and Python code runs between the steps.

The dictionary is CPython's (Objects/dictobject.c): entries in insertion order, deleted ones stay as holes until the table is resized;
an iterator (`dictiter_iternextitem`) has a position, the number of entries at its creation, and a count of the entries to come.
What `_module_map` does before (the same iteration, over sys.modules and over every module) is not modelled here. -/
namespace Verif.Snapshot

abbrev Val := Nat

/-- entries and holes -/
abbrev PDict := List (Option (String × Val))

/-- the entries -/
def live (d : PDict) : List (String × Val) := d.filterMap id

/-- what another thread does in one step -/
inductive Op where
  /-- `d[k] = v`; if the key is new, the table may have to be resized, which removes the holes -/
  | assign (k : String) (v : Val) (resize : Bool)
  | delete (k : String)

/-- one step of another thread, as insertdict and delitem of dictobject.c do it -/
def Op.apply (d : PDict) : Op → PDict
  | .assign k v resize =>
    if k ∈ (live d).map (·.1) then
      d.map fun e => match e with
        | some (k', v') => if k' = k then some (k, v) else some (k', v')
        | none => none
    else (if resize then (live d).map some else d) ++ [some (k, v)]
  | .delete k =>
    d.map fun e => match e with
      | some (k', v') => if k' = k then none else some (k', v')
      | none => none

def applyAll (d : PDict) (ops : List Op) : PDict := ops.foldl Op.apply d

structure Iter where
  pos : Nat
  used : Nat
  len : Nat

/-- `iter(d.items())` -/
def iter (d : PDict) : Iter := ⟨0, (live d).length, (live d).length⟩

inductive Next where
  | runtimeError
  | stop
  | item (e : String × Val) (it : Iter)

/-- the first entry from a position on -/
def findFrom : PDict → Nat → Option (Nat × (String × Val))
  | [], _ => none
  | some e :: _, 0 => some (0, e)
  | none :: d, 0 => (findFrom d 0).map fun p => (p.1 + 1, p.2)
  | _ :: d, n + 1 => (findFrom d n).map fun p => (p.1 + 1, p.2)

/-- `dictiter_iternextitem` -/
def next (d : PDict) (it : Iter) : Next :=
  if it.used ≠ (live d).length then .runtimeError
  else
    match findFrom d it.pos with
    | none => .stop
    | some (p, e) => if it.len = 0 then .runtimeError else .item e ⟨p + 1, it.used, it.len - 1⟩

inductive Exc where
  /-- "dictionary changed size during iteration", "dictionary keys changed during iteration" -/
  | runtimeError
  deriving DecidableEq, Repr

/-- the loop `for name, obj in d.items()`; before step `t` the other threads do `sched t`; gives the pairs, the dictionary at the end and the
number of the next step.  The loop makes at most `it.len + 1` steps. -/
def loop (sched : Nat → List Op) : Nat → Nat → PDict → Iter → Except Exc (List (String × Val) × PDict × Nat)
  | 0, _, _, _ => .error .runtimeError
  | n + 1, t, d, it =>
    let d := applyAll d (sched t)
    match next d it with
    | .runtimeError => .error .runtimeError
    | .stop => .ok ([], d, t + 1)
    | .item e it' =>
      match loop sched n (t + 1) d it' with
      | .error x => .error x
      | .ok (es, d', t') => .ok (e :: es, d', t')

/-- what is never saved, _dill.py:1740-1741 -/
def kept (e : String × Val) : Bool := e.1 != "__builtins__" && e.1 != "__loader__"

/-- `dump_module(module)`: the names and objects that are saved; step `t` is the copy, and the pickler iterates over the copy -/
def savePlain (sched : Nat → List Op) (t : Nat) (d : PDict) : Except Exc (List (String × Val)) :=
  let d := applyAll d (sched t)
  let copy : PDict := (live d).map some
  match loop (fun _ => []) ((live copy).length + 1) 0 copy (iter copy) with
  | .error x => .error x
  | .ok (es, _, _) => .ok (es.filter kept)

/-- `dump_module(module, refimported=True)`: `imported` says which objects `_lookup_module` finds in other modules; if there is none, the module
itself is saved, session.py:163-173 -/
def saveRef (imported : String → Val → Bool) (sched : Nat → List Op) (d : PDict) : Except Exc (List (String × Val)) :=
  match loop sched ((live d).length + 1) 0 d (iter d) with
  | .error x => .error x
  | .ok (es, d', t) =>
    let d'' := applyAll d' (sched t)
    if (es.filter fun e => !imported e.1 e.2).length < (live d'').length then .ok (es.filter kept)
    else savePlain sched (t + 1) d''

end Verif.Snapshot
