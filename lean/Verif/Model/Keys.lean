/-
When are the keys of dicts and the elements of sets hashed while a pickle is loaded, and how much of them is there by then?

Modelled: the order in which `dump` writes, and `load` executes, the creation of objects, the hashing of keys and the
completion of objects: `save` with its memo (`dill/_dill.py:376-425`, `pickle.py:535-607`), `save_reduce`
(`pickle.py:621-737`), `save_tuple` (`pickle.py:874-921`), `save_list` (`pickle.py:925-963`), `save_module_dict`'s D2 branch
(`dill/_dill.py:1261-1266`) with `save_dict` (`pickle.py:965-1007`), `save_set` (`pickle.py:1009-1030`) and `save_frozenset`
(`pickle.py:1033-1053`), at every protocol.  `load` executes what was written in that order, so one sequence of events
describes both.

Simplified: functions, classes and everything else found by name are atoms (they are hashed by identity); a constructor
called by REDUCE or NEWOBJ does not hash its arguments.
-/
namespace Verif.Keys

abbrev Id := Nat

/-- An object of the graph. `inst` is an object saved by `save_reduce`: constructor and arguments, list items, dict items
and state (`none` or the object given to BUILD). -/
inductive Obj where
  | atom
  | list (items : List Id)
  | tuple (items : List Id)
  | set (items : List Id)
  | fset (items : List Id)
  /-- a set or frozenset at protocols 0 to 3: a call of `set` or `frozenset` with a new list of its elements, pickle.py:1013-1015, 1037-1039 -/
  | oset (items : List Id)
  | dict (items : List (Id × Id))
  | inst (args : List Id) (litems : List Id) (ditems : List (Id × Id)) (state : Option Id)
deriving DecidableEq, Repr

/-- How an object is written: what is saved before it is created, which of that is hashed by its creation, and then batch by
batch what is saved and hashed before it is complete. -/
structure Plan where
  pre : List Id
  preKeys : List Id
  post : List (List Id × List Id)
deriving DecidableEq, Repr

/-- `list(islice(it, B))` until a short batch (`pickle.py:950-963`, `991-1007`, `1021-1030`); the fuel is the length. -/
def chunks {α : Type} (B : Nat) : Nat → List α → List (List α)
  | 0, _ => []
  | n + 1, l => if l.isEmpty then [] else l.take B :: chunks B n (l.drop B)

/-- The items of a dict in batches: keys and values are saved (`pickle.py:994-1004`), SETITEMS hashes the keys. -/
def dictBatches (B : Nat) (items : List (Id × Id)) : List (List Id × List Id) :=
  (chunks B items.length items).map fun c => (c.flatMap (fun kv => [kv.1, kv.2]), c.map (·.1))

/-- The items of a list in batches: nothing is hashed (`pickle.py:950-963`). -/
def listBatches (B : Nat) (items : List Id) : List (List Id × List Id) :=
  (chunks B items.length items).map fun c => (c, [])

/-- The plan of each kind: lists, sets and dicts are created empty (`pickle.py:927`, `967`, `1017`), tuples and frozensets
from their items (`pickle.py:907-921`, `1041-1053`; FROZENSET hashes them), and so are sets at protocols 0 to 3 (`pickle.py:1013-1015`, `1037-1039`), where the
call is executed, and hashes the elements, even if the set has got into the memo meanwhile and what is made is dropped (`pickle.py:697-702`): the
hashing comes after the creation here, and saving the elements once more finds them in the memo and does nothing; the rest by REDUCE or NEWOBJ, then list items, dict items and state
(`pickle.py:690-737`). -/
def plan (B : Nat) : Obj → Plan
  | .atom => ⟨[], [], []⟩
  | .list items => ⟨[], [], listBatches B items⟩
  | .tuple items => ⟨items, [], []⟩
  | .set items => ⟨[], [], (chunks B items.length items).map fun c => (c, c)⟩
  | .fset items => ⟨items, items, []⟩
  | .oset items => ⟨items, [], [(items, items)]⟩
  | .dict items => ⟨[], [], dictBatches B items⟩
  | .inst args litems ditems state =>
    ⟨args, [], listBatches B litems ++ dictBatches B ditems ++ state.toList.map fun s => ([s], [])⟩

/-- the graph as protocol `p` writes it: up to 3, `save_set` and `save_frozenset` use `save_reduce` (`pickle.py:1013-1015`, `1037-1039`) -/
def atProtocol (p : Nat) (H : Id → Obj) : Id → Obj := fun x =>
  match H x with
  | .set items => if p < 4 then .oset items else .set items
  | .fset items => if p < 4 then .oset items else .fset items
  | o => o

/-- What is left to do, innermost call first: `save(x)`; create `x`; hash keys for `x`; `x` is complete. -/
inductive Task where
  | save (x : Id)
  | make (x : Id)
  | hash (x : Id) (keys : List Id)
  | done (x : Id)
deriving DecidableEq, Repr

/-- The load hashes `key` for `container` when the objects `built` are complete. -/
structure Event where
  container : Id
  key : Id
  built : List Id
deriving DecidableEq, Repr

/-- Call stack, memo, complete objects, and the log of hashings. -/
structure S where
  work : List Task
  memo : List Id
  built : List Id
  log : List Event
deriving DecidableEq, Repr

/-- The rest of the plan once `x` exists: batch after batch, then it is complete (`pickle.py:704-737`). -/
def rest (x : Id) (post : List (List Id × List Id)) : List Task :=
  post.flatMap (fun b => b.1.map .save ++ [.hash x b.2]) ++ [.done x]

/-- One step. `save` looks in the memo first (`pickle.py:545-548`); an object that was memoized while its parts were being
saved is fetched from the memo instead of being created again (`pickle.py:697-702`, `888-894`, `1045-1050`). -/
def step (B : Nat) (H : Id → Obj) (s : S) : S :=
  match s.work with
  | [] => s
  | .save x :: w =>
    if x ∈ s.memo then { s with work := w }
    else { s with work := (plan B (H x)).pre.map .save ++ .make x :: w }
  | .make x :: w =>
    if x ∈ s.memo then { s with work := rest x (plan B (H x)).post ++ w }
    else
      { s with
        work := rest x (plan B (H x)).post ++ w
        memo := x :: s.memo
        log := s.log ++ (plan B (H x)).preKeys.map (fun k => ⟨x, k, s.built⟩) }
  | .hash x keys :: w =>
    { s with work := w, log := s.log ++ keys.map (fun k => ⟨x, k, s.built⟩) }
  | .done x :: w => { s with work := w, built := x :: s.built }

/-- `loads(dumps(root))` after `n` steps. -/
def run (B : Nat) (H : Id → Obj) (root : Id) : Nat → S
  | 0 => ⟨[.save root], [], [], []⟩
  | n + 1 => step B H (run B H root n)

end Verif.Keys
