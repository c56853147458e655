/-!
Which objects `dumps` can pickle at which protocol, as far as sets are concerned: `save_set` and `save_frozenset` of the stock pickler
(pickle.py:1009-1054), which dill's Pickler inherits (/repo/dill/_dill.py:346-377; no `@register` of its own for sets), with the protocol
that `dumps(obj, protocol)` passes on (/repo/dill/_dill.py:251-290).

Simplifications: an object is what has to be pickled before it can be made (`before`: the items of a tuple, the class and the arguments of a
reduction) and what is pickled once it is in the memo (`after`: items, entries, state).  Functions and classes, for which dill notices
that they are needed for their own creation (Model/Core), are objects found by name here: `plain [] []`.  The list that protocols 0 to 3 make
of a set is new each time and therefore not an object of the graph.  Bytes, names and frames of the pickle are not modelled (Model/Wire).
-/
namespace Verif.OldSets

abbrev Id := Nat

inductive Obj
  /-- anything but a set: made from `before`, memoised, then filled with `after` -/
  | plain (before after : List Id)
  | set (els : List Id)
  | fset (els : List Id)

/-- what is pickled before the object is in the memo, pickle.py:1009-1054 (sets), _dill.py:363-377, 428 (everything goes through
`Pickler.save` and from there to the stock pickler) -/
def before (p : Nat) : Obj → List Id
  | .plain b _ => b
  | .set els => if p < 4 then els else []
  | .fset els => els

/-- what is pickled after it, pickle.py:1017-1030 (the batches of a set) -/
def after (p : Nat) : Obj → List Id
  | .plain _ a => a
  | .set els => if p < 4 then [] else els
  | .fset _ => []

/-- save one object after the other; `none`: RecursionError (pickle.py:1042 and the other loops over items that dill inherits,
_dill.py:346) -/
def saveAll (sv : Id → List Id → Option (List Id)) : List Id → List Id → Option (List Id)
  | [], m => some m
  | x :: xs, m => (sv x m).bind (saveAll sv xs)

/-- `Pickler.save`, _dill.py:379-429 and pickle.py:535-603, with `n` nested calls left: the objects in the memo, in the order of the memo.
If the object has got into the memo while its parts were pickled, what was made is dropped (POP and GET, `save_reduce`; POP_MARK and GET,
pickle.py:1045-1050). -/
def save (p : Nat) (H : Id → Obj) : Nat → Id → List Id → Option (List Id)
  | 0, _, _ => none
  | n + 1, x, m =>
    if x ∈ m then some m
    else (saveAll (save p H n) (before p (H x)) m).bind fun m1 =>
      saveAll (save p H n) (after p (H x)) (if x ∈ m1 then m1 else m1 ++ [x])

/-- `dumps(obj, protocol=p)`, /repo/dill/_dill.py:264-290, with a recursion limit of `n` -/
def dumps (p : Nat) (H : Id → Obj) (n : Nat) (root : Id) : Option (List Id) := save p H n root []

/-! ### the pickle, and loading it -/

inductive Kind | plain | set | fset deriving DecidableEq, Repr

def kind : Obj → Kind
  | .plain _ _ => .plain
  | .set _ => .set
  | .fset _ => .fset

/-- What is written.  `make k n`: TUPLE, FROZENSET, REDUCE, NEWOBJ, EMPTY_LIST, EMPTY_DICT, EMPTY_SET and the opcodes for the temporaries around
them, on the `n` values on top of the stack; `fill n`: APPENDS, SETITEMS, ADDITEMS, BUILD, with the `n` values on top of the stack (nothing is
written if `n` is 0). -/
inductive Op | make (k : Kind) (n : Nat) | memo | pop | get (i : Nat) | fill (n : Nat) deriving DecidableEq, Repr

/-- a loaded object: what it was made from, and what it was filled with -/
structure Loaded where
  kind : Kind
  made : List Nat
  filled : List Nat
  deriving DecidableEq, Repr

/-- the unpickler (stack top first), which dill's Unpickler inherits (/repo/dill/_dill.py:432-461) -/
structure M where
  stack : List Nat
  memo : List Nat
  heap : List Loaded

/-- one opcode, pickle.py:1213-1240 and the load_ methods after it.  Simplification: filling an object again (possible only if it is needed to make
itself) replaces what it was filled with; that list items are appended again then is in Model/Core. -/
def step : Op → M → Option M
  | .make k n, s =>
    if n ≤ s.stack.length then
      some ⟨s.heap.length :: s.stack.drop n, s.memo, s.heap ++ [⟨k, (s.stack.take n).reverse, []⟩]⟩
    else none
  | .memo, s => match s.stack with
    | t :: st => some ⟨t :: st, s.memo ++ [t], s.heap⟩
    | [] => none
  | .pop, s => match s.stack with
    | _ :: st => some ⟨st, s.memo, s.heap⟩
    | [] => none
  | .get i, s => match s.memo[i]? with
    | some t => some ⟨t :: s.stack, s.memo, s.heap⟩
    | none => none
  | .fill n, s => match s.stack.drop n with
    | t :: st => match s.heap[t]? with
      | some o => some ⟨t :: st, s.memo, s.heap.set t { o with filled := (s.stack.take n).reverse }⟩
      | none => none
    | [] => none

def exec : List Op → M → Option M
  | [], s => some s
  | op :: ops, s => match step op s with
    | some s1 => exec ops s1
    | none => none

/-- `loads`, /repo/dill/_dill.py:300-312: the object and everything that has been made -/
def loads (ops : List Op) : Option (Nat × List Loaded) :=
  match exec ops ⟨[], [], []⟩ with
  | some ⟨[t], _, heap⟩ => some (t, heap)
  | _ => none

/-- `saveAll` with what is written (the same lines) -/
def writeAll (sv : Id → List Id → Option (List Id × List Op)) : List Id → List Id → Option (List Id × List Op)
  | [], m => some (m, [])
  | x :: xs, m => match sv x m with
    | none => none
    | some (m1, o1) => match writeAll sv xs m1 with
      | none => none
      | some (m2, o2) => some (m2, o1 ++ o2)

/-- `save` with what is written, pickle.py:535-603, 690-737, 1009-1054, dill/_dill.py:379-429.  (FROZENSET and TUPLE are not written if the object
has got into the memo, POP_MARK instead; the object that `make` and `pop` leave behind here is not there.) -/
def write (p : Nat) (H : Id → Obj) : Nat → Id → List Id → Option (List Id × List Op)
  | 0, _, _ => none
  | n + 1, x, m =>
    if x ∈ m then some (m, [.get (m.idxOf x)])
    else match writeAll (write p H n) (before p (H x)) m with
      | none => none
      | some (m1, o1) => match writeAll (write p H n) (after p (H x)) (if x ∈ m1 then m1 else m1 ++ [x]) with
        | none => none
        | some (m2, o2) =>
          some (m2, o1 ++ ([.make (kind (H x)) (before p (H x)).length] ++ ((if x ∈ m1 then [.pop, .get (m1.idxOf x)] else [.memo]) ++
            (o2 ++ [.fill (after p (H x)).length]))))

/-- the pickle that `dumps(obj, protocol=p)` returns, /repo/dill/_dill.py:264-290, with a recursion limit of `n` -/
def pickleOf (p : Nat) (H : Id → Obj) (n : Nat) (root : Id) : Option (List Op) := (write p H n root []).map (·.2)

end Verif.OldSets
