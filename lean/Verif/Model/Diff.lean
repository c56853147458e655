/-! Model of `dill/__diff.py` (but numpy; `_imp` and `release_gone` are in Model/DiffImport).

Objects are identified by numbers (`id`); at any moment an object has the attributes in its `__dict__` (or none) and
its items (`get_attrs`, `get_seq`, lines 37-77).  Simplifications: `obj.copy()` in `get_seq` returns an equal
container, a set is the list of its elements in iteration order, objects the memo refers to stay alive (`id_to_obj`
holds them), so an `id` is never reused; Python's recursion limit is not modelled (fuel instead). -/
namespace Verif.Diff

abbrev Id := Nat

/-- `get_seq`, lines 48-77: not a container, an iterable, or something with `items` -/
inductive Seq where
  | none
  | list (l : List Id)
  | dict (l : List (Id × Id))
  deriving DecidableEq, Repr

/-- the state of one object: `get_attrs(obj)` and `get_seq(obj)`, by identity; it is also the memo entry, lines
91-105 (`attrs_id`, `seq_id`) -/
structure Rec where
  attrs : Option (List (String × Id))
  seq : Seq
  deriving DecidableEq, Repr

/-- all objects at one moment -/
abbrev Graph := Id → Rec

abbrev Memo := Id → Option Rec

def Memo.set (m : Memo) (x : Id) (r : Rec) : Memo := fun y => if y = x then some r else m y

inductive Err where
  /-- fuel exhausted -/
  | timeout
  /-- `AttributeError`/`TypeError` because the object's kind changed -/
  | kind
  /-- `RuntimeError("Object not memorised")` -/
  | notMemorised
  deriving DecidableEq, Repr

/-- the objects `memorise` visits after recording, in order: lines 110-122 -/
def children (r : Rec) : List Id :=
  (match r.attrs with | none => [] | some a => a.map (·.2)) ++
  (match r.seq with | .none => [] | .list l => l | .dict l => l.flatMap (fun kv => [kv.1, kv.2]))

/-- a list comprehension `[f(v) for v in l]` threading the memo -/
def forAll (f : Id → Memo → Except Err Memo) : List Id → Memo → Except Err Memo
  | [], m => .ok m
  | v :: vs, m =>
    match f v m with
    | .error e => .error e
    | .ok m' => forAll f vs m'

/-- `memorise(obj, force)`, lines 80-122; `excl` is `dont_memo` -/
def memorise (G : Graph) (excl : Id → Bool) : Nat → Bool → Id → Memo → Except Err Memo
  | 0, _, _, _ => .error .timeout
  | n + 1, force, x, m =>
    if ((m x).isSome = true ∧ force = false) ∨ excl x = true then .ok m
    else forAll (fun v m => memorise G excl n false v m) (children (G x)) (m.set x (G x))

/-! ### `whats_changed`, lines 131-193 -/

/-- what is returned: attribute changes (name to new value, or `None` for a lost one) and whether items changed -/
abbrev Val := List (String × Option Id) × Bool

/-- `any((changed, seq_diff))`, also `changed or seq_diff` as a truth value -/
def truthy (v : Val) : Bool := !v.1.isEmpty || v.2

abbrev Seen := Id → Option Val

def Seen.set (s : Seen) (x : Id) (v : Val) : Seen := fun y => if y = x then some v else s y

/-- the recursive call `chngd(o, seen, True, False)` -/
abbrev Rc := Id → Seen → Except Err (Bool × Seen)

/-- lines 172-174: the loop over the current attributes `a`; `o` is the memorised `obj_attrs` -/
def attrLoop (rc : Rc) (o : List (String × Id)) :
    List (String × Id) → List (String × Option Id) → Seen → Except Err (List (String × Option Id) × Seen)
  | [], ch, s => .ok (ch, s)
  | (k, v) :: a, ch, s =>
    if o.lookup k ≠ some v then attrLoop rc o a (ch ++ [(k, some v)]) s
    else
      match rc v s with
      | .error e => .error e
      | .ok (true, s') => attrLoop rc o a (ch ++ [(k, some v)]) s'
      | .ok (false, s') => attrLoop rc o a ch s'

/-- lines 184-189: the loop over dictionary items, stopping at the first change -/
def dictLoop (rc : Rc) (o : List (Id × Id)) : List (Id × Id) → Seen → Except Err (Bool × Seen)
  | [], s => .ok (false, s)
  | (k, v) :: a, s =>
    if o.lookup k ≠ some v then .ok (true, s)
    else
      match rc k s with
      | .error e => .error e
      | .ok (true, s') => .ok (true, s')
      | .ok (false, s') =>
        match rc v s' with
        | .error e => .error e
        | .ok (true, s'') => .ok (true, s'')
        | .ok (false, s'') => dictLoop rc o a s''

/-- lines 190-193: the loop over `zip(items, obj_seq)` -/
def listLoop (rc : Rc) : List Id → List Id → Seen → Except Err (Bool × Seen)
  | i :: l, j :: o, s =>
    if i ≠ j then .ok (true, s)
    else
      match rc i s with
      | .error e => .error e
      | .ok (true, s') => .ok (true, s')
      | .ok (false, s') => listLoop rc l o s'
  | _, _, s => .ok (false, s)

/-- lines 164-174 -/
def cmpAttrs (rc : Rc) (now old : Option (List (String × Id))) (s : Seen) :
    Except Err (List (String × Option Id) × Seen) :=
  match now, old with
  | none, _ => .ok ([], s)
  | some _, none => .error .kind
  | some a, some o =>
    attrLoop rc o a ((o.filter (fun kv => (a.lookup kv.1).isNone)).map (fun kv => (kv.1, none))) s

/-- lines 176-193 -/
def cmpSeq (rc : Rc) (now old : Seq) (s : Seen) : Except Err (Bool × Seen) :=
  match now, old with
  | .none, _ => .ok (false, s)
  | .dict l, .dict o => if l.length ≠ o.length then .ok (true, s) else dictLoop rc o l s
  | .list l, .list o => if l.length ≠ o.length then .ok (true, s) else listLoop rc l o s
  | _, _ => .error .kind

/-- lines 162-194, after the object was entered in `seen` -/
def compare (rc : Rc) (now old : Rec) (s : Seen) : Except Err (Val × Seen) :=
  match cmpAttrs rc now.attrs old.attrs s with
  | .error e => .error e
  | .ok (ch, s') =>
    match cmpSeq rc now.seq old.seq s' with
    | .error e => .error e
    | .ok (d, s'') => .ok ((ch, d), s'')

/-- `whats_changed(obj, seen, simple=True)`, i.e. `has_changed`, lines 131-199 -/
def hasChanged (G : Graph) (m : Memo) (excl : Id → Bool) : Nat → Id → Seen → Except Err (Bool × Seen)
  | 0, _, _ => .error .timeout
  | n + 1, x, s =>
    match s x with
    | some v => .ok (truthy v, s)
    | none =>
      if excl x = true then .ok (false, s.set x ([], false))
      else
        match m x with
        | none => .ok (true, s)
        | some r =>
          match compare (hasChanged G m excl n) (G x) r (s.set x ([], false)) with
          | .error e => .error e
          | .ok (v, s') => .ok (truthy v, s'.set x v)

/-- `whats_changed(obj)`, not simple, first call -/
def whatsChanged (G : Graph) (m : Memo) (excl : Id → Bool) (n : Nat) (x : Id) : Except Err Val :=
  if excl x = true then .ok ([], false)
  else
    match m x with
    | none => .error .notMemorised
    | some r =>
      match compare (hasChanged G m excl n) (G x) r (Seen.set (fun _ => none) x ([], false)) with
      | .error e => .error e
      | .ok (v, _) => .ok v

end Verif.Diff
