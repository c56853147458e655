/-
Model of the heart of dill: saving an object graph (Pickler.save with the pickler's memo and `_postproc`,
/repo/dill/_dill.py:366-377, 379-429, 1107-1160, 1238-1262, 1556-1599, 1807-1925, 1964-2074, on top of
CPython's pickle._Pickler.save/save_reduce/save_tuple/save_list/save_dict/memoize) and executing the
resulting opcodes (pickle._Unpickler, with dill's _create_function, _create_cell, _create_type,
/repo/dill/_dill.py:601-618, 959-962).

Simplifications, all of them:
* protocol >= 4 for sets and frozensets, >= 2 for the rest (dill's default is 4; below 4 a set is saved as a reduction); opcodes are abstract, a string or a reference to a global is one
  `push` (protocol 4 writes module and name as two memoised strings and STACK_GLOBAL);
* whether an object is pickled by reference (`_locate_function`, `_typemap`, ...) is a property of the given
  source object (`SObj.leaf (.glob ..)`), see Model/Locate for that decision;
* constructor functions other than dill's own are opaque: the copy is the term "f applied to args";
* `obj.__dict__` of instances, functions and the copied class dict are not shared with other objects, so they
  are part of the object and not separate dicts;
* dict keys are compared by identity, atoms by value; a set or frozenset is the list of its elements in the order of
  iteration, and adding an element to a loaded set never meets an equal one (`__hash__` and `__eq__` of the elements are
  not run);
* an effect of the loading on an object found by name (after the fallback of _dill.py:1127-1131 the deferred steps are
  applied to it) is outside the loaded graph and not recorded;
* ABC registries and `__orig_bases__` classes are left out.
-/
namespace Verif.Core

/-! ### the source heap -/

abbrev Addr := Nat

/-- Values without identity: written in place and equal to themselves after loading.  `glob` is an object
found by module and name, `float` a float as its 64 bits. -/
inductive Atom where
  | none | bool (b : Bool) | int (i : Int) | float (bits : UInt64) | str (s : String) | bytes (bs : List UInt8) | emptyTuple
  | glob (m n : String)
  deriving DecidableEq, Repr

inductive Val where
  | atom (a : Atom)
  | ref (a : Addr)
  deriving DecidableEq, Repr

/-- State given to BUILD: an object handed to `__setstate__`, or the entries of `__dict__`. -/
inductive St where
  | opaque (v : Val)
  | attrs (es : List (Val × Val))

/-- How a container is created. -/
inductive Con where
  | list
  | dict
  | set
  | red (callee : Val) (args : List Val)      -- (callee, args) returned by __reduce__
  | newobj (cls : Val) (args : List Val)      -- copyreg.__newobj__

/-- `__globals__`: saved as such (a module's dict), or a copy (`recurse`, or not a module's dict): the dict
`globs = {'__name__': ...}` starts with `init` and is later updated with `copy`. _dill.py:1990-2026. -/
inductive Globs where
  | byRef (v : Val)
  | copied (init copy : List (Val × Val))

inductive SObj where
  | leaf (a : Atom)
  | tuple (es : List Val)
  | fset (es : List Val)                       -- a frozenset
  | node (con : Con) (lits : List Val) (dits : List (Val × Val)) (st : Option St)
  | cell (c : Option Val)
  | func (code : Val) (globs : Globs) (name defaults closure : Val) (attrs slots : List (Val × Val))
  | cls (mt name bases : Val) (dict : List (Val × Val)) (qual : Val)
  | bad                                        -- saving it raises (a generator, a frame, an object with a failing __reduce__)

/-- names of the functions and strings dill itself writes -/
def aCreateFunction : Atom := .glob "dill._dill" "_create_function"
def aCreateCell : Atom := .glob "dill._dill" "_create_cell"
def aCreateType : Atom := .glob "dill._dill" "_create_type"
def aCellEmpty : Atom := .glob "dill._dill" "_CELL_EMPTY"
def aSetattr : Atom := .glob "builtins" "setattr"
def aDelattr : Atom := .glob "builtins" "delattr"
def aContents : Atom := .str "cell_contents"
def aQualname : Atom := .str "__qualname__"
def aBuiltins : Atom := .str "__builtins__"
def aBuiltinsVal : Atom := .glob "builtins" "__dict__"

/-- The heap, and the objects dill's own code passes to save (functions and strings are objects and take
part in memoisation, so these may be references to leaves). `_shims._setattr`, `_shims._delattr` and
`_shims._CELL_EMPTY` are Reduce objects that load as the builtins and the sentinel (C49). -/
structure World where
  H : Addr → SObj
  createFunction : Val
  createCell : Val
  createType : Val
  cellEmpty : Val
  setattr : Val
  delattr : Val
  contents : Val
  qualname : Val
  /-- what `pickler.save_global(obj)` writes for a function or class: its module and name if that is where it is found,
  `none` if save_global raises PicklingError -/
  byName : Addr → Option Atom

/-! ### opcodes and the unpickler -/

inductive Op where
  | push (a : Atom)
  | mark | popMark | pop
  | tupleN (n : Nat) | tuple
  | emptyList | emptyDict | emptySet
  | append | appends | setitem | setitems | additems | frozenset
  | memoize | get (i : Nat)
  | reduce | newobj
  | build          -- BUILD of an object without __setstate__
  | buildSet       -- BUILD of an object with __setstate__ (same opcode, the object's class decides)
  deriving DecidableEq, Repr

inductive TVal where
  | atom (a : Atom)
  | ref (t : Nat)
  deriving DecidableEq, Repr

inductive TCon where
  | list
  | dict
  | set
  | red (callee : TVal) (args : List TVal)
  | newobj (cls : TVal) (args : List TVal)
  deriving DecidableEq, Repr

/-- Loaded objects. -/
inductive TObj where
  | tuple (es : List TVal)
  | fset (es : List TVal)
  | node (con : TCon) (lits : List TVal) (dits attrs : List (TVal × TVal)) (st : Option TVal)
  | cell (c : Option TVal)
  | func (code globs name defaults closure : TVal) (attrs slots : List (TVal × TVal))
  | cls (mt name bases : TVal) (dict : List (TVal × TVal)) (qual : Option TVal)
  deriving DecidableEq, Repr

/-- Unpickler state: stack (top first), saved stacks below marks, memo, heap of created objects. -/
structure M where
  stack : List TVal
  metas : List (List TVal)
  memo : List TVal
  heap : List TObj
  deriving DecidableEq, Repr

/-- dict assignment, keeping insertion order -/
def upsert (d : List (TVal × TVal)) (k v : TVal) : List (TVal × TVal) :=
  match d with
  | [] => [(k, v)]
  | (k', v') :: d => if k' = k then (k, v) :: d else (k', v') :: upsert d k v

def upserts (d : List (TVal × TVal)) : List (TVal × TVal) → List (TVal × TVal)
  | [] => d
  | (k, v) :: kvs => upserts (upsert d k v) kvs

def lookupD (d : List (TVal × TVal)) (k : TVal) : Option TVal :=
  match d with
  | [] => none
  | (k', v) :: d => if k' = k then some v else lookupD d k

/-- allocate an object and push it -/
def M.alloc (m : M) (o : TObj) (stack : List TVal) : M :=
  { m with stack := .ref m.heap.length :: stack, heap := m.heap ++ [o] }

def M.setObj (m : M) (t : Nat) (o : TObj) : M := { m with heap := m.heap.set t o }

/-- entries of a loaded dict -/
def M.dictOf (m : M) (v : TVal) : Option (List (TVal × TVal)) :=
  match v with
  | .ref t => match m.heap[t]? with
    | some (.node .dict _ d _ _) => some d
    | _ => none
  | _ => none

/-- pairs up keys and values popped off the stack (given in push order) -/
def pairUp : List TVal → Option (List (TVal × TVal))
  | [] => some []
  | k :: v :: rest => (pairUp rest).map ((k, v) :: ·)
  | _ => none

/-- `FunctionType(fcode, fglobals or dict(), ...)` and the insertion of `__builtins__`, _dill.py:604-618.
A by-reference globals dict (a module's) is an atom and already has its `__builtins__`. -/
def mkFunction (m : M) (code g name defaults closure : TVal) (stack : List TVal) : Option M :=
  match g with
  | .ref t =>
    match m.heap[t]? with
    | some (.node .dict l d at' s) =>
      if d.isEmpty then
        let m := { m with heap := m.heap ++ [TObj.node .dict [] [(.atom aBuiltins, .atom aBuiltinsVal)] [] none] }
        some (m.alloc (.func code (.ref (m.heap.length - 1)) name defaults closure [] []) stack)
      else
        let d' := if (lookupD d (.atom aBuiltins)).isSome then d
          else d ++ [(.atom aBuiltins, .atom aBuiltinsVal)]
        some ((m.setObj t (.node .dict l d' at' s)).alloc (.func code g name defaults closure [] []) stack)
    | _ => none
  | .atom _ => some (m.alloc (.func code g name defaults closure [] []) stack)

/-- Calling `f(*args)` in REDUCE; dill's own functions have an effect, any other is opaque. -/
def call (m : M) (f : TVal) (args : List TVal) (stack : List TVal) : Option M :=
  if f = .atom aCreateFunction then
    match args with
    | [code, g, name, defaults, closure] => mkFunction m code g name defaults closure stack
    | _ => none
  else if f = .atom aCreateCell then
    match args with
    | [v] => some (m.alloc (.cell (if v = .atom aCellEmpty then none else some v)) stack)
    | _ => none
  else if f = .atom aCreateType then
    match args with
    | [mt, name, bases, d] => (m.dictOf d).map fun es => m.alloc (.cls mt name bases es none) stack
    | _ => none
  else if f = .atom aSetattr then
    match args with
    | [.ref t, k, v] =>
      match m.heap[t]? with
      | some (.cell _) =>
        if k = .atom aContents then
          some { m.setObj t (.cell (some v)) with stack := .atom .none :: stack }
        else none
      | some (.cls mt name bases es _) =>
        if k = .atom aQualname then
          some { m.setObj t (.cls mt name bases es (some v)) with stack := .atom .none :: stack }
        else none
      | _ => none
    | [.atom _, _, _] => some { m with stack := .atom .none :: stack }   -- an object found by name: see above
    | _ => none
  else if f = .atom aDelattr then
    match args with
    | [.ref t, k] =>
      match m.heap[t]? with
      | some (.cell _) =>
        if k = .atom aContents then
          some { m.setObj t (.cell none) with stack := .atom .none :: stack }
        else none
      | _ => none
    | _ => none
  else some (m.alloc (.node (.red f args) [] [] [] none) stack)

/-- elements of an argument tuple -/
def M.tupleOf (m : M) (v : TVal) : Option (List TVal) :=
  match v with
  | .atom .emptyTuple => some []
  | .ref t => match m.heap[t]? with
    | some (.tuple es) => some es
    | _ => none
  | _ => none

/-- the two parts of a BUILD state without `__setstate__`: a dict, or a pair of dicts; load_build -/
def M.stateOf (m : M) (v : TVal) : Option (List (TVal × TVal) × List (TVal × TVal)) :=
  match m.tupleOf v with
  | some [a, b] => match m.dictOf a, m.dictOf b with
    | some x, some y => some (x, y)
    | _, _ => none
  | _ => (m.dictOf v).map fun x => (x, [])

/-- One opcode; `none` = the unpickler would fail (underflow, bad memo index, wrong kind of object). -/
def step (op : Op) (m : M) : Option M :=
  match op with
  | .push a => some { m with stack := .atom a :: m.stack }
  | .mark => some { m with stack := [], metas := m.stack :: m.metas }
  | .popMark => match m.metas with
    | s :: ms => some { m with stack := s, metas := ms }
    | [] => none
  | .pop => match m.stack with
    | _ :: s => some { m with stack := s }
    | [] => none
  | .tupleN n =>
    if n ≤ m.stack.length then some (m.alloc (.tuple (m.stack.take n).reverse) (m.stack.drop n)) else none
  | .tuple => match m.metas with
    | s :: ms => some ({ m with metas := ms }.alloc (.tuple m.stack.reverse) s)
    | [] => none
  | .emptyList => some (m.alloc (.node .list [] [] [] none) m.stack)
  | .emptyDict => some (m.alloc (.node .dict [] [] [] none) m.stack)
  | .emptySet => some (m.alloc (.node .set [] [] [] none) m.stack)
  | .append => match m.stack with
    | v :: .ref t :: s => match m.heap[t]? with
      | some (.node c l d a st) => some { m.setObj t (.node c (l ++ [v]) d a st) with stack := .ref t :: s }
      | _ => none
    | _ => none
  | .appends => match m.metas with
    | (.ref t :: s) :: ms => match m.heap[t]? with
      | some (.node c l d a st) =>
        some { m.setObj t (.node c (l ++ m.stack.reverse) d a st) with stack := .ref t :: s, metas := ms }
      | _ => none
    | _ => none
  | .additems => match m.metas with
    | (.ref t :: s) :: ms => match m.heap[t]? with
      | some (.node c l d a st) =>
        some { m.setObj t (.node c (l ++ m.stack.reverse) d a st) with stack := .ref t :: s, metas := ms }
      | _ => none
    | _ => none
  | .frozenset => match m.metas with
    | s :: ms => some ({ m with metas := ms }.alloc (.fset m.stack.reverse) s)
    | [] => none
  | .setitem => match m.stack with
    | v :: k :: .ref t :: s => match m.heap[t]? with
      | some (.node c l d a st) => some { m.setObj t (.node c l (upsert d k v) a st) with stack := .ref t :: s }
      | _ => none
    | _ => none
  | .setitems => match m.metas with
    | (.ref t :: s) :: ms => match m.heap[t]?, pairUp m.stack.reverse with
      | some (.node c l d a st), some kvs =>
        some { m.setObj t (.node c l (upserts d kvs) a st) with stack := .ref t :: s, metas := ms }
      | _, _ => none
    | _ => none
  | .memoize => match m.stack with
    | v :: _ => some { m with memo := m.memo ++ [v] }
    | [] => none
  | .get i => match m.memo[i]? with
    | some v => some { m with stack := v :: m.stack }
    | none => none
  | .reduce => match m.stack with
    | args :: f :: s => match m.tupleOf args with
      | some as => call m f as s
      | none => none
    | _ => none
  | .newobj => match m.stack with
    | args :: c :: s => match m.tupleOf args with
      | some as => some (m.alloc (.node (.newobj c as) [] [] [] none) s)
      | none => none
    | _ => none
  | .build => match m.stack with
    | st :: .ref t :: s => match m.stateOf st, m.heap[t]? with
      | some (x, []), some (.node c l d a so) =>
        some { m.setObj t (.node c l d (upserts a x) so) with stack := .ref t :: s }
      | some (x, y), some (.func co g n df cl a sl) =>
        some { m.setObj t (.func co g n df cl (upserts a x) (upserts sl y)) with stack := .ref t :: s }
      | _, _ => none
    | st :: .atom a :: s => (m.stateOf st).map fun _ => { m with stack := .atom a :: s }   -- an object found by name
    | _ => none
  | .buildSet => match m.stack with
    | st :: .ref t :: s => match m.heap[t]? with
      | some (.node c l d a _) => some { m.setObj t (.node c l d a (some st)) with stack := .ref t :: s }
      | _ => none
    | _ => none

def exec : List Op → M → Option M
  | [], m => some m
  | op :: ops, m => (step op m).bind (exec ops)

/-- `Unpickler.load` up to STOP: exactly one value on the stack, no open mark. -/
def load (ops : List Op) : Option (TVal × List TObj) :=
  match exec ops ⟨[], [], [], []⟩ with
  | some m => match m.stack, m.metas with
    | [v], [] => some (v, m.heap)
    | _, _ => none
  | none => none

/-! ### the pickler -/

/-- Memo keys: an object, the fresh globals dict of a function, or a temporary (args tuple, state dict). -/
inductive Key where
  | obj (a : Addr)
  | globs (f : Addr)
  | anon
  deriving DecidableEq, Repr

/-- Deferred reductions kept in `_postproc` lists. -/
inductive Red where
  | setCell (c : Addr) (v : Val)                       -- (_shims._setattr, (cell, 'cell_contents', v))
  | setQual (c : Addr) (q : Val)                       -- (setattr, (cls, '__qualname__', q))
  | setItems (f : Addr) (copy : List (Val × Val))      -- (_setitems, (globs of f, globs_copy))
  | setDead (f : Addr) (copy : List (Val × Val))       -- the same for the dict made by a second call of save_function for f

/-- Pickler state: `memo` in order of memoisation, `_postproc` in insertion order. -/
structure P where
  memo : List Key
  post : List (Addr × List Red)

inductive Err where
  | fuel           -- RecursionError
  | keyError       -- `pickler.memo[id(dest)]` missing
  | unpicklable    -- PicklingError or TypeError from an object that cannot be saved
  deriving DecidableEq, Repr

/-- A pickler action: changes the pickler state and writes opcodes, or raises, leaving the pickler in some state: there is
no `try` in dill's pickler. -/
abbrev PM := P → Except (Err × P) (P × List Op)

def emit (ops : List Op) : PM := fun p => .ok (p, ops)

def andThen (f g : PM) : PM := fun p =>
  match f p with
  | .error e => .error e
  | .ok (p1, o1) => match g p1 with
    | .error e => .error e
    | .ok (p2, o2) => .ok (p2, o1 ++ o2)

infixr:60 " ;; " => andThen

/-- `memoize` -/
def memoize (k : Key) : PM := fun p => .ok ({ p with memo := p.memo ++ [k] }, [.memoize])

/-- index of an object in the memo -/
def idx (memo : List Key) (k : Key) : Option Nat := memo.findIdx? (· = k)

/-- save_reduce's "if id(obj) in self.memo: write(POP + get) else memoize" -/
def memoOrGet (x : Addr) : PM := fun p =>
  match idx p.memo (.obj x) with
  | some i => .ok (p, [.pop, .get i])
  | none => memoize (.obj x) p

/-- save every element -/
def saveAll (sv : Val → PM) : List Val → PM
  | [] => emit []
  | v :: vs => sv v ;; saveAll sv vs

def saveKVs (sv : Val → PM) : List (Val × Val) → PM
  | [] => emit []
  | (k, v) :: es => sv k ;; sv v ;; saveKVs sv es

/-- `list(islice(it, 1000))` repeatedly -/
def chunksAux {α : Type} : Nat → List α → List (List α)
  | 0, _ => []
  | n + 1, l => if l.isEmpty then [] else l.take 1000 :: chunksAux n (l.drop 1000)
def chunks {α : Type} (l : List α) : List (List α) := chunksAux l.length l

/-- `_batch_appends` -/
def batchAppends (sv : Val → PM) (vs : List Val) : PM :=
  (chunks vs).foldr (fun c rest =>
    (match c with
      | [v] => sv v ;; emit [.append]
      | c => emit [.mark] ;; saveAll sv c ;; emit [.appends]) ;; rest) (emit [])

/-- the loop of `save_set` (pickle.py:1009-1031, inherited by dill's Pickler, _dill.py:347): each batch with MARK and ADDITEMS -/
def batchAdds (sv : Val → PM) (vs : List Val) : PM :=
  (chunks vs).foldr (fun c rest => (emit [.mark] ;; saveAll sv c ;; emit [.additems]) ;; rest) (emit [])

/-- `_batch_setitems` -/
def batchSetitems (sv : Val → PM) (es : List (Val × Val)) : PM :=
  (chunks es).foldr (fun c rest =>
    (match c with
      | [(k, v)] => sv k ;; sv v ;; emit [.setitem]
      | c => emit [.mark] ;; saveKVs sv c ;; emit [.setitems]) ;; rest) (emit [])

/-- An element of an argument tuple: an object, or a dict made on the spot. -/
inductive Arg where
  | val (v : Val)
  | dict (k : Key) (es : List (Val × Val))

/-- saving a temporary dict (save_module_dict D2 + save_dict, _dill.py:1256-1262) -/
def saveDict (sv : Val → PM) (k : Key) (es : List (Val × Val)) : PM :=
  emit [.emptyDict] ;; memoize k ;; batchSetitems sv es

def saveArg (sv : Val → PM) : Arg → PM
  | .val v => sv v
  | .dict k es => saveDict sv k es

def saveArgs (sv : Val → PM) : List Arg → PM
  | [] => emit []
  | a :: as => saveArg sv a ;; saveArgs sv as

/-- save_tuple of a temporary tuple -/
def anonTuple (sv : Val → PM) (as : List Arg) : PM :=
  if as.isEmpty then emit [.push .emptyTuple]
  else if as.length ≤ 3 then saveArgs sv as ;; emit [.tupleN as.length] ;; memoize .anon
  else emit [.mark] ;; saveArgs sv as ;; emit [.tuple] ;; memoize .anon

/-- the creating part of `save_reduce`: save(func); save(args); REDUCE -/
def callReduce (sv : Val → PM) (f : Val) (as : List Arg) : PM :=
  sv f ;; anonTuple sv as ;; emit [.reduce]

/-- save_tuple -/
def saveTuple (sv : Val → PM) (x : Addr) (es : List Val) : PM :=
  if es.isEmpty then emit [.push .emptyTuple]
  else if es.length ≤ 3 then
    saveAll sv es ;; fun p => match idx p.memo (.obj x) with
      | some i => .ok (p, List.replicate es.length .pop ++ [.get i])
      | none => (emit [.tupleN es.length] ;; memoize (.obj x)) p
  else
    emit [.mark] ;; saveAll sv es ;; fun p => match idx p.memo (.obj x) with
      | some i => .ok (p, [.popMark, .get i])
      | none => (emit [.tuple] ;; memoize (.obj x)) p

/-- `save_frozenset` (pickle.py:1033-1056, inherited by dill's Pickler, _dill.py:347) -/
def saveFset (sv : Val → PM) (x : Addr) (es : List Val) : PM :=
  emit [.mark] ;; saveAll sv es ;; fun p => match idx p.memo (.obj x) with
    | some i => .ok (p, [.popMark, .get i])
    | none => (emit [.frozenset] ;; memoize (.obj x)) p

/-- the state part of `save_reduce` -/
def saveState (sv : Val → PM) : Option St → PM
  | none => emit []
  | some (.opaque v) => sv v ;; emit [.buildSet]
  | some (.attrs es) => saveDict sv .anon es ;; emit [.build]

/-- list, dict, and objects saved by (func, args, state, listitems, dictitems) -/
def saveNode (sv : Val → PM) (x : Addr) (con : Con) (lits : List Val) (dits : List (Val × Val))
    (st : Option St) : PM :=
  match con with
  | .list => emit [.emptyList] ;; memoize (.obj x) ;; batchAppends sv lits
  | .dict => emit [.emptyDict] ;; memoize (.obj x) ;; batchSetitems sv dits
  | .set => emit [.emptySet] ;; memoize (.obj x) ;; batchAdds sv lits
  | .red f as =>
    callReduce sv f (as.map .val) ;; memoOrGet x ;; batchAppends sv lits ;; batchSetitems sv dits ;;
      saveState sv st
  | .newobj c as =>
    sv c ;; anonTuple sv (as.map .val) ;; emit [.newobj] ;; memoOrGet x ;; batchAppends sv lits ;;
      batchSetitems sv dits ;; saveState sv st

/-- run one deferred reduction and POP its result, _dill.py:1142-1160 -/
def runRed (W : World) (sv : Val → PM) : Red → PM
  | .setCell c v => callReduce sv W.setattr [.val (.ref c), .val W.contents, .val v] ;; emit [.pop]
  | .setQual c q => callReduce sv W.setattr [.val (.ref c), .val W.qualname, .val q] ;; emit [.pop]
  | .setItems f copy =>
    if copy.isEmpty then emit []
    else fun p => match idx p.memo (.globs f) with
      | none => .error (.keyError, p)
      | some i => (emit [.get i] ;; batchSetitems sv copy ;; emit [.pop]) p
  | .setDead _ copy =>   -- that dict was never pickled: `pickler.memo[id(dest)]` raises
    if copy.isEmpty then emit [] else fun p => .error (.keyError, p)

def runReds (W : World) (sv : Val → PM) : List Red → PM
  | [] => emit []
  | r :: rs => runRed W sv r ;; runReds W sv rs

/-- add a reduction to the list of one `_postproc` entry -/
def addRed (y : Addr) (r : Red) (post : List (Addr × List Red)) : List (Addr × List Red) :=
  post.map fun (z, l) => if z = y then (z, l ++ [r]) else (z, l)

def P.onStack (p : P) (x : Addr) : Bool := p.post.any (·.1 = x)

/-- "Recursive object not supported. Default to a global instead": `pickler.save_global(obj)`, _dill.py:1127-1131 (for classes
save_type does the same itself, with a warning: `obj_recursive`, _dill.py:1858-1860, 1920-1930); it memoises the object -/
def saveGlobal (W : World) (x : Addr) : PM :=
  match W.byName x with
  | some a => emit [.push a] ;; memoize (.obj x)
  | none => fun p => .error (.unpicklable, p)

/-- `_save_with_postproc`, _dill.py:1112-1160 -/
def withPost (W : World) (sv : Val → PM) (x : Addr) (l0 : List Red) (body : PM) : PM := fun p =>
  if p.onStack x then saveGlobal W x p
  else match body { p with post := p.post ++ [(x, l0)] } with
    | .error e => .error e
    | .ok (p1, o1) =>
      let l := (p1.post.find? (·.1 = x)).map (·.2) |>.getD []
      match runReds W sv l.reverse { p1 with post := p1.post.filter (·.1 ≠ x) } with
      | .error e => .error e
      | .ok (p2, o2) => .ok (p2, o1 ++ o2)

/-- which `_postproc` list a cell's contents go to, _dill.py:1580-1586 -/
def cellHost (p : P) (v : Val) : Option Addr :=
  match v with
  | .ref y => if p.onStack y then some y else p.post.head?.map (·.1)
  | .atom _ => p.post.head?.map (·.1)

/-- `save_cell`, _dill.py:1556-1599 -/
def saveCell (W : World) (sv : Val → PM) (x : Addr) (c : Option Val) : PM :=
  match c with
  | none =>   -- Ce3
    callReduce sv W.createCell [.val W.cellEmpty] ;; memoOrGet x ;;
      callReduce sv W.delattr [.val (.ref x), .val W.contents] ;; emit [.pop]
  | some v => fun p =>
    match cellHost p v with
    | some y =>   -- Ce2
      match (callReduce sv W.createCell [.val (.atom .none)] ;; memoOrGet x) p with
      | .error e => .error e
      | .ok (p1, o1) => .ok ({ p1 with post := addRed y (.setCell x v) p1.post }, o1)
    | none =>     -- Ce1
      (callReduce sv W.createCell [.val v] ;; memoOrGet x) p

/-- addresses among the values of the copied globals -/
def valueAddrs (es : List (Val × Val)) : List Addr :=
  es.filterMap fun (_, v) => match v with | .ref a => some a | .atom _ => none

/-- the state of a function: its `__dict__`, or (`__dict__`, other attributes), _dill.py:2028-2044 -/
def saveFuncState (sv : Val → PM) (attrs slots : List (Val × Val)) : PM :=
  if slots.isEmpty then saveDict sv .anon attrs ;; emit [.build]
  else saveDict sv .anon attrs ;; saveDict sv .anon slots ;; emit [.tupleN 2] ;; memoize .anon ;; emit [.build]

/-- `save_function` for a function pickled by value (F1), _dill.py:1983-2048; the code after that
(_dill.py:2050-2065) never finds anything to remove, because it looks for the builtin `setattr` where
`save_cell` stores `_shims._setattr`. -/
def saveFunc (W : World) (sv : Val → PM) (x : Addr) (code : Val) (globs : Globs) (name defaults closure : Val)
    (attrs slots : List (Val × Val)) : PM := fun p =>
  let gArg := match globs with
    | .byRef v => Arg.val v
    | .copied init _ => Arg.dict (.globs x) init
  let body := callReduce sv W.createFunction
      [.val code, gArg, .val name, .val defaults, .val closure] ;; memoOrGet x ;;
      saveFuncState sv attrs slots
  match globs with
  | .byRef _ => withPost W sv x [] body p
  | .copied _ copy =>
    match p.post.find? (fun e => e.1 ∈ valueAddrs copy) with
    | some (y, _) =>   -- a second call for the same function has made a second dict `globs`
      withPost W sv x [] body
        { p with post := addRed y (if p.onStack x then .setDead x copy else .setItems x copy) p.post }
    | none => withPost W sv x [.setItems x copy] body p

/-- `save_type` for a class pickled by value (T2), _dill.py:1867-1902 -/
def saveCls (W : World) (sv : Val → PM) (x : Addr) (mt name bases : Val) (dict : List (Val × Val))
    (qual : Val) : PM :=
  withPost W sv x [.setQual x qual]
    (callReduce sv W.createType [.val mt, .val name, .val bases, .dict .anon dict] ;; memoOrGet x)

/-- `Pickler.save`: memo check, then dispatch; `sv` saves sub-objects. -/
def saveStep (W : World) (sv : Val → PM) (v : Val) : PM :=
  match v with
  | .atom a => emit [.push a]
  | .ref x => fun p =>
    match idx p.memo (.obj x) with
    | some i => emit [.get i] p
    | none =>
      match W.H x with
      | .leaf a => (emit [.push a] ;; memoize (.obj x)) p
      | .tuple es => saveTuple sv x es p
      | .fset es => saveFset sv x es p
      | .node con lits dits st => saveNode sv x con lits dits st p
      | .cell c => saveCell W sv x c p
      | .func code globs name defaults closure attrs slots =>
        saveFunc W sv x code globs name defaults closure attrs slots p
      | .cls mt name bases dict qual => saveCls W sv x mt name bases dict qual p
      | .bad => .error (.unpicklable, p)

/-- `Pickler.save` with the recursion limit made explicit. -/
def save (W : World) : Nat → Val → PM
  | 0, _ => fun p => .error (.fuel, p)
  | n + 1, v => saveStep W (save W n) v

/-- `dill.dumps` -/
def dumps (W : World) (fuel : Nat) (root : Val) : Except Err (List Op) :=
  match save W fuel root ⟨[], []⟩ with
  | .ok (_, ops) => .ok ops
  | .error (e, _) => .error e

end Verif.Core
