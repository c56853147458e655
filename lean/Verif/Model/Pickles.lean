/-
Model of dill.pickles (/repo/dill/_dill.py:2168-2203), dill.detect.baditems/badobjects/badtypes/errors
(/repo/dill/detect.py:233-288) and of the effect of `warnings.filterwarnings('ignore')` on
`warnings.filters` (CPython Lib/warnings.py `_add_filter`).
Each elementary step that runs user code (copy, all(), ==, truth value, ...) has an arbitrary outcome; it
is assumed to leave `warnings.filters` as it found it and to have the same outcome when repeated.
-/
namespace Verif.Pickles

/-- Exceptions, as far as the `except` clauses distinguish them. -/
inductive Exc where
  | typeErr | assertErr | notImpl | pickling | unpickling   -- the tuple of line 2182
  | attrErr
  | otherExc          -- any other subclass of Exception
  | base              -- BaseException that is not an Exception (KeyboardInterrupt, SystemExit)
  deriving DecidableEq, Repr

/-- `isinstance(e, Exception)`. -/
def Exc.isException : Exc → Bool
  | .base => false
  | _ => true

/-- the exceptions trapped by pickles, _dill.py:2180-2182. -/
def trapped (safe : Bool) (e : Exc) : Bool :=
  if safe then e.isException
  else match e with
    | .typeErr | .assertErr | .notImpl | .pickling | .unpickling => true
    | _ => false

abbrev Res (α : Type) := Except Exc α

/-- What `pik == obj` returned: whether it has a `toarray` attribute, the truth value of
`.toarray().all()`, and its own truth value. -/
structure EqVal where
  toarray : Res Bool
  toarrayAll : Res Bool
  truth : Res Bool

/-- The outcomes of the steps for one object. -/
structure Steps where
  copy : Res Unit
  all : Res Bool          -- bool(pik.all() == obj.all())
  eq : Res EqVal          -- pik == obj
  typeEq : Res Bool
  reprEq : Res Bool

/-- An entry of warnings.filters; `ignoreAll` is the tuple filterwarnings('ignore') creates. -/
inductive Filter where
  | ignoreAll
  | other (n : Nat)
  deriving DecidableEq, Repr

/-- `warnings.filterwarnings('ignore')`: an equal entry is removed, then inserted at the front. -/
def filterwarnings (fs : List Filter) : List Filter := .ignoreAll :: fs.erase .ignoreAll

/-- the part after `result` is known, _dill.py:2195-2201. -/
def finish (exact : Bool) (s : Steps) (truth : Res Bool) : Res Bool :=
  match truth with
  | .error e => .error e
  | .ok true => .ok true
  | .ok false =>
    if !exact then
      match s.typeEq with
      | .error e => .error e
      | .ok true => .ok true
      | .ok false => s.reprEq
    else .ok false

/-- `if hasattr(result,'toarray'): result = result.toarray().all()`, then its truth value. -/
def resolve (v : EqVal) : Res Bool :=
  match v.toarray with
  | .error e => .error e
  | .ok true => v.toarrayAll
  | .ok false => v.truth

/-- the try body of `pickles`, with the resulting warnings.filters. -/
def body (exact : Bool) (s : Steps) (fs : List Filter) : Res Bool × List Filter :=
  match s.copy with
  | .error e => (.error e, fs)
  | .ok () =>
    match s.all with
    | .ok b => (finish exact s (.ok b), fs)
    | .error e =>
      if e = .attrErr ∨ e = .typeErr then
        let fs1 := filterwarnings fs
        match s.eq with
        | .error e => (.error e, fs1)
        | .ok v => (finish exact s (resolve v), fs1.tail)
      else (.error e, fs)

/-- `pickles(obj, exact, safe)`. -/
def pickles (exact safe : Bool) (s : Steps) (fs : List Filter) : Res Bool × List Filter :=
  match body exact s fs with
  | (.ok b, fs) => (.ok b, fs)
  | (.error e, fs) => if trapped safe e then (.ok false, fs) else (.error e, fs)

/-! ### detect.badobjects and friends -/

abbrev Obj := Nat

/-- Objects: their steps, types, attribute names, attributes and equality. -/
structure World where
  steps : Obj → Steps
  typ : Obj → Nat
  dir : Obj → List String
  attr : Obj → String → Res Obj
  none : Obj                         -- the object None
  eq : Obj → Obj → Bool              -- x is y or x == y, as used by `in`

/-- the value of pickles, without its effect on the filters. -/
def World.pickles (W : World) (exact safe : Bool) (o : Obj) : Res Bool :=
  (Verif.Pickles.pickles exact safe (W.steps o) []).1

/-- Reports: None, something about an object, or a dict of reports by attribute name. -/
inductive Report (α : Type) where
  | none
  | item (a : α)
  | dict (l : List (String × Report α))

/-- the generator expression of badobjects/badtypes: over the attribute names. -/
def attrLoop {α : Type} (W : World) (exact safe : Bool) (rec_ : Obj → Res (Report α)) (o : Obj) :
    List String → Res (List (String × Report α))
  | [] => .ok []
  | a :: as =>
    match W.attr o a with
    | .error e => .error e
    | .ok v =>
      match W.pickles exact safe v with
      | .error e => .error e
      | .ok true => attrLoop W exact safe rec_ o as
      | .ok false =>
        match rec_ v with
        | .error e => .error e
        | .ok r =>
          match attrLoop W exact safe rec_ o as with
          | .error e => .error e
          | .ok l => .ok ((a, r) :: l)

/-- `badobjects` (with `f = id`) and `badtypes` (with `f = type`), detect.py:243-259. -/
def bad {α : Type} (W : World) (exact safe : Bool) (f : Obj → α) : Nat → Obj → Res (Report α)
  | 0, o =>
    match W.pickles exact safe o with
    | .error e => .error e
    | .ok true => .ok .none
    | .ok false => .ok (.item (f o))
  | d + 1, o =>
    match attrLoop W exact safe (bad W exact safe f d) o (W.dir o) with
    | .error e => .error e
    | .ok l => .ok (.dict l)

/-- the items listed by `baditems` for an iterable, detect.py:233-241. `seen` is `_obj`. -/
def baditemsLoop (W : World) (exact safe : Bool) : List Obj → List (Option Obj) → Res (List (Option Obj))
  | [], seen => .ok seen
  | i :: is, seen =>
    if seen.any (fun s => W.eq i (s.getD W.none)) then baditemsLoop W exact safe is seen
    else match bad W exact safe id 0 i with
      | .error e => .error e
      | .ok (.item o) => baditemsLoop W exact safe is (seen ++ [some o])
      | .ok _ => baditemsLoop W exact safe is (seen ++ [none])

def baditems (W : World) (exact safe : Bool) (xs : List Obj) : Res (List Obj) :=
  match baditemsLoop W exact safe xs [] with
  | .error e => .error e
  | .ok seen => .ok (seen.filterMap id)

/-- `errors(obj, 0)`, detect.py:264-275: `none` = None, `some e` the exception object returned
(the outer error only for non-Exceptions). -/
def errors0 (exact : Bool) (s : Steps) : Res (Option Exc) :=
  let r : Res Unit :=
    match s.copy with
    | .error e => .error e
    | .ok () =>
      let eqPart : Res Unit :=
        if exact then
          match s.eq with
          | .error e => .error e
          | .ok v => match v.truth with
            | .error e => .error e
            | .ok true => .ok ()
            | .ok false => .error .assertErr
        else .ok ()
      match eqPart with
      | .error e => .error e
      | .ok () => match s.typeEq with
        | .error e => .error e
        | .ok true => .ok ()
        | .ok false => .error .assertErr
  match r with
  | .ok () => .ok none
  | .error e => if e.isException then .ok (some e) else .error e

/-- `errors(obj, depth)`, detect.py:261-288. -/
def errorsLoop (W : World) (exact safe : Bool) (rec_ : Obj → Res (Report Exc)) (o : Obj) :
    List String → Res (List (String × Report Exc))
  | [] => .ok []
  | a :: as =>
    match W.attr o a with
    | .error e =>
      if e.isException then
        match errorsLoop W exact safe rec_ o as with
        | .error e' => .error e'
        | .ok l => .ok ((a, .item e) :: l)
      else .error e
    | .ok v =>
      match W.pickles exact safe v with
      | .error e => .error e
      | .ok true => errorsLoop W exact safe rec_ o as
      | .ok false =>
        match rec_ v with
        | .error e => .error e
        | .ok r =>
          match errorsLoop W exact safe rec_ o as with
          | .error e => .error e
          | .ok l => .ok ((a, r) :: l)

def errors (W : World) (exact safe : Bool) : Nat → Obj → Res (Report Exc)
  | 0, o => match errors0 exact (W.steps o) with
    | .error e => .error e
    | .ok none => .ok .none
    | .ok (some e) => .ok (.item e)
  | d + 1, o =>
    match errorsLoop W exact safe (errors W exact safe d) o (W.dir o) with
    | .error e => .error e
    | .ok l => .ok (.dict l)

end Verif.Pickles
