/-
Model of code-object pickling: `save_code` and `_create_code`.
/repo/dill/_dill.py:665-680 (ALL_CODE_PARAMS, CODE_VERSION, ENCODE_PARAMS),
/repo/dill/_dill.py:682-788 (_create_code), /repo/dill/_dill.py:1169-1238 (save_code),
/repo/dill/_dill.py:636-663 (match).
-/
namespace Verif.Code

/-- Values found in code-object constructor arguments (simplified: `consts`, `names`, ...
are opaque tuples of values; nested constants are handled by the core graph model). -/
inductive PyVal where
  | none
  | int (n : Int)
  | str (s : String)
  | bytes (b : List Nat)
  | tup (l : List PyVal)
  deriving Repr, Inhabited

/-- The `co_*` attribute names (without the prefix), /repo/dill/_dill.py:667-672. -/
inductive Attr where
  | argcount | posonlyargcount | kwonlyargcount | nlocals | stacksize | flags
  | code | consts | names | varnames | filename | name | qualname | firstlineno
  | linetable | lnotab | endlinetable | columntable | exceptiontable | freevars | cellvars
  | LNOTAB_OR_LINETABLE      -- pseudo-field used by the 16-member pattern, _dill.py:726
  deriving Repr, DecidableEq

/-- The layouts of ALL_CODE_PARAMS, /repo/dill/_dill.py:665-673. -/
inductive Ver where
  | v311a | v311 | v311p | v310 | v38 | v37
  deriving Repr, DecidableEq

open Attr Ver

/-- The constructor signature of `types.CodeType` on each interpreter (CPython fact, trusted; the specification
that dill's own table `params` below has to agree with). -/
def sig : Ver → List Attr
  | v311a => [argcount, posonlyargcount, kwonlyargcount, nlocals, stacksize, flags, code, consts,
      names, varnames, filename, name, qualname, firstlineno, linetable, endlinetable,
      columntable, exceptiontable, freevars, cellvars]
  | v311 => [argcount, posonlyargcount, kwonlyargcount, nlocals, stacksize, flags, code, consts,
      names, varnames, filename, name, qualname, firstlineno, linetable, exceptiontable,
      freevars, cellvars]
  | v311p => [argcount, posonlyargcount, kwonlyargcount, nlocals, stacksize, flags, code, consts,
      names, varnames, filename, name, qualname, firstlineno, linetable, freevars, cellvars]
  | v310 => [argcount, posonlyargcount, kwonlyargcount, nlocals, stacksize, flags, code, consts,
      names, varnames, filename, name, firstlineno, linetable, freevars, cellvars]
  | v38 => [argcount, posonlyargcount, kwonlyargcount, nlocals, stacksize, flags, code, consts,
      names, varnames, filename, name, firstlineno, lnotab, freevars, cellvars]
  | v37 => [argcount, kwonlyargcount, nlocals, stacksize, flags, code, consts,
      names, varnames, filename, name, firstlineno, lnotab, freevars, cellvars]

/-- /repo/dill/_dill.py:667-672, in the order of dill's table ALL_CODE_PARAMS. -/
def params : Ver → List Attr
  | v311a => [argcount, posonlyargcount, kwonlyargcount, nlocals, stacksize, flags, code, consts,
      names, varnames, filename, name, qualname, firstlineno, linetable, endlinetable,
      columntable, exceptiontable, freevars, cellvars]
  | v311 => [argcount, posonlyargcount, kwonlyargcount, nlocals, stacksize, flags, code, consts,
      names, varnames, filename, name, qualname, firstlineno, linetable, exceptiontable,
      freevars, cellvars]
  | v311p => [argcount, posonlyargcount, kwonlyargcount, nlocals, stacksize, flags, code, consts,
      names, varnames, filename, name, qualname, firstlineno, linetable, freevars, cellvars]
  | v310 => [argcount, posonlyargcount, kwonlyargcount, nlocals, stacksize, flags, code, consts,
      names, varnames, filename, name, firstlineno, linetable, freevars, cellvars]
  | v38 => [argcount, posonlyargcount, kwonlyargcount, nlocals, stacksize, flags, code, consts,
      names, varnames, filename, name, firstlineno, lnotab, freevars, cellvars]
  | v37 => [argcount, kwonlyargcount, nlocals, stacksize, flags, code, consts,
      names, varnames, filename, name, firstlineno, lnotab, freevars, cellvars]

/-- `hasattr(CodeType, 'co_' ++ a)` on the interpreter of version `v`.  CPython fact (trusted):
an interpreter has the attributes of its constructor, plus `co_lnotab` on every version. -/
def hasattr (v : Ver) (a : Attr) : Bool := decide (a ∈ sig v) || decide (a = lnotab)

/-- The "new attribute" column, /repo/dill/_dill.py:667-672. -/
def newAttr : Ver → Attr
  | v311a => endlinetable
  | v311 => exceptiontable
  | v311p => qualname
  | v310 => linetable
  | v38 => posonlyargcount
  | v37 => kwonlyargcount

/-- Order of ALL_CODE_PARAMS, /repo/dill/_dill.py:665-673. -/
def allVers : List Ver := [v311a, v311, v311p, v310, v38, v37]

/-- The loop that fixes CODE_VERSION at import time, /repo/dill/_dill.py:674-678. -/
def codeVersion (interp : Ver) : Option Ver := allVers.find? (fun v => hasattr interp (newAttr v))

/-- ENCODE_PARAMS, /repo/dill/_dill.py:679-680. -/
def encodeParams (v : Ver) (a : Attr) : Bool :=
  decide (a ∈ params v) &&
  decide (a ∈ [code, lnotab, linetable, endlinetable, columntable, exceptiontable])

/-- A code object: its `co_*` attributes. -/
abbrev CodeObj := Attr → PyVal

/-- `save_code`: the argument tuple of the reduce, /repo/dill/_dill.py:1172-1235.
The branches test attributes of `obj`, i.e. of the interpreter that is running. -/
def saveCode (interp : Ver) (o : CodeObj) : List PyVal :=
  if hasattr interp endlinetable then
    [o lnotab, o argcount, o posonlyargcount, o kwonlyargcount, o nlocals, o stacksize,
     o flags, o code, o consts, o names, o varnames, o filename, o name, o qualname,
     o firstlineno, o linetable, o endlinetable, o columntable, o exceptiontable,
     o freevars, o cellvars]
  else if hasattr interp exceptiontable then
    [o lnotab, o argcount, o posonlyargcount, o kwonlyargcount, o nlocals, o stacksize,
     o flags, o code, o consts, o names, o varnames, o filename, o name, o qualname,
     o firstlineno, o linetable, o exceptiontable, o freevars, o cellvars]
  else if hasattr interp qualname then
    [o lnotab, o argcount, o posonlyargcount, o kwonlyargcount, o nlocals, o stacksize,
     o flags, o code, o consts, o names, o varnames, o filename, o name, o qualname,
     o firstlineno, o linetable, o freevars, o cellvars]
  else if hasattr interp linetable then
    [o lnotab, o argcount, o posonlyargcount, o kwonlyargcount, o nlocals, o stacksize,
     o flags, o code, o consts, o names, o varnames, o filename, o name,
     o firstlineno, o linetable, o freevars, o cellvars]
  else if hasattr interp posonlyargcount then
    [o argcount, o posonlyargcount, o kwonlyargcount, o nlocals, o stacksize,
     o flags, o code, o consts, o names, o varnames, o filename, o name,
     o firstlineno, o lnotab, o freevars, o cellvars]
  else
    [o argcount, o kwonlyargcount, o nlocals, o stacksize,
     o flags, o code, o consts, o names, o varnames, o filename, o name,
     o firstlineno, o lnotab, o freevars, o cellvars]

/-- `x.encode() if hasattr(x,'encode') else x`. -/
def enc : PyVal → PyVal
  | .str s => .bytes (s.toUTF8.data.toList.map (·.toNat))
  | v => v

/-- What `CodeType` expects for each parameter (CPython fact, trusted). -/
inductive Kind where | kInt | kStr | kBytes | kTup | kBytesOrNone
def kind : Attr → Kind
  | argcount | posonlyargcount | kwonlyargcount | nlocals | stacksize | flags | firstlineno => .kInt
  | filename | name | qualname => .kStr
  | code | linetable | lnotab | exceptiontable | LNOTAB_OR_LINETABLE => .kBytes
  | endlinetable | columntable => .kBytesOrNone
  | consts | names | varnames | freevars | cellvars => .kTup

def hasKind : Kind → PyVal → Bool
  | .kInt, .int _ => true
  | .kStr, .str _ => true
  | .kBytes, .bytes _ => true
  | .kTup, .tup _ => true
  | .kBytesOrNone, .bytes _ => true
  | .kBytesOrNone, .none => true
  | _, _ => false

/-- Python's `dict(zip(keys, values))` lookup: keys are distinct in all uses. -/
def zipLookup : List Attr → List PyVal → Attr → Option PyVal
  | k :: ks, v :: vs, a => if k = a then some v else zipLookup ks vs a
  | _, _, _ => none

/-- `CodeType(*args)` on interpreter `v`: TypeError (here `none`) on a wrong number or type of
arguments; otherwise an object whose attributes are the arguments. -/
def codeType (v : Ver) (args : List PyVal) : Option (Attr → Option PyVal) :=
  if args.length = (sig v).length ∧
     ((sig v).zip args).all (fun p => hasKind (kind p.1) p.2) then
    some (zipLookup (sig v) args)
  else none

/-- Encode the argument at the given positions (the `*args[:6], enc(args[6]), ...` expressions). -/
def encAt (pos : List Nat) (args : List PyVal) : List PyVal :=
  (args.zipIdx).map (fun p => if pos.contains p.2 then enc p.1 else p.1)

/-- The five patterns of `_create_code`, in source order, /repo/dill/_dill.py:690-773. -/
def pat311 : List Attr := [argcount, posonlyargcount, kwonlyargcount, nlocals, stacksize, flags,
  code, consts, names, varnames, filename, name, qualname, firstlineno,
  linetable, exceptiontable, freevars, cellvars]
def pat311p : List Attr := [argcount, posonlyargcount, kwonlyargcount, nlocals, stacksize, flags,
  code, consts, names, varnames, filename, name, qualname, firstlineno,
  linetable, freevars, cellvars]
def pat310 : List Attr := [argcount, posonlyargcount, kwonlyargcount, nlocals, stacksize, flags,
  code, consts, names, varnames, filename, name, firstlineno,
  LNOTAB_OR_LINETABLE, freevars, cellvars]
def pat37 : List Attr := [argcount, kwonlyargcount, nlocals, stacksize, flags,
  code, consts, names, varnames, filename, name, firstlineno, lnotab, freevars, cellvars]
def pat311a : List Attr := [argcount, posonlyargcount, kwonlyargcount, nlocals, stacksize, flags,
  code, consts, names, varnames, filename, name, qualname, firstlineno,
  linetable, endlinetable, columntable, exceptiontable, freevars, cellvars]

/-- `fields.setdefault(k, v)`. -/
def setdefault (f : Attr → Option PyVal) (k : Attr) (v : PyVal) : Attr → Option PyVal :=
  fun a => if a = k ∧ f k = none then some v else f a

def setField (f : Attr → Option PyVal) (k : Attr) (v : PyVal) : Attr → Option PyVal :=
  fun a => if a = k then some v else f a

/-- The tail of `_create_code`, /repo/dill/_dill.py:776-788.  KeyError is `none`. -/
def finish (v : Ver) (lnot : PyVal) (f0 : Attr → Option PyVal) : Option (Attr → Option PyVal) :=
  let f1 := setdefault f0 posonlyargcount (.int 0)
  let f2 := setdefault f1 lnotab lnot
  let f3 := setdefault f2 linetable (.bytes [])
  match f3 name with
  | none => none
  | some nm =>
    let f4 := setdefault f3 qualname nm
    let f5 := setdefault f4 exceptiontable (.bytes [])
    let f6 := setdefault f5 endlinetable .none
    let f7 := setdefault f6 columntable .none
    match (params v).mapM (fun k => (f7 k).map (fun x => if encodeParams v k then enc x else x)) with
    | none => none
    | some args => codeType v args

/-- `CODE_VERSION >= (3,10)` for the versions that reach it; tuples compare lexicographically. -/
def geq310 : Ver → Bool
  | v311a | v311 | v311p | v310 => true
  | v38 | v37 => false

/-- Truthiness of LNOTAB. -/
def truthy : PyVal → Bool
  | .bytes b => !b.isEmpty
  | .str s => !s.isEmpty
  | .tup l => !l.isEmpty
  | .int n => n != 0
  | .none => false

/-- `_create_code` after LNOTAB has been split off, /repo/dill/_dill.py:688-788. -/
def createCode' (v : Ver) (lnot : PyVal) (args : List PyVal) : Option (Attr → Option PyVal) :=
  if args.length = pat311.length then
    if v = v311 then codeType v (encAt [6, 14, 15] args)
    else finish v lnot (zipLookup pat311 args)
  else if args.length = pat311p.length then
    if v = v311p then codeType v (encAt [6, 14] args)
    else finish v lnot (zipLookup pat311p args)
  else if args.length = pat310.length then
    if v = v310 ∨ v = v38 then codeType v (encAt [6, 13] args)
    else
      let f := zipLookup pat310 args
      match f LNOTAB_OR_LINETABLE with
      | none => none
      | some x =>
        if geq310 v then finish v lnot (setField f linetable x)
        else finish v lnot (setField f lnotab (if truthy lnot then lnot else x))
  else if args.length = pat37.length then
    if v = v37 then codeType v (encAt [5, 12] args)
    else finish v lnot (zipLookup pat37 args)
  else if args.length = pat311a.length then
    if v = v311a then codeType v (encAt [6, 14, 15, 16, 17] args)
    else finish v lnot (zipLookup pat311a args)
  else none

/-- `_create_code`, /repo/dill/_dill.py:682-788 (`none` = any exception). -/
def createCode (interp : Ver) (args : List PyVal) : Option (Attr → Option PyVal) :=
  match codeVersion interp with
  | none => none
  | some v =>
    match args with
    | [] => none                              -- IndexError on args[0]
    | .int n :: rest => createCode' v (.bytes []) (.int n :: rest)
    | lnot :: rest => createCode' v lnot rest

end Verif.Code
