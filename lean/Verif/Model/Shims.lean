/-! Model of /repo/dill/_shims.py: Reduce, _CallableReduce, Getattr, move_to, register_shim, and of pickling a
Reduce object (its reduction is stored and executed on load: arguments first, then the call of `getattr`).
Objects are opaque values `V`; calling one is an arbitrary partial function; modules are name spaces. Only
reductions of the form `(getattr, (module, name[, default]))` are modelled: Getattr and register_shim make no
others. `func.__module__ = ...` (line 143, 171) is left out: it changes no binding. -/
namespace Verif.Shims

/-- modules by name, attributes by name -/
abbrev Env (V : Type) := String → String → Option V

/-- The objects passed around: an ordinary value, or a Reduce object made by Getattr (lines 113-142) /
register_shim (lines 155-184); `none` for NO_DEFAULT. -/
inductive Shim (V : Type) where
  | value (v : V)
  | getattr (m name : String) (default : Option (Shim V))

inductive Err where
  | attributeError
  | typeError          -- not callable
  | raised             -- the called object raised
  deriving DecidableEq

/-- the interpreter: which values are callable and what a call returns -/
structure Py (V : Type) where
  callable : V → Bool
  call : V → List V → Except Err V

variable {V : Type}

/-- `callable(x)`: a Reduce object is callable when it is a _CallableReduce, that is when it was made with
`is_callable=callable(default)` true (lines 78-83, 100, 140, 184). NO_DEFAULT, a Sentinel, is not callable. -/
def callable (py : Py V) : Shim V → Bool
  | .value v => py.callable v
  | .getattr _ _ none => false
  | .getattr _ _ (some d) => callable py d

/-- Unpickling: a Reduce object is replaced by the result of its reduction; the arguments, default included, are
loaded first. -/
def load (env : Env V) : Shim V → Except Err V
  | .value v => .ok v
  | .getattr m n none => match env m n with
    | some v => .ok v
    | none => .error .attributeError
  | .getattr m n (some d) =>
    match load env d with
    | .error e => .error e
    | .ok dv => match env m n with
      | some v => .ok v
      | none => .ok dv

/-- `_CallableReduce.__call__` (lines 102-110): `func(*f_args)` is evaluated without loading, so the default is
used as it is, possibly another Reduce object; a plain Reduce object is not callable. -/
def callShim (py : Py V) (env : Env V) : Shim V → List V → Except Err V
  | .value f, args => if py.callable f then py.call f args else .error .typeError
  | .getattr _ _ none, _ => .error .typeError
  | .getattr m n (some d), args =>
    if callable py d then
      match env m n with
      | some f => if py.callable f then py.call f args else .error .typeError
      | none => callShim py env d args
    else .error .typeError

def setAttr (m n : String) (v : V) (env : Env V) : Env V :=
  fun m' n' => if m' = m ∧ n' = n then some v else env m' n'

/-- `move_to(module, name)(func)` (lines 144-153): `fname` is `name`, or the function's own name -/
def moveTo (m : String) (name : Option String) (ownName : String) (f : V) (env : Env V) : Env V :=
  match name with
  | none => setAttr m ownName f env
  | some n => setAttr m n f env

/-- `register_shim(name, default)` (lines 155-184); `isNone` recognises None -/
def registerShim (isNone : V → Bool) (name : String) (default : Option (Shim V)) (env : Env V) :
    Env V × Shim V :=
  let env' := match env "dill._shims" name with
    | some f => if isNone f then env else setAttr "dill._dill" name f env
    | none => env
  (env', .getattr "dill._dill" name default)

end Verif.Shims
