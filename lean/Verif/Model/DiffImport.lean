import Verif.Model.Diff
/-! Model of `_imp` and `release_gone`, /repo/dill/__diff.py:212-239, 123-126, over the memo of Model/Diff.

The import system as Python runs it: `import a.b` loads the modules `a` and `a.b` that are not in sys.modules yet, in this order; a module
is entered in sys.modules before its body runs, and taken out again if the body raises; import statements in the body call
`builtins.__import__`, that is `_imp` again.  Not modelled: bodies that tamper with sys.modules themselves, threads, and code run by
`memorise` (`hasattr`, `copy`). -/
namespace Verif.Diff

/-- what the body of a module does -/
inductive Act where
  /-- changes an object (the module itself, or any other) -/
  | set (x : Id) (r : Rec)
  /-- an import statement; `caught`: inside `try ... except ImportError` -/
  | imp (names : List String) (caught : Bool)
  | raise

inductive Outcome where
  | ok
  | raised
  /-- the bound on nested imports or on the depth of `memorise` (the model's, Python's recursion limit) is exceeded -/
  | timeout
  deriving DecidableEq, Repr

/-- the modules that can be imported (object and body), `dont_memo`, and the order in which a set of names is iterated -/
structure Env where
  disk : String → Option (Id × List Act)
  excl : Id → Bool
  order : List (String × Id) → List (String × Id)
  depth : Nat

structure St where
  graph : Graph
  /-- sys.modules -/
  mods : List (String × Id)
  memo : Memo
  /-- for the specification only: the calls of `_imp` that have returned, with what was there and the modules they memorised -/
  log : List (Graph × List Id)

/-- the body of a module; `imp` is `_imp` -/
def runBody (imp : List String → St → St × Outcome) : List Act → St → St × Outcome
  | [], s => (s, .ok)
  | .raise :: _, s => (s, .raised)
  | .set x r :: as, s => runBody imp as { s with graph := fun y => if y = x then r else s.graph y }
  | .imp ns caught :: as, s =>
    match imp ns s with
    | (s', .ok) => runBody imp as s'
    | (s', .raised) => if caught then runBody imp as s' else (s', .raised)
    | (s', .timeout) => (s', .timeout)

/-- importing one module, as `importlib._bootstrap._find_and_load` does -/
def loadOne (disk : String → Option (Id × List Act)) (imp : List String → St → St × Outcome) (n : String) (s : St) : St × Outcome :=
  if n ∈ s.mods.map (·.1) then (s, .ok)
  else
    match disk n with
    | none => (s, .raised)
    | some (x, body) =>
      match runBody imp body { s with mods := s.mods ++ [(n, x)] } with
      | (s', .ok) => (s', .ok)
      | (s', o) => ({ s' with mods := s'.mods.filter (fun p => p.1 ≠ n) }, o)

/-- the original `__import__`: a package and its submodules, one after the other -/
def loadAll (disk : String → Option (Id × List Act)) (imp : List String → St → St × Outcome) : List String → St → St × Outcome
  | [], s => (s, .ok)
  | n :: ns, s =>
    match loadOne disk imp n s with
    | (s', .ok) => loadAll disk imp ns s'
    | r => r

/-- `_imp`, __diff.py:214-224 -/
def imp (E : Env) : Nat → List String → St → St × Outcome
  | 0, _, s => (s, .timeout)
  | k + 1, ns, s =>
    match loadAll E.disk (imp E k) ns s with
    | (s', .ok) =>
      let after := E.order (s'.mods.filter (fun p => p.1 ∉ s.mods.map (·.1)))
      match forAll (fun x m => memorise s'.graph E.excl E.depth false x m) (after.map (·.2)) s'.memo with
      | .ok m => ({ s' with memo := m, log := s'.log ++ [(s'.graph, after.map (·.2))] }, .ok)
      | .error _ => (s', .timeout)
    | r => r

/-- `release_gone`, __diff.py:123-126; `refs` is what `getrefcount` says while the list comprehension runs -/
def releaseGone (refs : Id → Nat) (m : Memo) : Memo := fun x => if refs x < 4 then none else m x

/-- `getrefcount`, __diff.py:24: the references to the object from elsewhere, and `own` that the call itself has: `id_to_obj`, the
tuple in the list of its items, the variable `obj` and the argument, which makes 4 (CPython up to 3.13); without `getrefcount` (PyPy) 0. -/
def getrefcount (own : Option Nat) (elsewhere : Id → Nat) (x : Id) : Nat :=
  match own with
  | some k => elsewhere x + k
  | none => 0

end Verif.Diff
