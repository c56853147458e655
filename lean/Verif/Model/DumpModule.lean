import Verif.Model.SafeOpen
import Verif.Model.Settings
/-
Model of the body of `dump_module`, /repo/dill/session.py:188-319, and `dump_session` 322-325: argument names, resolution of the
module, opening of the file, the pickler's options, and what is closed.
The file system is that of Model/SafeOpen (nobody interferes here: see C12 for that); what the pickler writes before it ends or
raises is a parameter, and so are `_import_module` and `_stash_modules` (Model/Modules, Model/Stash).  Warnings are logged, not
raised; closing a file does not fail.
-/
namespace Verif.DumpModule
open SafeOpen (S Ino Errno)
open Settings (Table PickleCfg)

abbrev ModId := Nat

/-- a value passed as `module` or `main`: None, a string, a module object, or something else; objects have a truth value -/
inductive Arg where
  | none
  | str (s : String)
  | mod (m : ModId) (truthy : Bool)
  | other (truthy : Bool)
  deriving DecidableEq, Repr

/-- `bool(arg)` -/
def Arg.truthy : Arg → Bool
  | .none => false
  | .str s => !s.isEmpty
  | .mod _ t => t
  | .other t => t

/-- the `filename` argument: None, a path, or an object with a `write` method -/
inductive Dest where
  | none
  | path (p : String)
  | stream (k : Nat)
  deriving DecidableEq, Repr

/-- the arguments of a call; `main` and `byref` are the old names, in `**kwds` if given; `rest` is the rest of `**kwds` -/
structure Args where
  filename : Dest := .none
  module_ : Arg := .none
  refimported : Bool := false
  main : Option Arg := .none
  byref : Option Bool := .none
  rest : Table := []

inductive Err where
  | bothNames
  | importError
  | notModule
  | settingsKey
  | os (e : Errno)
  | pickler (e : Settings.Err)
  | stash
  | pickling
  deriving DecidableEq, Repr

inductive Warn where
  | renamedMain
  | renamedByref
  | renamedFunction
  | defaultPath
  deriving DecidableEq, Repr

/-- the attributes of the pickler that `dump_module` sets (session.py:305-315), and the pickled object -/
structure Job where
  proto : Int
  fmode : Settings.Val
  byref : Bool
  recurse : Bool
  session : Bool
  original : ModId
  main : ModId
  modified : Bool
  deriving DecidableEq, Repr

/-- what `dump_module` depends on -/
structure Env where
  settings : Table
  /-- `__main__` -/
  mainModule : ModId
  /-- `_import_module(name)`: none is an exception -/
  importModule : String → Option Arg
  /-- `_stash_modules(main)`: none is an exception -/
  stash : ModId → Option ModId
  /-- what `pickler.dump` writes, and whether it ends without an exception -/
  pickle : Job → List (List Nat) × Bool
  /-- the path of the default session file -/
  defaultPath : String
  /-- O_NOFOLLOW exists -/
  nofollow : Bool

/-- the world: files, the caller's streams (contents, closed), the descriptors dump_module left open -/
structure World where
  fs : S
  stream : Nat → List Nat
  streamClosed : Nat → Bool
  fds : List Ino
  warned : List Warn := []

abbrev Res := Option Err × World

def warn (w : Warn) (σ : World) : World := { σ with warned := σ.warned ++ [w] }

/-- the loop over the two renamed arguments, session.py:277-284: the warnings, and whether it raises -/
def checkNames (a : Args) (σ : World) : Bool × World :=
  match a.main with
  | some _ =>
    if a.module_.truthy then (true, warn .renamedMain σ)
    else match a.byref with
      | some _ => (a.refimported, warn .renamedByref (warn .renamedMain σ))
      | none => (false, warn .renamedMain σ)
  | none => match a.byref with
    | some _ => (a.refimported, warn .renamedByref σ)
    | none => (false, σ)

/-- `main = module; if main is None … elif isinstance(main, str) … if not isinstance(main, ModuleType)`, session.py:290-296 -/
def resolve (E : Env) : Arg → Except Err ModId
  | .none => .ok E.mainModule
  | .mod m _ => .ok m
  | .other _ => .error .notModule
  | .str s => match E.importModule s with
    | none => .error .importError
    | some (.mod m _) => .ok m
    | some _ => .error .notModule

/-- the `try` block, session.py:304-315: the chunks written, and the exception -/
def writeJob (E : Env) (proto : Settings.Val) (ref : Bool) (main : ModId) (rest : Table) : List (List Nat) × Option Err :=
  match Settings.picklerInit E.settings proto rest with
  | .error e => ([], some (.pickler e))
  | .ok cfg =>
    match (if ref then E.stash main else some main) with
    | none => ([], some .stash)
    | some m =>
      let job : Job := { proto := cfg.proto, fmode := cfg.fmode, byref := false, recurse := false, session := true,
                         original := main, main := m, modified := m != main }
      let r := E.pickle job
      (r.1, if r.2 then none else some .pickling)

/-- nobody else touches the file system -/
def quiet : SafeOpen.Adv := fun _ s => s

/-- the path used -/
def pathOf (E : Env) : Dest → String
  | .path p => p
  | _ => E.defaultPath

/-- an open file object: the caller's stream, or a descriptor -/
inductive File where
  | stream (k : Nat)
  | fd (i : Ino)
  deriving DecidableEq, Repr

/-- `file = filename` or the newly opened file, session.py:297-303 -/
def openDest (E : Env) (d : Dest) (σ : World) : Except Err File × World :=
  match d with
  | .stream k => (.ok (.stream k), σ)
  | d =>
    let σ := if d = .none then warn .defaultPath σ else σ
    match SafeOpen.openWrite E.nofollow (pathOf E d) quiet σ.fs with
    | (.error e, fs, _) => (.error (.os e), { σ with fs := fs })
    | (.ok i, fs, _) => (.ok (.fd i), { σ with fs := fs, fds := i :: σ.fds })

/-- the writes of the pickler -/
def write (f : File) (chunks : List (List Nat)) (σ : World) : World :=
  match f with
  | .stream k => { σ with stream := fun j => if j = k then σ.stream k ++ chunks.flatten else σ.stream j }
  | .fd i => { σ with fs := (SafeOpen.writeChunks i quiet 3 chunks σ.fs).1 }

/-- `file.close()` -/
def close (f : File) (σ : World) : World :=
  match f with
  | .stream k => { σ with streamClosed := fun j => if j = k then true else σ.streamClosed j }
  | .fd i => { σ with fds := σ.fds.erase i }

/-- `file is not filename` -/
def newlyOpened (d : Dest) (f : File) : Bool :=
  match d, f with
  | .stream k, .stream j => k != j
  | _, _ => true

/-- `dump_module(filename, module, refimported, **kwds)`, session.py:277-319 -/
def dumpModule (E : Env) (a : Args) (σ : World) : Res :=
  match checkNames a σ with
  | (true, σ) => (some .bothNames, σ)
  | (false, σ) =>
    let ref := a.byref.getD a.refimported
    let arg := a.main.getD a.module_
    match E.settings.get "protocol" with
    | none => (some .settingsKey, σ)
    | some proto =>
      match resolve E arg with
      | .error e => (some e, σ)
      | .ok main =>
        match openDest E a.filename σ with
        | (.error e, σ) => (some e, σ)
        | (.ok file, σ) =>
          let r := writeJob E proto ref main a.rest
          let σ := write file r.1 σ
          (r.2, if newlyOpened a.filename file then close file σ else σ)

/-- `dump_session(filename, main, byref, **kwds)`, session.py:322-325 -/
def dumpSession (E : Env) (filename : Dest) (main : Arg) (byref : Bool) (rest : Table) (σ : World) : Res :=
  dumpModule E { filename := filename, module_ := main, refimported := byref, rest := rest } (warn .renamedFunction σ)

end Verif.DumpModule
