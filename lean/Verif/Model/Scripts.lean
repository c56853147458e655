/-!
The three command line tools that come with dill: /repo/scripts/undill, /repo/scripts/get_objgraph, /repo/scripts/get_gprof.

Simplifications: a file is its bytes under its name as it is typed (no links, no two names of one file, no permissions); `dill.load` is given
(Model/Wire, Model/Core): the first object in the bytes and the bytes after it, or nothing if it raises; code that runs while
something is loaded, evaluated or set up changes no files; a program that is not installed writes nothing; the shell command of get_gprof
does what its docstring says (arguments with a meaning for the shell are not modelled).
-/
namespace Verif.Scripts

abbrev Name := List Char
abbrev Bytes := List UInt8
abbrev Files := Name → Option Bytes

/-- write (`some`) or remove (`none`) one file: open(..., 'wb') and os.remove, as used in scripts/get_gprof:61-75 -/
def Files.put (fs : Files) (f : Name) (b : Option Bytes) : Files := fun g => if g = f then b else fs g

/-- the main program of scripts/undill:18-22: what it prints, and whether it ends without a traceback -/
def undill {Obj : Type} (load : Bytes → Option (Obj × Bytes)) (fs : Files) : List Name → List Obj × Bool
  | [] => ([], true)
  | f :: rest => match fs f with
    | none => ([], false)
    | some b => match load b with
      | none => ([], false)
      | some (o, _) => let r := undill load fs rest; (o :: r.1, r.2)

/-- `p.rfind(c) + 1` (0: not found), genericpath.py:126, 131 -/
def rpos (c : Char) (p : Name) : Nat := p.length - p.reverse.idxOf c

/-- `os.path.splitext` on POSIX, genericpath.py:121-141, called in scripts/get_objgraph:46 -/
def splitext (p : Name) : Name × Name :=
  let sep := rpos '/' p
  let dot := rpos '.' p
  if sep < dot ∧ ((p.take (dot - 1)).drop sep).any (· != '.') then (p.take (dot - 1), p.drop (dot - 1)) else (p, [])

def png : Name := ['.', 'p', 'n', 'g']

/-- how a tool ends -/
inductive End | message | ok | traceback deriving DecidableEq, Repr

/-- the main program of scripts/get_objgraph:31-51.  `types` is `dill.objects`, `draw` what `objgraph.show_refs` puts into the image file (nothing:
objgraph cannot be imported). -/
def getObjgraph {Obj : Type} (types : Name → Option Obj) (load : Bytes → Option (Obj × Bytes)) (draw : Option (Obj → Bytes)) (argv : List Name)
    (fs : Files) : Files × End :=
  match argv with
  | [t] =>
    let found : Option (Obj × Name) := match types t with
      | some o => some (o, t)
      | none => match fs t with
        | none => none
        | some b => match load b with
          | none => none
          | some (o, _) => some (o, (splitext t).1)
    match found with
    | none => (fs, .traceback)
    | some (o, t') => match draw with
      | none => (fs, .message)
      | some d => (fs.put (t' ++ png) (some (d o)), .ok)
  | _ => (fs, .message)

/-- what happens in a run of get_gprof: the lines before the last `;` raise; the last one does not evaluate or gives an object whose class has a
name; dumps raises; the statistics; what gprof2dot and dot make of them (nothing: not installed) -/
structure Run where
  setupRaises : Bool
  typeName : Option Name
  dumpsRaises : Bool
  stats : Bytes
  image : Option Bytes

def profExt : Name := ['.', 'p', 'r', 'o', 'f']
def callPng : Name := ['.', 'c', 'a', 'l', 'l', '.', 'p', 'n', 'g']

/-- the main program of scripts/get_gprof:32-75.  `cProfile.run` writes the statistics also if the statement raises (profile.py:52-58, `finally`). -/
def getGprof (r : Run) (argv : List Name) (fs : Files) : Files × End :=
  if argv.length < 1 then (fs, .message)
  else if r.setupRaises then (fs, .traceback)
  else match r.typeName with
    | none => (fs, .message)
    | some name =>
      let prof := name ++ profExt
      let fs1 := fs.put prof (some r.stats)
      if r.dumpsRaises then (fs1, .traceback)
      else
        let fs2 := match r.image with
          | some img => fs1.put (name ++ callPng) (some img)
          | none => fs1
        (fs2.put prof none, if r.image.isSome then .ok else .message)

end Verif.Scripts
