import Verif.Model.Dict
/-
Model of dill.detect's inspection of functions and code: /repo/dill/detect.py:62-81 (nestedcode, code),
122-143 (freevars), 146-170 (nestedglobals), 176-221 (globalvars).
Names and displayed lines are character lists, because nestedglobals works on the text printed by
`dis.dis`.
-/
namespace Verif.Detect

abbrev Str := List Char

/-- One instruction as `dis.dis` displays it: anything before the opcode name, the opcode name, the
numeric argument, and the parenthesised argument text if there is one (CPython `dis.Instruction`). -/
structure Instr where
  pre : Str
  opname : Str
  mid : Str
  arg : Option Str
  deriving DecidableEq, Repr

/-- The displayed line. -/
def Instr.line (i : Instr) : Str :=
  i.pre ++ i.opname ++ i.mid ++
    match i.arg with
    | none => []
    | some r => '(' :: r ++ [')']

mutual
/-- A code object: its name, instructions and constants (`co_consts`). -/
inductive Code where
  | mk (name : Str) (instrs : List Instr) (consts : Consts)
/-- The constants of a code object, in order: code objects or anything else. -/
inductive Consts where
  | nil
  | other (n : Nat) (rest : Consts)
  | code (c : Code) (rest : Consts)
end

mutual
def Code.decEq : (a b : Code) → Decidable (a = b)
  | .mk n i c, .mk n' i' c' =>
    match decEq n n', decEq i i', Consts.decEq c c' with
    | isTrue h1, isTrue h2, isTrue h3 => isTrue (by rw [h1, h2, h3])
    | isFalse h, _, _ => isFalse (by intro e; cases e; exact h rfl)
    | _, isFalse h, _ => isFalse (by intro e; cases e; exact h rfl)
    | _, _, isFalse h => isFalse (by intro e; cases e; exact h rfl)
def Consts.decEq : (a b : Consts) → Decidable (a = b)
  | .nil, .nil => isTrue rfl
  | .other n r, .other n' r' =>
    match decEq n n', Consts.decEq r r' with
    | isTrue h1, isTrue h2 => isTrue (by rw [h1, h2])
    | isFalse h, _ => isFalse (by intro e; cases e; exact h rfl)
    | _, isFalse h => isFalse (by intro e; cases e; exact h rfl)
  | .code n r, .code n' r' =>
    match Code.decEq n n', Consts.decEq r r' with
    | isTrue h1, isTrue h2 => isTrue (by rw [h1, h2])
    | isFalse h, _ => isFalse (by intro e; cases e; exact h rfl)
    | _, isFalse h => isFalse (by intro e; cases e; exact h rfl)
  | .nil, .other .. => isFalse (by intro e; cases e)
  | .nil, .code .. => isFalse (by intro e; cases e)
  | .other .., .nil => isFalse (by intro e; cases e)
  | .other .., .code .. => isFalse (by intro e; cases e)
  | .code .., .nil => isFalse (by intro e; cases e)
  | .code .., .other .. => isFalse (by intro e; cases e)
end

instance : DecidableEq Code := Code.decEq
instance : DecidableEq Consts := Consts.decEq

def Code.name : Code → Str | .mk n _ _ => n
def Code.instrs : Code → List Instr | .mk _ i _ => i
def Code.consts : Code → Consts | .mk _ _ c => c

/-- Python set operations, on duplicate-free lists. -/
def setAdd {α : Type} [DecidableEq α] (s : List α) (a : α) : List α := if a ∈ s then s else s ++ [a]
def setUnion {α : Type} [DecidableEq α] (s t : List α) : List α := t.foldl setAdd s

/-! ### nestedcode, /repo/dill/detect.py:59-70 -/

mutual
/-- `nestedcode(code, recurse)`: /repo/dill/detect.py:59-70. -/
def nestedcode (recurse : Bool) : Code → List Code
  | .mk _ _ consts => nestedConsts recurse consts []
/-- the loop over `co_consts`. -/
def nestedConsts (recurse : Bool) : Consts → List Code → List Code
  | .nil, nested => nested
  | .other _ rest, nested => nestedConsts recurse rest nested
  | .code c rest, nested =>
    let nested := setAdd nested c
    let nested := if recurse then setUnion nested (nestedcode recurse c) else nested
    nestedConsts recurse rest nested
end

/-! ### nestedglobals, /repo/dill/detect.py:146-170 -/

mutual
/-- The lines `dis.dis(code)` prints: since Python 3.7 it also disassembles the code constants, at every
depth (CPython Lib/dis.py `_disassemble_recursive`, depth=None).  `hdr` is the "Disassembly of <code
object NAME ...>:" line printed before each nested one. -/
def disLines (hdr : Code → Str) : Code → List Str
  | .mk _ instrs consts => instrs.map Instr.line ++ disConsts hdr consts
def disConsts (hdr : Code → Str) : Consts → List Str
  | .nil => []
  | .other _ rest => disConsts hdr rest
  | .code c rest => [[], hdr c] ++ disLines hdr c ++ disConsts hdr rest
end

/-- `sub in s`. -/
def hasSub (sub : Str) : Str → Bool
  | [] => sub.isEmpty
  | c :: s => sub.isPrefixOf (c :: s) || hasSub sub s

/-- `s.split(ch)[-1]`. -/
def afterLast (ch : Char) (s : Str) : Str := (s.reverse.takeWhile (· != ch)).reverse
/-- `s.split(ch)[0]`. -/
def beforeFirst (ch : Char) (s : Str) : Str := s.takeWhile (· != ch)

/-- `s.replace(pat, '')` for a nonempty pattern, left to right (fuel: the length of `s`). -/
def removeAllAux (pat : Str) : Nat → Str → Str
  | 0, s => s
  | _ + 1, [] => []
  | n + 1, c :: s =>
    if pat.isPrefixOf (c :: s) then removeAllAux pat n ((c :: s).drop pat.length)
    else c :: removeAllAux pat n s
def removeAll (pat s : Str) : Str := removeAllAux pat s.length s

def sGLOBAL : Str := "_GLOBAL".toList
def sNULLp : Str := "NULL + ".toList
def spNULL : Str := " + NULL".toList

/-- The name extracted from a displayed line, detect.py:161-165. -/
def nameOf (canNull : Bool) (line : Str) : Str :=
  let name := beforeFirst ')' (afterLast '(' line)
  if canNull then removeAll spNULL (removeAll sNULLp name) else name

/-- The names collected from the displayed lines, detect.py:159-165. -/
def scanLines (canNull : Bool) (lines : List Str) (names : List Str) : List Str :=
  lines.foldl (fun names line =>
    if hasSub sGLOBAL line then setAdd names (nameOf canNull line) else names) names

mutual
/-- `nestedglobals(code, recurse)`, /repo/dill/detect.py:146-170. -/
def nestedglobals (canNull : Bool) (hdr : Code → Str) (recurse : Bool) : Code → List Str
  | .mk n instrs consts =>
    let names := scanLines canNull (disLines hdr (.mk n instrs consts)) []
    if recurse then nestedglobalsConsts canNull hdr consts names else names
def nestedglobalsConsts (canNull : Bool) (hdr : Code → Str) : Consts → List Str → List Str
  | .nil, names => names
  | .other _ rest, names => nestedglobalsConsts canNull hdr rest names
  | .code c rest, names =>
    nestedglobalsConsts canNull hdr rest (setUnion names (nestedglobals canNull hdr true c))
end

/-! ### freevars, /repo/dill/detect.py:122-143 -/

abbrev Obj := Nat

/-- A function object: code, free-variable names, closure cells (`none` = empty cell), globals. -/
structure Func where
  code : Code
  co_names : List Str
  freevarNames : List Str
  closure : List (Option Obj)
  globals : Dict Str Obj

/-- Any object: a plain function, a bound method of a function, or something else. -/
inductive PyObj where
  | func (f : Func)
  | method (f : Func)
  | other

/-- `freevars(func)`. -/
def freevars : PyObj → Dict Str Obj
  | .func f | .method f =>
    (f.freevarNames.zip f.closure).foldl (fun d p => match p.2 with
      | some v => Dict.set d p.1 v
      | none => d) ([] : Dict Str Obj)
  | .other => []

/-! ### globalvars, /repo/dill/detect.py:176-221 -/

/-- Objects by identity. -/
abbrev Heap := Obj → PyObj

/-- Resolve `ismethod(func): func = func.__func__` then `isfunction`.  (The identity of the underlying
function of a method is given by `H`'s entry; only functions can be `orig_func` in the `is` test, so
methods carry their function's identity here.) -/
structure Ctx where
  H : Heap
  underlying : Obj → Obj            -- id of `func.__func__` for a method, of `func` otherwise
  gnames : Code → List Str          -- nestedglobals(code)

/-- dict comprehension `{n: globs[n] for n in names if n in globs}`. -/
def restrict (names : List Str) (globs : Dict Str Obj) : Dict Str Obj :=
  names.foldl (fun d n => match globs.get n with
    | some v => Dict.set d n v
    | none => d) ([] : Dict Str Obj)

/-- the loop over the closure cells, detect.py:184-192. `none` = recursion never returns. -/
def closureLoop (rec_ : Obj → Option (Dict Str Obj)) :
    List (Option Obj) → List Str → Dict Str Obj → Option (List Str × Dict Str Obj)
  | [], names, globs => some (names, globs)
  | none :: cs, names, globs => closureLoop rec_ cs names globs
  | some o :: cs, names, globs =>
    match rec_ o with
    | none => none
    | some vars => closureLoop rec_ cs (setUnion names vars.keys) (globs.update vars)

/-- the loop over the copied set of names, detect.py:201-207. -/
def keyLoop (rec_ : Obj → Option (Dict Str Obj)) (self : Obj) (globs : Dict Str Obj) :
    List Str → List Str → Option (List Str)
  | [], names => some names
  | k :: ks, names =>
    match globs.get k with
    | none => keyLoop rec_ self globs ks names      -- globalvars(None) = {}
    | some g =>
      if g = self then keyLoop rec_ self globs ks names
      else match rec_ g with
        | none => none
        | some vars => keyLoop rec_ self globs ks (setUnion names vars.keys)

/-- `globalvars(func, recurse, builtin=False)`, with an explicit recursion depth: `none` when the
recursion does not return within `fuel` nested calls. -/
def globalvars (C : Ctx) (recurse : Bool) : Nat → Obj → Option (Dict Str Obj)
  | 0, _ => none
  | fuel + 1, o =>
    match C.H o with
    | .other => some []
    | .func f | .method f =>
      match closureLoop (globalvars C recurse fuel) f.closure [] [] with
      | none => none
      | some (names, globs) =>
        let globs := globs.update f.globals
        if !recurse then
          some (restrict (setUnion names f.co_names) globs)
        else
          let names := setUnion names (C.gnames f.code)
          match keyLoop (globalvars C recurse fuel) (C.underlying o) globs names names with
          | none => none
          | some names => some (restrict names globs)

end Verif.Detect
