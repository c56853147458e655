/-! Model of `_getimport`, /repo/dill/source.py:676-720, on lists of characters. `_intypes` and `exec` of the import
statement are parameters. -/
namespace Verif.GetImport

abbrev Str := List Char

/-- what executing a statement does -/
inductive Exec where
  | ok | importError | syntaxError | otherError
  deriving DecidableEq

inductive Err where
  | importError | syntaxError | otherError | timeout
  deriving DecidableEq

structure Env where
  inTypes : Str → Bool
  exec : Str → Exec

/-- `head.rsplit(".", 1)[0]` -/
def parent (head : Str) : Str :=
  match head.reverse.dropWhile (· != '.') with
  | [] => head
  | _ :: r => r.reverse

/-- `_alias+'%s\n' % tail`, lines 690-692 and 701-703 -/
def assign (alias tail : Str) : Str :=
  (if alias = [] ∨ alias = tail then [] else alias ++ " = ".toList) ++ tail ++ "\n".toList

/-- lines 706-710 -/
def importStr (head tail alias : Str) : Str :=
  (if head = [] then "import ".toList ++ tail else "from ".toList ++ head ++ " import ".toList ++ tail) ++
    (if alias = [] ∨ alias = tail then "\n".toList else " as ".toList ++ alias ++ "\n".toList)

def startsWith (p s : Str) : Bool := p.isPrefixOf s

/-- `_getimport(head, tail, alias, verify, builtin)`; the fuel bounds the recursion on shorter heads -/
def getimport (E : Env) : Nat → Str → Str → Str → Bool → Bool → Except Err Str
  | 0, _, _, _, _, _ => .error .timeout
  | n + 1, head0, tail0, alias, verify, builtin =>
    if tail0 = "None".toList ∧ head0 = "types".toList then .ok (assign alias tail0)
    else
      let head := if (tail0 = "Ellipsis".toList ∨ tail0 = "NotImplemented".toList) ∧ head0 = "types".toList then
        "builtins".toList else head0
      let isB := head = "builtins".toList ∨ head = "__builtin__".toList
      let tail := if isB ∧ tail0 = "ellipsis".toList then "EllipsisType".toList else tail0
      if isB ∧ E.inTypes tail = false ∧ builtin = false then .ok (assign alias tail)
      else
        let head := if isB ∧ E.inTypes tail = true then "types".toList else head
        let str := importStr head tail alias
        if verify = true ∧ startsWith "dill.".toList head = false then
          match E.exec str with
          | .ok => .ok str
          | .syntaxError => .error .syntaxError
          | .otherError => .error .otherError
          | .importError =>
            let head' := parent head
            if head' = [] then .error .importError
            else if head' ≠ head then getimport E n head' tail alias verify false
            else .ok str
        else .ok str

end Verif.GetImport
