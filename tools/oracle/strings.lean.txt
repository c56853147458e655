import Lean.Data.Json
import Verif.Model.PyStr
import Verif.Model.Temp
import Verif.Model.Weakref
import Verif.Model.Check
import Verif.Model.Identify
import Verif.Model.Reducers
import Verif.Model.TypeDict
import Verif.Model.Indent
import Verif.Model.Wire
open Lean Verif

def cs (j : Json) : List Char := ((j.getArr?.toOption.getD #[]).toList.map fun x => Char.ofNat ((x.getNat?.toOption).getD 0))
def ns (j : Json) : List Nat := ((j.getArr?.toOption.getD #[]).toList.map fun x => ((x.getNat?.toOption).getD 0))
def nss (j : Json) : List (List Nat) := ((j.getArr?.toOption.getD #[]).toList.map ns)
def int (j : Json) : Int := j.getInt?.toOption.getD 0
def nat (j : Json) : Nat := j.getNat?.toOption.getD 0
def jc (s : List Char) : Json := toJson (s.map Char.toNat)
def jcs (s : List (List Char)) : Json := .arr (s.map jc).toArray
def jn (s : List Nat) : Json := toJson s
def jo (f : α → Json) : Option α → Json | some x => f x | none => .null


def run (f : String) (a : Array Json) : Json :=
  let x := a[0]?.getD .null
  let y := a[1]?.getD .null
  let z := a[2]?.getD .null
  match f with
  | "split" => jcs (PyStr.split (cs x) (cs y))
  | "splitWs" => jcs (PyStr.splitWs (cs x))
  | "rstrip" => jc (PyStr.rstrip ((cs x).headD 'a') (cs y))
  | "tsplit" => jcs (Temp.split (cs x))
  | "tstrip" => jc (Temp.strip (cs x))
  | "splitlines" => jcs (Temp.splitlines (cs x))
  | "utf8t" => jo jc (Temp.utf8 (ns x))
  | "int16" => jo (fun o => jo (fun (n : Nat) => toJson n) o) (Weak.int16 (cs x)) |> fun r => Json.arr #[.bool (Weak.int16 (cs x)).isSome, r]
  | "reprBytes" => jc (Check.reprBytes ((ns x).map UInt8.ofNat))
  | "loadedBy" => jo (fun l => jn (l.map UInt8.toNat)) (Check.loadedBy ("import dill; print(dill.loads(".toList ++ cs x ++ "))".toList))
  | "csplit" => jcs (Check.split (nat x) (cs y))
  | "utf8Dec" => jo jn (Identify.utf8Dec (ns x))
  | "utf8Enc" => jn (Identify.utf8Enc (ns x))
  | "rawDec" => jo jn (Identify.rawDec (ns x))
  | "rawEnc" => jn (Identify.rawEnc (ns x))
  | "readOp" => jo (fun p => .arr #[toJson p.1, jn p.2.1, jn p.2.2]) (Identify.readOp (fun _ _ => true) (ns x))
  | "reprRange" => match Reducers.reprRange (some 4300) ⟨int x, int y, int z⟩ with | .ok s => jc s | .error _ => .null
  | "merge" => jo jn (TypeDict.merge (TypeDict.total (nss x)) (nss x))
  | "mangle" => jc (TypeDict.mangle (String.ofList (cs x)) (String.ofList (cs y))).toList
  | "expandtabs" => jc (Indent.expandtabs 0 (cs x))
  | "indentsize" => toJson (Indent.indentsize (cs x))
  | "encodeLong" => jn ((Wire.encodeLong (int x)).map UInt8.toNat)
  | "encInt" => jo (fun l => jn (l.map UInt8.toNat)) (Wire.encInt (int x))
  | "encStr" => jo (fun l => jn (l.map UInt8.toNat)) (Wire.encStr (String.ofList (cs x)))
  | "encStr4" => jo (fun l => jn (l.map UInt8.toNat)) (Wire.encStr4 (String.ofList (cs x)))
  | "fromBytes" => toJson (Wire.fromBytes ((ns x).map UInt8.ofNat))
  | _ => .str "??"

def main (args : List String) : IO Unit := do
  for l in ← IO.FS.lines args[0]! do
    match Json.parse l with
    | .ok j =>
      let f := (j.getObjValAs? String "f").toOption.getD ""
      let a := ((j.getObjVal? "a").toOption.bind (·.getArr?.toOption)).getD #[]
      IO.println (run f a).compress
    | .error e => IO.println s!"err {e}"
