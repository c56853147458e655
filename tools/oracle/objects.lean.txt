import Lean.Data.Json
import Verif.Model.Snapshot
import Verif.Model.Super
import Verif.Model.SafeOpen
import Verif.Model.Wire
import Verif.Model.FileHandle
import Verif.Model.TempFile
open Lean Verif
def arr (j : Json) : List Json := (j.getArr?.toOption.getD #[]).toList
def nat (j : Json) : Nat := j.getNat?.toOption.getD 0
def str (j : Json) : String := j.getStr?.toOption.getD ""
def at' (j : Json) (i : Nat) : Json := (arr j)[i]?.getD .null

open Snapshot in
def op (j : Json) : Op := if str (at' j 0) = "a" then .assign (str (at' j 1)) (nat (at' j 2)) (nat (at' j 3) = 1) else .delete (str (at' j 1))

open Snapshot in
def snap (a : Json) : Json :=
  let d : PDict := (arr (at' a 0)).map fun e => some (str (at' e 0), nat (at' e 1))
  let sc := (arr (at' a 1)).map fun l => (arr l).map op
  match loop (fun t => sc[t]?.getD []) ((live d).length + 1) 0 d (iter d) with
  | .error _ => .str "RuntimeError"
  | .ok (es, _, _) => toJson (es.map fun e => (e.1, e.2))

open Super in
def sup (a : Json) : Json :=
  -- mros, dicts [[cls,name,val]], typeOf list, this, obj, name
  let mro := (arr (at' a 0)).map fun l => (arr l).map nat
  let dict := (arr (at' a 1)).map fun e => (nat (at' e 0), str (at' e 1), nat (at' e 2))
  let ty := (arr (at' a 2)).map nat
  let W : World := ⟨fun o => mro[o]?, fun c n => (dict.find? fun e => e.1 = c ∧ e.2.1 = n).map (·.2.2),
    fun o => ty[o]?.getD 0, fun o => ty[o]?, fun a _ _ => some a, fun _ => none⟩
  match newSuper W (some (nat (at' a 3))) (some (nat (at' a 4))) with
  | .error _ => .str "TypeError"
  | .ok s => match read W s (str (at' a 5)) with
    | .error _ => .str "AttributeError"
    | .ok v => toJson v

open SafeOpen in
def sopen (a : Json) : Json :=
  let ents := (arr (at' a 0)).map fun e => (str (at' e 0), if str (at' e 1) = "f" then Entry.file (nat (at' e 2)) else Entry.link (str (at' e 2)))
  let s : S := ⟨fun p => ((ents.find? fun e => e.1 = p).map (·.2)).getD .absent, fun i => some [i], 100⟩
  let fl := (arr (at' a 2)).map str
  let f : Flags := ⟨fl.contains "creat", fl.contains "excl", fl.contains "trunc", fl.contains "nofollow"⟩
  match sysOpen s (str (at' a 1)) f with
  | (.error e, _) => .str (match e with | .exists_ => "EEXIST" | .loop => "ELOOP" | .noent => "ENOENT" | .refused => "?")
  | (.ok i, s') => .arr #[toJson i, toJson (s'.data i)]

def univ (a : Json) : Json := .str (String.ofList (File.univ (str (at' a 0)).toList))

def buf (a : Json) : Json :=
  let b := (arr (at' a 0)).foldl (fun (b : TempFile.Buffer) c => TempFile.Buffer.write { b with pos := nat (at' c 0) } ((arr (at' c 1)).map fun x => UInt8.ofNat (nat x))) ⟨[], 0⟩
  toJson (b.value.map UInt8.toNat)

def run (f : String) (a : Json) : Json :=
  match f with
  | "snap" => snap a
  | "sup" => sup a
  | "sopen" => sopen a
  | "univ" => univ a
  | "buf" => buf a
  | _ => .str "??"

def main (args : List String) : IO Unit := do
  for l in ← IO.FS.lines args[0]! do
    match Json.parse l with
    | .ok j => IO.println (run ((j.getObjValAs? String "f").toOption.getD "") ((j.getObjVal? "a").toOption.getD .null)).compress
    | .error e => IO.println s!"err {e}"
