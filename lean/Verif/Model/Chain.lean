import Verif.Model.Dict
/-
Model of dill.pointers: /repo/dill/pointers.py:19-118 (parent, parents, children, find_chain).
Objects are identified by their ids.  The reference graph is fixed during the search (no concurrent
mutation); the temporaries of the search itself (queue, dicts, frames) are not part of the graph, which
is what the `ignore.add(id(...))` lines 86-92, 106 achieve.
-/
namespace Verif.Chain

abbrev Node := Nat

structure St where
  queue : List Node
  depth : Dict Node Nat
  parent : Dict Node (Option Node)

/-- the inner loop over the neighbours of `target`, pointers.py:107-113. -/
def visit (ignore : Node → Bool) (target : Node) (td : Nat) : List Node → St → St
  | [], s => s
  | n :: ns, s =>
    if ignore n then visit ignore target td ns s
    else if (s.depth.get n).isSome then visit ignore target td ns s
    else visit ignore target td ns
      { queue := s.queue ++ [n], depth := s.depth.set n (td + 1), parent := s.parent.set n (some target) }

/-- follow the parent links, pointers.py:98-102 (`none` = KeyError or no end within `fuel`). -/
def follow (parent : Dict Node (Option Node)) : Nat → Node → Option (List Node)
  | 0, _ => none
  | k + 1, t => match parent.get t with
    | none => none
    | some none => some [t]
    | some (some p) => (follow parent k p).map (t :: ·)

/-- the main loop, pointers.py:95-114; `none` = did not finish within `fuel` iterations. -/
def loop (obj : Node) (pred : Node → Bool) (edges : Node → List Node) (maxDepth : Nat)
    (ignore : Node → Bool) : Nat → St → Option (List Node)
  | 0, _ => none
  | fuel + 1, s => match s.queue with
    | [] => some [obj]
    | t :: q =>
      if pred t then follow s.parent (s.parent.length + 1) t
      else match s.depth.get t with
        | none => none
        | some td =>
          let s := { s with queue := q }
          if td < maxDepth then
            loop obj pred edges maxDepth ignore fuel (visit ignore t td (edges t) s)
          else loop obj pred edges maxDepth ignore fuel s

/-- `find_chain`, pointers.py:82-115. -/
def findChain (fuel : Nat) (obj : Node) (pred : Node → Bool) (edges : Node → List Node)
    (maxDepth : Nat) (ignore : Node → Bool) : Option (List Node) :=
  loop obj pred edges maxDepth ignore fuel
    { queue := [obj], depth := [(obj, 0)], parent := [(obj, none)] }

/-- `parents(obj, objtype, depth, ignore)`, pointers.py:39-54: `ignore` is computed but not passed on. -/
def parents (fuel : Nat) (referents : Node → List Node) (isType : Node → Bool) (obj : Node)
    (depth : Nat) (_ignore : Node → Bool) : Option (List Node) :=
  (findChain fuel obj isType referents depth (fun _ => false)).map List.reverse

/-- `children(obj, objtype, depth, ignore)`, pointers.py:57-75. -/
def children (fuel : Nat) (referrers : Node → List Node) (isType : Node → Bool) (obj : Node)
    (depth : Nat) (ignore : Node → Bool) : Option (List Node) :=
  findChain fuel obj isType referrers depth ignore

/-- `parent(obj, objtype)`, pointers.py:19-36 (outer `none`: not finished; inner: None). -/
def parent (fuel : Nat) (referents : Node → List Node) (isType : Node → Bool) (obj : Node)
    (ignore : Node → Bool) : Option (Option Node) :=
  (parents fuel referents isType obj 1 ignore).map (fun c => match c.getLast? with
    | some p => if p = obj then none else some p
    | none => none)

end Verif.Chain
