import Verif.Model.Token

/-!
Directed graphs given by edge lists.

The code uses `petgraph::GraphMap` with `algo::toposort` and `algo::has_path_connecting`.
petgraph is not modelled line by line: its contract is that `has_path_connecting g a b` holds iff `b` can be reached
from `a` along zero or more edges, and that `toposort g` fails iff some node can reach itself along one or more edges.
The functions below compute these two answers; `Verif/Proofs/Graph.lean` proves that they do.
-/

namespace Verif

variable {α : Type} [DecidableEq α]

/-- Worklist: pick an edge that leaves the visited set, remove it from the list, and visit its target. -/
def reachAux : Nat → List (α × α) → List α → List α
  | 0, _, v => v
  | n + 1, es, v =>
    match es.find? (fun e => e.1 ∈ v) with
    | none => v
    | some e => reachAux n (es.erase e) (e.2 :: v)

/-- The nodes reachable from `a` along zero or more edges. -/
def reachFrom (es : List (α × α)) (a : α) : List α := reachAux es.length es [a]

/-- `petgraph::algo::has_path_connecting`. -/
def hasPath (es : List (α × α)) (a b : α) : Bool := b ∈ reachFrom es a

/-- `petgraph::algo::toposort(..).is_ok()`. -/
def isAcyclic (es : List (α × α)) : Bool := es.all fun e => !(hasPath es e.2 e.1)

end Verif
