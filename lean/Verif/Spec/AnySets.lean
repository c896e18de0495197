import Verif.Model.SetOps

/-! The calls by which the set operations copy a graph of which nothing is known. -/

namespace Verif.Spec

open GraphMap

variable {m k : Nat} {NL EL : Type}

/-- One `add_node` for every listed node, with the label the graph gives; or its panic. -/
def nodeAsks (g : GView m k NL EL) : List (Res (Op m k NL EL)) :=
  g.nodeIndices.map (fun n => (g.getNodeLabel n).map (fun l => Op.addNode n l))

/-- One `add_edge` for every listed pair, with the label the graph gives; or its panic. -/
def edgeAsks (g : GView m k NL EL) : List (Res (Op m k NL EL)) :=
  g.edgeIndices.map (fun e => (g.getEdgeLabel e.1 e.2).map (fun l => Op.addEdge e.1 e.2 l))

/-- The first panic in a list of results. -/
def firstPanic {X : Type} : List (Res X) → Option Panic
  | [] => none
  | .error p :: _ => some p
  | .ok _ :: l => firstPanic l

/-- The results that are no panics. -/
def answersOf {X : Type} : List (Res X) → List X
  | [] => []
  | .error _ :: l => answersOf l
  | .ok x :: l => x :: answersOf l

end Verif.Spec
