import Verif.Model.GraphMap

/-!
What a panic caught with `std::panic::catch_unwind` leaves behind in a `TypedGraphMap`
(`/repo/src/graph_impl/graph_map/graph.rs`).

A call that panics has already changed the graph, and the changes stay. The functions below repeat
`remove_node` and `remove_edge`, keeping the graph as it is at the point of the panic. The other calls can
only panic before they change anything.
-/

namespace Verif

namespace GraphMap

variable {m k : Nat} {NL EL : Type}

/-- A loop `for n in ns { node_map.get_mut(&n).unwrap()…; }` (graph_map/graph.rs:303-306, 307-310, 312-315): the
graph at its end or at the panic. -/
def withNodesCaught (f : NodeMap m k → NodeMap m k) :
    List (Id m) → GraphMap m k NL EL → GraphMap m k NL EL × Res Unit
  | [], g => (g, .ok ())
  | n :: ns, g =>
    match AL.get g.nodeMap n with
    | some nd => withNodesCaught f ns { g with nodeMap := AL.set g.nodeMap n (f nd) }
    | none => (g, .error .unwrapNone)

/-- The loops of `remove_node` (graph_map/graph.rs:302-316). -/
def unlinkCaught (g : GraphMap m k NL EL) (node : NodeMap m k) (id : Id m) :
    GraphMap m k NL EL × Res Unit :=
  if g.directed then
    match withNodesCaught (fun nd => nd.removeInEdge id) node.neighborIds g with
    | (g, .ok ()) => withNodesCaught (fun nd => (nd.removeEdge id).1) node.inNeighborIds g
    | (g, .error p) => (g, .error p)
  else withNodesCaught (fun nd => (nd.removeEdge id).1) node.neighborIds g

/-- `remove_node` (graph_map/graph.rs:299-324). -/
def removeNodeCaught (g : GraphMap m k NL EL) (id : Id m) :
    GraphMap m k NL EL × Res (Option (NodeMap m k)) :=
  match AL.get g.nodeMap id with
  | some node =>
    match unlinkCaught { g with nodeMap := AL.erase g.nodeMap id } node id with
    | (g, .ok ()) =>
      if g.numEdges < node.degree + node.inDegree then (g, .error .underflow)
      else ({ g with numEdges := g.numEdges - (node.degree + node.inDegree) }, .ok (some node))
    | (g, .error p) => (g, .error p)
  | none => (g, .ok none)

/-- `remove_edge` (graph_map/graph.rs:372-395). -/
def removeEdgeCaught (g : GraphMap m k NL EL) (s t : Id m) :
    GraphMap m k NL EL × Res (Option (Edge m k)) :=
  if !g.hasEdge s t then (g, .ok none)
  else
    match AL.get g.nodeMap s with
    | none => (g, .error .unwrapNone)
    | some nd =>
      let g := { g with nodeMap := AL.set g.nodeMap s (nd.removeEdge t).1 }
      match AL.get g.nodeMap t with
      | none => (g, .error .unwrapNone)
      | some nt =>
        let nt := if g.directed then nt.removeInEdge s else (nt.removeEdge s).1
        let g := { g with nodeMap := AL.set g.nodeMap t nt }
        if g.numEdges < 1 then (g, .error .underflow)
        else ({ g with numEdges := g.numEdges - 1 }, .ok (nd.removeEdge t).2)

variable [DecidableEq NL] [DecidableEq EL]

/-- One call within `catch_unwind`: the graph afterwards, and the panic if there was one. -/
def applyCaught (g : GraphMap m k NL EL) : Op m k NL EL → GraphMap m k NL EL × Res Unit
  | .removeNode n => ((g.removeNodeCaught n).1, (g.removeNodeCaught n).2.map (fun _ => ()))
  | .removeEdge s t => ((g.removeEdgeCaught s t).1, (g.removeEdgeCaught s t).2.map (fun _ => ()))
  | op =>
    match g.apply op with
    | .ok g' => (g', .ok ())
    | .error p => (g, .error p)

/-- The graphs a program can reach from `start` by a history of calls (latest last) if it catches the
panics. -/
inductive Caught (start : GraphMap m k NL EL) : List (Op m k NL EL) → GraphMap m k NL EL → Prop
  | nil : Caught start [] start
  | step {ops g} (op) : Caught start ops g → Caught start (ops ++ [op]) (g.applyCaught op).1
  | rehash {ops g nm} : Caught start ops g → g.nodeMap.Perm nm →
      Caught start ops { g with nodeMap := nm }

end GraphMap

end Verif
