import Verif.Model.Release
import Verif.Model.Caught

/-!
`TypedGraphMap` with a 64-bit edge counter (`/repo/src/graph_impl/graph_map/graph.rs`).

`Model/GraphMap.lean` counts edges without bound, which is right for graphs made by calls (C117). A file may set
the counter to any value, so for graphs that were imported the functions below repeat the calls that count up,
as they behave with overflow checks. As in `Model/Caught.lean` they keep the graph as it is at the panic.
-/

namespace Verif.GraphMap

variable {m k : Nat} {NL EL : Type} [DecidableEq NL] [DecidableEq EL]

/-- `add_edge` (graph_map/graph.rs:331-359): `self.num_of_edges += 1` (357) comes last, so the edge stays if it
panics. -/
def addEdgeChecked (g : GraphMap m k NL EL) (s t : Id m) (label : Option EL) :
    GraphMap m k NL EL × Res Bool :=
  match g.addEdge s t label with
  | .ok (g', b) =>
    if word ≤ g.numEdges + 1 then ({ g' with numEdges := g.numEdges }, .error .overflow) else (g', .ok b)
  | .error p => (g, .error p)

/-- `update_edge_label` (graph_map/graph.rs:584-592). -/
def updateEdgeLabelChecked (g : GraphMap m k NL EL) (s t : Id m) (label : Option EL) :
    GraphMap m k NL EL × Res Bool :=
  if !g.hasEdge s t then (g, .ok false)
  else ((g.addEdgeChecked s t label).1, (g.addEdgeChecked s t label).2.map (fun _ => true))

/-- One call within `catch_unwind`: the graph afterwards, and the panic if there was one. -/
def applyChecked (g : GraphMap m k NL EL) : Op m k NL EL → GraphMap m k NL EL × Res Unit
  | .addEdge s t l => ((g.addEdgeChecked s t l).1, (g.addEdgeChecked s t l).2.map (fun _ => ()))
  | .updateEdgeLabel s t l =>
    ((g.updateEdgeLabelChecked s t l).1, (g.updateEdgeLabelChecked s t l).2.map (fun _ => ()))
  | op => g.applyCaught op

/-- Calls one after another, panics caught. -/
def execChecked (g : GraphMap m k NL EL) (ops : List (Op m k NL EL)) : GraphMap m k NL EL :=
  ops.foldl (fun g op => (g.applyChecked op).1) g

end Verif.GraphMap
