import Verif.Model.View

/-!
`graph_union` (`/repo/src/algorithm/graph_union.rs`), `graph_minus`
(`/repo/src/algorithm/graph_minus.rs`) and the `Clone` of boxed graphs (`/repo/src/generic/graph.rs`).

The operators `+` and `-` (graph_union.rs:92-166, graph_minus.rs:95-169) expand the same macros. The
result's hash map keeps its iteration order while it is filled, which nothing depends on.
-/

namespace Verif

namespace GraphMap

variable {m k : Nat} {NL EL : Type} [DecidableEq NL] [DecidableEq EL]

omit [DecidableEq EL] in
/-- `for id in g.node_indices() { graph.add_node(id, g.get_node_label(id).cloned()) }`
(graph_union.rs:30-35, graph_minus.rs:30-32). -/
def addNodesOf (src : GView m k NL EL) (g : GraphMap m k NL EL) : Res (GraphMap m k NL EL) :=
  src.nodeIndices.foldlM (fun g n => do
    let l ← src.getNodeLabel n
    let r ← g.addNode n l
    pure r.1) g

/-- `for (s, d) in g.edge_indices() { graph.add_edge(s, d, g.get_edge_label(s, d).cloned()) }`
(graph_union.rs:36-41, graph_minus.rs:33-35). -/
def addEdgesOf (src : GView m k NL EL) (g : GraphMap m k NL EL) : Res (GraphMap m k NL EL) :=
  src.edgeIndices.foldlM (fun g e => do
    let l ← src.getEdgeLabel e.1 e.2
    let r ← g.addEdge e.1 e.2 l
    pure r.1) g

omit [DecidableEq NL] [DecidableEq EL] in
/-- `for id in g.node_indices() { graph.remove_node(id); }` (graph_minus.rs:36-38). -/
def removeNodesOf (src : GView m k NL EL) (g : GraphMap m k NL EL) : Res (GraphMap m k NL EL) :=
  src.nodeIndices.foldlM (fun g n => do let r ← g.removeNode n; pure r.1) g

omit [DecidableEq NL] [DecidableEq EL] in
/-- `for (s, d) in g.edge_indices() { graph.remove_edge(s, d); }` (graph_minus.rs:39-41). -/
def removeEdgesOf (src : GView m k NL EL) (g : GraphMap m k NL EL) : Res (GraphMap m k NL EL) :=
  src.edgeIndices.foldlM (fun g e => do let r ← g.removeEdge e.1 e.2; pure r.1) g

/-- `graph_union` (graph_union.rs:71-89) with the macro `add_graph!` (28-43). -/
def graphUnion (g0 g1 : GView m k NL EL) : Res (GraphMap m k NL EL) := do
  let g ← addNodesOf g0 (new g0.directed)
  let g ← addNodesOf g1 g
  let g ← addEdgesOf g0 g
  addEdgesOf g1 g

/-- `graph_minus` (graph_minus.rs:74-92) with the macro `sub_graph!` (28-43). -/
def graphMinus (g0 g1 : GView m k NL EL) : Res (GraphMap m k NL EL) := do
  let g ← addNodesOf g0 (new g0.directed)
  let g ← addEdgesOf g0 g
  let g ← removeNodesOf g1 g
  removeEdgesOf g1 g

/-- `Clone` of `Box<GeneralGraph>` (generic/graph.rs:56-68): the union with an empty graph.
`as_digraph().is_some()` is `is_directed()` in every implementation. -/
def cloneBox (g : GView m k NL EL) : Res (GraphMap m k NL EL) :=
  graphUnion g (new g.directed : GraphMap m k NL EL).view

end GraphMap

end Verif
