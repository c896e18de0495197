import Verif.Model.Mmap

/-!
Frozen and mapped graphs behind the traits, for code that never enumerates edges.

`StaticGraph.view` and `MmapGraph.view` hold the enumerated edges and so exist only if the enumeration ends. Code
such as `Bfs` and `Dfs` does not call `edge_indices` or `edges`; for it these two lists are left empty here.
-/

namespace Verif

variable {m k : Nat} {NL EL : Type}

/-- `TypedStaticGraph` behind the traits (static_graph/graph.rs:455-597), without `edge_indices` and `edges`. -/
def StaticGraph.calls (g : StaticGraph m k NL EL) : GView m k NL EL where
  directed := g.directed
  nodeCount := g.numNodes
  edgeCount := g.numEdges
  hasNode := g.hasNode
  hasEdge := g.hasEdge
  nodeLid := g.nodeLid
  edgeLid := fun s t => do
    let e ← g.getEdge s t
    pure (e.bind (·.label))
  nodeIndices := g.nodeIndices
  edgeIndices := []
  nodes := g.nodes
  edges := []
  degree := g.degree
  neighbors := g.neighbors
  maxSeenId := g.maxSeenId
  nodeLabels := g.nodeLabels
  edgeLabels := g.edgeLabels

/-- `StaticGraphMmap` behind the traits (mmap/graph_mmap.rs:153-296), without `edge_indices` and `edges`. -/
def MmapGraph.calls (g : MmapGraph m k NL EL) : GView m k NL EL where
  directed := g.isDirected
  nodeCount := g.numNodes
  edgeCount := g.numEdges
  hasNode := g.hasNode
  hasEdge := g.hasEdge
  nodeLid := g.nodeLid
  edgeLid := fun s t => do
    let e ← g.getEdge s t
    pure (e.bind (·.label))
  nodeIndices := g.nodeIndices
  edgeIndices := []
  nodes := g.nodes
  edges := []
  degree := g.degree
  neighbors := g.neighbors
  maxSeenId := g.maxSeenId
  nodeLabels := g.nodeLabels
  edgeLabels := g.edgeLabels

end Verif
