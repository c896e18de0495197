import Verif.Model.View
import Verif.Spec.Graph

/-! What it means that a graph behind the traits presents an abstract labelled graph. -/

namespace Verif.Spec

variable {m k : Nat} {NL EL : Type}

/-- The pairs a graph enumerates as edges: all edges of a directed graph, the orientation
`start <= target` of an undirected one. -/
def AGraph.Listed (directed : Bool) (A : AGraph (Id m) NL EL) (s t : Id m) : Prop :=
  (A.edge s t).isSome ∧ (directed = true ∨ s ≤ t)

/-- `g` answers all read-only questions like the abstract graph `A`. Edges may only be asked about at
a present start node, labels only of present nodes and listed edges. -/
structure Shows (g : GView m k NL EL) (A : AGraph (Id m) NL EL) : Prop where
  /-- The abstract graph is a graph: endpoints are nodes, undirected edges have no orientation. -/
  ends : ∀ s t, (A.edge s t).isSome → (A.node s).isSome ∧ (A.node t).isSome
  sym : g.directed = false → ∀ s t, A.edge s t = A.edge t s
  hasNode : ∀ n, g.hasNode n = (A.node n).isSome
  nodesNodup : g.nodeIndices.Nodup
  memNodes : ∀ n, n ∈ g.nodeIndices ↔ (A.node n).isSome
  nodeCount : g.nodeCount = g.nodeIndices.length
  hasEdge : ∀ s t, (A.node s).isSome → g.hasEdge s t = .ok (A.edge s t).isSome
  edgesNodup : g.edgeIndices.Nodup
  memEdges : ∀ s t, (s, t) ∈ g.edgeIndices ↔ A.Listed g.directed s t
  edgesEnds : g.edges.map (fun e => (e.src, e.dst)) = g.edgeIndices
  nodeLabel : ∀ n l, A.node n = some l → g.getNodeLabel n = .ok l
  edgeLabel : ∀ s t l, A.edge s t = some l → (g.directed = true ∨ s ≤ t) →
    g.getEdgeLabel s t = .ok l
  neighbors : ∀ n, (A.node n).isSome → ∃ l, g.neighbors n = .ok l ∧ l.Pairwise (· < ·) ∧
    (∀ t, t ∈ l ↔ (A.edge n t).isSome) ∧ g.degree n = .ok l.length
  maxSeen : (∃ n, (A.node n).isSome) →
    ∃ M, g.maxSeenId = .ok (some M) ∧ ∀ n, (A.node n).isSome → n ≤ M

/-- `A` is a labelled subgraph of `B`. -/
def AGraph.Sub (A B : AGraph (Id m) NL EL) : Prop :=
  (∀ n l, A.node n = some l → B.node n = some l) ∧
  (∀ s t l, A.edge s t = some l → B.edge s t = some l)

end Verif.Spec
