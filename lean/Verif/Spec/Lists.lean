import Verif.Spec.SetOps
import Verif.Spec.ConnComp

/-! What a graph behind the traits lists: its nodes and edges with their labels, where an edge may have an
end that is not listed as a node. Frozen graphs with gaps in their ids are of this kind. -/

namespace Verif.Spec

variable {m k : Nat} {NL EL : Type}

/-- `node_indices` and `edge_indices` of `g` are those of `A`. -/
structure Listing (g : GView m k NL EL) (A : AGraph (Id m) NL EL) : Prop where
  sym : g.directed = false → ∀ s t, A.edge s t = A.edge t s
  memNodes : ∀ n, n ∈ g.nodeIndices ↔ (A.node n).isSome
  edgesNodup : g.edgeIndices.Nodup
  memEdges : ∀ s t, (s, t) ∈ g.edgeIndices ↔ A.Listed g.directed s t

/-- `node_indices` and `edge_indices` of `g`, with the labels of what they list, are those of `A`. -/
structure Lists (g : GView m k NL EL) (A : AGraph (Id m) NL EL) : Prop extends Listing g A where
  nodeLabel : ∀ n l, A.node n = some l → g.getNodeLabel n = .ok l
  edgeLabel : ∀ s t l, A.edge s t = some l → (g.directed = true ∨ s ≤ t) → g.getEdgeLabel s t = .ok l

open Classical in
/-- The graph with the missing ends of its edges as further nodes, unlabelled. -/
noncomputable def AGraph.closed (A : AGraph (Id m) NL EL) : AGraph (Id m) NL EL where
  node n := match A.node n with
    | some l => some l
    | none => if A.Touched n then some none else none
  edge := A.edge

/-- The graph with the ids below `n` as its nodes, labelled as the nodes of these ids. -/
def AGraph.renumbered (A : AGraph (Id m) NL EL) (n : Nat) : AGraph (Id m) NL EL where
  node x := if x.val < n then some (A.node x).join else none
  edge := A.edge

/-- The graph without the nodes of `B`, the edges at them, and the edges of `B`. -/
def AGraph.without (A B : AGraph (Id m) NL EL) : AGraph (Id m) NL EL where
  node n := if (B.node n).isSome then none else A.node n
  edge s t := if (B.node s).isSome ∨ (B.node t).isSome ∨ (B.edge s t).isSome then none else A.edge s t

end Verif.Spec
