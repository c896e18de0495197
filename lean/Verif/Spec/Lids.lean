import Verif.Model.GraphMap

/-! The same graphs and calls with label ids of another type. -/

namespace Verif.Spec

variable {m k k' : Nat} {NL EL : Type}

/-- A node's record with every label id replaced. -/
def nodeLids (u : Id k → Id k') (nd : NodeMap m k) : NodeMap m k' :=
  ⟨nd.id, nd.label.map u, nd.neighbors.map (fun p => (p.1, p.2.map u)), nd.inNeighbors⟩

/-- A graph with every label id replaced; the tables stay. -/
def mapLids (u : Id k → Id k') (g : GraphMap m k NL EL) : GraphMap m k' NL EL :=
  ⟨g.directed, g.nodeMap.map (fun p => (p.1, nodeLids u p.2)), g.numEdges, g.nodeLabels, g.edgeLabels, g.maxId⟩

/-- An edge with its label id replaced. -/
def edgeLids (u : Id k → Id k') (e : Edge m k) : Edge m k' := ⟨e.src, e.dst, e.label.map u⟩

/-- The same call for graphs with other label ids. Where a call takes a function of label ids, the other call's
function does the same to the other label ids. -/
inductive OpLids (u : Id k → Id k') : Op m k NL EL → Op m k' NL EL → Prop
  | addNode (n : Id m) (l : Option NL) : OpLids u (.addNode n l) (.addNode n l)
  | removeNode (n : Id m) : OpLids u (.removeNode n) (.removeNode n)
  | addEdge (s t : Id m) (l : Option EL) : OpLids u (.addEdge s t l) (.addEdge s t l)
  | removeEdge (s t : Id m) : OpLids u (.removeEdge s t) (.removeEdge s t)
  | updateNodeLabel (n : Id m) (l : Option NL) : OpLids u (.updateNodeLabel n l) (.updateNodeLabel n l)
  | updateEdgeLabel (s t : Id m) (l : Option EL) : OpLids u (.updateEdgeLabel s t l) (.updateEdgeLabel s t l)
  | addNodeLabel (l : Option NL) : OpLids u (.addNodeLabel l) (.addNodeLabel l)
  | addEdgeLabel (l : Option EL) : OpLids u (.addEdgeLabel l) (.addEdgeLabel l)
  | refineEdgeCount : OpLids u .refineEdgeCount .refineEdgeCount
  | setNodeLabelId (n : Id m) (l : Option (Id k)) : OpLids u (.setNodeLabelId n l) (.setNodeLabelId n (l.map u))
  | setEdgeLabelId (s t : Id m) (l : Option (Id k)) :
    OpLids u (.setEdgeLabelId s t l) (.setEdgeLabelId s t (l.map u))
  | mapNodeLabelIds {p : Id m → Option (Id k) → Option (Id k)} {q : Id m → Option (Id k') → Option (Id k')}
    (h : ∀ n l, q n (l.map u) = (p n l).map u) : OpLids u (.mapNodeLabelIds p) (.mapNodeLabelIds q)
  | mapEdgeLabelIds {p : Id m → Id m → Option (Id k) → Option (Id k)}
    {q : Id m → Id m → Option (Id k') → Option (Id k')} (h : ∀ s t l, q s t (l.map u) = (p s t l).map u) :
    OpLids u (.mapEdgeLabelIds p) (.mapEdgeLabelIds q)

/-- The node label a call is given. -/
def givenNode : Op m k NL EL → Option NL
  | .addNode _ l | .updateNodeLabel _ l | .addNodeLabel l => l
  | _ => none

/-- The edge label a call is given. -/
def givenEdge : Op m k NL EL → Option EL
  | .addEdge _ _ l | .updateEdgeLabel _ _ l | .addEdgeLabel l => l
  | _ => none

/-- The table numbers all its labels with ids up to `k`, also with this label. -/
def Room {X : Type} (k : Nat) (s : SetMap X) (l : Option X) : Prop :=
  ∀ x, l = some x → s.labels.length ≤ k + 1 ∧ (x ∉ s.labels → s.labels.length ≤ k)

end Verif.Spec
