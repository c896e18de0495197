import Verif.Model.GraphMap

/-! The same graphs, calls and edges with other node ids, perhaps of another id type. -/

namespace Verif.Spec

variable {m m' k : Nat} {NL EL : Type}

/-- A node's record with every id replaced. -/
def nodeIds (f : Id m → Id m') (nd : NodeMap m k) : NodeMap m' k :=
  ⟨f nd.id, nd.label, nd.neighbors.map (fun p => (f p.1, p.2)), nd.inNeighbors.map f⟩

/-- A graph with every node id replaced; label ids, counters and the order of the entries stay. -/
def mapIds (f : Id m → Id m') (g : GraphMap m k NL EL) : GraphMap m' k NL EL :=
  ⟨g.directed, g.nodeMap.map (fun p => (f p.1, nodeIds f p.2)), g.numEdges, g.nodeLabels, g.edgeLabels,
    g.maxId.map f⟩

/-- An edge with both ends replaced. -/
def edgeIds (f : Id m → Id m') (e : Edge m k) : Edge m' k := ⟨f e.src, f e.dst, e.label⟩

/-- The same call with other ids. Where a call takes a function of ids, the other call's function does the same
to the other ids. -/
inductive OpIds (f : Id m → Id m') : Op m k NL EL → Op m' k NL EL → Prop
  | addNode (n : Id m) (l : Option NL) : OpIds f (.addNode n l) (.addNode (f n) l)
  | removeNode (n : Id m) : OpIds f (.removeNode n) (.removeNode (f n))
  | addEdge (s t : Id m) (l : Option EL) : OpIds f (.addEdge s t l) (.addEdge (f s) (f t) l)
  | removeEdge (s t : Id m) : OpIds f (.removeEdge s t) (.removeEdge (f s) (f t))
  | updateNodeLabel (n : Id m) (l : Option NL) : OpIds f (.updateNodeLabel n l) (.updateNodeLabel (f n) l)
  | updateEdgeLabel (s t : Id m) (l : Option EL) :
    OpIds f (.updateEdgeLabel s t l) (.updateEdgeLabel (f s) (f t) l)
  | addNodeLabel (l : Option NL) : OpIds f (.addNodeLabel l) (.addNodeLabel l)
  | addEdgeLabel (l : Option EL) : OpIds f (.addEdgeLabel l) (.addEdgeLabel l)
  | refineEdgeCount : OpIds f .refineEdgeCount .refineEdgeCount
  | setNodeLabelId (n : Id m) (l : Option (Id k)) : OpIds f (.setNodeLabelId n l) (.setNodeLabelId (f n) l)
  | setEdgeLabelId (s t : Id m) (l : Option (Id k)) :
    OpIds f (.setEdgeLabelId s t l) (.setEdgeLabelId (f s) (f t) l)
  | mapNodeLabelIds {p : Id m → Option (Id k) → Option (Id k)} {q : Id m' → Option (Id k) → Option (Id k)}
    (h : ∀ n, q (f n) = p n) : OpIds f (.mapNodeLabelIds p) (.mapNodeLabelIds q)
  | mapEdgeLabelIds {p : Id m → Id m → Option (Id k) → Option (Id k)}
    {q : Id m' → Id m' → Option (Id k) → Option (Id k)} (h : ∀ s t, q (f s) (f t) = p s t) :
    OpIds f (.mapEdgeLabelIds p) (.mapEdgeLabelIds q)

end Verif.Spec
