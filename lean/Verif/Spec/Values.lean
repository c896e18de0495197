import Verif.Model.GraphMap
import Verif.Model.Static
import Verif.Model.Serde
import Verif.Model.View

/-! The same tables, graphs and calls with other label values. The ids given to the labels stay. -/

namespace Verif.Spec

variable {m k : Nat} {L L' NL EL NL' EL' : Type}

/-- A table with every value replaced. -/
def tableValues (f : L → L') (s : SetMap L) : SetMap L' := ⟨s.labels.map f⟩

/-- A graph with the values of both tables replaced. -/
def mapValues (f : NL → NL') (h : EL → EL') (g : GraphMap m k NL EL) : GraphMap m k NL' EL' :=
  ⟨g.directed, g.nodeMap, g.numEdges, tableValues f g.nodeLabels, tableValues h g.edgeLabels, g.maxId⟩

/-- The same for a frozen graph. -/
def staticValues (f : NL → NL') (h : EL → EL') (g : StaticGraph m k NL EL) : StaticGraph m k NL' EL' :=
  ⟨g.directed, g.numNodes, g.numEdges, g.edgeVec, g.inEdgeVec, g.labels, tableValues f g.nodeLabels,
    tableValues h g.edgeLabels⟩

/-- The same for the auxiliary file of a mapped graph. -/
def auxValues (f : NL → NL') (h : EL → EL') (a : Aux NL EL) : Aux NL' EL' :=
  ⟨a.numNodes, a.numEdges, tableValues f a.nodeLabels, tableValues h a.edgeLabels⟩

/-- What generic code sees, with the values of both tables replaced. -/
def viewValues (f : NL → NL') (h : EL → EL') (g : GView m k NL EL) : GView m k NL' EL' :=
  ⟨g.directed, g.nodeCount, g.edgeCount, g.hasNode, g.hasEdge, g.nodeLid, g.edgeLid, g.nodeIndices,
    g.edgeIndices, g.nodes, g.edges, g.degree, g.neighbors, g.maxSeenId, tableValues f g.nodeLabels,
    tableValues h g.edgeLabels⟩

/-- The same call with other label values. -/
def opValues (f : NL → NL') (h : EL → EL') : Op m k NL EL → Op m k NL' EL'
  | .addNode n l => .addNode n (l.map f)
  | .removeNode n => .removeNode n
  | .addEdge s t l => .addEdge s t (l.map h)
  | .removeEdge s t => .removeEdge s t
  | .updateNodeLabel n l => .updateNodeLabel n (l.map f)
  | .updateEdgeLabel s t l => .updateEdgeLabel s t (l.map h)
  | .addNodeLabel l => .addNodeLabel (l.map f)
  | .addEdgeLabel l => .addEdgeLabel (l.map h)
  | .refineEdgeCount => .refineEdgeCount
  | .setNodeLabelId n l => .setNodeLabelId n l
  | .setEdgeLabelId s t l => .setEdgeLabelId s t l
  | .mapNodeLabelIds p => .mapNodeLabelIds p
  | .mapEdgeLabelIds p => .mapEdgeLabelIds p

end Verif.Spec
