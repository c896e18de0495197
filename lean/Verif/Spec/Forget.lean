import Verif.Model.Static

/-! What `into_static` keeps of a graph: the condition of C161, in terms of the calls. -/

namespace Verif.Spec

variable {m k : Nat} {NL EL : Type}

/-- A label id that is not the largest one, which a frozen graph reads as "no label". -/
def toldId (l : Option (Id k)) : Option (Id k) := if l = some Id.maxValue then none else l

/-- The two graphs agree in everything `into_static` looks at. -/
structure FreezesLike (g h : GraphMap m k NL EL) : Prop where
  directed : g.isDirected = h.isDirected
  nodes : g.nodeCount = h.nodeCount
  edges : g.edgeCount = h.edgeCount
  nodeTable : g.nodeLabels = h.nodeLabels
  edgeTable : g.edgeLabels = h.edgeLabels
  /-- The same largest node id. -/
  top : ∀ n, (g.hasNode n = true ∧ ∀ x, g.hasNode x = true → x ≤ n) ↔ h.hasNode n = true ∧ ∀ x, h.hasNode x = true → x ≤ n
  arcs : ∀ s t, g.hasEdge s t = h.hasEdge s t
  /-- With a table of node labels: every id has the same label id, "none" standing for ids of no node as well. -/
  nodeIds : g.nodeLabels.items ≠ [] →
    ∀ n, toldId ((g.getNode n).bind (·.label)) = toldId ((h.getNode n).bind (·.label))
  /-- With a table of edge labels: every edge has the same label id. -/
  edgeIds : g.edgeLabels.items ≠ [] → ∀ s t e e', g.getEdge s t = .ok (some e) → h.getEdge s t = .ok (some e') →
    toldId e.label = toldId e'.label

end Verif.Spec
