import Verif.Model.Static
import Verif.Spec.Ids
import Verif.Spec.Lids

/-! Frozen graphs with ids and label ids of wider types. -/

namespace Verif.Spec

variable {m m' k k' : Nat} {NL EL : Type}

/-- A stored label id in another type: the largest one, which means no label, becomes the largest one. -/
def storedLid (u : Id k → Id k') (l : Id k) : Id k' := if l = Id.maxValue then Id.maxValue else u l

/-- Edges with other ids and stored label ids. -/
def vecWide (f : Id m → Id m') (u : Id k → Id k') (ev : EdgeVec m k) : EdgeVec m' k' :=
  ⟨ev.offsets, ev.edges.map f, ev.labels.map (List.map (storedLid u))⟩

/-- A frozen graph with other ids and stored label ids. -/
def staticWide (f : Id m → Id m') (u : Id k → Id k') (g : StaticGraph m k NL EL) : StaticGraph m' k' NL EL :=
  ⟨g.directed, g.numNodes, g.numEdges, vecWide f u g.edgeVec, g.inEdgeVec.map (vecWide f u),
    g.labels.map (List.map (storedLid u)), g.nodeLabels, g.edgeLabels⟩

/-- An edge with other ids and another label id. -/
def edgeWide (f : Id m → Id m') (u : Id k → Id k') (e : Edge m k) : Edge m' k' := ⟨f e.src, f e.dst, e.label.map u⟩

/-- A graph with other ids and other label ids. -/
def mapWide (f : Id m → Id m') (u : Id k → Id k') (g : GraphMap m k NL EL) : GraphMap m' k' NL EL :=
  mapIds f (mapLids u g)

end Verif.Spec
