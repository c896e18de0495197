import Verif.Spec.Mmap

/-! What is asked of dumping a graph over files that are already there. -/

namespace Verif

variable {m k : Nat} {NL EL : Type}

/-- The labels a file shows when it is mapped. -/
def World.labelsAt (v : Nat) (path : String) (x : World) : Res (Option (List (Id k))) := do
  let t ← mapIfPresent v path x
  pure (t.map TypedMap.ids)

/-- Labels of an adjacency that are there, else others. -/
def EdgeVec.labelsOr (ev : EdgeVec m k) (l : Option (List (Id k))) : Option (List (Id k)) :=
  if ev.getLabels = [] then l else some ev.getLabels

/-- `g` with the holes filled from `h`: the graph that loads after `g` was dumped where `h` was. -/
def StaticGraph.over (g : StaticGraph m k NL EL) (h : MmapGraph m k NL EL) : MmapGraph m k NL EL where
  edges := ⟨g.edgeVec.offsets, g.edgeVec.edges, g.edgeVec.labelsOr h.edges.labels⟩
  inEdges := match g.inEdgeVec with
    | none => h.inEdges
    | some e => some ⟨e.offsets, e.edges, e.labelsOr (h.inEdges.bind (·.labels))⟩
  labels := g.labels.or h.labels
  numNodes := g.numNodes
  numEdges := g.numEdges
  nodeLabels := g.nodeLabels
  edgeLabels := g.edgeLabels

end Verif
