import Verif.Model.GraphMap

/-! Which graphs are in order: the conditions of C154, in terms of the records of the graph and of lookups. -/

namespace Verif.Spec

variable {m k : Nat} {NL EL : Type}

/-- The records of `GraphMap` fit together. -/
structure Coherent (g : GraphMap m k NL EL) : Prop where
  /-- Every record is kept under its own id. -/
  ids : ∀ p ∈ g.nodeMap, p.2.id = p.1
  /-- Edges end at nodes. -/
  targets : ∀ s t, g.hasEdge s t = true → g.hasNode t = true
  /-- Directed graphs: the in-neighbours are the sources of edges. -/
  sources : g.directed = true → ∀ p ∈ g.nodeMap, ∀ s, s ∈ p.2.inNeighbors ↔ g.hasEdge s p.1 = true
  /-- Undirected graphs: no in-neighbours, and edges are there both ways (their labels may differ). -/
  noSources : g.directed = false → ∀ p ∈ g.nodeMap, p.2.inNeighbors = []
  bothWays : g.directed = false → ∀ s t, g.hasEdge s t = g.hasEdge t s
  /-- At least the edges that are there were counted. -/
  counted : g.edgeIndices.length ≤ g.edgeCount
  /-- No node is above the largest id seen. -/
  seen : ∀ n, g.hasNode n = true → ∃ M, g.maxSeenId = some M ∧ n ≤ M

/-- The collections of `GraphMap` are such: no key and no label twice, tree maps and sets sorted. -/
structure Proper (g : GraphMap m k NL EL) : Prop where
  keys : g.nodeIndices.Nodup
  neighbors : ∀ p ∈ g.nodeMap, (p.2.neighbors.map Prod.fst).Pairwise (· < ·)
  inNeighbors : ∀ p ∈ g.nodeMap, p.2.inNeighbors.Pairwise (· < ·)
  nodeLabels : g.nodeLabels.items.Nodup
  edgeLabels : g.edgeLabels.items.Nodup

end Verif.Spec
