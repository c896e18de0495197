import Verif.Model.GraphMap

/-!
What generic code sees of a graph: the traits `GraphTrait` and `GraphLabelTrait`
(`/repo/src/generic/graph.rs:70-240`) as a record of answers, and the generic functions written
against them.

Iterators are lists in iteration order. `get_node(n).get_label_id()` and
`get_edge(s, t).get_label_id()` (`NodeType`/`EdgeType::None` give `None`, generic/node.rs, edge.rs) are
one field each.
-/

namespace Verif

/-- A graph behind the traits. `Res` marks the calls that may panic in some implementation. -/
structure GView (m k : Nat) (NL EL : Type) where
  directed : Bool
  nodeCount : Nat
  edgeCount : Nat
  hasNode : Id m → Bool
  hasEdge : Id m → Id m → Res Bool
  nodeLid : Id m → Res (Option (Id k))
  edgeLid : Id m → Id m → Res (Option (Id k))
  nodeIndices : List (Id m)
  edgeIndices : List (Id m × Id m)
  nodes : List (Id m × Option (Id k))
  edges : List (Edge m k)
  degree : Id m → Res Nat
  neighbors : Id m → Res (List (Id m))
  maxSeenId : Res (Option (Id m))
  nodeLabels : SetMap NL
  edgeLabels : SetMap EL

/-- `TypedGraphMap` behind the traits (graph_map/graph.rs:421-570). -/
def GraphMap.view {m k : Nat} {NL EL : Type} (g : GraphMap m k NL EL) : GView m k NL EL where
  directed := g.isDirected
  nodeCount := g.nodeCount
  edgeCount := g.edgeCount
  hasNode := g.hasNode
  hasEdge := fun s t => pure (g.hasEdge s t)
  nodeLid := fun n => pure ((g.getNode n).bind (·.label))
  edgeLid := fun s t => do
    let e ← g.getEdge s t
    pure (e.bind (·.label))
  nodeIndices := g.nodeIndices
  edgeIndices := g.edgeIndices
  nodes := g.nodes.map (fun nd => (nd.id, nd.label))
  edges := g.edges
  degree := g.degree
  neighbors := g.neighbors
  maxSeenId := pure g.maxSeenId
  nodeLabels := g.nodeLabels
  edgeLabels := g.edgeLabels

/-- `Counter<T>` as collected from an iterator (counter crate: `*map.entry(x).or_insert(0) += 1` for
each item), an association list in hash order. -/
def counterOf {X : Type} [DecidableEq X] (l : List X) : List (X × Nat) :=
  l.foldl (fun c x => AL.hinsert c x ((AL.get c x).getD 0 + 1)) []

namespace GView

variable {m k k' : Nat} {NL EL : Type}

/-- `get_node_label` (generic/graph.rs:179-184). -/
def getNodeLabel (g : GView m k NL EL) (n : Id m) : Res (Option NL) := do
  match ← g.nodeLid n with
  | some l => pure (g.nodeLabels.getItem l.val)
  | none => pure none

/-- `get_edge_label` (generic/graph.rs:188-193). -/
def getEdgeLabel (g : GView m k NL EL) (s t : Id m) : Res (Option EL) := do
  match ← g.edgeLid s t with
  | some l => pure (g.edgeLabels.getItem l.val)
  | none => pure none

/-- `get_node_label_id_counter` (generic/graph.rs:119-121). -/
def nodeLabelIdCounter (g : GView m k NL EL) : List (Id k × Nat) :=
  counterOf (g.nodes.filterMap (fun p => p.2))

/-- `get_edge_label_id_counter` (generic/graph.rs:123-125). -/
def edgeLabelIdCounter (g : GView m k NL EL) : List (Id k × Nat) :=
  counterOf (g.edges.filterMap (fun e => e.label))

/-- `has_node_labels` (generic/graph.rs:207-210). -/
def hasNodeLabels (g : GView m k NL EL) : Bool := g.nodeLabels.items.head?.isSome

/-- `has_edge_labels` (generic/graph.rs:212-215). -/
def hasEdgeLabels (g : GView m k NL EL) : Bool := g.edgeLabels.items.head?.isSome

variable [DecidableEq NL] [DecidableEq EL]

omit [DecidableEq EL] in
/-- `get_node_label_counter` (generic/graph.rs:227-232). -/
def nodeLabelCounter (g : GView m k NL EL) : Res (List (NL × Nat)) := do
  let ls ← g.nodeIndices.mapM g.getNodeLabel
  pure (counterOf (ls.filterMap id))

omit [DecidableEq NL] in
/-- `get_edge_label_counter` (generic/graph.rs:234-239). -/
def edgeLabelCounter (g : GView m k NL EL) : Res (List (EL × Nat)) := do
  let ls ← g.edgeIndices.mapM (fun e => g.getEdgeLabel e.1 e.2)
  pure (counterOf (ls.filterMap id))

/-- `!other.has_node(n) || self.get_node_label(n) != other.get_node_label(n)`, negated
(generic/graph.rs:278-282, graph_map/graph.rs:97-101). -/
def nodeAgrees (g : GView m k NL EL) (h : GView m k' NL EL) (n : Id m) : Res Bool :=
  if !h.hasNode n then pure false
  else do
    let a ← g.getNodeLabel n
    let b ← h.getNodeLabel n
    pure (decide (a = b))

/-- The same for edges (generic/graph.rs:284-288, graph_map/graph.rs:103-107). -/
def edgeAgrees (g : GView m k NL EL) (h : GView m k' NL EL) (e : Id m × Id m) : Res Bool := do
  if !(← h.hasEdge e.1 e.2) then pure false
  else do
    let a ← g.getEdgeLabel e.1 e.2
    let b ← h.getEdgeLabel e.1 e.2
    pure (decide (a = b))

/-- A loop that leaves with `false` at the first failing item. -/
def allM {X : Type} (f : X → Res Bool) : List X → Res Bool
  | [] => pure true
  | x :: l => do if ← f x then allM f l else pure false

/-- The two loops shared by `equal` and the `PartialEq` impls. -/
def contained (g : GView m k NL EL) (h : GView m k' NL EL) : Res Bool := do
  if ← allM (g.nodeAgrees h) g.nodeIndices then allM (g.edgeAgrees h) g.edgeIndices
  else pure false

/-- `equal` (generic/graph.rs:267-291), also `PartialEq` of boxed graphs (293-299). -/
def equal (g : GView m k NL EL) (h : GView m k' NL EL) : Res Bool :=
  if g.directed != h.directed || g.nodeCount != h.nodeCount || g.edgeCount != h.edgeCount then
    pure false
  else g.contained h

/-- `!x` on a 64-bit `usize`. -/
def bnot (x : Nat) : Nat := 2 ^ 64 - 1 - x

/-- `PartialEq` of `TypedGraphMap` (graph_map/graph.rs:92-110), of `TypedStaticGraph`
(static_graph/graph.rs:71-89). The test `!self.node_count() == other.node_count()` negates the number,
not the comparison. -/
def typedEq (g h : GView m k NL EL) : Res Bool :=
  if bnot g.nodeCount == h.nodeCount || bnot g.edgeCount == h.edgeCount then pure false
  else g.contained h

/-- The order of `(Id, Id)`: lexicographic. -/
def pairLe (a b : Id m × Id m) : Bool := decide (a.1 < b.1 ∨ (a.1 = b.1 ∧ a.2 ≤ b.2))

/-- What `Hash` of `TypedGraphMap` (graph_map/graph.rs:120-140) and `TypedStaticGraph`
(static_graph/graph.rs:99-119) feeds to the hasher. -/
def hashData (g : GView m k NL EL) :
    Res (List (Id m) × List (Option NL) × List (Id m × Id m) × List (Option EL)) := do
  let nodes := g.nodeIndices.mergeSort (fun a b => decide (a ≤ b))
  let nl ← nodes.mapM g.getNodeLabel
  let edges := g.edgeIndices.mergeSort pairLe
  let el ← edges.mapM (fun e => g.getEdgeLabel e.1 e.2)
  pure (nodes, nl, edges, el)

/-- What `Hash` of a boxed general graph feeds to the hasher (generic/graph.rs:303-329). -/
def boxHashData (g : GView m k NL EL) :
    Res (Bool × List (Id m) × List (Option NL) × List (Id m × Id m) × List (Option EL)) := do
  let d ← g.hashData
  pure (g.directed, d)

end GView

end Verif
