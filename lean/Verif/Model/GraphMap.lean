import Verif.Model.LabelMap
import Verif.Model.Collections

/-!
`TypedGraphMap` (`/repo/src/graph_impl/graph_map/graph.rs`) and its `NodeMap`
(`/repo/src/graph_impl/graph_map/node.rs`).

Parameters: `m` is the maximum of the node-id type `Id`, `k` the maximum of the label-id type `L`.

Simplifications: the type parameter `Ty` is the field `directed`; `num_of_edges` is an unbounded
natural whose subtraction may underflow explicitly; capacity calls are the identity.
Mutating a `NodeMap` through the low-level `MutNodeMapTrait` obtained from
`MutNodeType::unwrap_nodemap_ref`, which bypasses the graph, is in `Model/Handles.lean` and is not one
of the calls `Op` that make up a `Run`.
-/

namespace Verif

/-- `Edge` (graph_map/edge.rs:66-70): start, target, label id. Also stands for `EdgeType::Edge` and
`OwnedEdgeType::Edge` (generic/edge.rs); their `None` is `Option.none`. -/
structure Edge (m k : Nat) where
  src : Id m
  dst : Id m
  label : Option (Id k)
  deriving DecidableEq, Repr

/-- `NodeMap` (graph_map/node.rs:27-32). -/
structure NodeMap (m k : Nat) where
  id : Id m
  label : Option (Id k)
  neighbors : List (Id m × Option (Id k))
  inNeighbors : List (Id m)
  deriving DecidableEq, Repr

namespace NodeMap

variable {m k : Nat}

/-- `NodeMap::new` (node.rs:36-43). -/
def new (id : Id m) (label : Option (Id k)) : NodeMap m k := ⟨id, label, [], []⟩

/-- `set_label_id` (node.rs:85-87). -/
def setLabelId (nd : NodeMap m k) (l : Option (Id k)) : NodeMap m k := { nd with label := l }

/-- `has_in_neighbor` (node.rs:92-94). -/
def hasInNeighbor (nd : NodeMap m k) (i : Id m) : Bool := BSet.contains nd.inNeighbors i

/-- `has_neighbor` (node.rs:97-99). -/
def hasNeighbor (nd : NodeMap m k) (i : Id m) : Bool := (AL.get nd.neighbors i).isSome

/-- `in_degree` (node.rs:102-104). -/
def inDegree (nd : NodeMap m k) : Nat := nd.inNeighbors.length

/-- `degree` (node.rs:107-109). -/
def degree (nd : NodeMap m k) : Nat := nd.neighbors.length

/-- `neighbors_iter` (node.rs:112-114) and `neighbors` (122-124). -/
def neighborIds (nd : NodeMap m k) : List (Id m) := AL.keys nd.neighbors

/-- `in_neighbors_iter` (node.rs:117-119) and `in_neighbors` (127-129). -/
def inNeighborIds (nd : NodeMap m k) : List (Id m) := nd.inNeighbors

/-- `get_neighbor` (node.rs:132-134). -/
def getNeighbor (nd : NodeMap m k) (i : Id m) : Option (Option (Id k)) := AL.get nd.neighbors i

/-- The entries `neighbors.range(self.id..)` used at node.rs:138, 158 and 221. -/
def nonLess (nd : NodeMap m k) : List (Id m × Option (Id k)) :=
  nd.neighbors.filter (fun p => nd.id ≤ p.1)

/-- `non_less_neighbors_iter` (node.rs:137-139). -/
def nonLessNeighborIds (nd : NodeMap m k) : List (Id m) := AL.keys nd.nonLess

/-- `neighbors_iter_full` (node.rs:142-150). -/
def neighborEdges (nd : NodeMap m k) : List (Edge m k) :=
  nd.neighbors.map (fun p => ⟨nd.id, p.1, p.2⟩)

/-- `non_less_neighbors_iter_full` (node.rs:153-161). -/
def nonLessNeighborEdges (nd : NodeMap m k) : List (Edge m k) :=
  nd.nonLess.map (fun p => ⟨nd.id, p.1, p.2⟩)

/-- `add_in_edge` (node.rs:166-173); the returned flag is unused by the graph. -/
def addInEdge (nd : NodeMap m k) (adj : Id m) : NodeMap m k :=
  if nd.hasInNeighbor adj then nd
  else { nd with inNeighbors := BSet.sinsert nd.inNeighbors adj }

/-- `add_edge` (node.rs:176-186): new adjacency and `true` iff the entry was vacant. -/
def addEdge (nd : NodeMap m k) (adj : Id m) (l : Option (Id k)) : NodeMap m k × Bool :=
  ({ nd with neighbors := AL.binsert nd.neighbors adj l }, !nd.hasNeighbor adj)

/-- `remove_in_edge` (node.rs:189-191). -/
def removeInEdge (nd : NodeMap m k) (adj : Id m) : NodeMap m k :=
  { nd with inNeighbors := BSet.erase nd.inNeighbors adj }

/-- `remove_edge` (node.rs:194-199). -/
def removeEdge (nd : NodeMap m k) (adj : Id m) : NodeMap m k × Option (Edge m k) :=
  match AL.get nd.neighbors adj with
  | some l => ({ nd with neighbors := AL.erase nd.neighbors adj }, some ⟨nd.id, adj, l⟩)
  | none => (nd, none)

/-- Writing every label reachable through `neighbors_iter_mut` (node.rs:211-216): `f` is given start,
target and old label. -/
def mapNeighbors (nd : NodeMap m k) (f : Id m → Id m → Option (Id k) → Option (Id k)) :
    NodeMap m k :=
  { nd with neighbors := nd.neighbors.map (fun p => (p.1, f nd.id p.1 p.2)) }

/-- The same through `non_less_neighbors_iter_mut` (node.rs:219-224). -/
def mapNonLess (nd : NodeMap m k) (f : Id m → Id m → Option (Id k) → Option (Id k)) :
    NodeMap m k :=
  { nd with
    neighbors := nd.neighbors.map (fun p => if nd.id ≤ p.1 then (p.1, f nd.id p.1 p.2) else p) }

end NodeMap

/-- `TypedGraphMap` (graph.rs:74-87). -/
structure GraphMap (m k : Nat) (NL EL : Type) where
  directed : Bool
  nodeMap : List (Id m × NodeMap m k)
  numEdges : Nat
  nodeLabels : SetMap NL
  edgeLabels : SetMap EL
  maxId : Option (Id m)
  deriving DecidableEq, Repr

/-- `label.map(|x| L::new(map.add_item(x)))` (graph.rs:235, 239, 265, 339). -/
def intern {k : Nat} {X : Type} [DecidableEq X] (s : SetMap X) :
    Option X → Res (SetMap X × Option (Id k))
  | none => pure (s, none)
  | some x => do
    let r ← s.addItem x
    pure (r.1, some (Id.new r.2))

namespace GraphMap

variable {m k : Nat} {NL EL : Type}

/-- `with_label_map` (graph.rs:212-221). -/
def withLabelMap (directed : Bool) (nl : SetMap NL) (el : SetMap EL) : GraphMap m k NL EL :=
  ⟨directed, [], 0, nl, el, none⟩

/-- `new` (graph.rs:165-174), `Default` (249-255), `with_capacity` (176-185). -/
def new (directed : Bool) : GraphMap m k NL EL := withLabelMap directed SetMap.empty SetMap.empty

/-! ### Queries -/

/-- `get_node` (graph.rs:426-431). -/
def getNode (g : GraphMap m k NL EL) (n : Id m) : Option (NodeMap m k) := AL.get g.nodeMap n

/-- `has_node` (graph.rs:446-448). -/
def hasNode (g : GraphMap m k NL EL) (n : Id m) : Bool := (AL.get g.nodeMap n).isSome

/-- `has_edge` (graph.rs:451-456). -/
def hasEdge (g : GraphMap m k NL EL) (s t : Id m) : Bool :=
  match g.getNode s with
  | some nd => nd.hasNeighbor t
  | none => false

/-- `get_edge` (graph.rs:434-443), with its two `unwrap`s. -/
def getEdge (g : GraphMap m k NL EL) (s t : Id m) : Res (Option (Edge m k)) :=
  if !g.hasEdge s t then pure none
  else do
    let nd ← unwrap (g.getNode s)
    let l ← unwrap (nd.getNeighbor t)
    pure (some ⟨s, t, l⟩)

/-- `node_count` (graph.rs:459-461). -/
def nodeCount (g : GraphMap m k NL EL) : Nat := g.nodeMap.length

/-- `edge_count` (graph.rs:464-466). -/
def edgeCount (g : GraphMap m k NL EL) : Nat := g.numEdges

/-- `is_directed` (graph.rs:469-471). -/
def isDirected (g : GraphMap m k NL EL) : Bool := g.directed

/-- `node_indices` (graph.rs:474-476). -/
def nodeIndices (g : GraphMap m k NL EL) : List (Id m) := AL.keys g.nodeMap

/-- `edge_indices` (graph.rs:479-491). -/
def edgeIndices (g : GraphMap m k NL EL) : List (Id m × Id m) :=
  if g.directed then
    (AL.values g.nodeMap).flatMap (fun nd => nd.neighborIds.map (fun i => (nd.id, i)))
  else
    (AL.values g.nodeMap).flatMap (fun nd => nd.nonLessNeighborIds.map (fun i => (nd.id, i)))

/-- `nodes` (graph.rs:494-496). -/
def nodes (g : GraphMap m k NL EL) : List (NodeMap m k) := AL.values g.nodeMap

/-- `edges` (graph.rs:499-515). -/
def edges (g : GraphMap m k NL EL) : List (Edge m k) :=
  if g.directed then (AL.values g.nodeMap).flatMap (fun nd => nd.neighborEdges)
  else (AL.values g.nodeMap).flatMap (fun nd => nd.nonLessNeighborEdges)

/-- `degree` (graph.rs:518-524). -/
def degree (g : GraphMap m k NL EL) (n : Id m) : Res Nat :=
  match g.getNode n with
  | some nd => pure nd.degree
  | none => .error .nodeMissing

/-- `neighbors_iter` (graph.rs:527-533) and `neighbors` (536-542). -/
def neighbors (g : GraphMap m k NL EL) (n : Id m) : Res (List (Id m)) :=
  match g.getNode n with
  | some nd => pure nd.neighborIds
  | none => .error .nodeMissing

/-- `max_seen_id` (graph.rs:545-547). -/
def maxSeenId (g : GraphMap m k NL EL) : Option (Id m) := g.maxId

/-- `in_degree` (graph.rs:603-609); only callable on directed graphs. -/
def inDegree (g : GraphMap m k NL EL) (n : Id m) : Res Nat :=
  match g.getNode n with
  | some nd => pure nd.inDegree
  | none => .error .nodeMissing

/-- `in_neighbors_iter` (graph.rs:612-618) and `in_neighbors` (621-627); only callable on directed
graphs. -/
def inNeighbors (g : GraphMap m k NL EL) (n : Id m) : Res (List (Id m)) :=
  match g.getNode n with
  | some nd => pure nd.inNeighborIds
  | none => .error .nodeMissing

/-- `get_node_label` (generic/graph.rs:179-184). -/
def getNodeLabel (g : GraphMap m k NL EL) (n : Id m) : Option NL :=
  match (g.getNode n).bind (·.label) with
  | some l => g.nodeLabels.getItem l.val
  | none => none

/-- `get_edge_label` (generic/graph.rs:188-193). -/
def getEdgeLabel (g : GraphMap m k NL EL) (s t : Id m) : Res (Option EL) := do
  let e ← g.getEdge s t
  match e.bind (·.label) with
  | some l => pure (g.edgeLabels.getItem l.val)
  | none => pure none

/-! ### Mutators -/

/-- `self.node_map.get_mut(&n).unwrap()` followed by a change `f` of the node. -/
def withNode (g : GraphMap m k NL EL) (n : Id m) (f : NodeMap m k → NodeMap m k) :
    Res (GraphMap m k NL EL) := do
  let nd ← unwrap (AL.get g.nodeMap n)
  pure { g with nodeMap := AL.set g.nodeMap n (f nd) }

/-- The `max_id` update of `add_node` (graph.rs:278-285). -/
def bumpMax (mx : Option (Id m)) (id : Id m) : Option (Id m) :=
  match mx with
  | some i => if i < id then some id else some i
  | none => some id

variable [DecidableEq NL] [DecidableEq EL]

omit [DecidableEq EL] in
/-- `add_node` (graph.rs:264-288). -/
def addNode (g : GraphMap m k NL EL) (id : Id m) (label : Option NL) :
    Res (GraphMap m k NL EL × Bool) := do
  let r ← intern g.nodeLabels label
  let g := { g with nodeLabels := r.1 }
  if g.hasNode id then
    let g ← g.withNode id (fun nd => nd.setLabelId r.2)
    pure (g, false)
  else
    pure ({ g with
      nodeMap := AL.hinsert g.nodeMap id (NodeMap.new id r.2)
      maxId := bumpMax g.maxId id }, true)

omit [DecidableEq NL] [DecidableEq EL] in
/-- The loops of `remove_node` that drop the reverse entries (graph.rs:302-316). -/
def unlink (g : GraphMap m k NL EL) (node : NodeMap m k) (id : Id m) : Res (GraphMap m k NL EL) :=
  if g.directed then do
    let g ← node.neighborIds.foldlM (fun g n => withNode g n (fun nd => nd.removeInEdge id)) g
    node.inNeighborIds.foldlM (fun g n => withNode g n (fun nd => (nd.removeEdge id).1)) g
  else
    node.neighborIds.foldlM (fun g n => withNode g n (fun nd => (nd.removeEdge id).1)) g

omit [DecidableEq NL] [DecidableEq EL] in
/-- `remove_node` (graph.rs:299-324). -/
def removeNode (g : GraphMap m k NL EL) (id : Id m) :
    Res (GraphMap m k NL EL × Option (NodeMap m k)) :=
  match AL.get g.nodeMap id with
  | some node => do
    let g := { g with nodeMap := AL.erase g.nodeMap id }
    let g ← g.unlink node id
    if g.numEdges < node.degree + node.inDegree then .error .underflow
    else pure ({ g with numEdges := g.numEdges - (node.degree + node.inDegree) }, some node)
  | none => pure (g, none)

omit [DecidableEq EL] in
/-- `if !self.has_node(n) { self.add_node(n, None); }` (graph.rs:332-337). -/
def ensureNode (g : GraphMap m k NL EL) (n : Id m) : Res (GraphMap m k NL EL) :=
  if !g.hasNode n then do
    let r ← g.addNode n none
    pure r.1
  else pure g

omit [DecidableEq NL] [DecidableEq EL] in
/-- The second half of `add_edge`, recording the edge at its target (graph.rs:348-354). -/
def addEdgeTarget (g : GraphMap m k NL EL) (s t : Id m) (l : Option (Id k)) :
    Res (GraphMap m k NL EL) :=
  if g.directed then g.withNode t (fun nd => nd.addInEdge s)
  else if s ≠ t then g.withNode t (fun nd => (nd.addEdge s l).1)
  else pure g

/-- `add_edge` (graph.rs:331-359). -/
def addEdge (g : GraphMap m k NL EL) (s t : Id m) (label : Option EL) :
    Res (GraphMap m k NL EL × Bool) := do
  let g ← g.ensureNode s
  let g ← g.ensureNode t
  let r ← intern g.edgeLabels label
  let g := { g with edgeLabels := r.1 }
  let nd ← unwrap (AL.get g.nodeMap s)
  let result := (nd.addEdge t r.2).2
  let g ← g.withNode s (fun nd => (nd.addEdge t r.2).1)
  let g ← g.addEdgeTarget s t r.2
  pure ({ g with numEdges := g.numEdges + 1 }, result)

omit [DecidableEq NL] [DecidableEq EL] in
/-- The second half of `remove_edge`, forgetting the edge at its target (graph.rs:384-390). -/
def removeEdgeTarget (g : GraphMap m k NL EL) (s t : Id m) : Res (GraphMap m k NL EL) :=
  if g.directed then g.withNode t (fun nd => nd.removeInEdge s)
  else g.withNode t (fun nd => (nd.removeEdge s).1)

omit [DecidableEq NL] [DecidableEq EL] in
/-- `remove_edge` (graph.rs:372-395). -/
def removeEdge (g : GraphMap m k NL EL) (s t : Id m) :
    Res (GraphMap m k NL EL × Option (Edge m k)) :=
  if !g.hasEdge s t then pure (g, none)
  else do
    let nd ← unwrap (AL.get g.nodeMap s)
    let edge := (nd.removeEdge t).2
    let g ← g.withNode s (fun nd => (nd.removeEdge t).1)
    let g ← g.removeEdgeTarget s t
    if g.numEdges < 1 then .error .underflow
    else pure ({ g with numEdges := g.numEdges - 1 }, edge)

omit [DecidableEq EL] in
/-- `update_node_label` (graph.rs:573-581). -/
def updateNodeLabel (g : GraphMap m k NL EL) (n : Id m) (label : Option NL) :
    Res (GraphMap m k NL EL × Bool) :=
  if !g.hasNode n then pure (g, false)
  else do
    let r ← g.addNode n label
    pure (r.1, true)

/-- `update_edge_label` (graph.rs:584-592). -/
def updateEdgeLabel (g : GraphMap m k NL EL) (s t : Id m) (label : Option EL) :
    Res (GraphMap m k NL EL × Bool) :=
  if !g.hasEdge s t then pure (g, false)
  else do
    let r ← g.addEdge s t label
    pure (r.1, true)

omit [DecidableEq EL] in
/-- `add_node_label` (graph.rs:234-236). -/
def addNodeLabel (g : GraphMap m k NL EL) (label : Option NL) :
    Res (GraphMap m k NL EL × Option (Id k)) := do
  let r ← intern g.nodeLabels label
  pure ({ g with nodeLabels := r.1 }, r.2)

omit [DecidableEq NL] in
/-- `add_edge_label` (graph.rs:238-240). -/
def addEdgeLabel (g : GraphMap m k NL EL) (label : Option EL) :
    Res (GraphMap m k NL EL × Option (Id k)) := do
  let r ← intern g.edgeLabels label
  pure ({ g with edgeLabels := r.1 }, r.2)

omit [DecidableEq NL] [DecidableEq EL] in
/-- `refine_edge_count` (graph.rs:243-246). -/
def refineEdgeCount (g : GraphMap m k NL EL) : GraphMap m k NL EL :=
  { g with numEdges := g.edgeIndices.length }

omit [DecidableEq NL] [DecidableEq EL] in
/-- `get_node_mut(n)` (graph.rs:291-296) followed by `set_label_id(l)` (generic/node.rs), which panics
on `MutNodeType::None`. -/
def setNodeLabelId (g : GraphMap m k NL EL) (n : Id m) (l : Option (Id k)) :
    Res (GraphMap m k NL EL) :=
  match AL.get g.nodeMap n with
  | some nd => pure { g with nodeMap := AL.set g.nodeMap n (nd.setLabelId l) }
  | none => .error .explicit

omit [DecidableEq NL] [DecidableEq EL] in
/-- `get_edge_mut(s, t)` (graph.rs:362-369, node.rs:202-208) followed by `set_label_id(l)`
(generic/edge.rs:114-119), which panics on `MutEdgeType::None`. -/
def setEdgeLabelId (g : GraphMap m k NL EL) (s t : Id m) (l : Option (Id k)) :
    Res (GraphMap m k NL EL) :=
  if !g.hasEdge s t then .error .explicit
  else g.withNode s (fun nd => { nd with neighbors := AL.set nd.neighbors t l })

omit [DecidableEq NL] [DecidableEq EL] in
/-- A loop over `nodes_mut()` (graph.rs:398-402) that sets every label id; `f` sees the node id and
the old label id. -/
def mapNodeLabelIds (g : GraphMap m k NL EL) (f : Id m → Option (Id k) → Option (Id k)) :
    GraphMap m k NL EL :=
  { g with nodeMap := g.nodeMap.map (fun p => (p.1, p.2.setLabelId (f p.2.id p.2.label))) }

omit [DecidableEq NL] [DecidableEq EL] in
/-- A loop over `edges_mut()` (graph.rs:405-419) that sets every label id it reaches; on an undirected
graph only the orientation with `start <= target` is reached. -/
def mapEdgeLabelIds (g : GraphMap m k NL EL)
    (f : Id m → Id m → Option (Id k) → Option (Id k)) : GraphMap m k NL EL :=
  if g.directed then
    { g with nodeMap := g.nodeMap.map (fun p => (p.1, p.2.mapNeighbors f)) }
  else
    { g with nodeMap := g.nodeMap.map (fun p => (p.1, p.2.mapNonLess f)) }

/-- `from_edges` (graph.rs:223-232). -/
def fromEdges (directed : Bool) (es : List (Id m × Id m)) : Res (GraphMap m k NL EL) :=
  es.foldlM (fun g e => do
    let r ← g.addNode e.1 none
    let r ← r.1.addNode e.2 none
    let r ← r.1.addEdge e.1 e.2 none
    pure r.1) (new directed)

end GraphMap

/-- The public mutating calls on a graph. -/
inductive Op (m k : Nat) (NL EL : Type) where
  | addNode (n : Id m) (l : Option NL)
  | removeNode (n : Id m)
  | addEdge (s t : Id m) (l : Option EL)
  | removeEdge (s t : Id m)
  | updateNodeLabel (n : Id m) (l : Option NL)
  | updateEdgeLabel (s t : Id m) (l : Option EL)
  | addNodeLabel (l : Option NL)
  | addEdgeLabel (l : Option EL)
  | refineEdgeCount
  | setNodeLabelId (n : Id m) (l : Option (Id k))
  | setEdgeLabelId (s t : Id m) (l : Option (Id k))
  | mapNodeLabelIds (f : Id m → Option (Id k) → Option (Id k))
  | mapEdgeLabelIds (f : Id m → Id m → Option (Id k) → Option (Id k))

namespace GraphMap

variable {m k : Nat} {NL EL : Type} [DecidableEq NL] [DecidableEq EL]

/-- One call, forgetting the returned value. -/
def apply (g : GraphMap m k NL EL) : Op m k NL EL → Res (GraphMap m k NL EL)
  | .addNode n l => do let r ← g.addNode n l; pure r.1
  | .removeNode n => do let r ← g.removeNode n; pure r.1
  | .addEdge s t l => do let r ← g.addEdge s t l; pure r.1
  | .removeEdge s t => do let r ← g.removeEdge s t; pure r.1
  | .updateNodeLabel n l => do let r ← g.updateNodeLabel n l; pure r.1
  | .updateEdgeLabel s t l => do let r ← g.updateEdgeLabel s t l; pure r.1
  | .addNodeLabel l => do let r ← g.addNodeLabel l; pure r.1
  | .addEdgeLabel l => do let r ← g.addEdgeLabel l; pure r.1
  | .refineEdgeCount => pure g.refineEdgeCount
  | .setNodeLabelId n l => g.setNodeLabelId n l
  | .setEdgeLabelId s t l => g.setEdgeLabelId s t l
  | .mapNodeLabelIds f => pure (g.mapNodeLabelIds f)
  | .mapEdgeLabelIds f => pure (g.mapEdgeLabelIds f)

/-- A program that performs the calls one after another. -/
def exec (g : GraphMap m k NL EL) (ops : List (Op m k NL EL)) : Res (GraphMap m k NL EL) :=
  ops.foldlM (fun g op => g.apply op) g

/-- The graphs a program can reach from `start` by a history of calls (latest last) none of which
panicked. Between calls the hash map may change its iteration order in any way (`rehash`). -/
inductive Run (start : GraphMap m k NL EL) : List (Op m k NL EL) → GraphMap m k NL EL → Prop
  | nil : Run start [] start
  | step {ops op g g'} : Run start ops g → g.apply op = .ok g' → Run start (ops ++ [op]) g'
  | rehash {ops g nm} : Run start ops g → g.nodeMap.Perm nm → Run start ops { g with nodeMap := nm }

end GraphMap

end Verif
