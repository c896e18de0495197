import Verif.Model.Static

/-!
The handles that graphs give out for their nodes and edges (`/repo/src/generic/node.rs`,
`/repo/src/generic/edge.rs`) and the raw access to a node record that a mutable handle allows.

A borrow is modelled by the value it points to. A write through a mutable handle yields the new handle;
`GraphMap.rawNode` puts the changed record back into the graph. The other parts of the model use the
shorthand `Option` for read handles; `Props.c79_*` tie the two together.
-/

namespace Verif

/-! ### Read handles -/

/-- `NodeType` (generic/node.rs:55-59). `static` is `StaticNode` (static_graph/node.rs:24-27). -/
inductive NodeHandle (m k : Nat) where
  | nodeMap (nd : NodeMap m k)
  | static (id : Id m) (label : Option (Id k))
  | none
  deriving DecidableEq, Repr

namespace NodeHandle

variable {m k : Nat}

/-- `is_none` (generic/node.rs:152-157). -/
def isNone : NodeHandle m k → Bool
  | .none => true
  | _ => false

/-- `is_some` (generic/node.rs:31-33). -/
def isSome (h : NodeHandle m k) : Bool := !h.isNone

/-- `get_id` (generic/node.rs:160-166). -/
def getId : NodeHandle m k → Res (Id m)
  | .nodeMap nd => pure nd.id
  | .static id _ => pure id
  | .none => .error .explicit

/-- `get_label_id` (generic/node.rs:169-175). -/
def getLabelId : NodeHandle m k → Option (Id k)
  | .nodeMap nd => nd.label
  | .static _ l => l
  | .none => Option.none

/-- `unwrap_nodemap` (generic/node.rs:132-138). -/
def unwrapNodeMap : NodeHandle m k → Res (NodeMap m k)
  | .nodeMap nd => pure nd
  | .static _ _ => .error .explicit
  | .none => .error .explicit

/-- `unwrap_staticnode` (generic/node.rs:141-147). -/
def unwrapStatic : NodeHandle m k → Res (Id m × Option (Id k))
  | .nodeMap _ => .error .explicit
  | .static id l => pure (id, l)
  | .none => .error .explicit

end NodeHandle

/-- `EdgeType` (generic/edge.rs:55-58). -/
inductive EdgeHandle (m k : Nat) where
  | edge (e : Edge m k)
  | none
  deriving DecidableEq, Repr

namespace EdgeHandle

variable {m k : Nat}

/-- `is_none` (generic/edge.rs:164-169). -/
def isNone : EdgeHandle m k → Bool
  | .none => true
  | .edge _ => false

/-- `is_some` (generic/edge.rs:30-32). -/
def isSome (h : EdgeHandle m k) : Bool := !h.isNone

/-- `get_start` (generic/edge.rs:172-177). -/
def getStart : EdgeHandle m k → Res (Id m)
  | .edge e => pure e.src
  | .none => .error .explicit

/-- `get_target` (generic/edge.rs:180-185). -/
def getTarget : EdgeHandle m k → Res (Id m)
  | .edge e => pure e.dst
  | .none => .error .explicit

/-- `get_label_id` (generic/edge.rs:188-193). -/
def getLabelId : EdgeHandle m k → Option (Id k)
  | .edge e => e.label
  | .none => Option.none

/-- `unwrap` (generic/edge.rs:154-159). -/
def unwrap : EdgeHandle m k → Res (Edge m k)
  | .edge e => pure e
  | .none => .error .explicit

end EdgeHandle

namespace GraphMap

variable {m k : Nat} {NL EL : Type}

/-- `get_node` (graph_map/graph.rs:426-431). -/
def getNodeHandle (g : GraphMap m k NL EL) (n : Id m) : NodeHandle m k :=
  match AL.get g.nodeMap n with
  | some nd => .nodeMap nd
  | none => .none

/-- `get_edge` (graph_map/graph.rs:434-443). -/
def getEdgeHandle (g : GraphMap m k NL EL) (s t : Id m) : Res (EdgeHandle m k) :=
  if !g.hasEdge s t then pure .none
  else do
    let nd ← unwrap (AL.get g.nodeMap s)
    let l ← unwrap (nd.getNeighbor t)
    pure (.edge ⟨s, t, l⟩)

/-- `nodes` (graph_map/graph.rs:494-496). -/
def nodeHandles (g : GraphMap m k NL EL) : List (NodeHandle m k) :=
  (AL.values g.nodeMap).map .nodeMap

/-- `edges` (graph_map/graph.rs:499-515). -/
def edgeHandles (g : GraphMap m k NL EL) : List (EdgeHandle m k) :=
  if g.directed then ((AL.values g.nodeMap).flatMap (fun nd => nd.neighborEdges)).map .edge
  else ((AL.values g.nodeMap).flatMap (fun nd => nd.nonLessNeighborEdges)).map .edge

end GraphMap

namespace StaticGraph

variable {m k : Nat} {NL EL : Type}

/-- `get_node` (static_graph/graph.rs:459-468). -/
def getNodeHandle (g : StaticGraph m k NL EL) (n : Id m) : Res (NodeHandle m k) :=
  if !g.hasNode n then pure .none
  else match g.labels with
    | some ls => do
      let l ← index ls n.val
      pure (.static n (staticLabel l))
    | none => pure (.static n none)

/-- `get_edge` (static_graph/graph.rs:471-481). -/
def getEdgeHandle (g : StaticGraph m k NL EL) (s t : Id m) : Res (EdgeHandle m k) := do
  if !(← g.hasEdge s t) then pure .none
  else
    match ← g.edgeVec.findEdgeLabelId s t with
    | some l => pure (.edge ⟨s, t, staticLabel l⟩)
    | none => pure (.edge ⟨s, t, none⟩)

/-- `nodes` (static_graph/graph.rs:522-540). -/
def nodeHandles (g : StaticGraph m k NL EL) : List (NodeHandle m k) :=
  match g.labels with
  | none => g.nodeIndices.map (fun i => .static i none)
  | some ls => (g.nodeIndices.zip ls).map (fun p => .static p.1 (staticLabel p.2))

/-- `edges` (static_graph/graph.rs:543-555). -/
def edgeHandles (g : StaticGraph m k NL EL) : Res (List (EdgeHandle m k)) :=
  if g.edgeVec.getLabels = [] then do
    let es ← g.edgeIndices
    pure (es.map (fun e => .edge ⟨e.1, e.2, none⟩))
  else do
    let es ← g.edgeVec.labelled g.directed
    pure (es.map (fun p => .edge ⟨p.1.1, p.1.2, staticLabel p.2⟩))

end StaticGraph

/-! ### Mutable and owned handles -/

/-- `MutNodeType` (generic/node.rs:43-46); also `OwnedNodeType` (49-52), which has the same reading
functions (107-128) and no writing ones. -/
inductive MutNode (m k : Nat) where
  | ref (nd : NodeMap m k)
  | none
  deriving DecidableEq, Repr

namespace MutNode

variable {m k : Nat}

/-- `is_none` (generic/node.rs:73-78, 108-113). -/
def isNone : MutNode m k → Bool
  | .none => true
  | .ref _ => false

/-- `is_some` (generic/node.rs:31-33). -/
def isSome (h : MutNode m k) : Bool := !h.isNone

/-- `get_id` (generic/node.rs:81-86, 115-120). -/
def getId : MutNode m k → Res (Id m)
  | .ref nd => pure nd.id
  | .none => .error .explicit

/-- `get_label_id` (generic/node.rs:89-94, 122-127): unlike `NodeType` it panics on `None`. -/
def getLabelId : MutNode m k → Res (Option (Id k))
  | .ref nd => pure nd.label
  | .none => .error .explicit

/-- `set_label_id` (generic/node.rs:99-104). -/
def setLabelId (h : MutNode m k) (l : Option (Id k)) : Res (MutNode m k) :=
  match h with
  | .ref nd => pure (.ref (nd.setLabelId l))
  | .none => .error .explicit

/-- `unwrap_nodemap_ref` (generic/node.rs:63-68). -/
def unwrapRef : MutNode m k → Res (NodeMap m k)
  | .ref nd => pure nd
  | .none => .error .explicit

end MutNode

/-- `MutEdgeType` (generic/edge.rs:43-46) with `MutEdge` (graph_map/edge.rs:24-28); also `OwnedEdgeType`
(generic/edge.rs:49-52), which has the same reading functions (122-150) and no others. -/
inductive MutEdgeHandle (m k : Nat) where
  | ref (e : Edge m k)
  | none
  deriving DecidableEq, Repr

namespace MutEdgeHandle

variable {m k : Nat}

/-- `is_none` (generic/edge.rs:80-85, 123-128). -/
def isNone : MutEdgeHandle m k → Bool
  | .none => true
  | .ref _ => false

/-- `is_some` (generic/edge.rs:30-32). -/
def isSome (h : MutEdgeHandle m k) : Bool := !h.isNone

/-- `get_start` (generic/edge.rs:88-93, 130-135). -/
def getStart : MutEdgeHandle m k → Res (Id m)
  | .ref e => pure e.src
  | .none => .error .explicit

/-- `get_target` (generic/edge.rs:96-101, 137-142). -/
def getTarget : MutEdgeHandle m k → Res (Id m)
  | .ref e => pure e.dst
  | .none => .error .explicit

/-- `get_label_id` (generic/edge.rs:104-109, 144-149): unlike `EdgeType` it panics on `None`. -/
def getLabelId : MutEdgeHandle m k → Res (Option (Id k))
  | .ref e => pure e.label
  | .none => .error .explicit

/-- `set_label_id` (generic/edge.rs:114-119). -/
def setLabelId (h : MutEdgeHandle m k) (l : Option (Id k)) : Res (MutEdgeHandle m k) :=
  match h with
  | .ref e => pure (.ref { e with label := l })
  | .none => .error .explicit

/-- `unwrap_edge` (generic/edge.rs:62-67): both arms panic. -/
def unwrapEdge : MutEdgeHandle m k → Res (Edge m k)
  | .ref _ => .error .explicit
  | .none => .error .explicit

/-- `unwrap_edge_ref` (generic/edge.rs:70-75). -/
def unwrapRef : MutEdgeHandle m k → Res (Edge m k)
  | .ref e => pure e
  | .none => .error .explicit

end MutEdgeHandle

/-- `get_neighbor_mut` (graph_map/node.rs:202-208). -/
def NodeMap.getNeighborMut {m k : Nat} (nd : NodeMap m k) (t : Id m) : MutEdgeHandle m k :=
  match AL.get nd.neighbors t with
  | some l => .ref ⟨nd.id, t, l⟩
  | none => .none

namespace GraphMap

variable {m k : Nat} {NL EL : Type}

/-- `get_node_mut` (graph_map/graph.rs:291-296). -/
def getNodeMut (g : GraphMap m k NL EL) (n : Id m) : MutNode m k :=
  match AL.get g.nodeMap n with
  | some nd => .ref nd
  | none => .none

/-- `get_edge_mut` (graph_map/graph.rs:362-369). -/
def getEdgeMut (g : GraphMap m k NL EL) (s t : Id m) : Res (MutEdgeHandle m k) :=
  if !g.hasEdge s t then pure .none
  else do
    let nd ← unwrap (AL.get g.nodeMap s)
    pure (nd.getNeighborMut t)

/-- `nodes_mut` (graph_map/graph.rs:398-402). -/
def nodesMut (g : GraphMap m k NL EL) : List (MutNode m k) := (AL.values g.nodeMap).map .ref

/-- `edges_mut` (graph_map/graph.rs:405-419, graph_map/node.rs:211-224). -/
def edgesMut (g : GraphMap m k NL EL) : List (MutEdgeHandle m k) :=
  if g.directed then
    (AL.values g.nodeMap).flatMap (fun nd => nd.neighbors.map (fun p => .ref ⟨nd.id, p.1, p.2⟩))
  else
    (AL.values g.nodeMap).flatMap (fun nd => nd.nonLess.map (fun p => .ref ⟨nd.id, p.1, p.2⟩))

/-- The handle that `remove_node` returns (graph_map/graph.rs:320-323). -/
def ownedNode (r : Option (NodeMap m k)) : MutNode m k :=
  match r with
  | some nd => .ref nd
  | none => .none

/-- The handle that `remove_edge` returns (graph_map/graph.rs:373-375, graph_map/node.rs:194-199). -/
def ownedEdge (r : Option (Edge m k)) : MutEdgeHandle m k :=
  match r with
  | some e => .ref e
  | none => .none

end GraphMap

/-! ### Raw access to a node record -/

/-- The calls of `MutNodeMapTrait` (graph_map/node.rs:66-74, 164-225) on a record; `setNeighbor` is
`get_neighbor_mut(adj).set_label_id(l)`. -/
inductive RawOp (m k : Nat) where
  | addInEdge (adj : Id m)
  | addEdge (adj : Id m) (l : Option (Id k))
  | removeInEdge (adj : Id m)
  | removeEdge (adj : Id m)
  | setNeighbor (adj : Id m) (l : Option (Id k))
  deriving DecidableEq, Repr

/-- What such a call returns. -/
inductive RawAns (m k : Nat) where
  | flag (b : Bool)
  | owned (e : MutEdgeHandle m k)
  | unit
  deriving DecidableEq, Repr

/-- One raw call on a record. -/
def NodeMap.raw {m k : Nat} (nd : NodeMap m k) : RawOp m k → Res (NodeMap m k × RawAns m k)
  | .addInEdge adj => pure (nd.addInEdge adj, .flag (!nd.hasInNeighbor adj))
  | .addEdge adj l => let r := nd.addEdge adj l; pure (r.1, .flag r.2)
  | .removeInEdge adj => pure (nd.removeInEdge adj, .flag (nd.hasInNeighbor adj))
  | .removeEdge adj => let r := nd.removeEdge adj; pure (r.1, .owned (GraphMap.ownedEdge r.2))
  | .setNeighbor adj l => do
    let _ ← (nd.getNeighborMut adj).setLabelId l
    pure ({ nd with neighbors := AL.set nd.neighbors adj l }, .unit)

/-- `get_node_mut(n).unwrap_nodemap_ref()` followed by a raw call. -/
def GraphMap.rawNode {m k : Nat} {NL EL : Type} (g : GraphMap m k NL EL) (n : Id m) (op : RawOp m k) :
    Res (GraphMap m k NL EL × RawAns m k) := do
  let nd ← (g.getNodeMut n).unwrapRef
  let r ← nd.raw op
  pure ({ g with nodeMap := AL.set g.nodeMap n r.1 }, r.2)

end Verif
