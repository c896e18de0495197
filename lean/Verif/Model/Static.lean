import Verif.Model.View

/-!
`EdgeVec`, `TypedStaticGraph` and its edge iterator (`/repo/src/graph_impl/static_graph/`), and
`into_static` (`/repo/src/graph_impl/graph_map/graph.rs:835-945`).

Simplifications: the type parameter `Ty` is the field `directed`; `debug!`/`warn!` output and
`shrink_to_fit` are dropped; `usize` counters are unbounded naturals whose subtraction may underflow
explicitly. Loops that may run forever carry fuel and report `Panic.diverge` when it is used up.
-/

namespace Verif

/-- Indexing a slice, `l[i]`. -/
def index {X : Type} (l : List X) (i : Nat) : Res X :=
  match l[i]? with
  | some x => pure x
  | none => .error .indexOutOfBounds

/-- Result of a slice's `binary_search`: `Ok(i)` or `Err(i)`. -/
inductive Search where
  | found (i : Nat)
  | missing (i : Nat)
  deriving DecidableEq, Repr

/-- The loop of `core::slice::binary_search_by`: halve `size`, moving `base` up unless the middle
element is greater. `fuel` bounds the number of turns (`size` turns always suffice). -/
def searchLoop {m : Nat} (l : List (Id m)) (x : Id m) : Nat → Nat → Nat → Res Nat
  | 0, _, _ => .error .diverge
  | fuel + 1, base, size =>
    if size > 1 then do
      let half := size / 2
      let mid := base + half
      let y ← index l mid
      searchLoop l x fuel (if x < y then base else mid) (size - half)
    else pure base

/-- `core::slice::binary_search`. -/
def binarySearch {m : Nat} (l : List (Id m)) (x : Id m) : Res Search :=
  if l.length = 0 then pure (.missing 0)
  else do
    let base ← searchLoop l x (l.length + 1) 0 l.length
    let y ← index l base
    pure (if y = x then .found base else .missing (if y < x then base + 1 else base))

/-- `EdgeVec` (static_graph/edge_vec.rs:34-39). `get_labels` (196-201) is `labels.getD []`. -/
structure EdgeVec (m k : Nat) where
  offsets : List Nat
  edges : List (Id m)
  labels : Option (List (Id k))
  deriving DecidableEq, Repr

namespace EdgeVec

variable {m k : Nat}

/-- `EdgeVec::new` (edge_vec.rs:115-121). -/
def new (offsets : List Nat) (edges : List (Id m)) : EdgeVec m k := ⟨offsets, edges, none⟩

/-- `EdgeVec::with_labels` (edge_vec.rs:123-136). -/
def withLabels (offsets : List Nat) (edges : List (Id m)) (labels : List (Id k)) :
    Res (EdgeVec m k) :=
  if edges.length ≠ labels.length then .error .explicit
  else pure ⟨offsets, edges, some labels⟩

/-- `EdgeVec::from_raw` (edge_vec.rs:138-143). -/
def fromRaw (offsets : List Nat) (edges : List (Id m)) (labels : Option (List (Id k))) :
    Res (EdgeVec m k) :=
  match labels with
  | some labels => withLabels offsets edges labels
  | none => pure (new offsets edges)

/-- `get_labels` (edge_vec.rs:196-201). -/
def getLabels (ev : EdgeVec m k) : List (Id k) := ev.labels.getD []

/-- `num_nodes` (edge_vec.rs:47-49). -/
def numNodes (ev : EdgeVec m k) : Res Nat :=
  if ev.offsets.length = 0 then .error .underflow else pure (ev.offsets.length - 1)

/-- `num_edges` (edge_vec.rs:52-54). -/
def numEdges (ev : EdgeVec m k) : Nat := ev.edges.length

/-- `has_node` (edge_vec.rs:75-77). -/
def hasNode (ev : EdgeVec m k) (n : Id m) : Res Bool := do
  let c ← ev.numNodes
  pure (decide (n.val < c))

/-- `&edges[start..end]`. -/
def slice {X : Type} (l : List X) (start stop : Nat) : Res (List X) :=
  if start ≤ stop ∧ stop ≤ l.length then pure ((l.take stop).drop start)
  else .error .indexOutOfBounds

/-- The rest of `neighbors` after its `assert!` (edge_vec.rs:59-62). -/
def row (ev : EdgeVec m k) (n : Id m) : Res (List (Id m)) := do
  let start ← index ev.offsets n.val
  let stop ← index ev.offsets (n.val + 1)
  slice ev.edges start stop

/-- `neighbors` (edge_vec.rs:57-63). -/
def neighbors (ev : EdgeVec m k) (n : Id m) : Res (List (Id m)) := do
  if ← ev.hasNode n then ev.row n else .error .explicit

/-- The rest of `degree` after its `assert!` (edge_vec.rs:68-71). -/
def rowLength (ev : EdgeVec m k) (n : Id m) : Res Nat := do
  let start ← index ev.offsets n.val
  let stop ← index ev.offsets (n.val + 1)
  if stop < start then .error .underflow else pure (stop - start)

/-- `degree` (edge_vec.rs:66-72). -/
def degree (ev : EdgeVec m k) (n : Id m) : Res Nat := do
  if ← ev.hasNode n then ev.rowLength n else .error .explicit

/-- The search in `find_edge_index` (edge_vec.rs:84-89). -/
def searchRow (ev : EdgeVec m k) (s t : Id m) : Res (Option Nat) := do
  let nb ← ev.neighbors s
  match ← binarySearch nb t with
  | .missing _ => pure none
  | .found i => do
    let o ← index ev.offsets s.val
    pure (some (o + i))

/-- `find_edge_index` (edge_vec.rs:80-91). -/
def findEdgeIndex (ev : EdgeVec m k) (s t : Id m) : Res (Option Nat) := do
  let a ← ev.hasNode s
  let b ← ev.hasNode t
  if !(a && b) then pure none else ev.searchRow s t

/-- `find_edge_label_id` (edge_vec.rs:94-106). -/
def findEdgeLabelId (ev : EdgeVec m k) (s t : Id m) : Res (Option (Id k)) :=
  if ev.getLabels = [] then pure none
  else do
    match ← ev.findEdgeIndex s t with
    | none => pure none
    | some i => pure ev.getLabels[i]?

/-- `has_edge` (edge_vec.rs:109-111). -/
def hasEdge (ev : EdgeVec m k) (s t : Id m) : Res Bool := do
  let r ← ev.findEdgeIndex s t
  pure r.isSome

/-- `remove_labels` (edge_vec.rs:145-147). -/
def removeLabels (ev : EdgeVec m k) : EdgeVec m k := { ev with labels := none }

/-- `clear` (edge_vec.rs:149-155). -/
def clear (ev : EdgeVec m k) : EdgeVec m k := ⟨[], [], ev.labels.map (fun _ => [])⟩

end EdgeVec

/-- `StaticEdgeIndexIter` (static_edge_iter.rs:24-29) without its two constant fields. -/
structure EdgeIter where
  currNode : Nat
  currIdx : Nat
  deriving DecidableEq, Repr

namespace EdgeIter

variable {m k : Nat}

/-- The inner `while` of `next` (static_edge_iter.rs:52-57). -/
def skipEmpty (ev : EdgeVec m k) : Nat → EdgeIter → Res EdgeIter
  | 0, _ => .error .diverge
  | fuel + 1, it => do
    if ← ev.hasNode (Id.new it.currNode) then
      let d ← ev.degree (Id.new it.currNode)
      if it.currIdx ≥ d then skipEmpty ev fuel ⟨it.currNode + 1, 0⟩ else pure it
    else pure it

/-- The end of `next` (static_edge_iter.rs:87-91). -/
def yieldAt (nb : List (Id m)) (node i : Nat) : Res (Option ((Id m × Id m) × EdgeIter)) := do
  let t ← index nb i
  pure (some ((Id.new node, t), ⟨node, i + 1⟩))

/-- What the turn of the outer loop does once a nonempty row is found (static_edge_iter.rs:66-84):
`some i` — leave the loop at index `i`; `none` — go on with the next node. -/
def pick (nb : List (Id m)) (directed : Bool) (node idx : Nat) : Res (Option Nat) :=
  if directed then pure (some idx)
  else do
    let y ← index nb idx
    if y < Id.new node then
      match ← binarySearch nb (Id.new node) with
      | .found i => pure (some i)
      | .missing i => pure (if i < nb.length then some i else none)
    else pure (some idx)

/-- `next` (static_edge_iter.rs:47-92). (After the first `None` the iterator stays exhausted, so its
state is dropped there; `EdgeIter.nextKeep` keeps it, and C190 shows that it stays.) -/
def next (ev : EdgeVec m k) (directed : Bool) : Nat → EdgeIter →
    Res (Option ((Id m × Id m) × EdgeIter))
  | 0, _ => .error .diverge
  | fuel + 1, it => do
    let it ← skipEmpty ev (fuel + 1) it
    if ← ev.hasNode (Id.new it.currNode) then
      let nb ← ev.neighbors (Id.new it.currNode)
      match ← pick nb directed it.currNode it.currIdx with
      | some i => yieldAt nb it.currNode i
      | none => next ev directed fuel ⟨it.currNode + 1, 0⟩
    else pure none

/-- Everything the iterator yields until its first `None`. -/
def collect (ev : EdgeVec m k) (directed : Bool) : Nat → EdgeIter → Res (List (Id m × Id m))
  | 0, _ => .error .diverge
  | fuel + 1, it => do
    match ← next ev directed (fuel + 1) it with
    | none => pure []
    | some (e, it) => do
      let l ← collect ev directed fuel it
      pure (e :: l)

/-- The iterator zipped with a slice (`edge_indices().zip(labels.iter())`, graph.rs:551): every turn
asks the iterator first and the slice second, and it is over at the first `None` of either. So the
iterator is asked at most once more than the slice has entries. (`fuel` bounds each `next`.) -/
def zip {X : Type} (ev : EdgeVec m k) (directed : Bool) (fuel : Nat) :
    List X → EdgeIter → Res (List ((Id m × Id m) × X))
  | [], it => do
    let _ ← next ev directed fuel it
    pure []
  | x :: xs, it => do
    match ← next ev directed fuel it with
    | none => pure []
    | some (e, it) => do
      let l ← zip ev directed fuel xs it
      pure ((e, x) :: l)

end EdgeIter

/-- `StaticEdgeIndexIter::new` (static_edge_iter.rs:33-40), run to its end. The fuel suffices for every
graph on which the iterator ends (`Props.c23_more_fuel`). -/
def EdgeVec.edgeIndices {m k : Nat} (ev : EdgeVec m k) (directed : Bool) :
    Res (List (Id m × Id m)) :=
  EdgeIter.collect ev directed (ev.offsets.length + ev.edges.length + 1) ⟨0, 0⟩

/-- `edge_indices().zip(labels.iter())` (graph.rs:551, graph_mmap.rs:250), run to its end. The
fuel lets every `next` pass over all the rows twice (`Props.c162_more_fuel`). -/
def EdgeVec.labelled {m k : Nat} (ev : EdgeVec m k) (directed : Bool) :
    Res (List ((Id m × Id m) × Id k)) :=
  EdgeIter.zip ev directed (2 * ev.offsets.length + ev.edges.length + 1) ev.getLabels ⟨0, 0⟩

/-- `label == L::max_value()` means no label: `StaticNode::new_static` (static_graph/node.rs:36-45),
`Edge::new_static` (graph_map/edge.rs:83-93). -/
def staticLabel {k : Nat} (l : Id k) : Option (Id k) := if l = Id.maxValue then none else some l

/-- `TypedStaticGraph` (static_graph/graph.rs:52-66). -/
structure StaticGraph (m k : Nat) (NL EL : Type) where
  directed : Bool
  numNodes : Nat
  numEdges : Nat
  edgeVec : EdgeVec m k
  inEdgeVec : Option (EdgeVec m k)
  labels : Option (List (Id k))
  nodeLabels : SetMap NL
  edgeLabels : SetMap EL
  deriving DecidableEq, Repr

namespace StaticGraph

variable {m k : Nat} {NL EL : Type}

/-- The default node and edge numbers of `new` and `with_labels` (graph.rs:163-184, 222-243). -/
def defaultCounts (directed : Bool) (edges : EdgeVec m k) (numNodes numEdges : Option Nat) :
    Res (Nat × Nat) := do
  let n ← edges.numNodes
  pure (numNodes.getD n,
    numEdges.getD (if directed then edges.numEdges else edges.numEdges / 2))

/-- `new` (graph.rs:142-196). -/
def new (directed : Bool) (edges : EdgeVec m k) (inEdges : Option (EdgeVec m k))
    (numNodes numEdges : Option Nat) : Res (StaticGraph m k NL EL) :=
  if directed && inEdges.isNone then .error .explicit
  else do
    let c ← defaultCounts directed edges numNodes numEdges
    pure ⟨directed, c.1, c.2, edges, inEdges, none, SetMap.empty, SetMap.empty⟩

/-- `with_labels` (graph.rs:198-259). -/
def withLabels (directed : Bool) (edges : EdgeVec m k) (inEdges : Option (EdgeVec m k))
    (labels : List (Id k)) (nl : SetMap NL) (el : SetMap EL) (numNodes numEdges : Option Nat) :
    Res (StaticGraph m k NL EL) :=
  if directed && inEdges.isNone then .error .explicit
  else do
    let c ← defaultCounts directed edges numNodes numEdges
    pure ⟨directed, c.1, c.2, edges, inEdges, some labels, nl, el⟩

/-- `from_raw` (graph.rs:261-329). It evaluates `edge_vec.num_nodes()` for a message. -/
def fromRaw (directed : Bool) (numNodes numEdges : Nat) (edgeVec : EdgeVec m k)
    (inEdgeVec : Option (EdgeVec m k)) (labels : Option (List (Id k))) (nl : SetMap NL)
    (el : SetMap EL) : Res (StaticGraph m k NL EL) := do
  let _ ← edgeVec.numNodes
  if directed && inEdgeVec.isNone then .error .explicit
  else pure ⟨directed, numNodes, numEdges, edgeVec, inEdgeVec, labels, nl, el⟩

/-- `remove_node_labels` (graph.rs:382-385). -/
def removeNodeLabels (g : StaticGraph m k NL EL) : StaticGraph m k NL EL :=
  { g with labels := none, nodeLabels := SetMap.empty }

/-- `remove_edge_labels` (graph.rs:388-394). -/
def removeEdgeLabels (g : StaticGraph m k NL EL) : StaticGraph m k NL EL :=
  { g with
    edgeVec := g.edgeVec.removeLabels
    edgeLabels := SetMap.empty
    inEdgeVec := g.inEdgeVec.map (fun e => e.removeLabels) }

/-- `remove_labels` (graph.rs:397-400). -/
def removeLabels (g : StaticGraph m k NL EL) : StaticGraph m k NL EL :=
  g.removeNodeLabels.removeEdgeLabels

/-- `find_edge_index` (graph.rs:413-415). -/
def findEdgeIndex (g : StaticGraph m k NL EL) (s t : Id m) : Res (Option Nat) :=
  g.edgeVec.findEdgeIndex s t

/-- `has_node` (graph.rs:484-486). -/
def hasNode (g : StaticGraph m k NL EL) (n : Id m) : Bool := decide (n.val < g.numNodes)

/-- `get_node(n).get_label_id()` (graph.rs:459-468). -/
def nodeLid (g : StaticGraph m k NL EL) (n : Id m) : Res (Option (Id k)) :=
  if !g.hasNode n then pure none
  else match g.labels with
    | some ls => do
      let l ← index ls n.val
      pure (staticLabel l)
    | none => pure none

/-- `has_edge` (graph.rs:489-491). -/
def hasEdge (g : StaticGraph m k NL EL) (s t : Id m) : Res Bool := g.edgeVec.hasEdge s t

/-- `get_edge` (graph.rs:471-481). -/
def getEdge (g : StaticGraph m k NL EL) (s t : Id m) : Res (Option (Edge m k)) := do
  if ← g.hasEdge s t then
    match ← g.edgeVec.findEdgeLabelId s t with
    | some l => pure (some ⟨s, t, staticLabel l⟩)
    | none => pure (some ⟨s, t, none⟩)
  else pure none

/-- `node_indices` (graph.rs:509-511). -/
def nodeIndices (g : StaticGraph m k NL EL) : List (Id m) := (List.range g.numNodes).map Id.new

/-- `edge_indices` (graph.rs:514-519). -/
def edgeIndices (g : StaticGraph m k NL EL) : Res (List (Id m × Id m)) :=
  g.edgeVec.edgeIndices g.directed

/-- `nodes` (graph.rs:522-540), as pairs of id and label id. -/
def nodes (g : StaticGraph m k NL EL) : List (Id m × Option (Id k)) :=
  match g.labels with
  | none => g.nodeIndices.map (fun i => (i, none))
  | some ls => (g.nodeIndices.zip ls).map (fun p => (p.1, staticLabel p.2))

/-- `edges` (graph.rs:543-555). -/
def edges (g : StaticGraph m k NL EL) : Res (List (Edge m k)) :=
  if g.edgeVec.getLabels = [] then do
    let es ← g.edgeIndices
    pure (es.map (fun e => ⟨e.1, e.2, none⟩))
  else do
    let es ← g.edgeVec.labelled g.directed
    pure (es.map (fun p => ⟨p.1.1, p.1.2, staticLabel p.2⟩))

/-- `degree` (graph.rs:558-560). -/
def degree (g : StaticGraph m k NL EL) (n : Id m) : Res Nat := g.edgeVec.degree n

/-- `neighbors_iter` (graph.rs:563-567) and `neighbors` (570-572). -/
def neighbors (g : StaticGraph m k NL EL) (n : Id m) : Res (List (Id m)) := g.edgeVec.neighbors n

/-- `max_seen_id` (graph.rs:575-577). -/
def maxSeenId (g : StaticGraph m k NL EL) : Res (Option (Id m)) :=
  if g.numNodes = 0 then .error .underflow else pure (some (Id.new (g.numNodes - 1)))

/-- `in_neighbors_iter`, `in_neighbors` (graph.rs:612-621). -/
def inNeighbors (g : StaticGraph m k NL EL) (n : Id m) : Res (List (Id m)) := do
  let ev ← unwrap g.inEdgeVec
  ev.neighbors n

/-- `in_degree` (graph.rs:607-609). -/
def inDegree (g : StaticGraph m k NL EL) (n : Id m) : Res Nat := do
  let l ← g.inNeighbors n
  pure l.length

/-- `TypedStaticGraph` behind the traits (graph.rs:455-597). Calls that enumerate edges need the
enumeration to end. -/
def view (g : StaticGraph m k NL EL) : Res (GView m k NL EL) := do
  let es ← g.edgeIndices
  let eds ← g.edges
  pure {
    directed := g.directed
    nodeCount := g.numNodes
    edgeCount := g.numEdges
    hasNode := g.hasNode
    hasEdge := g.hasEdge
    nodeLid := g.nodeLid
    edgeLid := fun s t => do
      let e ← g.getEdge s t
      pure (e.bind (·.label))
    nodeIndices := g.nodeIndices
    edgeIndices := es
    nodes := g.nodes
    edges := eds
    degree := g.degree
    neighbors := g.neighbors
    maxSeenId := g.maxSeenId
    nodeLabels := g.nodeLabels
    edgeLabels := g.edgeLabels }

end StaticGraph

/-! ### `into_static` -/

/-- The local variables of `into_static` (graph_map/graph.rs:839-858) that its loop changes. -/
structure Freeze (m k : Nat) where
  nodeMap : List (Id m × NodeMap m k)
  offset : Nat
  offsets : List Nat
  edges : List (Id m)
  edgeLabels : Option (List (Id k))
  nodeLabels : Option (List (Id k))
  /-- `in_offset`, `in_offset_vec`, `in_edge_vec`. -/
  ins : Option (Nat × List Nat × List (Id m))

namespace Freeze

variable {m k : Nat}

/-- The body of the `if let` for a present node (graph_map/graph.rs:871-900). -/
def present (st : Freeze m k) (nd : NodeMap m k) : Freeze m k where
  nodeMap := st.nodeMap
  offset := st.offset + nd.neighbors.length
  offsets := st.offsets
  edges := st.edges ++ AL.keys nd.neighbors
  edgeLabels := st.edgeLabels.map
    (fun ls => ls ++ nd.neighbors.map (fun p => p.2.getD Id.maxValue))
  nodeLabels := st.nodeLabels.map (fun ls => ls ++ [nd.label.getD Id.maxValue])
  ins := st.ins.map (fun i => (i.1 + nd.inNeighbors.length, i.2.1, i.2.2 ++ nd.inNeighbors))

/-- The `else` branch (graph_map/graph.rs:901-903). -/
def absent (st : Freeze m k) : Freeze m k :=
  { st with nodeLabels := st.nodeLabels.map (fun ls => ls ++ [Id.maxValue]) }

/-- Pushing the offsets (graph_map/graph.rs:905-909). -/
def push (st : Freeze m k) : Freeze m k :=
  { st with
    offsets := st.offsets ++ [st.offset]
    ins := st.ins.map (fun i => (i.1, i.2.1 ++ [i.1], i.2.2)) }

/-- One turn of the loop (graph_map/graph.rs:870-909). -/
def turn (st : Freeze m k) (nid : Id m) : Freeze m k :=
  match AL.get st.nodeMap nid with
  | some nd => push (present { st with nodeMap := AL.erase st.nodeMap nid } nd)
  | none => push (absent st)

/-- The loop (graph_map/graph.rs:869-915). -/
def loop : Nat → Id m → Id m → Freeze m k → Res (Freeze m k)
  | 0, _, _, _ => .error .diverge
  | fuel + 1, nid, maxNid, st =>
    if nid ≤ maxNid then do
      let st := st.turn nid
      let nid ← nid.increment
      loop fuel nid maxNid st
    else pure st

end Freeze

namespace GraphMap

variable {m k : Nat} {NL EL : Type}

/-- The local variables before the loop (graph_map/graph.rs:839-867). -/
def freezeInit (g : GraphMap m k NL EL) : Freeze m k where
  nodeMap := g.nodeMap
  offset := 0
  offsets := [0]
  edges := []
  edgeLabels := if g.view.hasEdgeLabels then some [] else none
  nodeLabels := if g.view.hasNodeLabels then some [] else none
  ins := if g.directed then some (0, [0], []) else none

/-- `into_static` (graph_map/graph.rs:835-945). `m + 2` turns suffice unless the loop never ends. -/
def intoStatic (g : GraphMap m k NL EL) : Res (StaticGraph m k NL EL) := do
  let maxNid ← unwrap g.nodeIndices.max?
  let st ← Freeze.loop (m + 2) (Id.new 0) maxNid g.freezeInit
  let ev ← EdgeVec.fromRaw st.offsets st.edges st.edgeLabels
  StaticGraph.fromRaw g.directed g.nodeCount g.edgeCount ev
    (st.ins.map (fun i => EdgeVec.new i.2.1 i.2.2)) st.nodeLabels g.nodeLabels g.edgeLabels

end GraphMap

end Verif
