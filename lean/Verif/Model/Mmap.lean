import Verif.Model.Disk

/-!
Memory-mapped graphs: `/repo/src/io/mmap.rs`, `/repo/src/graph_impl/static_graph/mmap/` and the
`dump_mmap` functions of `EdgeVec` and `TypedStaticGraph`.

Simplifications: an element of a mapped file is the integer given by its bytes (little endian); mapping an
empty file fails, as it does on Linux; `usize` arithmetic panics on underflow (debug build). A mapping is a
copy of the file, so changes of the file while it is mapped are not modelled.
-/

namespace Verif

/-- `typed_as_byte_slice` (io/mmap.rs:99-106): the memory of a slice of `w`-byte integers. -/
def typedBytes (w : Nat) (l : List Nat) : List Byte := l.flatMap (le w)

/-- `TypedMemoryMap` (io/mmap.rs:35-41). -/
structure TypedMap where
  data : List Byte
  len : Nat
  width : Nat
  deriving DecidableEq, Repr

/-- What `slice::from_raw_parts` is given: a byte offset into the mapping and a number of elements. -/
structure Window where
  offset : Nat
  count : Nat
  deriving DecidableEq, Repr

namespace TypedMap

/-- `with_mmap` (io/mmap.rs:56-65). Dividing by the size of a zero-sized type panics. -/
def withMmap (w : Nat) (bs : List Byte) : Res TypedMap :=
  if w = 0 then .error .explicit else pure ⟨bs, bs.length / w, w⟩

/-- `new` (io/mmap.rs:44-54). -/
def new (w : Nat) (path : String) (x : World) : Res TypedMap :=
  match x.files path with
  | none => .error .explicit
  | some bs =>
    if bs.length = 0 then .error .unwrapNone
    else withMmap w bs

/-- `&map[..]` (io/mmap.rs:68-74). -/
def full (t : TypedMap) : Window := ⟨0, t.len⟩

/-- `&map[i..]` (io/mmap.rs:76-88). -/
def rangeFrom (t : TypedMap) (i : Nat) : Res Window :=
  if t.len < i then .error .underflow else pure ⟨i * t.width, t.len - i⟩

/-- `&map[..e]` (io/mmap.rs:90-96): the end is not compared with the length. -/
def rangeTo (_t : TypedMap) (e : Nat) : Window := ⟨0, e⟩

/-- The elements in a window. -/
def read (t : TypedMap) (win : Window) : List Nat :=
  (List.range win.count).map (fun i => ofLe ((t.data.drop (win.offset + i * t.width)).take t.width))

/-- `&map[..]` of a file of ids. -/
def ids {m : Nat} (t : TypedMap) : List (Id m) := (t.read t.full).map Id.new

end TypedMap

/-- `TypedMemoryMap::new` of an optional file: `metadata(path).is_ok()` decides. -/
def mapIfPresent (w : Nat) (path : String) (x : World) : Res (Option TypedMap) :=
  if (x.files path).isSome then do
    let t ← TypedMap.new w path x
    pure (some t)
  else pure none

variable {m k : Nat} {NL EL : Type}

/-- `EdgeVecMmap::new` (mmap/edge_vec_mmap.rs:33-53), as the three arrays its accessors (56-74) show. All
queries are those of `EdgeVec` (the trait `EdgeVecTrait`). -/
def EdgeVec.openMmap (w v : Nat) (pre : String) (x : World) : Res (EdgeVec m k) := do
  let o ← TypedMap.new 8 (pre ++ ".offsets") x
  let e ← TypedMap.new w (pre ++ ".edges") x
  let l ← mapIfPresent v (pre ++ ".labels") x
  pure ⟨o.read o.full, e.ids, l.map TypedMap.ids⟩

/-- `EdgeVec::dump_mmap` (edge_vec.rs:166-181). -/
def EdgeVec.dumpMmap (w v : Nat) (ev : EdgeVec m k) (pre : String) (x : World) : Bool × World :=
  World.andThen (x.dump (pre ++ ".offsets") (typedBytes 8 ev.offsets)) fun x =>
  World.andThen (x.dump (pre ++ ".edges") (typedBytes w (ev.edges.map (·.val)))) fun x =>
  if ev.getLabels = [] then (true, x)
  else x.dump (pre ++ ".labels") (typedBytes v (ev.getLabels.map (·.val)))

/-- `if let Some(ref y) = o { f(y)?; }`. -/
def World.ifSome {X : Type} (o : Option X) (f : X → World → Bool × World) (x : World) : Bool × World :=
  match o with
  | none => (true, x)
  | some y => f y x

/-- `TypedStaticGraph::dump_mmap` (graph.rs:424-452). -/
def StaticGraph.dumpMmap [DecidableEq NL] [DecidableEq EL] (w v : Nat) (nl : Codec NL) (el : Codec EL)
    (g : StaticGraph m k NL EL) (pre : String) (x : World) : Bool × World :=
  World.andThen (g.edgeVec.dumpMmap w v (pre ++ "_OUT") x) fun x =>
  World.andThen (World.ifSome g.inEdgeVec (fun e => e.dumpMmap w v (pre ++ "_IN")) x) fun x =>
  World.andThen (World.ifSome g.labels
    (fun ls => World.dump (pre ++ ".labels") (typedBytes v (ls.map (·.val)))) x) fun x =>
  World.export (Codec.aux nl el) ⟨g.numNodes, g.numEdges, g.nodeLabels, g.edgeLabels⟩ (pre ++ "_aux.bin") x

/-- `StaticGraphMmap` (mmap/graph_mmap.rs:39-51). -/
structure MmapGraph (m k : Nat) (NL EL : Type) where
  edges : EdgeVec m k
  inEdges : Option (EdgeVec m k)
  labels : Option (List (Id k))
  numNodes : Nat
  numEdges : Nat
  nodeLabels : SetMap NL
  edgeLabels : SetMap EL
  deriving DecidableEq, Repr

namespace MmapGraph

/-- The auxiliary data of `new` (graph_mmap.rs:114-125). -/
def loadAux [DecidableEq NL] [DecidableEq EL] (nl : Codec NL) (el : Codec EL) (edges : EdgeVec m k)
    (directed : Bool) (path : String) (x : World) : Res (Aux NL EL) :=
  if (x.files path).isSome then unwrap (x.import (Codec.aux nl el) path)
  else do
    let n ← edges.numNodes
    pure ⟨n, if directed then edges.numEdges else edges.numEdges / 2, SetMap.empty, SetMap.empty⟩

/-- `StaticGraphMmap::new` (graph_mmap.rs:91-134). -/
def new [DecidableEq NL] [DecidableEq EL] (w v : Nat) (nl : Codec NL) (el : Codec EL) (pre : String)
    (x : World) : Res (MmapGraph m k NL EL) := do
  let edges ← EdgeVec.openMmap w v (pre ++ "_OUT") x
  let inEdges ←
    (if (x.files (pre ++ "_IN" ++ ".offsets")).isSome then do
      let e ← EdgeVec.openMmap w v (pre ++ "_IN") x
      pure (some e)
    else pure none)
  let labels ← mapIfPresent v (pre ++ ".labels") x
  let aux ← loadAux nl el edges inEdges.isSome (pre ++ "_aux.bin") x
  pure ⟨edges, inEdges, labels.map TypedMap.ids, aux.numNodes, aux.numEdges, aux.nodeLabels,
    aux.edgeLabels⟩

/-- `has_node` (graph_mmap.rs:184-186). -/
def hasNode (g : MmapGraph m k NL EL) (n : Id m) : Bool := decide (n.val < g.numNodes)

/-- `get_node(n).get_label_id()` (graph_mmap.rs:157-168). -/
def nodeLid (g : MmapGraph m k NL EL) (n : Id m) : Res (Option (Id k)) :=
  if !g.hasNode n then pure none
  else match g.labels with
    | some ls => do
      let l ← index ls n.val
      pure (staticLabel l)
    | none => pure none

/-- `neighbors_iter`, `neighbors` (graph_mmap.rs:262-269). -/
def neighbors (g : MmapGraph m k NL EL) (n : Id m) : Res (List (Id m)) := g.edges.neighbors n

/-- `has_edge` (graph_mmap.rs:189-195). -/
def hasEdge (g : MmapGraph m k NL EL) (s t : Id m) : Res Bool := do
  let nb ← g.neighbors s
  match ← binarySearch nb t with
  | .found _ => pure true
  | .missing _ => pure false

/-- `get_edge` (graph_mmap.rs:171-181). -/
def getEdge (g : MmapGraph m k NL EL) (s t : Id m) : Res (Option (Edge m k)) := do
  if ← g.hasEdge s t then
    match ← g.edges.findEdgeLabelId s t with
    | some l => pure (some ⟨s, t, staticLabel l⟩)
    | none => pure (some ⟨s, t, none⟩)
  else pure none

/-- `is_directed` (graph_mmap.rs:208-211). -/
def isDirected (g : MmapGraph m k NL EL) : Bool := g.inEdges.isSome

/-- `node_indices` (graph_mmap.rs:214-216). -/
def nodeIndices (g : MmapGraph m k NL EL) : List (Id m) := (List.range g.numNodes).map Id.new

/-- `edge_indices` (graph_mmap.rs:219-224). -/
def edgeIndices (g : MmapGraph m k NL EL) : Res (List (Id m × Id m)) := g.edges.edgeIndices g.isDirected

/-- `nodes` (graph_mmap.rs:227-239). -/
def nodes (g : MmapGraph m k NL EL) : List (Id m × Option (Id k)) :=
  match g.labels with
  | none => g.nodeIndices.map (fun i => (i, none))
  | some ls => (g.nodeIndices.zip ls).map (fun p => (p.1, staticLabel p.2))

/-- `edges` (graph_mmap.rs:242-254). -/
def edgeList (g : MmapGraph m k NL EL) : Res (List (Edge m k)) :=
  if g.edges.getLabels = [] then do
    let es ← g.edgeIndices
    pure (es.map (fun e => ⟨e.1, e.2, none⟩))
  else do
    let es ← g.edges.labelled g.isDirected
    pure (es.map (fun p => ⟨p.1.1, p.1.2, staticLabel p.2⟩))

/-- `degree` (graph_mmap.rs:257-259). -/
def degree (g : MmapGraph m k NL EL) (n : Id m) : Res Nat := do
  let nb ← g.neighbors n
  pure nb.length

/-- `max_seen_id` (graph_mmap.rs:272-274). -/
def maxSeenId (g : MmapGraph m k NL EL) : Res (Option (Id m)) :=
  if g.numNodes = 0 then .error .underflow else pure (some (Id.new (g.numNodes - 1)))

/-- `in_neighbors_iter`, `in_neighbors` (graph_mmap.rs:144-150, 305-312): nothing without in-edges. -/
def inNeighbors (g : MmapGraph m k NL EL) (n : Id m) : Res (List (Id m)) :=
  match g.inEdges with
  | some e => e.neighbors n
  | none => pure []

/-- `in_degree` (graph_mmap.rs:300-302). -/
def inDegree (g : MmapGraph m k NL EL) (n : Id m) : Res Nat := do
  let l ← g.inNeighbors n
  pure l.length

/-- `StaticGraphMmap` behind the traits. -/
def view (g : MmapGraph m k NL EL) : Res (GView m k NL EL) := do
  let es ← g.edgeIndices
  let eds ← g.edgeList
  pure {
    directed := g.isDirected
    nodeCount := g.numNodes
    edgeCount := g.numEdges
    hasNode := g.hasNode
    hasEdge := g.hasEdge
    nodeLid := g.nodeLid
    edgeLid := fun s t => do
      let e ← g.getEdge s t
      pure (e.bind (·.label))
    nodeIndices := g.nodeIndices
    edgeIndices := es
    nodes := g.nodes
    edges := eds
    degree := g.degree
    neighbors := g.neighbors
    maxSeenId := g.maxSeenId
    nodeLabels := g.nodeLabels
    edgeLabels := g.edgeLabels }

end MmapGraph

/-- The memory-mapped graph over the same arrays. -/
def StaticGraph.asMmap (g : StaticGraph m k NL EL) : MmapGraph m k NL EL :=
  ⟨g.edgeVec, g.inEdgeVec, g.labels, g.numNodes, g.numEdges, g.nodeLabels, g.edgeLabels⟩

end Verif
