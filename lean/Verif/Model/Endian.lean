import Verif.Model.Mmap

/-!
Memory-mapped graphs on machines that keep the bytes of a number in another order. The arrays are dumped and mapped as
they lie in memory (`typed_as_byte_slice`, `TypedMemoryMap`, io/mmap.rs:35-106); the auxiliary file is written by
bincode, least significant byte first on every machine. `big` tells a machine that keeps the most significant byte
first; `Model/Mmap.lean` is about the others. `usize` has 8 bytes.
-/

namespace Verif

variable {m k : Nat} {NL EL : Type}

/-- How a `w`-byte number lies in memory. -/
def inMemory (big : Bool) (w n : Nat) : List Byte := if big then (le w n).reverse else le w n

/-- The number that lies so in memory. -/
def fromMemory (big : Bool) (bs : List Byte) : Nat := if big then ofLe bs.reverse else ofLe bs

/-- `typed_as_byte_slice` (io/mmap.rs:99-106). -/
def typedBytesOn (big : Bool) (w : Nat) (l : List Nat) : List Byte := l.flatMap (inMemory big w)

/-- The elements in a window of a `TypedMemoryMap` (io/mmap.rs:68-96). -/
def TypedMap.readOn (big : Bool) (t : TypedMap) (win : Window) : List Nat :=
  (List.range win.count).map (fun i => fromMemory big ((t.data.drop (win.offset + i * t.width)).take t.width))

/-- `&map[..]` of a file of ids (io/mmap.rs:68-74). -/
def TypedMap.idsOn (big : Bool) (t : TypedMap) : List (Id m) := (t.readOn big t.full).map Id.new

/-- `EdgeVecMmap::new` (mmap/edge_vec_mmap.rs:33-53). -/
def EdgeVec.openMmapOn (big : Bool) (w v : Nat) (pre : String) (x : World) : Res (EdgeVec m k) := do
  let o ← TypedMap.new 8 (pre ++ ".offsets") x
  let e ← TypedMap.new w (pre ++ ".edges") x
  let l ← mapIfPresent v (pre ++ ".labels") x
  pure ⟨o.readOn big o.full, e.idsOn big, l.map (TypedMap.idsOn big)⟩

/-- `EdgeVec::dump_mmap` (edge_vec.rs:166-181). -/
def EdgeVec.dumpMmapOn (big : Bool) (w v : Nat) (ev : EdgeVec m k) (pre : String) (x : World) : Bool × World :=
  World.andThen (x.dump (pre ++ ".offsets") (typedBytesOn big 8 ev.offsets)) fun x =>
  World.andThen (x.dump (pre ++ ".edges") (typedBytesOn big w (ev.edges.map (·.val)))) fun x =>
  if ev.getLabels = [] then (true, x)
  else x.dump (pre ++ ".labels") (typedBytesOn big v (ev.getLabels.map (·.val)))

/-- `TypedStaticGraph::dump_mmap` (graph.rs:424-452). -/
def StaticGraph.dumpMmapOn [DecidableEq NL] [DecidableEq EL] (big : Bool) (w v : Nat) (nl : Codec NL) (el : Codec EL)
    (g : StaticGraph m k NL EL) (pre : String) (x : World) : Bool × World :=
  World.andThen (g.edgeVec.dumpMmapOn big w v (pre ++ "_OUT") x) fun x =>
  World.andThen (World.ifSome g.inEdgeVec (fun e => e.dumpMmapOn big w v (pre ++ "_IN")) x) fun x =>
  World.andThen (World.ifSome g.labels
    (fun ls => World.dump (pre ++ ".labels") (typedBytesOn big v (ls.map (·.val)))) x) fun x =>
  World.export (Codec.aux nl el) ⟨g.numNodes, g.numEdges, g.nodeLabels, g.edgeLabels⟩ (pre ++ "_aux.bin") x

/-- `StaticGraphMmap::new` (graph_mmap.rs:91-134). -/
def MmapGraph.newOn [DecidableEq NL] [DecidableEq EL] (big : Bool) (w v : Nat) (nl : Codec NL) (el : Codec EL)
    (pre : String) (x : World) : Res (MmapGraph m k NL EL) := do
  let edges ← EdgeVec.openMmapOn big w v (pre ++ "_OUT") x
  let inEdges ←
    (if (x.files (pre ++ "_IN" ++ ".offsets")).isSome then do
      let e ← EdgeVec.openMmapOn big w v (pre ++ "_IN") x
      pure (some e)
    else pure none)
  let labels ← mapIfPresent v (pre ++ ".labels") x
  let aux ← MmapGraph.loadAux nl el edges inEdges.isSome (pre ++ "_aux.bin") x
  pure ⟨edges, inEdges, labels.map (TypedMap.idsOn big), aux.numNodes, aux.numEdges, aux.nodeLabels,
    aux.edgeLabels⟩

end Verif
