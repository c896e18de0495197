import Verif.Model.Mmap

/-!
Memory-mapped graphs on machines whose `usize` has `u` bytes. The offsets are dumped and mapped as `usize`
(`TypedMemoryMap<usize>`, mmap/edge_vec_mmap.rs:27); in the auxiliary file counts are written as `u64` on every machine
(bincode), and reading one that does not fit `usize` is an error. `Model/Mmap.lean` has `u` = 8.

Simplification: label tables are taken to be shorter than what `usize` holds.
-/

namespace Verif

variable {m k : Nat} {NL EL : Type}

/-- `EdgeVecMmap::new` (mmap/edge_vec_mmap.rs:33-53) where `usize` has `u` bytes. -/
def EdgeVec.openMmapAt (u w v : Nat) (pre : String) (x : World) : Res (EdgeVec m k) := do
  let o ← TypedMap.new u (pre ++ ".offsets") x
  let e ← TypedMap.new w (pre ++ ".edges") x
  let l ← mapIfPresent v (pre ++ ".labels") x
  pure ⟨o.read o.full, e.ids, l.map TypedMap.ids⟩

/-- `EdgeVec::dump_mmap` (edge_vec.rs:166-181) where `usize` has `u` bytes. -/
def EdgeVec.dumpMmapAt (u w v : Nat) (ev : EdgeVec m k) (pre : String) (x : World) : Bool × World :=
  World.andThen (x.dump (pre ++ ".offsets") (typedBytes u ev.offsets)) fun x =>
  World.andThen (x.dump (pre ++ ".edges") (typedBytes w (ev.edges.map (·.val)))) fun x =>
  if ev.getLabels = [] then (true, x)
  else x.dump (pre ++ ".labels") (typedBytes v (ev.getLabels.map (·.val)))

namespace MmapGraph

/-- The auxiliary data of `new` (graph_mmap.rs:114-125): counts have to fit `usize`. -/
def loadAuxAt [DecidableEq NL] [DecidableEq EL] (u : Nat) (nl : Codec NL) (el : Codec EL) (edges : EdgeVec m k)
    (directed : Bool) (path : String) (x : World) : Res (Aux NL EL) :=
  if (x.files path).isSome then do
    let a ← unwrap (x.import (Codec.aux nl el) path)
    if a.numNodes < 256 ^ u ∧ a.numEdges < 256 ^ u then pure a else .error .unwrapNone
  else do
    let n ← edges.numNodes
    pure ⟨n, if directed then edges.numEdges else edges.numEdges / 2, SetMap.empty, SetMap.empty⟩

/-- `StaticGraphMmap::new` (graph_mmap.rs:91-134) where `usize` has `u` bytes. -/
def newAt [DecidableEq NL] [DecidableEq EL] (u w v : Nat) (nl : Codec NL) (el : Codec EL) (pre : String)
    (x : World) : Res (MmapGraph m k NL EL) := do
  let edges ← EdgeVec.openMmapAt u w v (pre ++ "_OUT") x
  let inEdges ←
    (if (x.files (pre ++ "_IN" ++ ".offsets")).isSome then do
      let e ← EdgeVec.openMmapAt u w v (pre ++ "_IN") x
      pure (some e)
    else pure none)
  let labels ← mapIfPresent v (pre ++ ".labels") x
  let aux ← loadAuxAt u nl el edges inEdges.isSome (pre ++ "_aux.bin") x
  pure ⟨edges, inEdges, labels.map TypedMap.ids, aux.numNodes, aux.numEdges, aux.nodeLabels,
    aux.edgeLabels⟩

end MmapGraph

end Verif
