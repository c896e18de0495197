import Verif.Model.Static

/-!
The byte formats: `bincode` 1.0 with its default configuration as used by `/repo/src/io/serde.rs`, and the
raw memory image written by `/repo/src/io/mmap.rs`. Both are little endian with fixed widths (the memory
image on a little-endian 64-bit machine).

What the derived serde implementations do is modelled type by type: a struct is its fields in order, a
sequence or map its length as eight bytes and then its entries, an `Option` a tag byte, `PhantomData` and
`()` nothing. Lengths and counters are written modulo `2^64`.
-/

namespace Verif

/-- `u8`. -/
abbrev Byte := Fin 256

/-- The `w` bytes of an unsigned integer, least significant first. -/
def le : Nat → Nat → List Byte
  | 0, _ => []
  | w + 1, n => Fin.ofNat 256 n :: le w (n / 256)

/-- The integer with the given bytes. -/
def ofLe : List Byte → Nat
  | [] => 0
  | b :: bs => b.val + 256 * ofLe bs

/-- Reading `w` bytes from the front. -/
def getInt (w : Nat) (bs : List Byte) : Option (Nat × List Byte) :=
  if bs.length < w then none else some (ofLe (bs.take w), bs.drop w)

/-- How a type is written (`put`: the successive `write_all` calls) and read (`get`: the value and the
remaining input; `none` is an `Err`). -/
structure Codec (X : Type) where
  put : X → List (List Byte)
  get : List Byte → Option (X × List Byte)

namespace Codec

variable {X Y : Type}

/-- All bytes written for a value. -/
def bytes (c : Codec X) (x : X) : List Byte := (c.put x).flatten

/-- `usize`, written as `u64`. -/
def usize : Codec Nat := ⟨fun n => [le 8 n], getInt 8⟩

/-- An `IdType` of `w` bytes: `()`, `u8`, `u16`, `u32`, `usize` with `w` = 0, 1, 2, 4, 8. -/
def ident {m : Nat} (w : Nat) : Codec (Id m) where
  put x := [le w x.val]
  get bs := do
    let p ← getInt w bs
    pure (Id.new p.1, p.2)

/-- `Option`: a tag byte. -/
def opt (c : Codec X) : Codec (Option X) where
  put
    | none => [[0]]
    | some x => [1] :: c.put x
  get
    | [] => none
    | b :: bs =>
      if b = 0 then some (none, bs)
      else if b = 1 then do
        let p ← c.get bs
        pure (some p.1, p.2)
      else none

/-- A pair, as in a struct or a map entry. -/
def pair (c : Codec X) (d : Codec Y) : Codec (X × Y) where
  put p := c.put p.1 ++ d.put p.2
  get bs := do
    let p ← c.get bs
    let q ← d.get p.2
    pure ((p.1, q.1), q.2)

/-- Reading `n` entries. -/
def getMany (c : Codec X) : Nat → List Byte → Option (List X × List Byte)
  | 0, bs => some ([], bs)
  | n + 1, bs => do
    let p ← c.get bs
    let q ← getMany c n p.2
    pure (p.1 :: q.1, q.2)

/-- `Vec`: the length, then the entries. -/
def vec (c : Codec X) : Codec (List X) where
  put l := usize.put l.length ++ l.flatMap c.put
  get bs := do
    let p ← usize.get bs
    c.getMany p.1 p.2

/-- A collection read by inserting the entries one after the other into an empty one. -/
def collect (c : Codec X) (add : List Y → X → List Y) (entries : List Y → List X) : Codec (List Y) where
  put l := (vec c).put (entries l)
  get bs := do
    let p ← (vec c).get bs
    pure (p.1.foldl add [], p.2)

/-- `HashMap`. -/
def hmap {K V : Type} [DecidableEq K] (c : Codec K) (d : Codec V) : Codec (List (K × V)) :=
  collect (pair c d) (fun l p => AL.hinsert l p.1 p.2) id

/-- `BTreeMap`. -/
def bmap {K V : Type} [LinearOrder K] (c : Codec K) (d : Codec V) : Codec (List (K × V)) :=
  collect (pair c d) (fun l p => AL.binsert l p.1 p.2) id

/-- `BTreeSet`. -/
def bset {K : Type} [LinearOrder K] (c : Codec K) : Codec (List K) := collect c BSet.sinsert id

/-- `SetMap` (map/set_map.rs:32-35): an `IndexSet`, read by inserting. -/
def setMap [DecidableEq X] (c : Codec X) : Codec (SetMap X) where
  put s := (vec c).put s.labels
  get bs := do
    let p ← (vec c).get bs
    pure (SetMap.fromVec p.1, p.2)

/-- `VecMap` (map/vec_map.rs:31-34): a `Vec`. -/
def vecMap (c : Codec X) : Codec (VecMap X) where
  put s := (vec c).put s.labels
  get bs := do
    let p ← (vec c).get bs
    pure (⟨p.1⟩, p.2)

variable {m k : Nat} {NL EL : Type}

/-- `NodeMap` (graph_map/node.rs:26-32). `w`, `v` are the widths of `Id` and `L`. -/
def nodeMap (w v : Nat) : Codec (NodeMap m k) where
  put n := (ident w).put n.id ++ (opt (ident v)).put n.label ++
    (bmap (ident w) (opt (ident v))).put n.neighbors ++ (bset (ident w)).put n.inNeighbors
  get bs := do
    let a ← (ident w).get bs
    let b ← (opt (ident v)).get a.2
    let c ← (bmap (ident w) (opt (ident v))).get b.2
    let d ← (bset (ident w)).get c.2
    pure (⟨a.1, b.1, c.1, d.1⟩, d.2)

/-- `TypedGraphMap` (graph_map/graph.rs:73-87). The type parameter `Ty` is not written: `directed` is what
the reading program asks for. -/
def graphMap [DecidableEq NL] [DecidableEq EL] (w v : Nat) (nl : Codec NL) (el : Codec EL)
    (directed : Bool) : Codec (GraphMap m k NL EL) where
  put g := (hmap (ident w) (nodeMap w v)).put g.nodeMap ++ usize.put g.numEdges ++
    (setMap nl).put g.nodeLabels ++ (setMap el).put g.edgeLabels ++ (opt (ident w)).put g.maxId
  get bs := do
    let a ← (hmap (ident w) (nodeMap w v)).get bs
    let b ← usize.get a.2
    let c ← (setMap nl).get b.2
    let d ← (setMap el).get c.2
    let e ← (opt (ident w)).get d.2
    pure (⟨directed, a.1, b.1, c.1, d.1, e.1⟩, e.2)

/-- `EdgeVec` (static_graph/edge_vec.rs:34-39). -/
def edgeVec (w v : Nat) : Codec (EdgeVec m k) where
  put e := (vec usize).put e.offsets ++ (vec (ident w)).put e.edges ++
    (opt (vec (ident v))).put e.labels
  get bs := do
    let a ← (vec usize).get bs
    let b ← (vec (ident w)).get a.2
    let c ← (opt (vec (ident v))).get b.2
    pure (⟨a.1, b.1, c.1⟩, c.2)

/-- `TypedStaticGraph` (static_graph/graph.rs:51-66). -/
def staticGraph [DecidableEq NL] [DecidableEq EL] (w v : Nat) (nl : Codec NL) (el : Codec EL)
    (directed : Bool) : Codec (StaticGraph m k NL EL) where
  put g := usize.put g.numNodes ++ usize.put g.numEdges ++ (edgeVec w v).put g.edgeVec ++
    (opt (edgeVec w v)).put g.inEdgeVec ++ (opt (vec (ident v))).put g.labels ++
    (setMap nl).put g.nodeLabels ++ (setMap el).put g.edgeLabels
  get bs := do
    let a ← usize.get bs
    let b ← usize.get a.2
    let c ← (edgeVec w v).get b.2
    let d ← (opt (edgeVec w v)).get c.2
    let e ← (opt (vec (ident v))).get d.2
    let f ← (setMap nl).get e.2
    let h ← (setMap el).get f.2
    pure (⟨directed, a.1, b.1, c.1, d.1, e.1, f.1, h.1⟩, h.2)

end Codec

/-- `StaticGraphMmapAux` (static_graph/mmap/graph_mmap.rs:53-59). -/
structure Aux (NL EL : Type) where
  numNodes : Nat
  numEdges : Nat
  nodeLabels : SetMap NL
  edgeLabels : SetMap EL

/-- Its format. -/
def Codec.aux {NL EL : Type} [DecidableEq NL] [DecidableEq EL] (nl : Codec NL) (el : Codec EL) :
    Codec (Aux NL EL) where
  put a := usize.put a.numNodes ++ usize.put a.numEdges ++ (setMap nl).put a.nodeLabels ++
    (setMap el).put a.edgeLabels
  get bs := do
    let a ← usize.get bs
    let b ← usize.get a.2
    let c ← (setMap nl).get b.2
    let d ← (setMap el).get c.2
    pure (⟨a.1, b.1, c.1, d.1⟩, d.2)

end Verif
