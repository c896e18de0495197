import Verif.Model.Mmap

/-! Lookups in frozen and mapped graphs with the entries they compare. -/

namespace Verif

variable {m k : Nat} {NL EL : Type}

/-- `searchLoop` with the positions whose entries are compared with the one looked for, in turn. -/
def searchLooks (l : List (Id m)) (x : Id m) : Nat → Nat → Nat → Res (Nat × List Nat)
  | 0, _, _ => .error .diverge
  | fuel + 1, base, size =>
    if size > 1 then do
      let half := size / 2
      let mid := base + half
      let y ← index l mid
      let r ← searchLooks l x fuel (if x < y then base else mid) (size - half)
      pure (r.1, mid :: r.2)
    else pure (base, [])

/-- `binarySearch` with the positions compared; the last comparison decides. -/
def binarySearchLooks (l : List (Id m)) (x : Id m) : Res (Search × List Nat) :=
  if l.length = 0 then pure (.missing 0, [])
  else do
    let r ← searchLooks l x (l.length + 1) 0 l.length
    let y ← index l r.1
    pure (if y = x then .found r.1 else .missing (if y < x then r.1 + 1 else r.1), r.2 ++ [r.1])

/-- `find_edge_index` (edge_vec.rs:80-91) with the entries of the row that are compared. -/
def EdgeVec.findEdgeIndexLooks (ev : EdgeVec m k) (s t : Id m) : Res (Option Nat × List Nat) := do
  let a ← ev.hasNode s
  let b ← ev.hasNode t
  if !(a && b) then pure (none, [])
  else do
    let nb ← ev.neighbors s
    let r ← binarySearchLooks nb t
    match r.1 with
    | .missing _ => pure (none, r.2)
    | .found i => do
      let o ← index ev.offsets s.val
      pure (some (o + i), r.2)

/-- `has_edge` of a `TypedStaticGraph` (static_graph/graph.rs:489-491) with the entries compared. -/
def StaticGraph.hasEdgeLooks (g : StaticGraph m k NL EL) (s t : Id m) : Res (Bool × List Nat) := do
  let r ← g.edgeVec.findEdgeIndexLooks s t
  pure (r.1.isSome, r.2)

/-- `has_edge` of a `StaticGraphMmap` (graph_mmap.rs:189-195) with the entries compared. -/
def MmapGraph.hasEdgeLooks (g : MmapGraph m k NL EL) (s t : Id m) : Res (Bool × List Nat) := do
  let nb ← g.neighbors s
  let r ← binarySearchLooks nb t
  match r.1 with
  | .found _ => pure (true, r.2)
  | .missing _ => pure (false, r.2)

end Verif
