import Verif.Model.Mmap
import Mathlib.Algebra.BigOperators.Group.Finset.Basic

/-! Arrays with the bytes of every number turned around. -/

namespace Verif.Spec

variable {m k : Nat} {NL EL : Type}

open Finset in
/-- The `w`-byte number with the bytes of `n` in the opposite order: digit `i` to the base 256 moves to place
`w - 1 - i`. -/
def turned (w n : Nat) : Nat := ∑ i ∈ range w, n / 256 ^ i % 256 * 256 ^ (w - 1 - i)

/-- An id with its bytes turned around. -/
def turnedId (w : Nat) (i : Id m) : Id m := Id.new (turned w i.val)

/-- Every number of the arrays, `w` bytes for ids and `v` for label ids. -/
def turnedVec (w v : Nat) (ev : EdgeVec m k) : EdgeVec m k :=
  ⟨ev.offsets.map (turned 8), ev.edges.map (turnedId w), ev.labels.map (List.map (turnedId v))⟩

/-- A mapped graph with the arrays turned, counts and label tables as they are. -/
def turnedMap (w v : Nat) (g : MmapGraph m k NL EL) : MmapGraph m k NL EL :=
  ⟨turnedVec w v g.edges, g.inEdges.map (turnedVec w v), g.labels.map (List.map (turnedId v)), g.numNodes, g.numEdges,
    g.nodeLabels, g.edgeLabels⟩

/-- The same of a frozen graph. -/
def turnedGraph (w v : Nat) (g : StaticGraph m k NL EL) : StaticGraph m k NL EL :=
  ⟨g.directed, g.numNodes, g.numEdges, turnedVec w v g.edgeVec, g.inEdgeVec.map (turnedVec w v),
    g.labels.map (List.map (turnedId v)), g.nodeLabels, g.edgeLabels⟩

end Verif.Spec
