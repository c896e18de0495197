import Verif.Model.Mmap
import Mathlib.Data.Nat.Digits.Defs

/-! What the files of a dumped graph hold when their elements are taken to have another width. -/

namespace Verif.Spec

variable {m k : Nat} {NL EL : Type}

/-- A file of `w`-byte numbers, taken as one number with the first element the least significant, cut into
`w'`-byte numbers; a rest at the end is dropped. -/
def reread (w w' : Nat) (l : List Nat) : List Nat :=
  (List.range (l.length * w / w')).map (fun j => Nat.ofDigits (256 ^ w) l / 256 ^ (w' * j) % 256 ^ w')

/-- The arrays of a graph dumped with `w`-byte ids and `v`-byte label ids, read as ids below `m' + 1` of `w'` bytes
and label ids below `k' + 1` of `v'` bytes. The offsets have 8 bytes either way. -/
def vecReread (w v w' v' m' k' : Nat) (ev : EdgeVec m k) : EdgeVec m' k' :=
  ⟨ev.offsets, (reread w w' (ev.edges.map (·.val))).map Id.new,
    if ev.getLabels = [] then none else some ((reread v v' (ev.getLabels.map (·.val))).map Id.new)⟩

/-- The mapped graph of these. -/
def graphReread (w v w' v' m' k' : Nat) (g : StaticGraph m k NL EL) : MmapGraph m' k' NL EL :=
  ⟨vecReread w v w' v' m' k' g.edgeVec, g.inEdgeVec.map (vecReread w v w' v' m' k'),
    g.labels.map (fun ls => (reread v v' (ls.map (·.val))).map Id.new), g.numNodes, g.numEdges, g.nodeLabels,
    g.edgeLabels⟩

end Verif.Spec
