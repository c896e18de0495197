import Verif.Model.Mmap
import Verif.Spec.Serde
import Verif.Spec.Csr

/-! What is asked of memory-mapped graphs. -/

namespace Verif

variable {m k : Nat} {NL EL : Type}

/-- A window lies in the mapping. -/
def TypedMap.Inside (t : TypedMap) (win : Window) : Prop := win.offset + win.count * t.width ≤ t.data.length

/-- An adjacency that can be mapped: neither array is empty, the offsets are `usize`. -/
structure EdgeVec.Mappable (ev : EdgeVec m k) : Prop where
  offsets : ev.offsets ≠ []
  edges : ev.edges ≠ []
  small : ∀ o ∈ ev.offsets, o < 2 ^ 64

/-- A static graph whose arrays can be mapped and whose counters and label maps are of a possible size. -/
structure StaticGraph.Mappable (g : StaticGraph m k NL EL) : Prop where
  out : g.edgeVec.Mappable
  ins : ∀ e, g.inEdgeVec = some e → e.Mappable
  labels : g.labels ≠ some []
  numNodes : g.numNodes < 2 ^ 64
  numEdges : g.numEdges < 2 ^ 64
  nodeLabels : g.nodeLabels.labels.Nodup ∧ g.nodeLabels.labels.length < 2 ^ 64
  edgeLabels : g.edgeLabels.labels.Nodup ∧ g.edgeLabels.labels.length < 2 ^ 64

/-- No file under the prefix that loading would look at but dumping `g` does not write. -/
structure StaticGraph.NoLeftovers (g : StaticGraph m k NL EL) (pre : String)
    (files : String → Option (List Byte)) : Prop where
  out : g.edgeVec.getLabels = [] → files (pre ++ "_OUT" ++ ".labels") = none
  ins : g.inEdgeVec = none → files (pre ++ "_IN" ++ ".offsets") = none
  inLabels : ∀ e, g.inEdgeVec = some e → e.getLabels = [] → files (pre ++ "_IN" ++ ".labels") = none
  labels : g.labels = none → files (pre ++ ".labels") = none

/-- `h` answers every query as `g` does, except that `has_edge` and `get_edge` panic when the start is
not one of the `n` rows. -/
structure MmapGraph.AnswersLike (h : MmapGraph m k NL EL) (g : StaticGraph m k NL EL) (n : Nat) : Prop where
  view : h.view = g.view.map fun v => { v with
    hasEdge := fun s t => if s.val < n then v.hasEdge s t else .error .explicit
    edgeLid := fun s t => if s.val < n then v.edgeLid s t else .error .explicit }
  ins : g.directed = true → ∀ x, h.inNeighbors x = g.inNeighbors x ∧ h.inDegree x = g.inDegree x

end Verif
