import Verif.Model.Hosts
import Verif.Spec.Reread

/-! What mapped files hold on a machine with another `usize`. -/

namespace Verif.Spec

variable {m k : Nat} {NL EL : Type}

/-- The same arrays, the offsets written with `u` bytes each and cut into numbers of `u'` bytes. -/
def hostVec (u u' : Nat) (ev : EdgeVec m k) : EdgeVec m k := ⟨reread u u' ev.offsets, ev.edges, ev.labels⟩

/-- The mapped graph of these. -/
def hostGraph (u u' : Nat) (g : MmapGraph m k NL EL) : MmapGraph m k NL EL :=
  ⟨hostVec u u' g.edges, g.inEdges.map (hostVec u u'), g.labels, g.numNodes, g.numEdges, g.nodeLabels, g.edgeLabels⟩

end Verif.Spec
