import Verif.Model.GraphMap

/-! A history with every edge turned around. -/

namespace Verif.Spec

variable {m k : Nat} {NL EL : Type}

/-- The same call with source and target exchanged. -/
def flipped : Op m k NL EL → Op m k NL EL
  | .addEdge s t l => .addEdge t s l
  | .removeEdge s t => .removeEdge t s
  | .updateEdgeLabel s t l => .updateEdgeLabel t s l
  | .setEdgeLabelId s t l => .setEdgeLabelId t s l
  | .mapEdgeLabelIds f => .mapEdgeLabelIds (fun s t => f t s)
  | op => op

end Verif.Spec
