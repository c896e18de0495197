import Verif.Spec.Traversal

/-! Ids that are no nodes. -/

namespace Verif.Spec

variable {m : Nat} {NL EL : Type}

/-- How many ids below `i` are no nodes. -/
def AGraph.missing (A : AGraph (Id m) NL EL) (i : Nat) : Nat :=
  (List.range i).countP (fun j => (A.node (Id.new j)).isNone)

end Verif.Spec
