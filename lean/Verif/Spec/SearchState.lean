import Verif.Model.View

/-! Graphs with what can not be read left out. -/

namespace Verif.Spec

variable {m k : Nat} {NL EL : Type}

/-- The graph with no neighbours where asking for them panics. -/
def healed (g : GView m k NL EL) : GView m k NL EL :=
  { g with neighbors := fun v => match g.neighbors v with | .ok l => .ok l | .error _ => .ok [] }

/-- The answer for a node of the healed graph, put back: the panic where there is one. -/
def unhealed (g : GView m k NL EL) : Res (Option (Id m)) → Res (Option (Id m))
  | .ok (some v) => match g.neighbors v with | .ok _ => .ok (some v) | .error p => .error p
  | r => r

end Verif.Spec
