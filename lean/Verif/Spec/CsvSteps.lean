import Verif.Spec.AnySets
import Verif.Spec.Unsorted

/-! What a loop that asks for something in each turn gets before a panic. -/

namespace Verif.Spec

variable {m k : Nat} {NL EL : Type}

/-- The items before the first whose call panics. -/
def beforePanic {X Y : Type} (f : X → Res Y) : List X → List X
  | [] => []
  | x :: l => match f x with
    | .error _ => []
    | .ok _ => x :: beforePanic f l

/-- The part of a graph that is written: the nodes before the first whose label panics, and of the pairs listed before
row `j` those before the first whose label panics. -/
def partBefore (g : GView m k NL EL) (ev : EdgeVec m k) (d : Bool) (j : Nat) : GView m k NL EL :=
  { g with
    nodeIndices := beforePanic g.getNodeLabel g.nodeIndices
    edgeIndices := beforePanic (fun e => g.getEdgeLabel e.1 e.2) (shownBefore ev d j) }

end Verif.Spec
