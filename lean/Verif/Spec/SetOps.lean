import Verif.Spec.View

/-! Union, difference and restriction of labelled graphs. -/

namespace Verif.Spec.AGraph

variable {I NL EL : Type}

/-- Nodes and edges of both; where both have an element, the label is `B`'s (even if `B` has none). -/
def union (A B : AGraph I NL EL) : AGraph I NL EL where
  node n := match B.node n with
    | some l => some l
    | none => A.node n
  edge s t := match B.edge s t with
    | some l => some l
    | none => A.edge s t

open Classical in
/-- The subgraph induced on the nodes that satisfy `P`, labels kept. -/
noncomputable def restrict (A : AGraph I NL EL) (P : I → Prop) : AGraph I NL EL where
  node n := if P n then A.node n else none
  edge s t := if P s ∧ P t then A.edge s t else none

/-- Some node that both graphs have carries a self loop in the first. -/
def SharedLoop (A B : AGraph I NL EL) : Prop := ∃ n, (B.node n).isSome ∧ (A.edge n n).isSome

end Verif.Spec.AGraph
