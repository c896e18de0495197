import Verif.Spec.Graph

/-! Further quantities defined on histories alone. -/

namespace Verif.Spec

variable {m k : Nat} {NL EL : Type}

/-- The ids a call inserts (or would insert, were they absent). -/
def touched : Op m k NL EL → List (Id m)
  | .addNode n _ => [n]
  | .addEdge s t _ => [s, t]
  | _ => []

/-- The number of redundant insertions since the edge count was last refined: `add_edge` or
`update_edge_label` calls that found the edge already there. -/
def surplusStep (directed : Bool) (st : AGraph (Id m) NL EL × Nat) (op : Op m k NL EL) :
    AGraph (Id m) NL EL × Nat :=
  (step directed st.1 op,
    match op with
    | .addEdge s t _ => if (st.1.edge s t).isSome then st.2 + 1 else st.2
    | .updateEdgeLabel s t _ => if (st.1.edge s t).isSome then st.2 + 1 else st.2
    | .refineEdgeCount => 0
    | _ => st.2)

/-- `surplusStep` along a history from the empty graph. -/
def surplus (directed : Bool) (ops : List (Op m k NL EL)) : Nat :=
  (ops.foldl (surplusStep directed) (AGraph.empty, 0)).2

end Verif.Spec
