import Verif.Spec.History

/-! Which calls on a graph may change places. -/

namespace Verif.Spec

variable {m k : Nat} {NL EL : Type}

/-- The two calls meet: they write the same node or edge and do not agree on it, one looks for what the other makes or
removes, or one of them counts what the other may count twice. Calls that write raw label ids meet all others. -/
def Meets (d : Bool) : Op m k NL EL → Op m k NL EL → Prop
  | .addNode n l, .addNode n' l' => n = n' ∧ l ≠ l'
  | .addNode n _, .removeNode n' => n = n'
  | .addNode n _, .updateNodeLabel n' _ => n = n'
  | .addEdge s t l, .addEdge a b l' => AGraph.same d s t a b ∧ l ≠ l'
  | .addEdge s t _, .removeEdge a b => AGraph.same d s t a b
  | .addEdge s t _, .updateEdgeLabel a b _ => AGraph.same d s t a b
  | .addEdge s t _, .removeNode n => n = s ∨ n = t
  | .addEdge s t _, .updateNodeLabel n _ => n = s ∨ n = t
  | .addEdge _ _ _, .refineEdgeCount => True
  | .removeNode n, .removeEdge s t => n = s ∧ n = t
  | .removeNode n, .updateNodeLabel n' _ => n = n'
  | .removeNode n, .updateEdgeLabel s t _ => n = s ∨ n = t
  | .removeEdge s t, .updateEdgeLabel a b _ => AGraph.same d s t a b
  | .updateNodeLabel n l, .updateNodeLabel n' l' => n = n' ∧ l ≠ l'
  | .updateEdgeLabel s t l, .updateEdgeLabel a b l' => AGraph.same d s t a b ∧ l ≠ l'
  | .updateEdgeLabel _ _ _, .refineEdgeCount => True
  | .setNodeLabelId _ _, _ => True
  | .setEdgeLabelId _ _ _, _ => True
  | .mapNodeLabelIds _, _ => True
  | .mapEdgeLabelIds _, _ => True
  | _, _ => False

/-- The two calls do not meet. -/
def Apart (d : Bool) (a b : Op m k NL EL) : Prop := ¬ Meets d a b ∧ ¬ Meets d b a

/-- The second history comes from the first by swapping, again and again, two calls in a row that do not meet. -/
inductive Swapped (d : Bool) : List (Op m k NL EL) → List (Op m k NL EL) → Prop
  | refl (ops) : Swapped d ops ops
  | swap {ops xs ys : List (Op m k NL EL)} {a b : Op m k NL EL} (h : Swapped d ops (xs ++ a :: b :: ys))
    (hab : Apart d a b) : Swapped d ops (xs ++ b :: a :: ys)

end Verif.Spec
