import Verif.Spec.Traversal

/-! Graphs of simple shapes: complete graphs and paths. -/

namespace Verif.Spec

variable {m k : Nat} {NL EL : Type}

/-- An edge from every node to every other node and no loops. -/
def AGraph.Complete (A : AGraph (Id m) NL EL) : Prop :=
  ∀ a b, (A.edge a b).isSome ↔ (A.node a).isSome ∧ (A.node b).isSome ∧ a ≠ b

/-- The nodes are the ids up to `N`. -/
def AGraph.UpTo (A : AGraph (Id m) NL EL) (N : Nat) : Prop := ∀ n, (A.node n).isSome ↔ n.val ≤ N

/-- Edges lead from each id to the next, up to `N`. -/
def AGraph.Arrows (A : AGraph (Id m) NL EL) (N : Nat) : Prop :=
  ∀ a b, (A.edge a b).isSome ↔ b.val = a.val + 1 ∧ b.val ≤ N

/-- Edges join the ids up to `N` that differ by one. -/
def AGraph.Links (A : AGraph (Id m) NL EL) (N : Nat) : Prop :=
  ∀ a b, (A.edge a b).isSome ↔ (b.val = a.val + 1 ∨ a.val = b.val + 1) ∧ a.val ≤ N ∧ b.val ≤ N

/-- How far apart two ids are. -/
def apart (a b : Id m) : Nat := (a.val - b.val) + (b.val - a.val)

/-- The calls that build a path: `add_edge(i, i + 1, label i)` for `i` below `N`. -/
def pathCalls (N : Nat) (label : Nat → Option EL) : List (Op m k NL EL) :=
  (List.range N).map (fun i => .addEdge (Id.new i) (Id.new (i + 1)) (label i))

end Verif.Spec
