import Verif.Spec.Components
import Mathlib.Data.Set.Function
import Mathlib.Order.ConditionallyCompleteLattice.Basic
import Mathlib.Data.Nat.Lattice

/-! Isomorphic labelled graphs, and how far a node is from another. -/

namespace Verif.Spec

variable {m m' : Nat} {NL EL : Type}

/-- `f` carries the labelled graph `A` onto `B`, which may have another id type. -/
structure AGraph.Iso (A : AGraph (Id m) NL EL) (B : AGraph (Id m') NL EL) (f : Id m → Id m') : Prop where
  bij : Set.BijOn f {n | (A.node n).isSome} {n | (B.node n).isSome}
  node : ∀ n, (A.node n).isSome → B.node (f n) = A.node n
  edge : ∀ s t, (A.node s).isSome → (A.node t).isSome → B.edge (f s) (f t) = A.edge s t

/-- The length of a shortest walk from `s` to `x`, for `x` that can be reached. -/
noncomputable def AGraph.far (A : AGraph (Id m) NL EL) (s x : Id m) : Nat := sInf {c | A.Walk s c x}

end Verif.Spec
