import Verif.Spec.View

/-! What a generated graph looks like. -/

namespace Verif.Spec

variable {m : Nat} {NL EL : Type}

/-- A label taken from a list: none exactly if the list is empty. -/
def TakenFrom {X : Type} (l : List X) (o : Option X) : Prop :=
  (l = [] ∧ o = none) ∨ ∃ x ∈ l, o = some x

/-- All labels of the graph are taken from the two lists. -/
def AGraph.LabelledFrom (A : AGraph (Id m) NL EL) (nl : List NL) (el : List EL) : Prop :=
  (∀ x l, A.node x = some l → TakenFrom nl l) ∧ ∀ s t l, A.edge s t = some l → TakenFrom el l

/-- The number of edges a loop-free graph on `n` nodes can have. -/
def possibleEdges (directed : Bool) (n : Nat) : Nat :=
  if directed then n * (n - 1) else n * (n - 1) / 2

end Verif.Spec
