import Verif.Model.View

/-! What a search meets, for anything that implements the trait. -/

namespace Verif.Spec

variable {m k : Nat} {NL EL : Type}

/-- The ids up to `M` that are nodes or are listed by `neighbors` of such an id, and so on. -/
inductive Met (g : GView m k NL EL) (M : Id m) : Id m → Prop
  | node {n : Id m} : n ≤ M → g.hasNode n = true → Met g M n
  | next {a n : Id m} {l : List (Id m)} : Met g M a → g.neighbors a = .ok l → n ∈ l → n ≤ M → Met g M n

end Verif.Spec
