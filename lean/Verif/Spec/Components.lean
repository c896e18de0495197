import Verif.Spec.ConnComp
import Verif.Spec.Traversal

/-! What a search of an undirected graph has to do with its connected components. -/

namespace Verif.Spec

variable {m : Nat} {NL EL : Type}

/-- The segments are connected components of the graph: the first begins with `start`; each later one begins
with its smallest node, and these come by ascending id. -/
structure AGraph.ByComponents (A : AGraph (Id m) NL EL) (start : Id m) (segs : List (List (Id m))) :
    Prop where
  first : ∃ rest, segs.head? = some (start :: rest)
  whole : ∀ seg ∈ segs, ∃ r rest, seg = r :: rest ∧ ∀ x, x ∈ seg ↔ A.Connected r x
  least : ∀ seg ∈ segs.tail, ∀ r, seg.head? = some r → ∀ x ∈ seg, r ≤ x
  ascending : segs.tail.Pairwise (fun a b => ∀ x y, a.head? = some x → b.head? = some y → x < y)

end Verif.Spec
