import Verif.Model.Names

/-! What is asked of the names of graph implementations. -/

namespace Verif.Spec

/-- What Unicode says of a lower-case table, as far as it matters here: ASCII letters become the small ones,
other ASCII characters stay, and what becomes of another character is not made up of the letters of the three
names alone (`İ` gives `i` and a combining dot, the Kelvin sign gives `k`). -/
structure LowerTable (lower : Char → List Char) : Prop where
  ascii : ∀ c : Char, c.toNat < 128 → lower c = [c.toLower]
  other : ∀ c : Char, 128 ≤ c.toNat → ∃ x ∈ lower c, x ∉ "staticgraphmmap".toList

/-- The documented name of an implementation. -/
def implName : GraphImpl → String
  | .graphMap => "graphmap"
  | .staticGraph => "staticgraph"
  | .staticGraphMmap => "staticgraphmmap"

/-- The same text but for the case of the letters `A`-`Z`. -/
def SameButCase (s t : String) : Prop := s.toList.map Char.toLower = t.toList.map Char.toLower

instance (s t : String) : Decidable (SameButCase s t) := inferInstanceAs (Decidable (_ = _))

end Verif.Spec
