import Verif.Model.Static
import Verif.Spec.View

/-! What a compressed adjacency is supposed to encode. -/

namespace Verif.Spec

variable {m k : Nat}

/-- The offsets of concatenated rows: the `i`-th is the total length of the first `i` rows. -/
def offsetsOf {X : Type} (rows : List (List X)) : List Nat :=
  (List.range (rows.length + 1)).map (fun i => (rows.take i).flatten.length)

/-- `ev` is the concatenation of `rows`, row `i` holding the neighbours of node `i` in strictly
increasing order, each with a label id that is stored only if `lab`. -/
structure Encodes (ev : EdgeVec m k) (rows : List (List (Id m × Id k))) (lab : Bool) : Prop where
  offsets : ev.offsets = offsetsOf rows
  edges : ev.edges = rows.flatten.map Prod.fst
  labels : ev.labels = if lab then some (rows.flatten.map Prod.snd) else none
  sorted : ∀ r ∈ rows, (r.map Prod.fst).Pairwise (· < ·)

/-- All pairs (row number, neighbour), row by row; undirected: only those with `start <= target`. -/
def pairsOf (directed : Bool) (rows : List (List (Id m × Id k))) : List (Nat × Id m) :=
  ((rows.zipIdx).flatMap (fun r => r.1.map (fun p => (r.2, p.1)))).filter
    (fun p => directed || decide (p.1 ≤ p.2.val))

/-- All stored arcs (row number, neighbour, label id), row by row; undirected: only those with
`start <= target`. -/
def arcsOf (directed : Bool) (rows : List (List (Id m × Id k))) : List (Nat × Id m × Id k) :=
  ((rows.zipIdx).flatMap (fun r => r.1.map (fun p => (r.2, p)))).filter
    (fun p => directed || decide (p.1 ≤ p.2.1.val))

end Verif.Spec
