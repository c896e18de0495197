import Verif.Spec.RawCsr
import Mathlib.Data.Set.Card

/-! Which frozen graphs `into_static` can give: the conditions of C160, in terms of the arrays. -/

namespace Verif.Spec

variable {m k : Nat} {NL EL : Type}

/-- The arrays hold `c` sorted rows without gaps between them, with entries below `c`. -/
structure Packed (ev : EdgeVec m k) (c : Nat) : Prop where
  rows : ev.offsets.length = c + 1
  first : ev.offsets[0]? = some 0
  last : ev.offsets[c]? = some ev.edges.length
  rising : ev.offsets.Pairwise (· ≤ ·)
  sorted : ∀ n, n < c → (rowOf ev n).Pairwise (· < ·)
  inside : ∀ t ∈ ev.edges, t.val < c

/-- Something is known of the id `n`: it is the last, it has an edge, or it has a label. -/
def Marked (r : StaticGraph m k NL EL) (c n : Nat) : Prop :=
  n + 1 = c ∨ rowOf r.edgeVec n ≠ [] ∨ (∃ iv, r.inEdgeVec = some iv ∧ rowOf iv n ≠ []) ∨
    ∃ ls l, r.labels = some ls ∧ ls[n]? = some l ∧ l ≠ Id.maxValue

/-- The arrays, labels and counts of a frozen graph with `c` rows fit together. -/
structure Meltable (r : StaticGraph m k NL EL) (c : Nat) : Prop where
  nonempty : 0 < c
  free : c ≤ m
  out : Packed r.edgeVec c
  /-- Directed graphs: the in-rows hold the sources of the entries, and no labels. -/
  inn : r.directed = true → ∃ iv, r.inEdgeVec = some iv ∧ iv.labels = none ∧ Packed iv c ∧
    ∀ s t : Id m, s ∈ rowOf iv t.val ↔ t ∈ rowOf r.edgeVec s.val
  /-- Undirected graphs: no in-rows, and entries are there both ways (their labels may differ). -/
  noIn : r.directed = false → r.inEdgeVec = none ∧
    ∀ s t : Id m, s ∈ rowOf r.edgeVec t.val ↔ t ∈ rowOf r.edgeVec s.val
  /-- Node labels are stored exactly if there is a table of them, one for every row. -/
  labels : if r.nodeLabels.items = [] then r.labels = none else ∃ ls, r.labels = some ls ∧ ls.length = c
  /-- The same for edge labels, one for every entry. -/
  edgeLabels : if r.edgeLabels.items = [] then r.edgeVec.labels = none
    else ∃ ls, r.edgeVec.labels = some ls ∧ ls.length = r.edgeVec.edges.length
  nodeTable : r.nodeLabels.items.Nodup
  edgeTable : r.edgeLabels.items.Nodup
  /-- The count of nodes leaves room for the marked ids, and does not exceed the rows. -/
  nodes : {n | n < c ∧ Marked r c n}.ncard ≤ r.numNodes ∧ r.numNodes ≤ c
  /-- At least the edges that are there are counted. -/
  edges : (rowPairs r.edgeVec r.directed).length ≤ r.numEdges

end Verif.Spec
