import Verif.Spec.View
import Mathlib.Order.Lex
import Mathlib.Data.Prod.Lex
import Mathlib.Combinatorics.SimpleGraph.Acyclic

/-! Walks and the orders in which a search may visit a graph. -/

namespace Verif.Spec

variable {m : Nat} {NL EL : Type}

/-- A walk of the given length along edges. -/
inductive AGraph.Walk (A : AGraph (Id m) NL EL) (s : Id m) : Nat → Id m → Prop
  | here : Walk A s 0 s
  | step {n : Nat} {u t : Id m} : Walk A s n u → (A.edge u t).isSome → Walk A s (n + 1) t

/-- `t` can be reached from `s` along edges. -/
def AGraph.Reaches (A : AGraph (Id m) NL EL) (s t : Id m) : Prop := ∃ n, A.Walk s n t

/-- The position in `l` of the first node with an edge to `x`. -/
def AGraph.firstSeen (A : AGraph (Id m) NL EL) (l : List (Id m)) (x : Id m) : Nat :=
  l.findIdx (fun u => (A.edge u x).isSome)

/-- When `x` is discovered by a search visiting `l`, ties resolved by id. -/
def AGraph.seenKey (A : AGraph (Id m) NL EL) (l : List (Id m)) (x : Id m) : ℕ ×ₗ Id m :=
  toLex (A.firstSeen l x, x)

/-- Every node but the first has an edge from an earlier one. -/
def AGraph.SearchOrder (A : AGraph (Id m) NL EL) (l : List (Id m)) : Prop :=
  ∀ i (hi : i < l.length), 0 < i → A.firstSeen l l[i] < i

/-- First discovered, first visited: apart from the start, nodes come in the order of discovery. -/
def AGraph.FirstIn (A : AGraph (Id m) NL EL) (l : List (Id m)) : Prop :=
  A.SearchOrder l ∧
  ∀ i j (hi : i < l.length) (hj : j < l.length), 0 < i → i < j → A.seenKey l l[i] < A.seenKey l l[j]

/-- Last discovered, first visited: a node visited before an already discovered one was discovered
later. -/
def AGraph.LastIn (A : AGraph (Id m) NL EL) (l : List (Id m)) : Prop :=
  A.SearchOrder l ∧
  ∀ i j (hi : i < l.length) (hj : j < l.length), i < j → A.firstSeen l l[j] < i →
    A.seenKey l l[j] < A.seenKey l l[i]

/-- `l` visits the whole graph once in segments: each starts at some `s` not visited before — at
`start` in the first one, at the smallest such node in later ones — and consists of the nodes reachable
from `s` and not visited before, in an order allowed by `P`. -/
def AGraph.Sweep (A : AGraph (Id m) NL EL) (start : Id m) (P : List (Id m) → Prop)
    (l : List (Id m)) : Prop :=
  l.Nodup ∧ (∀ n, n ∈ l ↔ (A.node n).isSome) ∧
  ∃ segs : List (List (Id m)), segs.flatten = l ∧
    (∃ rest, segs.head? = some (start :: rest)) ∧
    ∀ i (hi : i < segs.length), ∃ s rest, segs[i] = s :: rest ∧ P segs[i] ∧
      (∀ n, n ∈ segs[i] ↔ A.Reaches s n ∧ n ∉ (segs.take i).flatten) ∧
      (0 < i → ∀ n, (A.node n).isSome → n ∉ (segs.take i).flatten → s ≤ n)

/-- A depth-first order: a node `b` visited after `a` but before a node `c` that `a` has an edge to was
reached from `a` or from a node visited between `a` and `b`. (Otherwise the search would have left `a` with
`c` unvisited.) -/
def AGraph.DepthFirst (A : AGraph (Id m) NL EL) (l : List (Id m)) : Prop :=
  ∀ a b c (ha : a < l.length) (hb : b < l.length) (hc : c < l.length), a < b → b < c →
    (A.edge l[a] l[c]).isSome → ∃ d, ∃ hd : d < l.length, a ≤ d ∧ d < b ∧ (A.edge l[d] l[b]).isSome

/-- The same nodes and edges, whatever the labels. -/
def AGraph.Alike {NL' EL' : Type} (A : AGraph (Id m) NL EL) (B : AGraph (Id m) NL' EL') : Prop :=
  (∀ n, (A.node n).isSome = (B.node n).isSome) ∧ ∀ s t, (A.edge s t).isSome = (B.edge s t).isSome

/-- The graph on all ids below `c`, whether `A` has them or not, with the edges of `A` between them,
labels left out. -/
def AGraph.below (A : AGraph (Id m) NL EL) (c : Nat) : AGraph (Id m) NL EL where
  node n := if n.val < c then some none else none
  edge s t := if s.val < c ∧ t.val < c then (A.edge s t).map (fun _ => none) else none

/-- The part of the graph on the nodes in `U`, labels left out. -/
def AGraph.on (A : AGraph (Id m) NL EL) (U : Id m → Prop) [DecidablePred U] : AGraph (Id m) NL EL where
  node n := if U n then (A.node n).map (fun _ => none) else none
  edge s t := if U s ∧ U t then (A.edge s t).map (fun _ => none) else none

/-- The simple graph of an undirected abstract graph: self loops and labels forgotten. -/
def AGraph.simple (A : AGraph (Id m) NL EL) : SimpleGraph (Id m) :=
  SimpleGraph.fromRel (fun a b => (A.edge a b).isSome)

end Verif.Spec
