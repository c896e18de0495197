import Mathlib.Algebra.Order.Ring.Rat
import Verif.Model.GraphMap

/-!
Graph generators (`/repo/src/graph_gen/helper.rs`, `general.rs`, `random.rs`).

Randomness is a stream of draws, given from outside: theorems hold for every stream. `thread_rng()` gives
handles to one generator, so all functions read from the same stream. The `_unlabeled` variants
(general.rs:79-97, random.rs:93-113) pass empty label lists. Lazy iterators are lists.
-/

namespace Verif

/-- One draw: `word` serves integer ranges, `unit` the range `[0, 1)` of floats. Each request uses up one
draw. -/
structure Draw where
  word : Nat
  unit : ℚ
  unit_nonneg : 0 ≤ unit
  unit_lt : unit < 1

/-- A random number generator: the draws to come. -/
abbrev Rng := Nat → Draw

namespace Rng

/-- The generator after one draw. -/
def rest (r : Rng) : Rng := fun i => r (i + 1)

/-- `gen_range(0, n)` (rand 0.5) panics for an empty range. -/
def range (r : Rng) (n : Nat) : Res (Nat × Rng) :=
  if n = 0 then .error .explicit else pure ((r 0).word % n, r.rest)

end Rng

/-- `f32`: the finite values are rationals. -/
inductive F32 where
  | nan
  | negInf
  | posInf
  | fin (q : ℚ)

namespace F32

/-- `<` on floats: false if one side is NaN. -/
def lt : F32 → F32 → Bool
  | .nan, _ => false
  | _, .nan => false
  | .negInf, .negInf => false
  | .negInf, _ => true
  | .posInf, _ => false
  | .fin _, .negInf => false
  | .fin _, .posInf => true
  | .fin a, .fin b => decide (a < b)

end F32

namespace Gen

/-- `tuple_combinations` of itertools 0.7 for pairs: each item with every later one, in order. -/
def combinations {X : Type} : List X → List (X × X)
  | [] => []
  | x :: xs => xs.map (fun y => (x, y)) ++ combinations xs

/-- `complete_edge_pairs` (helper.rs:29-42). -/
def completeEdgePairs (directed : Bool) (n : Nat) : List (Nat × Nat) :=
  if directed then (combinations (List.range n)).flatMap (fun p => [(p.1, p.2), (p.2, p.1)])
  else combinations (List.range n)

/-- The common text of `random_node_label` (helper.rs:44-63) and `random_edge_label` (65-84). -/
def randomItem {X : Type} (r : Rng) (labels : SetMap X) : Res (Option X × Rng) :=
  if labels.len = 0 then pure (none, r)
  else do
    let i ← r.range labels.len
    pure (labels.getItem i.1, i.2)

variable {m k : Nat} {NL EL : Type} [DecidableEq NL] [DecidableEq EL]

omit [DecidableEq EL] in
/-- One turn of the loop of `empty_graph` (general.rs:49-52). -/
def addRandomNode (s : GraphMap m k NL EL × Rng) (i : Nat) : Res (GraphMap m k NL EL × Rng) := do
  let l ← randomItem s.2 s.1.nodeLabels
  let q ← s.1.addNode (Id.new i) l.1
  pure (q.1, l.2)

/-- Adding one edge with a random label (general.rs:71-74, random.rs:54-57, 81-84). -/
def addRandomEdge (s : GraphMap m k NL EL × Rng) (e : Nat × Nat) : Res (GraphMap m k NL EL × Rng) := do
  let l ← randomItem s.2 s.1.edgeLabels
  let q ← s.1.addEdge (Id.new e.1) (Id.new e.2) l.1
  pure (q.1, l.2)

/-- `empty_graph` (general.rs:31-55). -/
def emptyGraph (directed : Bool) (n : Nat) (nl : List NL) (el : List EL) (r : Rng) :
    Res (GraphMap m k NL EL × Rng) :=
  (List.range n).foldlM addRandomNode
    (GraphMap.withLabelMap directed (SetMap.fromVec nl) (SetMap.fromVec el), r)

/-- `complete_graph` (general.rs:57-77). -/
def completeGraph (directed : Bool) (n : Nat) (nl : List NL) (el : List EL) (r : Rng) :
    Res (GraphMap m k NL EL × Rng) := do
  let s ← emptyGraph directed n nl el r
  (completeEdgePairs directed n).foldlM addRandomEdge s

/-- One turn of the loop of `random_gnp_graph` (random.rs:53-58). -/
def tossEdge (p : F32) (s : GraphMap m k NL EL × Rng) (e : Nat × Nat) :
    Res (GraphMap m k NL EL × Rng) :=
  if (F32.fin (s.2 0).unit).lt p then addRandomEdge (s.1, s.2.rest) e
  else pure (s.1, s.2.rest)

/-- `random_gnp_graph` (random.rs:34-62). -/
def gnp (directed : Bool) (n : Nat) (p : F32) (nl : List NL) (el : List EL) (r : Rng) :
    Res (GraphMap m k NL EL × Rng) :=
  if p.lt (.fin 0) || (F32.fin 1).lt p then .error .explicit
  else do
    let s ← emptyGraph directed n nl el r
    (completeEdgePairs directed n).foldlM (tossEdge p) s

/-- The second loop of `rand::seq::sample_iter` (rand 0.5): the element at position `i` replaces a random
entry of the reservoir or is dropped. -/
def sampleLoop {X : Type} (amount : Nat) : Nat → List X → List X → Rng → Res (List X × Rng)
  | _, [], res, r => pure (res, r)
  | i, x :: xs, res, r => do
    let j ← r.range (i + 1 + amount)
    sampleLoop amount (i + 1) xs (if j.1 < res.length then res.set j.1 x else res) j.2

/-- `rand::seq::sample_iter` (rand 0.5): `none` stands for `Err`, fewer elements than asked for. -/
def sampleIter {X : Type} (r : Rng) (l : List X) (amount : Nat) : Res (Option (List X) × Rng) :=
  if (l.take amount).length = amount then do
    let s ← sampleLoop amount 0 (l.drop amount) (l.take amount) r
    pure (some s.1, s.2)
  else pure (none, r)

/-- `random_gnm_graph` (random.rs:64-91). -/
def gnm (directed : Bool) (n : Nat) (c : Nat) (nl : List NL) (el : List EL) (r : Rng) :
    Res (GraphMap m k NL EL × Rng) := do
  let s ← emptyGraph directed n nl el r
  let e ← sampleIter s.2 (completeEdgePairs directed n) c
  match e.1 with
  | some es => es.foldlM addRandomEdge (s.1, e.2)
  | none => .error .explicit

end Gen

end Verif
