import Verif.Model.Mmap
import Verif.Model.Names
import Verif.Model.SetOps

/-!
Boxed graphs, `Box<GeneralGraph>`: one of the three implementations behind `GeneralGraph`
(`/repo/src/generic/graph.rs:36-54`), with its `Clone` (56-68), `PartialEq` (293-299) and `Hash` (303-329).

Simplification: a reference to a trait object is a record of its answers (`GView`, `DiView`), a mutable one the
graph it points to; what is written through it goes back into the box.
-/

namespace Verif

variable {m k : Nat} {NL EL : Type}

/-- `DiGraphTrait` (generic/graph.rs:256-265). -/
structure DiView (m : Nat) where
  inDegree : Id m → Res Nat
  inNeighbors : Id m → Res (List (Id m))

/-- `Box<GeneralGraph>`. -/
inductive Boxed (m k : Nat) (NL EL : Type) where
  | map (g : GraphMap m k NL EL)
  | static (g : StaticGraph m k NL EL)
  | mmap (g : MmapGraph m k NL EL)

namespace Boxed

/-- `implementation` (graph_map/graph.rs:550-552, static_graph/graph.rs:580-582, graph_mmap.rs:277-279). -/
def implementation : Boxed m k NL EL → GraphImpl
  | .map _ => .graphMap
  | .static _ => .staticGraph
  | .mmap _ => .staticGraphMmap

/-- `as_graph`, `as_labeled_graph`, `as_general_graph` (graph_map/graph.rs:633-646, 657-670,
static_graph/graph.rs:627-640, 646-659, graph_mmap.rs:318-331): the graph itself. -/
def view : Boxed m k NL EL → Res (GView m k NL EL)
  | .map g => pure g.view
  | .static g => g.view
  | .mmap g => g.view

/-- `as_digraph` (generic/graph.rs:45-48 by default; graph_map/graph.rs:673-675, static_graph/graph.rs:662-664,
graph_mmap.rs:334-340). -/
def asDigraph : Boxed m k NL EL → Option (DiView m)
  | .map g => if g.directed then some ⟨g.inDegree, g.inNeighbors⟩ else none
  | .static g => if g.directed then some ⟨g.inDegree, g.inNeighbors⟩ else none
  | .mmap g => if g.isDirected then some ⟨g.inDegree, g.inNeighbors⟩ else none

/-- `as_mut_graph` (generic/graph.rs:50-53 by default; graph_map/graph.rs:649-651, 678-680). -/
def asMutGraph : Boxed m k NL EL → Option (GraphMap m k NL EL)
  | .map g => some g
  | _ => none

variable [DecidableEq NL] [DecidableEq EL]

/-- `if let Some(g) = b.as_mut_graph() { .. }` with calls on `g` in the body; the flag says whether there was
one. -/
def mutate (b : Boxed m k NL EL) (ops : List (Op m k NL EL)) : Res (Boxed m k NL EL × Bool) :=
  match b.asMutGraph with
  | some g => do
    let g ← g.exec ops
    pure (.map g, true)
  | none => pure (b, false)

/-- `Clone` (generic/graph.rs:56-68). -/
def clone (b : Boxed m k NL EL) : Res (Boxed m k NL EL) := do
  let v ← b.view
  let e : GraphMap m k NL EL := if b.asDigraph.isSome then GraphMap.new true else GraphMap.new false
  let c ← GraphMap.graphUnion v e.view
  pure (.map c)

/-- `PartialEq` (generic/graph.rs:293-299). -/
def eq (b c : Boxed m k NL EL) : Res Bool := do
  let v ← b.view
  let u ← c.view
  v.equal u

omit [DecidableEq NL] [DecidableEq EL] in
/-- What `Hash` (generic/graph.rs:303-329) feeds to the hasher. -/
def hashData (b : Boxed m k NL EL) :
    Res (Bool × List (Id m) × List (Option NL) × List (Id m × Id m) × List (Option EL)) := do
  let v ← b.view
  let d ← v.hashData
  pure (b.asDigraph.isSome, d)

end Boxed

namespace StaticGraph

/-! Assignments through `get_edge_vec_mut`, `get_in_edge_vec_mut`, `get_labels_mut`, `get_node_label_map_mut`,
`get_edge_label_map_mut`. -/

/-- `*g.get_edge_vec_mut() = ev` (static_graph/graph.rs:357-359); `ev.clear()` through it assigns the cleared
one. -/
def setEdgeVec (g : StaticGraph m k NL EL) (ev : EdgeVec m k) : StaticGraph m k NL EL := { g with edgeVec := ev }

/-- `*g.get_in_edge_vec_mut() = ev` (static_graph/graph.rs:362-364). -/
def setInEdgeVec (g : StaticGraph m k NL EL) (ev : Option (EdgeVec m k)) : StaticGraph m k NL EL :=
  { g with inEdgeVec := ev }

/-- `*g.get_labels_mut() = ls` (static_graph/graph.rs:367-369). -/
def setLabels (g : StaticGraph m k NL EL) (ls : Option (List (Id k))) : StaticGraph m k NL EL :=
  { g with labels := ls }

/-- `*g.get_node_label_map_mut() = t` (static_graph/graph.rs:372-374). -/
def setNodeLabels (g : StaticGraph m k NL EL) (t : SetMap NL) : StaticGraph m k NL EL := { g with nodeLabels := t }

/-- `*g.get_edge_label_map_mut() = t` (static_graph/graph.rs:377-379). -/
def setEdgeLabels (g : StaticGraph m k NL EL) (t : SetMap EL) : StaticGraph m k NL EL := { g with edgeLabels := t }

end StaticGraph

/-- `Default` of `EdgeVec` (edge_vec.rs:204-208). -/
def EdgeVec.default : EdgeVec m k := EdgeVec.new [] []

end Verif
