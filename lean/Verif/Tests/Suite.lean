import Verif.Model.Mmap
import Verif.Model.Static
import Verif.Model.ConnComp
import Verif.Model.SetOps
import Verif.Model.Reorder

/-!
The library's own tests (`/repo/tests`), replayed on the model.

These are not properties: each `example` runs the model on the inputs of one Rust test and checks that
test's assertions, so that a misreading of the source would show. Ids are `u8` here instead of `u32`
(`DefaultId`); every id in the tests is below 10. Not replayed: `tests/io.rs` and `tests/graph_gen.rs`
(random graphs of 10 and 100 nodes; proved for every outcome in C111).
-/

namespace Verif.Tests

/-- The assertions hold and nothing panicked. -/
def passes (r : Res Bool) : Bool :=
  match r with
  | .ok b => b
  | .error _ => false

/-- A graph with `u8` ids and label ids, and numbers as labels. -/
abbrev G := GraphMap 255 255 Nat Nat

/-- Build a graph by `add_node` and `add_edge`. -/
def mk (d : Bool) (ns : List (Id 255 × Option Nat)) (es : List (Id 255 × Id 255 × Option Nat)) :
    Res G := do
  let g ← ns.foldlM (fun (g : G) p => do let r ← g.addNode p.1 p.2; pure r.1) (GraphMap.new d)
  es.foldlM (fun (g : G) p => do let r ← g.addEdge p.1 p.2.1 p.2.2; pure r.1) g

set_option maxRecDepth 100000

/-! ### tests/map.rs -/

/-- test_set_map -/
example : passes (do
    let s : SetMap Nat := SetMap.empty
    let a ← s.addItem 0
    let b ← a.1.addItem 1
    let c ← b.1.addItem 0
    let d ← c.1.addItem 1
    let s' := d.1
    let its := s'.items
    pure (decide (s.len = 0 ∧ a.2 = 0 ∧ b.2 = 1 ∧ c.2 = 0 ∧ d.2 = 1 ∧ s'.len = 2 ∧
      s'.getItem 0 = some 0 ∧ s'.getItem 1 = some 1 ∧ s'.getItem 2 = none ∧
      s'.contains 0 = true ∧ s'.contains 5 = false ∧ s'.findIndex 0 = some 0 ∧
      s'.findIndex 1 = some 1 ∧ s'.findIndex 5 = none ∧ its = [0, 1]))) = true := by decide

/-- test_vec_map -/
example : passes (do
    let s : VecMap Nat := VecMap.empty
    let a ← s.addItem 0
    let b ← a.1.addItem 1
    let c ← b.1.addItem 0
    let d ← c.1.addItem 1
    let s' := d.1
    pure (decide (s.len = 0 ∧ a.2 = 0 ∧ b.2 = 1 ∧ c.2 = 0 ∧ d.2 = 1 ∧ s'.len = 2 ∧
      s'.getItem 0 = some 0 ∧ s'.getItem 1 = some 1 ∧ s'.getItem 2 = none ∧
      s'.contains 0 = true ∧ s'.contains 5 = false ∧ s'.findIndex 0 = some 0 ∧
      s'.findIndex 1 = some 1 ∧ s'.findIndex 5 = none ∧ s'.items = [0, 1]))) = true := by decide

/-- test_macro -/
example : passes (do
    let s ← SetMap.fromIter [1, 2, 3]
    let v ← VecMap.fromIter [1, 2, 3]
    pure (decide (s.items = [1, 2, 3] ∧ v.items = [1, 2, 3]))) = true := by decide

/-! ### tests/graph_map.rs -/

/-- test_add_get_node -/
example : passes (do
    let g : G := GraphMap.new false
    let a ← g.addNode 0 (some 7)
    let b ← a.1.addNode 1 (some 8)
    let c ← b.1.addNode 2 (some 7)
    let d ← c.1.addNode 3 none
    let g := d.1
    pure (decide (a.1.nodeCount = 1 ∧ b.1.nodeCount = 2 ∧ c.1.nodeCount = 3 ∧ g.nodeCount = 4 ∧
      g.getNode 0 = some (NodeMap.new 0 (some 0)) ∧ g.getNode 1 = some (NodeMap.new 1 (some 1)) ∧
      g.getNode 2 = some (NodeMap.new 2 (some 0)) ∧ g.getNode 3 = some (NodeMap.new 3 none) ∧
      g.getNode 4 = none))) = true := by decide

/-- test_duplicate_node -/
example : passes (do
    let g : G := GraphMap.new false
    let a ← g.addNode 0 (some 7)
    let b ← a.1.addNode 0 none
    pure (!b.2)) = true := by decide

/-- test_remove_node_directed -/
example : passes (do
    let g ← mk true [(0, none), (1, none), (2, none)] [(0, 1, none), (0, 2, none), (1, 0, none)]
    let r ← g.removeNode 0
    let g := r.1
    pure (decide (g.nodeCount = 2 ∧ g.edgeCount = 0 ∧ g.hasNode 0 = false ∧ g.hasEdge 0 1 = false ∧
      g.hasEdge 0 2 = false ∧ g.hasEdge 1 0 = false))) = true := by decide

/-- test_remove_node_undirected -/
example : passes (do
    let g ← mk false [(0, none), (1, none), (2, none)] [(0, 1, none), (0, 2, none), (1, 2, none)]
    let r ← g.removeNode 0
    let g := r.1
    pure (decide (g.nodeCount = 2 ∧ g.edgeCount = 1 ∧ g.hasNode 0 = false ∧ g.hasEdge 0 1 = false ∧
      g.hasEdge 1 0 = false ∧ g.hasEdge 0 2 = false ∧ g.hasEdge 2 0 = false))) = true := by decide

/-- test_add_get_edge_directed -/
example : passes (do
    let g ← mk true [(0, none), (1, none), (2, none)]
      [(0, 1, some 7), (1, 2, some 8), (2, 0, some 7), (1, 0, none), (0, 0, none)]
    let e0 ← g.getEdge 0 1
    let e1 ← g.getEdge 1 2
    let e2 ← g.getEdge 2 0
    let e3 ← g.getEdge 1 0
    let e4 ← g.getEdge 1 3
    let e5 ← g.getEdge 2 1
    pure (decide (g.edgeCount = 5 ∧ e0 = some ⟨0, 1, some 0⟩ ∧ e1 = some ⟨1, 2, some 1⟩ ∧
      e2 = some ⟨2, 0, some 0⟩ ∧ e3 = some ⟨1, 0, none⟩ ∧ e4 = none ∧ e5 = none ∧
      g.hasEdge 0 0 = true))) = true := by decide

/-- test_add_get_edge_undirected -/
example : passes (do
    let g ← mk false [(0, none), (1, none), (2, none), (3, none)]
      [(0, 1, some 7), (1, 2, some 8), (2, 0, some 7), (0, 0, none)]
    let e0 ← g.getEdge 0 1
    let e1 ← g.getEdge 1 2
    let e1' ← g.getEdge 2 1
    let e2 ← g.getEdge 2 0
    let e2' ← g.getEdge 0 2
    let e4 ← g.getEdge 1 3
    let e5 ← g.getEdge 0 3
    pure (decide (g.edgeCount = 4 ∧ e0 = some ⟨0, 1, some 0⟩ ∧ e1 = some ⟨1, 2, some 1⟩ ∧
      e1' = some ⟨2, 1, some 1⟩ ∧ e2 = some ⟨2, 0, some 0⟩ ∧ e2' = some ⟨0, 2, some 0⟩ ∧ e4 = none ∧
      e5 = none ∧ g.hasEdge 0 0 = true))) = true := by decide

/-- test_multi_adding -/
example : ∀ d : Bool, passes (do
    let g ← mk d [(0, none), (1, none)] [(0, 1, none)]
    let a ← g.addNode 0 (some 9)
    let b ← if d then a.1.addEdge 0 1 (some 9) else a.1.addEdge 1 0 (some 9)
    let l ← b.1.getEdgeLabel 0 1
    pure (decide (a.2 = false ∧ a.1.getNodeLabel 0 = some 9 ∧ b.2 = false ∧ l = some 9))) = true := by
  decide

/-- test_remove_edge_directed -/
example : passes (do
    let g ← mk true [(0, none), (1, none), (2, none)] [(0, 1, none), (1, 0, none), (1, 2, none)]
    let a ← g.removeEdge 0 1
    let n0 ← a.1.neighbors 0
    let i1 ← a.1.inNeighbors 1
    let b ← a.1.removeEdge 1 2
    let n1 ← b.1.neighbors 1
    let i2 ← b.1.inNeighbors 2
    pure (decide (a.1.edgeCount = 2 ∧ a.1.hasEdge 0 1 = false ∧ ¬ 1 ∈ n0 ∧ ¬ 0 ∈ i1 ∧
      b.1.edgeCount = 1 ∧ b.1.hasEdge 1 2 = false ∧ ¬ 2 ∈ n1 ∧ ¬ 1 ∈ i2 ∧
      b.1.hasEdge 1 0 = true))) = true := by decide

/-- test_remove_edge_undirected -/
example : passes (do
    let g ← mk false [(0, none), (1, none), (2, none)] [(0, 1, none), (2, 1, none)]
    let a ← g.removeEdge 1 0
    let n0 ← a.1.neighbors 0
    let n1 ← a.1.neighbors 1
    let b ← a.1.removeEdge 1 2
    let m1 ← b.1.neighbors 1
    let m2 ← b.1.neighbors 2
    pure (decide (a.1.edgeCount = 1 ∧ a.1.hasEdge 0 1 = false ∧ ¬ 1 ∈ n0 ∧ ¬ 0 ∈ n1 ∧
      b.1.edgeCount = 0 ∧ ¬ 2 ∈ m1 ∧ ¬ 1 ∈ m2))) = true := by decide

/-- test_get_node_edge_label -/
example : passes (do
    let g ← mk true [(0, some 7), (1, none)] [(0, 1, some 8), (1, 0, none)]
    let a ← g.getEdgeLabel 0 1
    let b ← g.getEdgeLabel 1 0
    pure (decide (g.getNodeLabel 0 = some 7 ∧ g.getNodeLabel 1 = none ∧ a = some 8 ∧ b = none))) =
    true := by decide

/-- test_iter, test_iter_mut -/
example : passes (do
    let g ← mk true [(0, some 5), (1, some 6), (2, none)] [(0, 1, some 7), (1, 0, some 8), (1, 2, none)]
    let n1 ← g.neighbors 1
    pure (decide (g.nodeIndices.Perm [0, 1, 2] ∧ g.edgeIndices.Perm [(0, 1), (1, 0), (1, 2)] ∧
      (g.nodes.map (fun nd => (nd.id, nd.label))).Perm [(0, some 0), (1, some 1), (2, none)] ∧
      g.edges.Perm [⟨0, 1, some 0⟩, ⟨1, 0, some 1⟩, ⟨1, 2, none⟩] ∧
      g.nodeLabels.items = [5, 6] ∧ g.edgeLabels.items = [7, 8] ∧ n1 = [0, 2]))) = true := by decide

/-- test_neighbors -/
example : passes (do
    let g ← mk true [(0, some 0), (1, some 0), (2, none)] [(0, 1, some 0), (0, 2, some 0), (2, 1, none)]
    let n0 ← g.neighbors 0
    let i1 ← g.inNeighbors 1
    let d0 ← g.degree 0
    let e1 ← g.inDegree 1
    let n1 ← g.neighbors 1
    let i0 ← g.inNeighbors 0
    let d1 ← g.degree 1
    let e0 ← g.inDegree 0
    pure (decide (n0 = [1, 2] ∧ i1 = [0, 2] ∧ d0 = 2 ∧ e1 = 2 ∧ n1 = [] ∧ i0 = [] ∧ d1 = 0 ∧ e0 = 0))) =
    true := by decide

/-- test_max_id -/
example : passes (do
    let g : G := GraphMap.new true
    let a ← g.addNode 1 (some 0)
    let b ← a.1.addNode 0 (some 0)
    let c ← b.1.addNode 2 none
    let d ← c.1.addEdge 3 4 (some 0)
    let e ← d.1.addEdge 6 5 (some 0)
    pure (decide (g.maxSeenId = none ∧ a.1.maxSeenId = some 1 ∧ b.1.maxSeenId = some 1 ∧
      c.1.maxSeenId = some 2 ∧ d.1.maxSeenId = some 4 ∧ e.1.maxSeenId = some 6))) = true := by decide

/-- test_clone (`Clone` of the typed graph is derived, a copy) and test_stats -/
example : passes (do
    let g ← mk true [(0, some 0), (1, some 0), (2, some 1), (3, none)]
      [(0, 1, some 0), (1, 2, some 0), (2, 3, some 1), (3, 1, none)]
    let same ← g.view.typedEq g.view
    pure (same && decide (g.view.nodeLabelIdCounter.Perm [(0, 2), (1, 1)] ∧
      g.view.edgeLabelIdCounter.Perm [(0, 2), (1, 1)]))) = true := by decide

/-! ### tests/static_graph.rs -/

/-- A static graph as in the tests. -/
abbrev S := StaticGraph 255 255 Nat Nat

/-- test_directed -/
example : passes (do
    let ev : EdgeVec 255 255 := EdgeVec.new [0, 2, 3, 4] [1, 2, 0, 0]
    let g : S ← StaticGraph.new true ev (some ev) none none
    let n0 ← g.neighbors 0
    let n1 ← g.neighbors 1
    let n2 ← g.neighbors 2
    let d0 ← g.degree 0
    let d1 ← g.degree 1
    let i0 ← g.inNeighbors 0
    let i1 ← g.inNeighbors 1
    let j0 ← g.inDegree 0
    let j1 ← g.inDegree 1
    let e0 ← g.getEdge 0 1
    let e1 ← g.getEdge 0 2
    let e2 ← g.getEdge 1 0
    let e3 ← g.getEdge 2 0
    let e4 ← g.getEdge 2 3
    let es ← g.edges
    pure (decide (g.numNodes = 3 ∧ g.numEdges = 4 ∧ n0 = [1, 2] ∧ n1 = [0] ∧ n2 = [0] ∧ d0 = 2 ∧
      d1 = 1 ∧ i0 = [1, 2] ∧ i1 = [0] ∧ j0 = 2 ∧ j1 = 1 ∧ g.hasNode 2 = true ∧ g.hasNode 3 = false ∧
      e0 = some ⟨0, 1, none⟩ ∧ e1 = some ⟨0, 2, none⟩ ∧ e2 = some ⟨1, 0, none⟩ ∧
      e3 = some ⟨2, 0, none⟩ ∧ e4 = none ∧ g.nodes = [(0, none), (1, none), (2, none)] ∧
      es = [⟨0, 1, none⟩, ⟨0, 2, none⟩, ⟨1, 0, none⟩, ⟨2, 0, none⟩]))) = true := by decide

/-- test_undirected -/
example : passes (do
    let ev : EdgeVec 255 255 := EdgeVec.new [0, 2, 4, 6] [1, 2, 0, 2, 0, 1]
    let g : S ← StaticGraph.new false ev none none none
    let es ← g.edgeIndices
    pure (decide (es = [(0, 1), (0, 2), (1, 2)]))) = true := by decide

/-- test_labeled -/
example : passes (do
    let ev : EdgeVec 255 255 ← EdgeVec.withLabels [0, 2, 3, 4] [1, 2, 0, 0] [0, 1, 0, 1]
    let iev : EdgeVec 255 255 := EdgeVec.new [0, 2, 3, 4] [1, 2, 0, 0]
    let nl ← SetMap.fromIter [7, 8]
    let g : S ← StaticGraph.withLabels true ev (some iev) [1, 0, 1] nl nl none none
    let v ← g.view
    let a0 ← v.getNodeLabel 0
    let a1 ← v.getNodeLabel 1
    let a2 ← v.getNodeLabel 2
    let a4 ← v.getNodeLabel 4
    let b0 ← v.getEdgeLabel 0 1
    let b1 ← v.getEdgeLabel 0 2
    let b2 ← v.getEdgeLabel 1 0
    let b3 ← v.getEdgeLabel 2 0
    let b4 ← v.getEdgeLabel 2 3
    let e0 ← g.getEdge 0 1
    let e1 ← g.getEdge 0 2
    let e2 ← g.getEdge 1 0
    let e3 ← g.getEdge 2 0
    let e4 ← g.getEdge 2 3
    let es ← g.edges
    pure (decide (a0 = some 8 ∧ a1 = some 7 ∧ a2 = some 8 ∧ a4 = none ∧ b0 = some 7 ∧ b1 = some 8 ∧
      b2 = some 7 ∧ b3 = some 8 ∧ b4 = none ∧ e0 = some ⟨0, 1, some 0⟩ ∧ e1 = some ⟨0, 2, some 1⟩ ∧
      e2 = some ⟨1, 0, some 0⟩ ∧ e3 = some ⟨2, 0, some 1⟩ ∧ e4 = none ∧ g.hasNode 3 = false ∧
      g.nodes = [(0, some 1), (1, some 0), (2, some 1)] ∧
      es = [⟨0, 1, some 0⟩, ⟨0, 2, some 1⟩, ⟨1, 0, some 0⟩, ⟨2, 0, some 1⟩]))) = true := by decide

/-! ### tests/converter.rs -/

/-- test_undirected -/
example : passes (do
    let g ← mk false [(0, some 7), (1, some 7), (2, some 8), (3, none)]
      [(0, 1, some 5), (1, 2, some 6), (2, 0, none)]
    let s ← g.intoStatic
    let v ← s.view
    let a0 ← v.getNodeLabel 0
    let a1 ← v.getNodeLabel 1
    let a2 ← v.getNodeLabel 2
    let a3 ← v.getNodeLabel 3
    let b0 ← v.getEdgeLabel 0 1
    let b1 ← v.getEdgeLabel 1 2
    let b2 ← v.getEdgeLabel 2 0
    pure (decide (v.edgeIndices = [(0, 1), (0, 2), (1, 2)] ∧ a0 = some 7 ∧ a1 = some 7 ∧ a2 = some 8 ∧
      a3 = none ∧ b0 = some 5 ∧ b1 = some 6 ∧ b2 = none))) = true := by decide

/-- test_undirected_reorder; the counters have one possible `most_common` each up to ties. -/
example : passes (do
    let g ← mk false [(0, some 7), (1, some 7), (2, some 8), (3, none)]
      [(0, 1, some 5), (1, 2, some 6), (2, 0, none)]
    let r ← g.reorderId true true true [(0, 2), (1, 1)] [(0, 1), (1, 1)]
    let h ← unwrap r.graph
    let s ← h.intoStatic
    let v ← s.view
    let n0 ← r.findNewNodeId 0
    let n1 ← r.findNewNodeId 1
    let n2 ← r.findNewNodeId 2
    let n3 ← r.findNewNodeId 3
    let a0 ← v.getNodeLabel n0
    let a1 ← v.getNodeLabel n1
    let a2 ← v.getNodeLabel n2
    let a3 ← v.getNodeLabel n3
    let b0 ← v.getEdgeLabel n0 n1
    let b1 ← v.getEdgeLabel n1 n2
    let b2 ← v.getEdgeLabel n0 n2
    pure (decide (v.edgeIndices = [(1, 2), (1, 3), (2, 3)] ∧ a0 = some 7 ∧ a1 = some 7 ∧ a2 = some 8 ∧
      a3 = none ∧ b0 = some 5 ∧ b1 = some 6 ∧ b2 = none))) = true := by decide

/-- test_directed -/
example : passes (do
    let g ← mk true [(0, none), (1, none), (2, none), (3, none)]
      [(1, 0, some 5), (2, 0, some 5), (2, 3, some 6), (3, 0, some 5), (3, 1, some 5), (3, 2, some 5)]
    let r ← g.reorderId true true true [] [(0, 5), (1, 1)]
    let h ← unwrap r.graph
    let s ← h.intoStatic
    let es ← s.edgeIndices
    pure (decide (es = [(0, 1), (2, 1), (2, 3), (3, 0), (3, 1), (3, 2)]))) = true := by decide

/-! ### tests/algorithm.rs -/

/-- The paths 1-2-3 of the one-component tests and the pairs 1-2, 3-4 of the others. -/
def oneComponent (d : Bool) : Res G := mk d [] [(1, 2, none), (2, 3, none)]
/-- See `oneComponent`. -/
def twoComponents (d : Bool) : Res G := mk d [] [(1, 2, none), (3, 4, none)]

/-- `is_connected`, dropping the state. -/
def conn (c : ConnComp 255) (a b : Id 255) : Res Bool := do
  let r ← c.isConnected a b
  pure r.2

/-- `get_connected_nodes(n).unwrap().len()`. -/
def size (c : ConnComp 255) (n : Id 255) : Res Nat := do
  let r ← c.getConnectedNodes n
  let l ← unwrap r.2
  pure l.length

/-- test_cc_undirected_one_component, test_cc_directed_one_component -/
example : ∀ d : Bool, passes (do
    let g ← oneComponent d
    let c ← ConnComp.new g.view
    let p ← [(1, 2), (2, 3), (1, 3)].mapM (fun e => conn c e.1 e.2)
    let q ← [1, 2, 3].mapM (size c)
    pure (decide (c.getCount = 1 ∧ p = [true, true, true] ∧ q = [3, 3, 3]))) = true := by decide

/-- test_cc_undirected_seperate_components, test_cc_directed_seperate_components -/
example : ∀ d : Bool, passes (do
    let g ← twoComponents d
    let c ← ConnComp.new g.view
    let p ← [(1, 2), (2, 3), (1, 3), (1, 4), (2, 4), (3, 4)].mapM (fun e => conn c e.1 e.2)
    let q ← [1, 2, 3, 4].mapM (size c)
    pure (decide (c.getCount = 2 ∧ p = [true, false, false, false, false, true] ∧
      q = [2, 2, 2, 2]))) = true := by decide

/-- test_bfs_undirected_one_component, test_dfs_undirected_one_component -/
example : passes (do
    let g ← oneComponent false
    let s ← Traversal.new g.view (some 1)
    let b ← drain (Bfs.next g.view) 10 s
    let d ← drain (Dfs.next g.view) 10 s
    pure (decide (b.1 = [1, 2, 3] ∧ d.1 = [1, 2, 3]))) = true := by decide

/-- test_bfs_*_radomly_chosen_start, test_dfs_*_radomly_chosen_start -/
example : ∀ d : Bool, passes (do
    let g ← mk d [] [(1, 2, none)]
    let s ← Traversal.new g.view none
    let b ← Bfs.next g.view s
    let d ← Dfs.next g.view s
    pure (decide ((b.1 = some 1 ∨ b.1 = some 2) ∧ (d.1 = some 1 ∨ d.1 = some 2)))) = true := by decide

/-- test_bfs_*_seperate_components, test_dfs_*_seperate_components -/
example : ∀ d : Bool, passes (do
    let g ← twoComponents d
    let s ← Traversal.new g.view (some 1)
    let b ← drain (Bfs.next g.view) 10 s
    let d ← drain (Dfs.next g.view) 10 s
    pure (decide ((b.1.take 3 = [1, 2, 3] ∨ b.1.take 3 = [1, 2, 4]) ∧
      (d.1.take 3 = [1, 2, 3] ∨ d.1.take 3 = [1, 2, 4])))) = true := by decide

/-- test_bfs_directed_one_component, test_dfs_directed_one_component -/
example : passes (do
    let g ← mk true [] [(2, 1, none), (3, 1, none)]
    let s ← Traversal.new g.view (some 1)
    let b ← drain (Bfs.next g.view) 10 s
    let d ← drain (Dfs.next g.view) 10 s
    pure (decide ((b.1.take 2 = [1, 2] ∨ b.1.take 2 = [1, 3]) ∧
      (d.1.take 2 = [1, 2] ∨ d.1.take 2 = [1, 3])))) = true := by decide

/-- test_conn_subgraphs_undirected_seperate_components, test_conn_subgraphs_directed_seperate_components
-/
example : ∀ d : Bool, passes (do
    let g ← mk d [(1, some 0), (2, some 1), (3, some 2), (4, some 3)] [(1, 2, some 10), (3, 4, some 20)]
    let cs ← ConnSubgraph.new g.view
    match cs.subgraphs with
    | [a, b] =>
      pure (decide ([1, 2, 3, 4].map a.hasNode = [true, true, false, false] ∧
        [1, 2, 3, 4].map b.hasNode = [false, false, true, true] ∧
        [(1, 2), (3, 4), (2, 1), (4, 3)].map (fun e => a.hasEdge e.1 e.2) = [true, false, !d, false] ∧
        [(1, 2), (3, 4), (2, 1), (4, 3)].map (fun e => b.hasEdge e.1 e.2) = [false, true, false, !d] ∧
        a.getNodeLabel 1 = some 0 ∧ a.getNodeLabel 2 = some 1 ∧ b.getNodeLabel 3 = some 2 ∧
        b.getNodeLabel 4 = some 3))
    | _ => pure false) = true := by decide

/-- The pairs the union and difference tests look at. -/
def pairs : List (Id 255 × Id 255) := [(1, 2), (3, 4), (2, 1), (4, 3), (2, 3), (1, 4)]

/-- test_graph_union_* and test_graph_add_* -/
example : ∀ d : Bool, passes (do
    let g0 ← mk d [(1, some 0), (2, some 1)] [(1, 2, some 10)]
    let g1 ← mk d [(3, some 2), (4, some 3)] [(3, 4, some 20)]
    let u ← GraphMap.graphUnion g0.view g1.view
    let ls ← pairs.mapM (fun e => u.getEdgeLabel e.1 e.2)
    pure (decide (u.nodeCount = 4 ∧ u.edgeCount = 2 ∧
      [1, 2, 3, 4].map u.hasNode = [true, true, true, true] ∧
      pairs.map (fun e => u.hasEdge e.1 e.2) = [true, true, !d, !d, false, false] ∧
      [1, 2, 3, 4].map u.getNodeLabel = [some 0, some 1, some 2, some 3] ∧
      ls = [some 10, some 20, if d then none else some 10, if d then none else some 20, none, none]))) =
    true := by decide

/-- test_graph_minus_* and test_graph_sub_* -/
example : ∀ d : Bool, passes (do
    let g0 ← mk d [(1, some 0), (2, some 1), (3, some 2), (4, some 3)] [(1, 2, some 10), (3, 4, some 20)]
    let g1 ← mk d [(3, some 2), (4, some 3)] [(3, 4, some 20)]
    let u ← GraphMap.graphMinus g0.view g1.view
    let ls ← pairs.mapM (fun e => u.getEdgeLabel e.1 e.2)
    pure (decide (u.nodeCount = 2 ∧ u.edgeCount = 1 ∧
      [1, 2, 3, 4].map u.hasNode = [true, true, false, false] ∧
      pairs.map (fun e => u.hasEdge e.1 e.2) = [true, false, !d, false, false, false] ∧
      [1, 2, 3, 4].map u.getNodeLabel = [some 0, some 1, none, none] ∧
      ls = [some 10, none, if d then none else some 10, none, none, none]))) = true := by decide

/-- An empty disk. -/
def disk : World := ⟨fun _ => none, 1000⟩

/-- test_edge_vec_mmap -/
example : passes (do
    let ev : EdgeVec 255 255 := ⟨[0, 3, 5, 8, 10], [1, 2, 3, 0, 2, 0, 1, 3, 0, 2], none⟩
    let (ok, x) := ev.dumpMmap 1 1 "edgevec" disk
    let em : EdgeVec 255 255 ← EdgeVec.openMmap 1 1 "edgevec" x
    let n ← ev.numNodes
    let n' ← em.numNodes
    let ns := (List.range n).map (Id.new (m := 255))
    let a ← ns.mapM ev.neighbors
    let b ← ns.mapM em.neighbors
    let ls ← (ns.zip b).mapM (fun p => p.2.mapM (em.findEdgeLabelId p.1))
    pure (decide (ok = true ∧ n = n' ∧ a = b ∧ ls.flatten.all (·.isNone) = true))) = true := by decide

/-- test_edge_vec_mmap_label -/
example : passes (do
    let ev : EdgeVec 255 255 := ⟨[0, 3, 5, 8, 10], [1, 2, 3, 0, 2, 0, 1, 3, 0, 2],
      some [0, 4, 3, 0, 1, 4, 1, 2, 3, 2]⟩
    let (ok, x) := ev.dumpMmap 1 1 "edgevecl" disk
    let em : EdgeVec 255 255 ← EdgeVec.openMmap 1 1 "edgevecl" x
    let n ← ev.numNodes
    let n' ← em.numNodes
    let ns := (List.range n).map (Id.new (m := 255))
    let a ← ns.mapM ev.neighbors
    let b ← ns.mapM em.neighbors
    let ls ← (ns.zip b).mapM (fun p => p.2.mapM (em.findEdgeLabelId p.1))
    pure (decide (ok = true ∧ n = n' ∧ a = b ∧
      ls = [[some 0, some 4, some 3], [some 0, some 1], [some 4, some 1, some 2], [some 3, some 2]]))) =
    true := by decide

/-! ### Examples in the documentation -/

/-- bfs.rs:37-56, dfs.rs:36-55; for paths of every length see C152. -/
example : passes (do
    let g ← mk false [] [(0, 1, none), (1, 2, none), (2, 3, none)]
    let s ← Traversal.new g.view (some 0)
    let b ← drain (Bfs.next g.view) 10 s
    let d ← drain (Dfs.next g.view) 10 s
    pure (decide (b.1 = [0, 1, 2, 3] ∧ d.1 = [0, 1, 2, 3]))) = true := by decide

/-- graph_map/graph.rs:193-211; for all graphs see C149. -/
example : passes (do
    let g ← mk false [(0, some 7), (1, some 8)] [(0, 1, none)]
    let p0 : G := GraphMap.withLabelMap false g.nodeLabels g.edgeLabels
    let p1 ← p0.addNode 1 (some 8)
    let p2 ← p1.1.addNode 0 (some 7)
    let p3 ← p2.1.addEdge 0 1 none
    let p := p3.1
    pure (decide ((g.getNode 0).map (fun x => x.label) = (p.getNode 0).map (fun x => x.label) ∧
      (g.getNode 1).map (fun x => x.label) = (p.getNode 1).map (fun x => x.label) ∧
      (g.getNode 0).isSome = true ∧ (g.getNode 1).isSome = true))) = true := by decide

end Verif.Tests
