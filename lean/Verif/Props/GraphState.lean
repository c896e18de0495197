import Verif.Proof.Handshake

/-! Property theorems about every reachable graph: C07, C09, C10, C11, C13, C15, C17, C56, C59. -/

namespace Verif.Props

open GraphMap Spec

variable {m k : Nat} {NL EL : Type} [DecidableEq NL] [DecidableEq EL]

/-- A reachable graph with a label, a self loop and both kinds of adjacency, used in the examples. -/
def sample (d : Bool) : List (Op 9 3 String String) :=
  [.addNode 1 (some "a"), .addEdge 1 2 (some "x"), .addEdge 2 3 none, .addEdge 2 2 (some "y"),
   .addEdge 4 2 (some "x"), .addNode (if d then 5 else 6) none]

theorem sample_reachable (d : Bool) : ∃ g, (withLabelMap d SetMap.empty SetMap.empty).exec (sample d)
    = .ok g ∧ Reachable g := by
  have h : ∃ g, (withLabelMap d SetMap.empty SetMap.empty).exec (sample d) = .ok g := by
    cases d <;> exact ⟨_, rfl⟩
  obtain ⟨g, h⟩ := h
  exact ⟨g, h, (exec_run h).reachable List.nodup_nil List.nodup_nil⟩

/-! ### C07 -/

/-- **C07.** `add_node` succeeds and reports whether the id was absent. -/
theorem c07_add_node {g : GraphMap m k NL EL} (hg : Reachable g) (n : Id m) (l : Option NL) :
    ∃ g', g.addNode n l = .ok (g', !g.hasNode n) := by
  obtain ⟨g', nl, lid, hi, h1, -⟩ := addNode_spec hg.inv.toNWF n l
  exact ⟨g', h1⟩

/-- **C07.** `add_edge` succeeds and reports whether the edge was absent. -/
theorem c07_add_edge {g : GraphMap m k NL EL} (hg : Reachable g) (s t : Id m) (l : Option EL) :
    ∃ g', g.addEdge s t l = .ok (g', !g.hasEdge s t) := by
  obtain ⟨g', nl, lid, hi, h1, -⟩ := addEdge_spec hg.inv.toNWF s t l
  exact ⟨g', h1⟩

/-- **C07.** `update_node_label` reports whether the node exists; otherwise nothing changes. -/
theorem c07_update_node_label {g : GraphMap m k NL EL} (hg : Reachable g) (n : Id m)
    (l : Option NL) :
    ∃ g', g.updateNodeLabel n l = .ok (g', g.hasNode n) ∧ (g.hasNode n = false → g' = g) := by
  unfold updateNodeLabel
  cases hn : g.hasNode n with
  | false => exact ⟨g, by simp [pure_ok], fun _ => rfl⟩
  | true =>
    obtain ⟨g', h1⟩ := c07_add_node hg n l
    exact ⟨g', by simp [h1, bind_ok, pure_ok], by simp⟩

/-- **C07.** `update_edge_label` reports whether the edge exists; otherwise nothing changes. -/
theorem c07_update_edge_label {g : GraphMap m k NL EL} (hg : Reachable g) (s t : Id m)
    (l : Option EL) :
    ∃ g', g.updateEdgeLabel s t l = .ok (g', g.hasEdge s t) ∧ (g.hasEdge s t = false → g' = g) := by
  unfold updateEdgeLabel
  cases hn : g.hasEdge s t with
  | false => exact ⟨g, by simp [pure_ok], fun _ => rfl⟩
  | true =>
    obtain ⟨g', h1⟩ := c07_add_edge hg s t l
    exact ⟨g', by simp [h1, bind_ok, pure_ok], by simp⟩

/-- **C07.** `remove_edge` returns what `get_edge` returned before; without an edge nothing changes. -/
theorem c07_remove_edge {g : GraphMap m k NL EL} (hg : Reachable g) (s t : Id m) :
    ∃ g' r, g.removeEdge s t = .ok (g', r) ∧ g.getEdge s t = .ok r ∧
      (r.isSome = g.hasEdge s t) ∧ (g.hasEdge s t = false → g' = g) := by
  obtain ⟨g', h1, -, -, -, -, -, -, h8, -⟩ := removeEdge_spec hg.inv s t
  refine ⟨g', _, h1, getEdge_eq_outE g s t, ?_, h8⟩
  rw [hasEdge_eq_outE]; simp

/-- **C07.** `remove_node` of a node without self loop returns what `get_node` returned before;
without such a node nothing changes. (With a self loop it panics: C13.) -/
theorem c07_remove_node {g : GraphMap m k NL EL} (hg : Reachable g) (n : Id m)
    (hl : g.hasEdge n n = false) :
    ∃ g', g.removeNode n = .ok (g', g.getNode n) ∧ (g.hasNode n = false → g' = g) := by
  obtain ⟨g', h1, -, -, -, -, -, -, h8, -⟩ := removeNode_spec hg.inv n hl
  exact ⟨g', h1, h8⟩

example : ∃ g : GraphMap 9 3 String String, Reachable g ∧ g.hasNode 1 = true ∧ g.hasNode 9 = false ∧
    g.hasEdge 1 1 = false ∧ g.hasEdge 2 1 = true ∧ g.hasEdge 1 3 = false := by
  obtain ⟨g, h, hr⟩ := sample_reachable false
  cases h
  exact ⟨_, hr, by decide, by decide, by decide, by decide, by decide⟩

/-! ### C09 -/

/-- **C09.** Neighbour lists and degrees. -/
theorem c09_neighbors {g : GraphMap m k NL EL} (hg : Reachable g) (n : Id m)
    (hn : g.hasNode n = true) :
    ∃ l, g.neighbors n = .ok l ∧ l.Pairwise (· < ·) ∧ (∀ t, t ∈ l ↔ g.hasEdge n t = true) ∧
      g.degree n = .ok l.length := by
  obtain ⟨nd, hnd⟩ := (hasNode_iff _ _).1 hn
  refine ⟨nd.neighborIds, by simp [neighbors, hnd, pure_ok], hg.inv.sortedOut n nd hnd, ?_, ?_⟩
  · intro t; rw [hasEdge_eq_outE]; exact mem_neighborIds_iff hnd t
  · simp [degree, hnd, pure_ok, NodeMap.degree, NodeMap.neighborIds, AL.keys]

/-- **C09.** In-neighbour lists and in-degrees of a directed graph. -/
theorem c09_in_neighbors {g : GraphMap m k NL EL} (hg : Reachable g) (hd : g.isDirected = true)
    (n : Id m) (hn : g.hasNode n = true) :
    ∃ l, g.inNeighbors n = .ok l ∧ l.Pairwise (· < ·) ∧ (∀ s, s ∈ l ↔ g.hasEdge s n = true) ∧
      g.inDegree n = .ok l.length := by
  obtain ⟨nd, hnd⟩ := (hasNode_iff _ _).1 hn
  refine ⟨nd.inNeighborIds, by simp [inNeighbors, hnd, pure_ok], hg.inv.sortedIn n nd hnd, ?_, ?_⟩
  · intro s; rw [hasEdge_eq_outE, mem_inNeighbors_iff hnd]; exact hg.inv.inSpec hd s n
  · simp [inDegree, hnd, pure_ok, NodeMap.inDegree, NodeMap.inNeighborIds]

omit [DecidableEq NL] [DecidableEq EL] in
/-- **C09.** On an absent node they all panic. -/
theorem c09_absent (g : GraphMap m k NL EL) (n : Id m) (hn : g.hasNode n = false) :
    g.neighbors n = .error .nodeMissing ∧ g.degree n = .error .nodeMissing ∧
    g.inNeighbors n = .error .nodeMissing ∧ g.inDegree n = .error .nodeMissing := by
  have : g.getNode n = none := by simpa [hasNode, getNode] using hn
  simp [neighbors, degree, inNeighbors, inDegree, this]

example : ∃ g : GraphMap 9 3 String String, Reachable g ∧ g.isDirected = true ∧ g.hasNode 2 = true ∧
    g.neighbors 2 = .ok [2, 3] ∧ g.inNeighbors 2 = .ok [1, 2, 4] := by
  obtain ⟨g, h, hr⟩ := sample_reachable true
  cases h
  exact ⟨_, hr, by decide, by decide, by decide, by decide⟩

/-! ### C10, C11 -/

/-- **C10.** Both endpoints of an edge are nodes. -/
theorem c10_no_dangling {g : GraphMap m k NL EL} (hg : Reachable g) (s t : Id m)
    (h : g.hasEdge s t = true) : g.hasNode s = true ∧ g.hasNode t = true := by
  rw [hasEdge_eq_outE] at h
  exact ⟨outE_hasNode h, hg.inv.target s t h⟩

/-- **C11.** `node_indices` lists each node once; `node_count` is their number; `nodes()` lists the
same nodes in the same order, each as `get_node` returns it. -/
theorem c11_nodes {g : GraphMap m k NL EL} (hg : Reachable g) :
    g.nodeIndices.Nodup ∧ (∀ n, n ∈ g.nodeIndices ↔ g.hasNode n = true) ∧
    g.nodeCount = g.nodeIndices.length ∧
    g.nodes.map (fun nd => some nd) = g.nodeIndices.map g.getNode ∧
    (∀ nd ∈ g.nodes, g.getNode nd.id = some nd) ∧
    (∀ n, g.hasNode n = (g.getNode n).isSome) ∧
    (∀ n nd, g.getNode n = some nd → nd.id = n) := by
  have hw := hg.inv.toNWF
  refine ⟨hw.keys, mem_nodeIndices g, by simp [nodeCount, nodeIndices, AL.keys], ?_,
    fun nd h => (mem_values hw nd).1 h, fun n => rfl, hw.ids⟩
  unfold nodes nodeIndices AL.values AL.keys
  rw [List.map_map, List.map_map]
  apply List.map_congr_left
  rintro ⟨n, nd⟩ h
  exact (AL.get_eq_of_mem hw.keys h).symm

/-- **C11.** `edge_indices` lists each edge once (undirected: with `start <= target`); `edges()` lists
the same edges in the same order, each as `get_edge` returns it. -/
theorem c11_edges {g : GraphMap m k NL EL} (hg : Reachable g) :
    g.edgeIndices.Nodup ∧
    (∀ s t, (s, t) ∈ g.edgeIndices ↔ g.hasEdge s t = true ∧ (g.isDirected = true ∨ s ≤ t)) ∧
    g.edges.map (fun e => (e.src, e.dst)) = g.edgeIndices ∧
    (∀ e ∈ g.edges, g.getEdge e.src e.dst = .ok (some e)) ∧
    (∀ s t, ∃ r, g.getEdge s t = .ok r ∧ g.hasEdge s t = r.isSome ∧
      ∀ e, r = some e → e.src = s ∧ e.dst = t) := by
  have hw := hg.inv.toNWF
  refine ⟨edgeIndices_nodup hw, ?_, (edgeIndices_eq g).symm, ?_, ?_⟩
  · intro s t; rw [mem_edgeIndices hw, hasEdge_eq_outE]; rfl
  · intro e he
    rw [mem_edges hw] at he
    rw [getEdge_eq_outE, he.1]; rfl
  · intro s t
    refine ⟨_, getEdge_eq_outE g s t, by rw [hasEdge_eq_outE]; simp, ?_⟩
    intro e he
    obtain ⟨l, -, rfl⟩ := Option.map_eq_some_iff.1 he
    exact ⟨rfl, rfl⟩

example : ∃ g : GraphMap 9 3 String String, Reachable g ∧ g.nodeIndices = [1, 2, 3, 4, 6] ∧
    g.edgeIndices = [(1, 2), (2, 2), (2, 3), (2, 4)] ∧ g.hasEdge 2 2 = true := by
  obtain ⟨g, h, hr⟩ := sample_reachable false
  cases h
  exact ⟨_, hr, by decide, by decide, by decide⟩

/-! ### C13, C59 -/

/-- **C13** (partial: `remove_node` on a node with a self loop is excluded, because there the claim is
false, see `c59_remove_node_panics_iff`; `set_label_id` through a reference that `get_node_mut` or
`get_edge_mut` returned as `None` panics by design). No public mutator panics. -/
theorem c13_mutators_partial {g : GraphMap m k NL EL} (hg : Reachable g) (op : Op m k NL EL)
    (h1 : ∀ n, op = .removeNode n → g.hasEdge n n = false)
    (h2 : ∀ n l, op = .setNodeLabelId n l → g.hasNode n = true)
    (h3 : ∀ s t l, op = .setEdgeLabelId s t l → g.hasEdge s t = true) :
    ∃ g', g.apply op = .ok g' := by
  cases op with
  | addNode n l =>
    obtain ⟨g', h⟩ := c07_add_node hg n l
    exact ⟨g', by simp [apply, h, bind_ok, pure_ok]⟩
  | removeNode n =>
    obtain ⟨g', h, -⟩ := c07_remove_node hg n (h1 n rfl)
    exact ⟨g', by simp [apply, h, bind_ok, pure_ok]⟩
  | addEdge s t l =>
    obtain ⟨g', h⟩ := c07_add_edge hg s t l
    exact ⟨g', by simp [apply, h, bind_ok, pure_ok]⟩
  | removeEdge s t =>
    obtain ⟨g', r, h, -⟩ := c07_remove_edge hg s t
    exact ⟨g', by simp [apply, h, bind_ok, pure_ok]⟩
  | updateNodeLabel n l =>
    obtain ⟨g', h, -⟩ := c07_update_node_label hg n l
    exact ⟨g', by simp [apply, h, bind_ok, pure_ok]⟩
  | updateEdgeLabel s t l =>
    obtain ⟨g', h, -⟩ := c07_update_edge_label hg s t l
    exact ⟨g', by simp [apply, h, bind_ok, pure_ok]⟩
  | addNodeLabel l =>
    obtain ⟨s', lid, e1, -⟩ := intern_ok (k := k) g.nodeLabels l
    exact ⟨{ g with nodeLabels := s' }, by simp [apply, addNodeLabel, e1, bind_ok, pure_ok]⟩
  | addEdgeLabel l =>
    obtain ⟨s', lid, e1, -⟩ := intern_ok (k := k) g.edgeLabels l
    exact ⟨{ g with edgeLabels := s' }, by simp [apply, addEdgeLabel, e1, bind_ok, pure_ok]⟩
  | refineEdgeCount => exact ⟨_, rfl⟩
  | setNodeLabelId n l =>
    obtain ⟨g', h, -⟩ := setNodeLabelId_spec hg.inv.toNWF n l (h2 n l rfl)
    exact ⟨g', h⟩
  | setEdgeLabelId s t l =>
    obtain ⟨g', h, -⟩ := setEdgeLabelId_spec hg.inv.toNWF s t l (h3 s t l rfl)
    exact ⟨g', h⟩
  | mapNodeLabelIds f => exact ⟨_, rfl⟩
  | mapEdgeLabelIds f => exact ⟨_, rfl⟩

/-- **C59.** `remove_node` panics exactly when the node has a self loop. -/
theorem c59_remove_node_panics_iff {g : GraphMap m k NL EL} (hg : Reachable g) (n : Id m) :
    (g.removeNode n = .error .unwrapNone ↔ g.hasEdge n n = true) ∧
    ((∃ r, g.removeNode n = .ok r) ↔ g.hasEdge n n = false) := by
  cases h : g.hasEdge n n with
  | true => simp [removeNode_loop n h]
  | false =>
    obtain ⟨g', h', -⟩ := c07_remove_node hg n h
    simp [h']

/-- **C13 fails**: on a reachable graph `remove_node` panics. -/
theorem c13_remove_node_panics : ∃ (g : GraphMap 9 3 String String) (n : Id 9), Reachable g ∧
    g.removeNode n = .error .unwrapNone := by
  obtain ⟨g, h, hr⟩ := sample_reachable false
  refine ⟨g, 2, hr, removeNode_loop 2 ?_⟩
  cases h; decide

/-! ### C15 -/

/-- **C15.** Directed: the degrees, and the in-degrees, sum to the number of edges. -/
theorem c15_handshake_directed {g : GraphMap m k NL EL} (hg : Reachable g)
    (hd : g.isDirected = true) :
    (∃ ds, g.nodeIndices.mapM g.degree = .ok ds ∧ ds.sum = g.edgeIndices.length) ∧
    ∃ ds, g.nodeIndices.mapM g.inDegree = .ok ds ∧ ds.sum = g.edgeIndices.length := by
  obtain ⟨ds, h1, h2⟩ := degrees_sum hg.inv.toNWF
  obtain ⟨is, h3, h4⟩ := inDegrees_sum hg.inv hd
  rw [edgeIndices_length hg.inv.toNWF, edgeNum_directed hd]
  exact ⟨⟨ds, h1, h2⟩, is, h3, h4⟩

/-- **C15.** Undirected: the degrees plus the number of self loops sum to twice the number of edges. -/
theorem c15_handshake_undirected {g : GraphMap m k NL EL} (hg : Reachable g)
    (hd : g.isDirected = false) :
    ∃ ds, g.nodeIndices.mapM g.degree = .ok ds ∧
      ds.sum + (g.nodeIndices.filter (fun n => g.hasEdge n n)).length = 2 * g.edgeIndices.length := by
  obtain ⟨ds, h1, h2⟩ := degrees_sum hg.inv.toNWF
  refine ⟨ds, h1, ?_⟩
  rw [edgeIndices_length hg.inv.toNWF, edgeNum_undirected hd, h2, loops_length hg.inv.toNWF]
  exact undirected_count (fun a b => (g.outE a b).isSome = true) (hg.inv.sym hd)

example : ∃ g : GraphMap 9 3 String String, Reachable g ∧ g.isDirected = false ∧
    g.nodeIndices.mapM g.degree = .ok [1, 4, 1, 1, 0] ∧ g.edgeIndices.length = 4 := by
  obtain ⟨g, h, hr⟩ := sample_reachable false
  cases h
  exact ⟨_, hr, by decide, by decide, by decide⟩

/-! ### C17 -/

/-- **C17.** `remove_node` on a loop-free node returns the node as it was (label, neighbours and
in-neighbours), leaves exactly the other nodes with their labels and the edges among them with their
labels, and lowers `edge_count` by the number of incident edges. -/
theorem c17_remove_node {g g' : GraphMap m k NL EL} (hg : Reachable g) {n : Id m} {r}
    (h : g.removeNode n = .ok (g', r)) :
    r = g.getNode n ∧
    (∀ x, (g'.getNode x).map (·.label) = if x = n then none else (g.getNode x).map (·.label)) ∧
    (∀ s t, g'.getEdge s t = if s = n ∨ t = n then .ok none else g.getEdge s t) ∧
    g'.edgeCount + (g.edgeIndices.filter (fun e => e.1 = n ∨ e.2 = n)).length = g.edgeCount ∧
    g'.nodeLabels = g.nodeLabels ∧ g'.edgeLabels = g.edgeLabels ∧ g'.isDirected = g.isDirected := by
  obtain ⟨g1, h1, h2, h3, h4, h5, h6, h7, h8, h9, h10⟩ :=
    removeNode_spec hg.inv n (removeNode_ok_noloop h)
  rw [h1] at h
  obtain ⟨rfl, rfl⟩ : g1 = g' ∧ g.getNode n = r := by cases h; exact ⟨rfl, rfl⟩
  have hout : ∀ a b, g1.outE a b = if a = n ∨ b = n then none else g.outE a b :=
    fun a b => congrArg (fun r => r.edge a b) h9
  refine ⟨rfl, fun x => congrArg (fun r => r.node x) h9, ?_, ?_, h4, h5, h3⟩
  · intro s t
    rw [getEdge_eq_outE, getEdge_eq_outE, hout]
    split <;> rfl
  · have e1 := edgeIndices_length hg.inv.toNWF
    have e2 := edgeIndices_length h2
    have e3 : g1.edgeIndices.length =
        (g.edgeIndices.filter (fun e => !decide (e.1 = n ∨ e.2 = n))).length := by
      apply List.Perm.length_eq
      rw [List.perm_ext_iff_of_nodup (edgeIndices_nodup h2)
        ((edgeIndices_nodup hg.inv.toNWF).filter _)]
      intro p
      rw [List.mem_filter, mem_edgeIndices h2, mem_edgeIndices hg.inv.toNWF, hout, h3]
      by_cases hp : p.1 = n ∨ p.2 = n <;> simp [hp]
    have e4 := List.length_eq_length_filter_add (l := g.edgeIndices)
      (fun e => decide (e.1 = n ∨ e.2 = n))
    unfold edgeCount
    omega

example : ∃ g g' : GraphMap 9 3 String String, ∃ r, Reachable g ∧ g.removeNode 1 = .ok (g', r) ∧
    g.edgeCount = 4 ∧ g'.edgeCount = 3 ∧ r = some ⟨1, some 0, [(2, some 0)], []⟩ := by
  obtain ⟨g, h, hr⟩ := sample_reachable false
  cases h
  exact ⟨_, _, _, hr, by rfl, by decide, by decide, by decide⟩

/-! ### C56 -/

/-- Everything observable except labels. -/
def SameStructure (g g' : GraphMap m k NL EL) : Prop :=
  g'.isDirected = g.isDirected ∧ g'.nodeIndices = g.nodeIndices ∧ g'.edgeCount = g.edgeCount ∧
  g'.maxSeenId = g.maxSeenId ∧ (∀ s t, g'.hasEdge s t = g.hasEdge s t) ∧
  (∀ n, g'.neighbors n = g.neighbors n) ∧ (∀ n, g'.inNeighbors n = g.inNeighbors n) ∧
  g'.nodeLabels = g.nodeLabels ∧ g'.edgeLabels = g.edgeLabels

omit [DecidableEq NL] [DecidableEq EL] in
theorem sameStructure_of {g g' : GraphMap m k NL EL} (hg : g.Inv) (hg' : g'.Inv)
    (h : SameStruct g g') : SameStructure g g' := by
  refine ⟨h.rest.directed, h.keys, h.rest.numEdges, h.rest.maxId, ?_, ?_, ?_, h.rest.nodeLabels,
    h.rest.edgeLabels⟩
  · intro s t; rw [hasEdge_eq_outE, hasEdge_eq_outE, h.out]
  · intro n
    have hn := h.hasNode n
    unfold neighbors
    cases h1 : g.getNode n with
    | none =>
      cases h2 : g'.getNode n with
      | none => rfl
      | some nd => simp [hasNode, getNode] at hn h1 h2; simp [h1, h2] at hn
    | some nd =>
      cases h2 : g'.getNode n with
      | none => simp [hasNode, getNode] at hn h1 h2; simp [h1, h2] at hn
      | some nd' =>
        have : nd'.neighborIds = nd.neighborIds :=
          sorted_ext (hg'.sortedOut n nd' h2) (hg.sortedOut n nd h1) (fun x => by
            have a := mem_neighborIds_iff h1 x
            have b := mem_neighborIds_iff h2 x
            rw [h.out] at b
            exact b.trans a.symm)
        simp [this]
  · intro n
    have hn := h.hasNode n
    unfold inNeighbors
    cases h1 : g.getNode n with
    | none =>
      cases h2 : g'.getNode n with
      | none => rfl
      | some nd => simp [hasNode, getNode] at hn h1 h2; simp [h1, h2] at hn
    | some nd =>
      cases h2 : g'.getNode n with
      | none => simp [hasNode, getNode] at hn h1 h2; simp [h1, h2] at hn
      | some nd' =>
        have : nd'.inNeighborIds = nd.inNeighborIds :=
          sorted_ext (hg'.sortedIn n nd' h2) (hg.sortedIn n nd h1) (fun x => by
            have a := mem_inNeighbors_iff h1 x
            have b := mem_inNeighbors_iff h2 x
            rw [h.inn] at b
            exact b.trans a.symm)
        simp [this]

/-- **C56.** Writing a label id through `get_node_mut`. -/
theorem c56_set_node_label {g : GraphMap m k NL EL} (hg : Reachable g) (n : Id m)
    (l : Option (Id k)) (hn : g.hasNode n = true) :
    ∃ g', g.setNodeLabelId n l = .ok g' ∧ SameStructure g g' ∧
      (∀ x, (g'.getNode x).map (·.label) = if x = n then some l else (g.getNode x).map (·.label)) ∧
      ∀ s t, g'.getEdge s t = g.getEdge s t := by
  obtain ⟨g', h1, h2, h3, h4⟩ := setNodeLabelId_spec hg.inv.toNWF n l hn
  refine ⟨g', h1, sameStructure_of hg.inv (h3.inv hg.inv h2) h3,
    fun x => congrArg (fun r => r.node x) h4, ?_⟩
  intro s t
  have : g'.outE s t = g.outE s t := congrArg (fun r => r.edge s t) h4
  rw [getEdge_eq_outE, getEdge_eq_outE, this]

/-- **C56.** Writing a label id through `get_edge_mut` (the addressed orientation only). -/
theorem c56_set_edge_label {g : GraphMap m k NL EL} (hg : Reachable g) (s t : Id m)
    (l : Option (Id k)) (he : g.hasEdge s t = true) :
    ∃ g', g.setEdgeLabelId s t l = .ok g' ∧ SameStructure g g' ∧
      (∀ x, (g'.getNode x).map (·.label) = (g.getNode x).map (·.label)) ∧
      ∀ a b, g'.getEdge a b = if a = s ∧ b = t then .ok (some ⟨s, t, l⟩) else g.getEdge a b := by
  obtain ⟨g', h1, h2, h3, h4, h5⟩ := setEdgeLabelId_spec hg.inv.toNWF s t l he
  refine ⟨g', h1, sameStructure_of hg.inv (h3.inv hg.inv h2) h3, h4, ?_⟩
  intro a b
  rw [getEdge_eq_outE, getEdge_eq_outE, h5]
  split
  · rename_i h; simp [h.1, h.2]
  · rfl

/-- **C56.** A pass over `nodes_mut` reaches every node and changes nothing but its label id. -/
theorem c56_nodes_mut {g : GraphMap m k NL EL} (hg : Reachable g)
    (f : Id m → Option (Id k) → Option (Id k)) :
    SameStructure g (g.mapNodeLabelIds f) ∧
      (∀ x, ((g.mapNodeLabelIds f).getNode x).map (·.label) =
        (g.getNode x).map (fun nd => f x nd.label)) ∧
      ∀ s t, (g.mapNodeLabelIds f).getEdge s t = g.getEdge s t := by
  obtain ⟨h2, h3, h4, h5⟩ := mapNodeLabelIds_spec hg.inv.toNWF f
  refine ⟨sameStructure_of hg.inv (h3.inv hg.inv h2) h3, ?_, ?_⟩
  · intro x
    have := h4 x
    unfold labE at this
    rw [this, Option.map_map]; rfl
  · intro s t; rw [getEdge_eq_outE, getEdge_eq_outE, h5]

/-- **C56.** A pass over `edges_mut` reaches every enumerated edge and changes nothing but its label
id (undirected: only the stored orientation `start <= target`). -/
theorem c56_edges_mut {g : GraphMap m k NL EL} (hg : Reachable g)
    (f : Id m → Id m → Option (Id k) → Option (Id k)) :
    SameStructure g (g.mapEdgeLabelIds f) ∧
      (∀ x, ((g.mapEdgeLabelIds f).getNode x).map (·.label) = (g.getNode x).map (·.label)) ∧
      ∀ s t e, g.getEdge s t = .ok (some e) → (g.mapEdgeLabelIds f).getEdge s t =
        .ok (some ⟨s, t, if (s, t) ∈ g.edgeIndices then f s t e.label else e.label⟩) := by
  obtain ⟨h2, h3, h4, h5⟩ := mapEdgeLabelIds_spec hg.inv.toNWF f
  refine ⟨sameStructure_of hg.inv (h3.inv hg.inv h2) h3, h4, ?_⟩
  intro s t e he
  rw [getEdge_eq_outE] at he ⊢
  cases ho : g.outE s t with
  | none => rw [ho] at he; cases he
  | some o =>
    rw [ho] at he
    cases he
    rw [h5, ho]
    simp only [mem_edgeIndices hg.inv.toNWF, ho]
    by_cases hc : g.directed = true ∨ s ≤ t <;> simp [hc]

example : ∃ g g' : GraphMap 9 3 String String, Reachable g ∧ g.hasEdge 2 1 = true ∧
    g.setEdgeLabelId 2 1 (some 3) = .ok g' ∧ g'.getEdge 2 1 = .ok (some ⟨2, 1, some 3⟩) ∧
    g'.getEdge 1 2 = .ok (some ⟨1, 2, some 0⟩) := by
  obtain ⟨g, h, hr⟩ := sample_reachable false
  cases h
  exact ⟨_, _, hr, by decide, by rfl, by decide, by decide⟩

end Verif.Props
