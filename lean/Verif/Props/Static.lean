import Verif.Proof.Static
import Verif.Props.Equality

/-! Property theorems about static graphs: C22-C28, C62-C64. -/

namespace Verif.Props

open GraphMap Spec

variable {m k : Nat} {NL EL : Type}

/-! ### C22 -/

/-- **C22.** `binary_search` on a strictly increasing slice finds an element exactly if it is there, and
otherwise the place where it would have to be inserted; it never panics. -/
theorem c22_binary_search (l : List (Id m)) (x : Id m) (hs : l.Pairwise (· < ·)) :
    ∃ r, binarySearch l x = .ok r ∧
      (∀ i, r = .found i → l[i]? = some x) ∧
      (∀ i, r = .missing i → x ∉ l ∧ (∀ y ∈ l.take i, y < x) ∧ (∀ y ∈ l.drop i, x < y)) := by
  rcases binarySearch_spec l x hs with ⟨i, h1, h2⟩ | ⟨i, h1, h2, h3, h4, h5⟩
  · exact ⟨_, h1, by rintro j ⟨⟩; exact h2, by rintro j ⟨⟩⟩
  · refine ⟨_, h1, by rintro j ⟨⟩, ?_⟩
    rintro j ⟨⟩
    refine ⟨h2, ?_, ?_⟩
    · intro y hy
      obtain ⟨a, ha, rfl⟩ := List.mem_iff_getElem.1 hy
      simp only [List.length_take] at ha
      rw [List.getElem_take]
      exact h4 a (by omega) (by omega)
    · intro y hy
      obtain ⟨a, ha, rfl⟩ := List.mem_iff_getElem.1 hy
      simp only [List.length_drop] at ha
      rw [List.getElem_drop]
      exact h5 _ (by omega) (by omega)

/-- The compressed adjacency of a list of rows, as `EdgeVec::from_raw` builds it. -/
theorem c22_from_raw (rows : List (List (Id m × Id k))) (lab : Bool)
    (hs : ∀ r ∈ rows, (r.map Prod.fst).Pairwise (· < ·)) :
    ∃ ev, EdgeVec.fromRaw (offsetsOf rows) (rows.flatten.map Prod.fst)
      (if lab then some (rows.flatten.map Prod.snd) else none) = .ok ev ∧ Encodes ev rows lab := by
  cases lab with
  | false => exact ⟨⟨offsetsOf rows, rows.flatten.map Prod.fst, none⟩, rfl, rfl, rfl, rfl, hs⟩
  | true =>
    refine ⟨⟨offsetsOf rows, rows.flatten.map Prod.fst, some (rows.flatten.map Prod.snd)⟩, ?_,
      rfl, rfl, rfl, hs⟩
    simp only [EdgeVec.fromRaw, EdgeVec.withLabels, if_true]
    rw [if_neg (by rw [List.length_map, List.length_map]; simp)]
    rfl

/-- `from_raw` refuses a label array of the wrong length and nothing else. -/
theorem c22_from_raw_checks (os : List Nat) (es : List (Id m)) (ls : Option (List (Id k))) :
    (∃ ev, EdgeVec.fromRaw os es ls = .ok ev) ↔ ∀ l, ls = some l → l.length = es.length := by
  cases ls with
  | none => simp [EdgeVec.fromRaw, pure_ok]
  | some l =>
    simp only [EdgeVec.fromRaw, EdgeVec.withLabels, Option.some.injEq, forall_eq']
    by_cases h : es.length = l.length
    · simp [h, pure_ok]
    · simp [h, Ne.symm h]

variable {ev : EdgeVec m k} {rows : List (List (Id m × Id k))} {lab : Bool}

/-- **C22**: node and edge numbers and `has_node`. -/
theorem c22_counts (h : Encodes ev rows lab) :
    ev.numNodes = .ok rows.length ∧ ev.numEdges = (rows.map List.length).sum ∧
      ∀ n, ev.hasNode n = .ok (decide (n.val < rows.length)) := by
  refine ⟨EdgeVec.numNodes_eq h, ?_, EdgeVec.hasNode_eq h⟩
  rw [EdgeVec.numEdges, h.edges, List.length_map, List.length_flatten]

/-- **C22**: `neighbors` and `degree` are the row, and panic out of range. -/
theorem c22_neighbors (h : Encodes ev rows lab) (n : Id m) :
    ev.neighbors n = (match rows[n.val]? with
      | some r => .ok (r.map Prod.fst)
      | none => .error .explicit) ∧
    ev.degree n = (match rows[n.val]? with
      | some r => .ok r.length
      | none => .error .explicit) := by
  by_cases hn : n.val < rows.length
  · rw [EdgeVec.neighbors_eq h n hn, EdgeVec.degree_eq h n hn, List.getElem?_eq_getElem hn]
    exact ⟨rfl, rfl⟩
  · rw [EdgeVec.neighbors_out h n hn, EdgeVec.degree_out h n hn, List.getElem?_eq_none (by omega)]
    exact ⟨rfl, rfl⟩

/-- **C22**: `has_edge` never panics and is true exactly for a target in range in the row of a start
in range. -/
theorem c22_has_edge (h : Encodes ev rows lab) (s t : Id m) :
    ∃ b, ev.hasEdge s t = .ok b ∧
      (b = true ↔ t.val < rows.length ∧ ∃ r, rows[s.val]? = some r ∧ ∃ l, (t, l) ∈ r) := by
  obtain ⟨b, h1, h2⟩ := EdgeVec.hasEdge_spec h s t
  refine ⟨b, h1, h2.trans (and_congr Iff.rfl ?_)⟩
  constructor
  · rintro ⟨hs, hm⟩
    obtain ⟨⟨t', l⟩, hl, rfl⟩ := List.mem_map.1 hm
    exact ⟨_, List.getElem?_eq_getElem hs, l, hl⟩
  · rintro ⟨r, hr, l, hl⟩
    obtain ⟨hs, rfl⟩ := List.getElem?_eq_some_iff.1 hr
    exact ⟨hs, List.mem_map.2 ⟨_, hl, rfl⟩⟩

/-- **C22**: `find_edge_index` never panics and gives the position of the edge in the concatenation:
the lengths of the earlier rows plus the position in the row. -/
theorem c22_find_edge_index (h : Encodes ev rows lab) (s t : Id m) :
    ∃ r, ev.findEdgeIndex s t = .ok r ∧
      ∀ p, r = some p ↔ t.val < rows.length ∧ ∃ (row : List (Id m × Id k)) (i : Nat) (l : Id k),
        rows[s.val]? = some row ∧ row[i]? = some (t, l) ∧
        p = ((rows.take s.val).map List.length).sum + i := by
  rcases EdgeVec.findEdgeIndex_spec h s t with ⟨i, hs, hi, h1, h2, h3⟩ | ⟨h1, h2⟩
  · refine ⟨_, h1, fun p => ?_⟩
    rw [Option.some.injEq]
    constructor
    · rintro rfl
      refine ⟨h3, _, i, rows[s.val][i].2, List.getElem?_eq_getElem hs, ?_, by rw [List.length_flatten]⟩
      rw [List.getElem?_eq_getElem hi, ← h2]
    · rintro ⟨-, row, j, l, hr, hj, rfl⟩
      rw [List.getElem?_eq_getElem hs] at hr
      obtain rfl := Option.some.inj hr
      obtain ⟨hj', he⟩ := List.getElem?_eq_some_iff.1 hj
      rw [List.length_flatten]
      congr 1
      have hnd : (rows[s.val].map Prod.fst).Nodup := sorted_nodup (EdgeVec.row_sorted h _ hs)
      have := (List.Nodup.getElem_inj_iff hnd (i := i) (j := j) (hi := by simpa using hi)
        (hj := by simpa using hj')).1 (by rw [List.getElem_map, List.getElem_map, h2, he])
      exact this
  · refine ⟨none, h1, fun p => ⟨by simp, ?_⟩⟩
    rintro ⟨ht, row, i, l, hr, hi, -⟩
    obtain ⟨hs, rfl⟩ := List.getElem?_eq_some_iff.1 hr
    exact absurd ⟨ht, hs, List.mem_map.2 ⟨_, List.mem_of_getElem? hi, rfl⟩⟩ h2

/-- **C22**: `find_edge_label_id` never panics and gives the label stored with the edge, nothing if
there are no labels or no such edge. -/
theorem c22_find_edge_label_id (h : Encodes ev rows lab) (s t : Id m) :
    ∃ r, ev.findEdgeLabelId s t = .ok r ∧
      ∀ l, r = some l ↔ lab = true ∧ t.val < rows.length ∧
        ∃ row, rows[s.val]? = some row ∧ (t, l) ∈ row := by
  obtain ⟨r, h1, h2⟩ := EdgeVec.findEdgeLabelId_spec h s t
  refine ⟨r, h1, fun l => (h2 l).trans ?_⟩
  constructor
  · rintro ⟨hl, ht, hs, hm⟩
    exact ⟨hl, ht, _, List.getElem?_eq_getElem hs, hm⟩
  · rintro ⟨hl, ht, row, hr, hm⟩
    obtain ⟨hs, rfl⟩ := List.getElem?_eq_some_iff.1 hr
    exact ⟨hl, ht, hs, hm⟩

/-- Some rows for the examples: an undirected graph `0-1 (a), 1-2 (b), 2-2 (c)` with an isolated node. -/
def sampleRows : List (List (Id 9 × Id 3)) :=
  [[(1, 0)], [(0, 0), (2, 1)], [(1, 1), (2, 2)], []]

def sampleVec (lab : Bool) : EdgeVec 9 3 :=
  ⟨offsetsOf sampleRows, sampleRows.flatten.map Prod.fst,
    if lab then some (sampleRows.flatten.map Prod.snd) else none⟩

theorem sample_encodes (lab : Bool) : Encodes (sampleVec lab) sampleRows lab :=
  ⟨rfl, rfl, rfl, by decide⟩

example : (sampleVec true).offsets = [0, 1, 3, 5, 5] ∧ (sampleVec true).edges = [1, 0, 2, 1, 2] ∧
    (sampleVec true).hasEdge 2 1 = .ok true ∧ (sampleVec true).hasEdge 2 0 = .ok false ∧
    (sampleVec true).hasEdge 7 0 = .ok false ∧ (sampleVec true).findEdgeIndex 2 2 = .ok (some 4) ∧
    (sampleVec true).findEdgeLabelId 2 2 = .ok (some 2) ∧
    (sampleVec true).neighbors 4 = .error .explicit := by decide

/-! ### C23, C62 -/

/-- **C23.** If the node count fits the id type, iterating over the edges ends and yields exactly the
entries of the rows (undirected: those with `start <= target`), in increasing order of start, then
target; so each once. -/
theorem c23_edge_iteration (h : Encodes ev rows lab) (hm : rows.length ≤ m) (d : Bool) :
    ∃ es, ev.edgeIndices d = .ok es ∧
      (∀ s t, (s, t) ∈ es ↔
        (∃ r l, rows[s.val]? = some r ∧ (t, l) ∈ r) ∧ (d = true ∨ s ≤ t)) ∧
      es.Pairwise (fun a b => a.1 < b.1 ∨ a.1 = b.1 ∧ a.2 < b.2) ∧ es.Nodup := by
  refine ⟨_, edgeIndices_eq h hm d, ?_, edgeList_sorted d rows h.sorted (by omega),
    edgeList_nodup d rows h.sorted (by omega)⟩
  intro s t
  rw [mem_edgeList d rows (by omega)]
  refine and_congr ?_ Iff.rfl
  constructor
  · rintro ⟨hs, hm⟩
    obtain ⟨⟨t', l⟩, hl, rfl⟩ := List.mem_map.1 hm
    exact ⟨_, l, List.getElem?_eq_getElem hs, hl⟩
  · rintro ⟨r, l, hr, hl⟩
    obtain ⟨hs, rfl⟩ := List.getElem?_eq_some_iff.1 hr
    exact ⟨hs, List.mem_map.2 ⟨_, hl, rfl⟩⟩

/-- The fuel of the model is not a restriction: giving the iterator more time changes nothing. -/
theorem c23_more_fuel (h : Encodes ev rows lab) (hm : rows.length ≤ m) (d : Bool) (fuel : Nat)
    (hf : ev.offsets.length + ev.edges.length + 1 ≤ fuel) :
    EdgeIter.collect ev d fuel ⟨0, 0⟩ = ev.edgeIndices d := by
  rw [edgeIndices_eq h hm d]
  apply collect_eq h hm
  rw [h.offsets, h.edges, offsetsOf_length, List.length_map] at hf
  omega

example : sampleRows.length ≤ 9 ∧
    (sampleVec true).edgeIndices false = .ok [(0, 1), (1, 2), (2, 2)] ∧
    (sampleVec true).edgeIndices true = .ok [(0, 1), (1, 0), (1, 2), (2, 1), (2, 2)] := by decide

/-- **C62.** If there are as many rows as ids, the row number wraps around and the iteration never
ends, however long it runs. -/
theorem c62_wraps_forever (h : Encodes ev rows lab) (hm : rows.length = m + 1) (d : Bool)
    (fuel : Nat) : EdgeIter.collect ev d fuel ⟨0, 0⟩ = .error .diverge :=
  EdgeIter.collect_wraps h hm d fuel ⟨0, 0⟩

example : Encodes (⟨[0, 1, 2], [1, 0], none⟩ : EdgeVec 1 3) [[(1, 0)], [(0, 0)]] false :=
  ⟨rfl, rfl, rfl, by decide⟩

/-! ### C26 -/

section Freezing

variable [DecidableEq NL] [DecidableEq EL] {g : GraphMap m k NL EL}

/-- **C26.** `into_static` returns exactly when the graph has a node and not the largest id. -/
theorem c26_into_static_succeeds_iff (hg : Reachable g) :
    (∃ r, g.intoStatic = .ok r) ↔ g.nodeCount ≠ 0 ∧ g.hasNode Id.maxValue = false := by
  constructor
  · rintro ⟨r, hr⟩
    constructor
    · intro h0
      rw [intoStatic_empty (List.length_eq_zero_iff.1 h0)] at hr
      cases hr
    · cases hmax : g.hasNode Id.maxValue with
      | false => rfl
      | true => rw [intoStatic_max hmax] at hr; cases hr
  · rintro ⟨h0, h1⟩
    obtain ⟨M, hM, hlt⟩ := exists_max h0 h1
    obtain ⟨r, hr, -⟩ := intoStatic_ok hg.inv.toNWF hM hlt
    exact ⟨r, hr⟩

omit [DecidableEq NL] [DecidableEq EL] in
/-- **C26**: how it fails: on the empty graph by an `unwrap`; at the largest id by an overflow (or, with
the one-element id type `()`, by looping forever). -/
theorem c26_failures (g : GraphMap m k NL EL) :
    (g.nodeCount = 0 → g.intoStatic = .error .unwrapNone) ∧
    (g.hasNode Id.maxValue = true →
      g.intoStatic = .error (if m = 0 then .diverge else .overflow)) :=
  ⟨fun h => intoStatic_empty (List.length_eq_zero_iff.1 h), intoStatic_max⟩

/-! ### C25 -/

/-- **C25.** Whatever its ids, a frozen graph has the same directedness and counts, the same edges with
the same labels, and the same (in-)neighbours of every node. Only the node ids are replaced by
`0..n-1`: those are the nodes reported, with the label the old graph has at that id. -/
theorem c25_sparse (hg : Reachable g) (h0 : g.nodeCount ≠ 0) (h1 : g.hasNode Id.maxValue = false)
    (hnl : g.nodeLabels.len ≤ k) (hel : g.edgeLabels.len ≤ k) :
    ∃ r v, g.intoStatic = .ok r ∧ r.view = .ok v ∧
      v.directed = g.isDirected ∧ v.nodeCount = g.nodeCount ∧ v.edgeCount = g.edgeCount ∧
      (∀ s t, v.hasEdge s t = .ok (g.hasEdge s t)) ∧
      (∀ s t, v.getEdgeLabel s t = g.getEdgeLabel s t) ∧
      v.edgeIndices.Perm g.edgeIndices ∧
      (∀ n, g.hasNode n = true → v.neighbors n = g.neighbors n ∧ v.degree n = g.degree n) ∧
      (g.isDirected = true → ∀ n, g.hasNode n = true →
        r.inNeighbors n = g.inNeighbors n ∧ r.inDegree n = g.inDegree n) ∧
      (∀ n, v.hasNode n = decide (n.val < g.nodeCount)) ∧
      v.nodeIndices = (List.range g.nodeCount).map Id.new ∧
      (∀ n, v.getNodeLabel n = .ok (if n.val < g.nodeCount then g.getNodeLabel n else none)) := by
  have hi := hg.inv
  obtain ⟨M, hmax, hlt⟩ := exists_max h0 h1
  obtain ⟨r, hr, hf⟩ := intoStatic_ok hi.toNWF hmax hlt
  have hM := (max_spec hmax).2
  have hcount := nodeCount_le hi.toNWF hM
  obtain ⟨v, hv, e1, e2, e3, e4, e5, e6, e7, e8, e9, e10, e11, e12, e13, e14, e15, e16⟩ :=
    StaticGraph.view_ok hf.out (by simp; omega)
  refine ⟨r, v, hr, hv, by rw [e1, hf.directed]; rfl, by rw [e2, hf.numNodes], by rw [e3, hf.numEdges],
    ?_, ?_, ?_, ?_, ?_, ?_, ?_, ?_⟩
  · intro s t; rw [e5, frozen_hasEdge hi hM hf]
  · intro s t
    have hel' : g.view.hasEdgeLabels = g.edgeLabels.items.head?.isSome := rfl
    unfold GView.getEdgeLabel
    rw [e7, e16, hf.edgeLabels]
    simp only [frozen_getEdge hi hM hf, bind_ok, pure_ok]
    rw [getEdgeLabel_decoded]
    cases g.outE s t with
    | none => rfl
    | some l =>
      simp only [Option.map_some, Option.bind_some]
      rw [hel', ← keep_decode g.edgeLabels hel l]
      cases keep (g.edgeLabels.items.head?.isSome) l <;> rfl
  · obtain ⟨es, h3, h4, h5⟩ := frozen_edgeIndices hM hlt hf
    rw [h3] at e9
    obtain rfl := Except.ok.inj e9
    rw [List.perm_ext_iff_of_nodup h4 (edgeIndices_nodup hi.toNWF)]
    rintro ⟨s, t⟩
    rw [h5, mem_edgeIndices hi.toNWF]
  · intro n hn
    obtain ⟨nd, hnd⟩ := (hasNode_iff _ _).1 hn
    obtain ⟨h3, h4⟩ := frozen_neighbors hM hf hnd
    rw [e12, e13, h3, h4]
    simp [neighbors, degree, hnd, pure_ok, NodeMap.degree, NodeMap.neighborIds, AL.keys]
  · intro hd n hn
    obtain ⟨nd, hnd⟩ := (hasNode_iff _ _).1 hn
    have h3 := frozen_inNeighbors hM hf hd hnd
    unfold StaticGraph.inDegree
    rw [h3, bind_ok]
    simp [inNeighbors, inDegree, hnd, pure_ok, NodeMap.inDegree, NodeMap.inNeighborIds]
  · intro n; rw [e4]; simp [StaticGraph.hasNode, hf.numNodes]
  · rw [e8]; simp [StaticGraph.nodeIndices, hf.numNodes]
  · intro n
    unfold GView.getNodeLabel
    rw [e6, e15, hf.nodeLabels]
    by_cases hn : n.val < g.nodeCount
    · have hnl' : g.view.hasNodeLabels = g.nodeLabels.items.head?.isSome := rfl
      rw [frozen_nodeLid hf n hn (by rw [Fin.le_def]; omega), bind_ok, if_pos hn, getNodeLabel_decoded,
        hnl', ← keep_decode g.nodeLabels hnl]
      cases keep (g.nodeLabels.items.head?.isSome) ((g.getNode n).bind (·.label)) <;> rfl
    · have : r.nodeLid n = .ok none := by
        unfold StaticGraph.nodeLid StaticGraph.hasNode
        simp [hf.numNodes, hn, pure_ok]
      rw [this, if_neg hn]; rfl

/-- **C25**: with a gap in the ids a present node is reported missing and an absent one present. -/
theorem c25_gap (hg : Reachable g) {r : StaticGraph m k NL EL} (hr : g.intoStatic = .ok r) :
    (∀ n, r.hasNode n = g.hasNode n) ∨
    ((∃ n, g.hasNode n = true ∧ r.hasNode n = false) ∧
      (∃ n, g.hasNode n = false ∧ r.hasNode n = true)) := by
  obtain ⟨h0, h1⟩ := (c26_into_static_succeeds_iff hg).1 ⟨r, hr⟩
  obtain ⟨M, hmax, hlt⟩ := exists_max h0 h1
  obtain ⟨r', hr', hf⟩ := intoStatic_ok hg.inv.toNWF hmax hlt
  rw [hr] at hr'
  obtain rfl := Except.ok.inj hr'
  by_cases hd : ∀ n : Id m, g.hasNode n = true ↔ n.val < g.nodeCount
  · left
    intro n
    rw [Bool.eq_iff_iff, hd]
    simp [StaticGraph.hasNode, hf.numNodes]
  · right
    obtain ⟨⟨a, ha, ha'⟩, b, hb, hb'⟩ := gap hg.inv.toNWF hd
    exact ⟨⟨a, ha, by simp [StaticGraph.hasNode, hf.numNodes]; omega⟩,
      b, hb, by simp [StaticGraph.hasNode, hf.numNodes]; omega⟩

/-! ### C24 -/

/-- **C24.** A graph whose ids are `0..n-1`, with the largest node id and label id left free, is frozen
into a graph that gives the same answers. -/
theorem c24_into_static_keeps_graph (hg : Reachable g) (h0 : g.nodeCount ≠ 0)
    (hd : ∀ n : Id m, g.hasNode n = true ↔ n.val < g.nodeCount) (h1 : g.nodeCount ≤ m)
    (hnl : g.nodeLabels.len ≤ k) (hel : g.edgeLabels.len ≤ k) :
    ∃ r v, g.intoStatic = .ok r ∧ r.view = .ok v ∧
      v.directed = g.isDirected ∧ v.nodeCount = g.nodeCount ∧ v.edgeCount = g.edgeCount ∧
      (∀ n, v.hasNode n = g.hasNode n) ∧
      v.nodeIndices.Perm g.nodeIndices ∧
      (∀ n, v.getNodeLabel n = .ok (g.getNodeLabel n)) ∧
      (∀ s t, v.hasEdge s t = .ok (g.hasEdge s t)) ∧
      v.edgeIndices.Perm g.edgeIndices ∧
      (∀ s t, v.getEdgeLabel s t = g.getEdgeLabel s t) ∧
      (∀ n, g.hasNode n = true → v.neighbors n = g.neighbors n ∧ v.degree n = g.degree n) ∧
      (g.isDirected = true → ∀ n, g.hasNode n = true →
        r.inNeighbors n = g.inNeighbors n ∧ r.inDegree n = g.inDegree n) := by
  have hmax : g.hasNode Id.maxValue = false := by
    rw [← Bool.not_eq_true, hd]
    show ¬ m < _
    omega
  obtain ⟨r, v, hr, hv, e1, e2, e3, e4, e5, e6, e7, e8, e9, e10, e11⟩ := c25_sparse hg h0 hmax hnl hel
  have hn : ∀ n, v.hasNode n = g.hasNode n := by
    intro n; rw [e9, Bool.eq_iff_iff, hd]; simp
  refine ⟨r, v, hr, hv, e1, e2, e3, hn, ?_, ?_, e4, e6, e5, e7, e8⟩
  · rw [e10, List.perm_ext_iff_of_nodup (below_nodup g.nodeCount (by omega))
      (show g.nodeIndices.Nodup from hg.inv.keys)]
    intro n
    rw [mem_below g.nodeCount (by omega), ← hd]
    exact (mem_nodeIndices g n).symm
  · intro n
    rw [e11]
    split
    · rfl
    · rename_i h
      rw [← hd] at h
      unfold getNodeLabel
      have : g.getNode n = none := by
        cases hx : g.getNode n with
        | none => rfl
        | some nd => exact absurd ((hasNode_iff _ _).2 ⟨nd, hx⟩) h
      rw [this]; rfl

/-- **C24**: so all generic code sees the same abstract graph (`Shows`), and `equal` (C20), hashing
(C19) and the algorithms treat it like the original. -/
theorem c24_shows (hg : Reachable g) (h0 : g.nodeCount ≠ 0)
    (hd : ∀ n : Id m, g.hasNode n = true ↔ n.val < g.nodeCount) (h1 : g.nodeCount ≤ m)
    (hnl : g.nodeLabels.len ≤ k) (hel : g.edgeLabels.len ≤ k) :
    ∃ r v, g.intoStatic = .ok r ∧ r.view = .ok v ∧ Shows v g.abs := by
  obtain ⟨r, v, hr, hv, e1, e2, e3, e4, e5, e6, e7, e8, e9, e10, -⟩ :=
    c24_into_static_keeps_graph hg h0 hd h1 hnl hel
  have hs := reachable_shows hg
  have e1 : v.directed = g.view.directed := e1
  have hlen : ∀ n, (g.abs.node n).isSome = g.hasNode n := fun n => (hs.hasNode n).symm
  have hends : v.edges.map (fun e => (e.src, e.dst)) = v.edgeIndices := by
    obtain ⟨h0', h1'⟩ := (c26_into_static_succeeds_iff hg).1 ⟨r, hr⟩
    obtain ⟨M, hmax, hlt⟩ := exists_max h0' h1'
    obtain ⟨r', hr', hf⟩ := intoStatic_ok hg.inv.toNWF hmax hlt
    rw [hr] at hr'
    obtain rfl := Except.ok.inj hr'
    exact StaticGraph.view_edges hf.out (by rw [rows_length]; omega) hv
  refine ⟨r, v, hr, hv, hs.ends, ?_, ?_, ?_, ?_, ?_, ?_, ?_, ?_, hends, ?_, ?_, ?_, ?_⟩
  · intro hdir; exact hs.sym (e1 ▸ hdir)
  · intro n; rw [e4, hlen]
  · exact e5.nodup_iff.2 hs.nodesNodup
  · intro n; rw [e5.mem_iff]; exact hs.memNodes n
  · rw [e2, e5.length_eq]; exact (nodeIndices_length g).symm
  · intro s t hst
    rw [e7]; exact hs.hasEdge s t hst
  · exact e8.nodup_iff.2 hs.edgesNodup
  · intro s t
    rw [e8.mem_iff, e1]; exact hs.memEdges s t
  · intro n l hl
    rw [e6, ← hs.nodeLabel n l hl, view_getNodeLabel]
  · intro s t l hl hst
    rw [e9, ← hs.edgeLabel s t l hl (e1 ▸ hst), view_getEdgeLabel]
  · intro n hn
    rw [hlen] at hn
    obtain ⟨h3, h4⟩ := e10 n hn
    obtain ⟨l, a1, a2, a3, a4⟩ := hs.neighbors n (by rw [hlen, hn])
    exact ⟨l, by rw [h3]; exact a1, a2, a3, by rw [h4]; exact a4⟩
  · rintro -
    have hmaxS : v.maxSeenId = .ok (some (Id.new (g.nodeCount - 1))) := by
      have hv' := view_maxSeen hv
      rw [hv'.1, StaticGraph.maxSeenId, ← hv'.2, e2, if_neg h0]
      rfl
    refine ⟨_, hmaxS, ?_⟩
    intro n hn
    rw [hlen, hd] at hn
    rw [Fin.le_def, EdgeIter.Id_new_val (by omega)]
    omega

end Freezing

/-- A graph with the nodes `0` (labelled), `1`, `2` and the given edges. -/
def denseGraph (d : Bool) (es : List (Id 9 × Id 9 × Option String)) :
    Except Panic (GraphMap 9 3 String String) :=
  (withLabelMap d SetMap.empty SetMap.empty).exec
    ([.addNode 0 (some "a"), .addNode 2 (some "b"), .addNode 1 none] ++
      es.map (fun e => .addEdge e.1 e.2.1 e.2.2))

theorem denseGraph_reachable {d : Bool} {es : List (Id 9 × Id 9 × Option String)}
    {g : GraphMap 9 3 String String} (h : denseGraph d es = .ok g) : Reachable g :=
  (exec_run h).reachable List.nodup_nil List.nodup_nil

example : ∃ g : GraphMap 9 3 String String, Reachable g ∧ g.nodeCount ≠ 0 ∧
    (∀ n : Id 9, g.hasNode n = true ↔ n.val < g.nodeCount) ∧ g.nodeCount ≤ 9 ∧
    g.nodeLabels.len ≤ 3 ∧ g.edgeLabels.len ≤ 3 ∧ g.edgeIndices.length = 3 := by
  refine ⟨_, denseGraph_reachable (d := false)
    (es := [(0, 1, some "x"), (1, 2, some "y"), (2, 2, none)]) rfl, ?_⟩
  decide

/-- A reachable graph with a gap. -/
example : ∃ g : GraphMap 9 3 String String, Reachable g ∧ g.nodeCount ≠ 0 ∧
    g.hasNode Id.maxValue = false ∧ g.nodeLabels.len ≤ 3 ∧ g.edgeLabels.len ≤ 3 ∧
    g.hasNode 3 = true ∧ g.hasNode 0 = false ∧
    ∃ r, g.intoStatic = .ok r ∧ r.hasNode 3 = false ∧ r.hasNode 0 = true := by
  refine ⟨_, smallGraph_reachable (d := true) (es := [(1, 2, some "x"), (3, 2, some "y")]) rfl,
    by decide, by decide, by decide, by decide, by decide, by decide, _, rfl, by decide, by decide⟩

/-- Why one label id must stay free: the largest label id means "no label", so with four labels on
an id type with four values the last label is lost. -/
theorem c24_reserved_label : ∃ g : GraphMap 9 3 String String, Reachable g ∧ g.nodeCount = 4 ∧
    (∀ n : Id 9, g.hasNode n = true ↔ n.val < g.nodeCount) ∧ g.getNodeLabel 3 = some "d" ∧
    ∃ r v, g.intoStatic = .ok r ∧ r.view = .ok v ∧ v.getNodeLabel 3 = .ok none := by
  refine ⟨_, (exec_run (ops := [.addNode 0 (some "a"), .addNode 1 (some "b"), .addNode 2 (some "c"),
    .addNode 3 (some "d")]) (g0 := withLabelMap true SetMap.empty SetMap.empty) rfl).reachable
    List.nodup_nil List.nodup_nil, by decide, by decide, by decide, _, _, rfl, rfl, by decide⟩

/-! ### C27 -/

/-- Every listed edge is what `get_edge` reports for its end points. -/
def EdgesAgree (g : StaticGraph m k NL EL) : Prop :=
  ∃ es, g.edges = .ok es ∧ ∀ e ∈ es, g.getEdge e.src e.dst = .ok (some e)

/-- **C27** (partial: directed or unlabelled graphs; for labelled undirected ones see
`c27_undirected_wrong`). -/
theorem c27_edges_agree_partial {g : StaticGraph m k NL EL} (h : Encodes g.edgeVec rows lab)
    (hc : ∀ r ∈ rows, ∀ p ∈ r, p.1.val < rows.length) (hm : rows.length ≤ m)
    (hd : g.directed = true ∨ lab = false) : EdgesAgree g := by
  cases lab with
  | false =>
    refine ⟨_, StaticGraph.edges_plain h hm, ?_⟩
    intro e he
    obtain ⟨⟨s, t⟩, hst, rfl⟩ := List.mem_map.1 he
    rw [mem_edgeList _ _ (by omega)] at hst
    obtain ⟨⟨hs, ht⟩, -⟩ := hst
    obtain ⟨⟨t', l⟩, hl, rfl⟩ := List.mem_map.1 ht
    obtain ⟨r, h1, h2⟩ := StaticGraph.getEdge_spec h s t'
    simp only
    rw [h1]
    congr 1
    exact (h2 _).2 ⟨hc _ (List.getElem_mem hs) _ hl, hs, l, hl, rfl⟩
  | true =>
    have hd : g.directed = true := by simpa using hd
    refine ⟨_, StaticGraph.edges_directed h hm hd, ?_⟩
    intro e he
    obtain ⟨⟨i, t, l⟩, hx, rfl⟩ := List.mem_map.1 he
    rw [mem_arcs] at hx
    obtain ⟨-, hi, hl⟩ := hx
    simp only [Nat.sub_zero] at hi hl
    have hv : (Id.new i : Id m).val = i := EdgeIter.Id_new_val (by omega)
    obtain ⟨r, h1, h2⟩ := StaticGraph.getEdge_spec h (Id.new i) t
    simp only
    rw [h1]
    congr 1
    refine (h2 _).2 ⟨hc _ (List.getElem_mem hi) _ hl, by rw [hv]; exact hi, l, ?_, rfl⟩
    simp only [hv]
    exact hl

/-- **C27 fails** for labelled undirected graphs: the path `0-1-2` with labels `x` and `y`, frozen, lists
the edge `1-2` with the label `x`. -/
theorem c27_undirected_wrong : ∃ (g : GraphMap 9 3 String String) (r : StaticGraph 9 3 String String),
    Reachable g ∧ g.intoStatic = .ok r ∧ r.directed = false ∧
    r.getEdge 1 2 = .ok (some ⟨1, 2, some 1⟩) ∧
    r.edges = .ok [⟨0, 1, some 0⟩, ⟨1, 2, some 0⟩] := by
  refine ⟨_, _, denseGraph_reachable (d := false) (es := [(0, 1, some "x"), (1, 2, some "y")]) rfl,
    rfl, by decide, by decide, by decide⟩

example : ∃ g : StaticGraph 9 3 String String, g.directed = true ∧
    Encodes g.edgeVec sampleRows true ∧ (∀ r ∈ sampleRows, ∀ p ∈ r, p.1.val < sampleRows.length) ∧
    sampleRows.length ≤ 9 :=
  ⟨⟨true, 4, 5, sampleVec true, some (sampleVec false), none, SetMap.empty, SetMap.empty⟩, rfl,
    sample_encodes true, by decide, by decide⟩

/-- `nodes()` of a static graph lists the ids of `node_indices()` with the labels `get_node` reports. -/
theorem c27_nodes_agree {g : StaticGraph m k NL EL} (hm : g.numNodes ≤ m + 1)
    (hl : ∀ ls, g.labels = some ls → g.numNodes ≤ ls.length) :
    g.nodes.map Prod.fst = g.nodeIndices ∧ ∀ p ∈ g.nodes, g.nodeLid p.1 = .ok p.2 := by
  unfold StaticGraph.nodes StaticGraph.nodeLid StaticGraph.hasNode
  cases hls : g.labels with
  | none =>
    refine ⟨by simp [Function.comp_def], ?_⟩
    intro p hp
    obtain ⟨n, -, rfl⟩ := List.mem_map.1 hp
    simp [pure_ok]
  | some ls =>
    have hlen := hl ls hls
    have h1 : g.nodeIndices.length = g.numNodes := by simp [StaticGraph.nodeIndices]
    simp only
    constructor
    · rw [List.map_map]
      have : (Prod.fst ∘ fun p : Id m × Id k => (p.1, staticLabel p.2)) = Prod.fst := rfl
      rw [this, List.map_fst_zip (by omega)]
    · intro p hp
      obtain ⟨⟨n, l⟩, hz, rfl⟩ := List.mem_map.1 hp
      obtain ⟨i, hi, he⟩ := List.mem_iff_getElem.1 hz
      rw [List.getElem_zip, Prod.mk.injEq] at he
      obtain ⟨rfl, rfl⟩ := he
      rw [List.length_zip] at hi
      have hv : (g.nodeIndices[i]'(by omega)).val = i := by
        simp only [StaticGraph.nodeIndices, List.getElem_map, List.getElem_range]
        exact EdgeIter.Id_new_val (by omega)
      simp only [hv]
      rw [decide_eq_true (show i < g.numNodes by omega)]
      simp only [Bool.not_true, Bool.false_eq_true, if_false]
      rw [index_lt (by omega), bind_ok, pure_ok]

/-! ### C28 -/

/-- **C28.** Removing labels leaves every structural query as it was. -/
theorem c28_structure_kept (g : StaticGraph m k NL EL) :
    ∀ h ∈ [g.removeNodeLabels, g.removeEdgeLabels, g.removeLabels],
      h.directed = g.directed ∧ h.numNodes = g.numNodes ∧ h.numEdges = g.numEdges ∧
      h.hasNode = g.hasNode ∧ h.nodeIndices = g.nodeIndices ∧ h.hasEdge = g.hasEdge ∧
      h.findEdgeIndex = g.findEdgeIndex ∧ h.edgeIndices = g.edgeIndices ∧ h.degree = g.degree ∧
      h.neighbors = g.neighbors ∧ h.maxSeenId = g.maxSeenId ∧ h.inNeighbors = g.inNeighbors ∧
      h.inDegree = g.inDegree := by
  have hIter : ∀ (ev : EdgeVec m k) d, ev.removeLabels.edgeIndices d = ev.edgeIndices d := by
    intro ev d
    exact EdgeIter.collect_labels (ev := ev) (ev' := ev.removeLabels) rfl rfl d _ _
  have hin : g.removeEdgeLabels.inNeighbors = g.inNeighbors := by
    funext n
    unfold StaticGraph.inNeighbors StaticGraph.removeEdgeLabels
    cases g.inEdgeVec <;> rfl
  have key : ∀ h : StaticGraph m k NL EL, h.directed = g.directed → h.numNodes = g.numNodes →
      h.numEdges = g.numEdges → (h.edgeVec = g.edgeVec ∨ h.edgeVec = g.edgeVec.removeLabels) →
      h.inNeighbors = g.inNeighbors →
      h.directed = g.directed ∧ h.numNodes = g.numNodes ∧ h.numEdges = g.numEdges ∧
      h.hasNode = g.hasNode ∧ h.nodeIndices = g.nodeIndices ∧ h.hasEdge = g.hasEdge ∧
      h.findEdgeIndex = g.findEdgeIndex ∧ h.edgeIndices = g.edgeIndices ∧ h.degree = g.degree ∧
      h.neighbors = g.neighbors ∧ h.maxSeenId = g.maxSeenId ∧ h.inNeighbors = g.inNeighbors ∧
      h.inDegree = g.inDegree := by
    intro h h1 h2 h3 h4 h5
    have a : h.hasNode = g.hasNode := by funext n; unfold StaticGraph.hasNode; rw [h2]
    have b : h.nodeIndices = g.nodeIndices := by unfold StaticGraph.nodeIndices; rw [h2]
    have c : h.maxSeenId = g.maxSeenId := by unfold StaticGraph.maxSeenId; rw [h2]
    have d : h.inDegree = g.inDegree := by funext n; unfold StaticGraph.inDegree; rw [h5]
    refine ⟨h1, h2, h3, a, b, ?_, ?_, ?_, ?_, ?_, c, h5, d⟩
    · funext s t; unfold StaticGraph.hasEdge; rcases h4 with h4 | h4 <;> rw [h4]; rfl
    · funext s t; unfold StaticGraph.findEdgeIndex; rcases h4 with h4 | h4 <;> rw [h4]; rfl
    · unfold StaticGraph.edgeIndices; rw [h1]; rcases h4 with h4 | h4 <;> rw [h4]; exact hIter _ _
    · funext s; unfold StaticGraph.degree; rcases h4 with h4 | h4 <;> rw [h4]; rfl
    · funext s; unfold StaticGraph.neighbors; rcases h4 with h4 | h4 <;> rw [h4]; rfl
  intro h hh
  simp only [List.mem_cons, List.not_mem_nil, or_false] at hh
  rcases hh with rfl | rfl | rfl
  · exact key _ rfl rfl rfl (Or.inl rfl) rfl
  · exact key _ rfl rfl rfl (Or.inr rfl) hin
  · exact key _ rfl rfl rfl (Or.inr rfl) hin

/-- **C28**: node label queries return nothing afterwards. -/
theorem c28_node_labels_gone (g : StaticGraph m k NL EL) :
    ∀ h ∈ [g.removeNodeLabels, g.removeLabels],
      (∀ n, h.nodeLid n = .ok none) ∧ h.nodes = g.nodeIndices.map (fun i => (i, none)) ∧
      h.nodeLabels = SetMap.empty := by
  intro h hh
  simp only [List.mem_cons, List.not_mem_nil, or_false] at hh
  rcases hh with rfl | rfl
  all_goals
    refine ⟨fun n => ?_, rfl, rfl⟩
    unfold StaticGraph.nodeLid
    split <;> rfl

/-- **C28**: edge label queries return nothing afterwards: every edge is reported without label. -/
theorem c28_edge_labels_gone (g : StaticGraph m k NL EL) :
    ∀ h ∈ [g.removeEdgeLabels, g.removeLabels],
      (∀ s t, h.getEdge s t = (do
        let e ← g.getEdge s t
        pure (e.map (fun e => { e with label := none })))) ∧
      h.edges = (do
        let es ← g.edgeIndices
        pure (es.map (fun e => ⟨e.1, e.2, none⟩))) ∧
      h.edgeLabels = SetMap.empty := by
  have hIter : ∀ (ev : EdgeVec m k) d, ev.removeLabels.edgeIndices d = ev.edgeIndices d := by
    intro ev d
    exact EdgeIter.collect_labels (ev := ev) (ev' := ev.removeLabels) rfl rfl d _ _
  have key : ∀ h : StaticGraph m k NL EL, h.directed = g.directed →
      h.edgeVec = g.edgeVec.removeLabels →
      (∀ s t, h.getEdge s t = (do
        let e ← g.getEdge s t
        pure (e.map (fun e => { e with label := none })))) ∧
      h.edges = (do
        let es ← g.edgeIndices
        pure (es.map (fun e => ⟨e.1, e.2, none⟩))) := by
    intro h h1 h2
    constructor
    · intro s t
      unfold StaticGraph.getEdge StaticGraph.hasEdge
      rw [h2]
      have e1 : g.edgeVec.removeLabels.hasEdge s t = g.edgeVec.hasEdge s t := rfl
      have e2 : g.edgeVec.removeLabels.findEdgeLabelId s t = .ok none := rfl
      rw [e1, e2]
      unfold EdgeVec.hasEdge
      cases hx : g.edgeVec.findEdgeIndex s t with
      | error e => rfl
      | ok x =>
        simp only [bind_ok, pure_ok]
        cases x with
        | none => rfl
        | some i =>
          simp only [Option.isSome_some, if_true]
          unfold EdgeVec.findEdgeLabelId
          by_cases hl : g.edgeVec.getLabels = []
          · rw [if_pos hl]; rfl
          · rw [if_neg hl, hx, bind_ok]
            cases hy : g.edgeVec.getLabels[i]? <;> simp [hy, pure_ok, bind_ok]
    · unfold StaticGraph.edges StaticGraph.edgeIndices
      rw [h1, h2, hIter]
      have : g.edgeVec.removeLabels.getLabels = [] := rfl
      simp only [this, if_true]
  intro h hh
  simp only [List.mem_cons, List.not_mem_nil, or_false] at hh
  rcases hh with rfl | rfl
  · obtain ⟨a, b⟩ := key g.removeEdgeLabels rfl rfl
    exact ⟨a, b, rfl⟩
  · obtain ⟨a, b⟩ := key g.removeLabels rfl rfl
    exact ⟨a, b, rfl⟩

/-- **C28**: the labels of the other kind stay. -/
theorem c28_other_labels_kept (g : StaticGraph m k NL EL) :
    g.removeNodeLabels.getEdge = g.getEdge ∧ g.removeNodeLabels.edges = g.edges ∧
    g.removeNodeLabels.edgeLabels = g.edgeLabels ∧
    g.removeEdgeLabels.nodeLid = g.nodeLid ∧ g.removeEdgeLabels.nodes = g.nodes ∧
    g.removeEdgeLabels.nodeLabels = g.nodeLabels := by
  refine ⟨rfl, rfl, rfl, ?_, rfl, rfl⟩
  rfl

/-! ### C63 -/

/-- **C63.** A static graph constructed without explicit counts has one node per row. Its edge count is
the number of its edges if it is directed; if it is undirected, exactly when there are no self
loops. -/
theorem c63_default_counts {g : StaticGraph m k NL EL} {d : Bool} {inn : Option (EdgeVec m k)}
    (h : Encodes ev rows lab) (hm : rows.length ≤ m)
    (hg : StaticGraph.new d ev inn none none = .ok g ∨
      ∃ ls nl el, StaticGraph.withLabels d ev inn ls nl el none none = .ok g)
    (hsym : d = false → ∀ s t, ev.hasEdge s t = .ok true → ev.hasEdge t s = .ok true)
    (hc : ∀ r ∈ rows, ∀ p ∈ r, p.1.val < rows.length) :
    g.numNodes = rows.length ∧ ∃ es, g.edgeIndices = .ok es ∧
      (d = true → g.numEdges = es.length) ∧
      (d = false → (g.numEdges = es.length ↔ ∀ n, ev.hasEdge n n = .ok false)) := by
  have hE : ∀ s t, ev.hasEdge s t = .ok true ↔ (s, t) ∈ (pairsOf true rows).map EdgeIter.toEdge := by
    intro s t
    obtain ⟨b, h1, h2⟩ := EdgeVec.hasEdge_spec h s t
    rw [mem_edgeList true rows (by omega), h1]
    simp only [Except.ok.injEq, h2, true_or, and_true]
    constructor
    · exact fun h => h.2
    · rintro ⟨hs, ht⟩
      obtain ⟨p, hp, rfl⟩ := List.mem_map.1 ht
      exact ⟨hc _ (List.getElem_mem hs) _ hp, hs, ht⟩
  have hF : ∀ s t, ev.hasEdge s t = .ok false ↔
      ¬ (s, t) ∈ (pairsOf true rows).map EdgeIter.toEdge := by
    intro s t
    rw [← hE]
    obtain ⟨b, h1, -⟩ := EdgeVec.hasEdge_spec h s t
    rw [h1]; simp
  have hlen : ev.numEdges = rows.flatten.length := by
    rw [EdgeVec.numEdges, h.edges, List.length_map]
  have key : g.directed = d ∧ g.edgeVec = ev ∧ g.numNodes = rows.length ∧
      g.numEdges = if d then ev.numEdges else ev.numEdges / 2 := by
    rcases hg with hg | ⟨ls, nl, el, hg⟩
    · unfold StaticGraph.new StaticGraph.defaultCounts at hg
      split at hg
      · cases hg
      · rw [EdgeVec.numNodes_eq h] at hg
        simp only [bind_ok, pure_ok, Except.ok.injEq] at hg
        subst hg; exact ⟨rfl, rfl, rfl, rfl⟩
    · unfold StaticGraph.withLabels StaticGraph.defaultCounts at hg
      split at hg
      · cases hg
      · rw [EdgeVec.numNodes_eq h] at hg
        simp only [bind_ok, pure_ok, Except.ok.injEq] at hg
        subst hg; exact ⟨rfl, rfl, rfl, rfl⟩
  obtain ⟨k1, k2, k3, k4⟩ := key
  refine ⟨k3, _, by unfold StaticGraph.edgeIndices; rw [k1, k2]; exact edgeIndices_eq h hm d, ?_, ?_⟩
  · rintro rfl
    rw [k4, if_pos rfl, hlen, edgeList_length]
  · rintro rfl
    have h2 := edgeList_double rows h.sorted (by omega) (fun s t hst => (hE t s).1 (hsym rfl s t ((hE s t).2 hst)))
    rw [k4, if_neg (by simp), hlen]
    have h3 : (∀ n, ev.hasEdge n n = .ok false) ↔ (Finset.univ.filter
      (fun n : Id m => (n, n) ∈ (pairsOf true rows).map EdgeIter.toEdge)).card = 0 := by
      rw [Finset.card_eq_zero, Finset.filter_eq_empty_iff]
      simp only [hF, Finset.mem_univ, true_imp_iff]
    rw [h3]
    omega

/-- **C63**: explicit counts are taken as they are, and a directed graph needs its in-edges. -/
theorem c63_given_counts (h : Encodes ev rows lab) (d : Bool) (inn : Option (EdgeVec m k)) (a b : Nat) :
    (∃ g : StaticGraph m k NL EL, StaticGraph.new d ev inn (some a) (some b) = .ok g ∧
      g.directed = d ∧ g.numNodes = a ∧ g.numEdges = b ∧ g.edgeVec = ev ∧ g.inEdgeVec = inn) ↔
      (d = true → inn.isSome = true) := by
  unfold StaticGraph.new StaticGraph.defaultCounts
  cases d <;> cases inn <;> simp [EdgeVec.numNodes_eq h, bind_ok, pure_ok]

/-- **C63**: whichever counts are given, only a directed graph without in-edges is refused; a count that is given is
kept, and so are directedness, adjacencies and labels. -/
theorem c63_constructs (h : Encodes ev rows lab) (d : Bool) (inn : Option (EdgeVec m k)) (a b : Option Nat)
    (ls : List (Id k)) (nl : SetMap NL) (el : SetMap EL) :
    ((∃ g : StaticGraph m k NL EL, StaticGraph.new d ev inn a b = .ok g) ↔ (d = true → inn.isSome = true)) ∧
    ((∃ g : StaticGraph m k NL EL, StaticGraph.withLabels d ev inn ls nl el a b = .ok g) ↔
      (d = true → inn.isSome = true)) ∧
    (∀ g : StaticGraph m k NL EL, StaticGraph.new d ev inn a b = .ok g →
      g.labels = none ∧ g.nodeLabels.items = [] ∧ g.edgeLabels.items = []) ∧
    (∀ g : StaticGraph m k NL EL, StaticGraph.withLabels d ev inn ls nl el a b = .ok g →
      g.labels = some ls ∧ g.nodeLabels = nl ∧ g.edgeLabels = el) ∧
    ∀ g : StaticGraph m k NL EL,
      StaticGraph.new d ev inn a b = .ok g ∨ StaticGraph.withLabels d ev inn ls nl el a b = .ok g →
      g.directed = d ∧ g.edgeVec = ev ∧ g.inEdgeVec = inn ∧ (∀ x, a = some x → g.numNodes = x) ∧
      ∀ x, b = some x → g.numEdges = x := by
  unfold StaticGraph.new StaticGraph.withLabels StaticGraph.defaultCounts
  cases d <;> cases inn <;> simp [EdgeVec.numNodes_eq h, bind_ok, pure_ok, SetMap.empty, SetMap.items] <;> grind

example : Encodes (sampleVec true) sampleRows true ∧ sampleRows.length ≤ 9 ∧
    (∀ s t, (sampleVec true).hasEdge s t = .ok true → (sampleVec true).hasEdge t s = .ok true) ∧
    (∀ r ∈ sampleRows, ∀ p ∈ r, p.1.val < sampleRows.length) ∧
    ∃ g : StaticGraph 9 3 String String, StaticGraph.new false (sampleVec true) none none none = .ok g ∧
      g.numEdges = 2 ∧ g.edgeIndices = .ok [(0, 1), (1, 2), (2, 2)] :=
  ⟨sample_encodes true, by decide, by decide, by decide, _, rfl, by decide, by decide⟩

/-! ### C64 -/

/-- **C64.** After `clear`, every query on the adjacency panics: the offset array is empty. -/
theorem c64_clear_breaks (ev : EdgeVec m k) (s t : Id m) :
    ev.clear.numNodes = .error .underflow ∧ ev.clear.hasNode s = .error .underflow ∧
    ev.clear.neighbors s = .error .underflow ∧ ev.clear.degree s = .error .underflow ∧
    ev.clear.findEdgeIndex s t = .error .underflow ∧ ev.clear.hasEdge s t = .error .underflow :=
  ⟨rfl, rfl, rfl, rfl, rfl, rfl⟩

/-- **C64.** What does not look at the offsets goes on: there are no edges and no labels, and the array of
labels stays if there was one. -/
theorem c64_clear_rest (ev : EdgeVec m k) (s t : Id m) :
    ev.clear.numEdges = 0 ∧ ev.clear.getLabels = [] ∧ ev.clear.findEdgeLabelId s t = .ok none ∧
    ev.clear.labels.isSome = ev.labels.isSome ∧ ev.clear.edgeIndices true = .error .underflow := by
  have h : ev.clear.getLabels = [] := by
    unfold EdgeVec.getLabels EdgeVec.clear
    cases ev.labels <;> rfl
  refine ⟨rfl, h, ?_, ?_, rfl⟩
  · unfold EdgeVec.findEdgeLabelId
    rw [if_pos h]
    rfl
  · unfold EdgeVec.clear
    cases ev.labels <;> rfl

example : (sampleVec true).clear.labels = some [] ∧ (sampleVec false).clear.labels = none := by decide

end Verif.Props
