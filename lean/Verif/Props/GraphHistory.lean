import Verif.Proof.Handshake

/-! Property theorems that follow a graph along a history of calls: C05, C06, C08, C12, C14, C16, C58.

`Run (withLabelMap d nl el) ops g`: the calls `ops`, none of which panicked, lead from an empty graph
(with prepared label maps) to `g`, under some iteration order of the hash map.
`Spec.run d ops` is the plain labelled graph after the same calls. -/

namespace Verif.Props

open GraphMap Spec

variable {m k : Nat} {NL EL : Type} [DecidableEq NL] [DecidableEq EL]

/-- **C05.** `has_node` after any history, including raw label-id writes. -/
theorem c05_has_node {d : Bool} {nl : SetMap NL} {el : SetMap EL} (hn : nl.labels.Nodup)
    (he : el.labels.Nodup) {ops : List (Op m k NL EL)} {g : GraphMap m k NL EL}
    (h : Run (withLabelMap d nl el) ops g) (n : Id m) :
    g.hasNode n = ((Spec.run d ops).node n).isSome := by
  rw [hasNode_eq_labE]; exact (run_shape hn he h).2.1 n

/-- **C05.** `get_node_label` after any history of calls that name labels, as long as the distinct
labels fit the label-id type. -/
theorem c05_node_label {d : Bool} {nl : SetMap NL} {el : SetMap EL} (hn : nl.labels.Nodup)
    (he : el.labels.Nodup) {ops : List (Op m k NL EL)} {g : GraphMap m k NL EL}
    (h : Run (withLabelMap d nl el) ops g) (hl : ∀ op ∈ ops, labelOnly op = true)
    (hc1 : g.nodeLabels.len ≤ k + 1) (hc2 : g.edgeLabels.len ≤ k + 1) (n : Id m) :
    g.getNodeLabel n = ((Spec.run d ops).node n).join := by
  rw [getNodeLabel_eq, (run_decode hn he h hl hc1 hc2).1]

/-- **C06.** `has_edge` after any history, including raw label-id writes. -/
theorem c06_has_edge {d : Bool} {nl : SetMap NL} {el : SetMap EL} (hn : nl.labels.Nodup)
    (he : el.labels.Nodup) {ops : List (Op m k NL EL)} {g : GraphMap m k NL EL}
    (h : Run (withLabelMap d nl el) ops g) (s t : Id m) :
    g.hasEdge s t = ((Spec.run d ops).edge s t).isSome := by
  rw [hasEdge_eq_outE]; exact (run_shape hn he h).2.2 s t

/-- **C06.** `get_edge_label` after any history of calls that name labels, as long as the distinct
labels fit the label-id type; it never panics. -/
theorem c06_edge_label {d : Bool} {nl : SetMap NL} {el : SetMap EL} (hn : nl.labels.Nodup)
    (he : el.labels.Nodup) {ops : List (Op m k NL EL)} {g : GraphMap m k NL EL}
    (h : Run (withLabelMap d nl el) ops g) (hl : ∀ op ∈ ops, labelOnly op = true)
    (hc1 : g.nodeLabels.len ≤ k + 1) (hc2 : g.edgeLabels.len ≤ k + 1) (s t : Id m) :
    g.getEdgeLabel s t = .ok ((Spec.run d ops).edge s t).join := by
  rw [getEdgeLabel_eq, (run_decode hn he h hl hc1 hc2).1]

/-- A history used in the examples: two labelled nodes, an edge relabelled, a node removed. -/
def demo : List (Op 9 3 String String) :=
  [.addNode 1 (some "a"), .addEdge 1 2 (some "x"), .addEdge 2 3 none, .addNode 2 (some "b"),
   .updateEdgeLabel 2 1 (some "y"), .removeNode 3, .addNode 1 none, .updateNodeLabel 7 (some "c")]

example : ∃ g : GraphMap 9 3 String String, Run (withLabelMap false SetMap.empty SetMap.empty) demo g ∧
    (∀ op ∈ demo, labelOnly op = true) ∧ g.nodeLabels.len ≤ 4 ∧ g.edgeLabels.len ≤ 4 ∧
    g.getNodeLabel 2 = some "b" ∧ g.getNodeLabel 1 = none ∧ g.hasNode 1 = true ∧ g.hasNode 3 = false ∧
    g.getEdgeLabel 1 2 = .ok (some "y") :=
  ⟨_, exec_run (by rfl), by decide, by decide, by decide, by decide, by decide, by decide, by decide,
    by decide⟩

/-- **C08.** Every undirected history gives a symmetric edge relation. -/
theorem c08_has_edge_symmetric {nl : SetMap NL} {el : SetMap EL} (hn : nl.labels.Nodup)
    (he : el.labels.Nodup) {ops : List (Op m k NL EL)} {g : GraphMap m k NL EL}
    (h : Run (withLabelMap false nl el) ops g) (s t : Id m) : g.hasEdge s t = g.hasEdge t s := by
  have hi := inv_run (inv_withLabelMap false nl el hn he) h
  have hd := (run_shape hn he h).1
  rw [hasEdge_eq_outE, hasEdge_eq_outE, Bool.eq_iff_iff]
  exact ⟨hi.sym hd s t, hi.sym hd t s⟩

/-- **C08** (partial: histories that write label ids through `edges_mut` or `get_edge_mut` are
excluded, because for those the claim is false, see `c08_edge_mut_breaks_symmetry`). Both
orientations of an undirected edge carry the same label. -/
theorem c08_labels_symmetric_partial {nl : SetMap NL} {el : SetMap EL} (hn : nl.labels.Nodup)
    (he : el.labels.Nodup) {ops : List (Op m k NL EL)} {g : GraphMap m k NL EL}
    (h : Run (withLabelMap false nl el) ops g) (hl : ∀ op ∈ ops, labelOnly op = true)
    (hc1 : g.nodeLabels.len ≤ k + 1) (hc2 : g.edgeLabels.len ≤ k + 1) (s t : Id m) :
    g.getEdgeLabel s t = g.getEdgeLabel t s := by
  rw [c06_edge_label hn he h hl hc1 hc2, c06_edge_label hn he h hl hc1 hc2, spec_symmetric]

/-- **C08 fails** for raw writes: after `get_edge_mut(1, 2).set_label_id` the orientations disagree. -/
theorem c08_edge_mut_breaks_symmetry :
    ∃ (ops : List (Op 9 3 String String)) (g : GraphMap 9 3 String String),
      Run (withLabelMap false SetMap.empty SetMap.empty) ops g ∧
      g.getEdgeLabel 1 2 = .ok (some "x") ∧ g.getEdgeLabel 2 1 = .ok none :=
  ⟨[.addEdgeLabel (some "x"), .addEdge 1 2 none, .setEdgeLabelId 1 2 (some 0)], _,
    exec_run (by rfl), by decide, by decide⟩

/-- **C08 fails** for a pass over `edges_mut` as well. -/
theorem c08_edges_mut_breaks_symmetry :
    ∃ (ops : List (Op 9 3 String String)) (g : GraphMap 9 3 String String),
      Run (withLabelMap false SetMap.empty SetMap.empty) ops g ∧
      g.getEdgeLabel 1 2 = .ok (some "x") ∧ g.getEdgeLabel 2 1 = .ok none :=
  ⟨[.addEdgeLabel (some "x"), .addEdge 2 1 none, .mapEdgeLabelIds (fun _ _ _ => some 0)], _,
    exec_run (by rfl), by decide, by decide⟩

/-- **C60.** After every history `edge_count` is the number of edges plus
the number of redundant `add_edge`/`update_edge_label` calls since `refine_edge_count`. -/
theorem c60_edge_count_exact {d : Bool} {nl : SetMap NL} {el : SetMap EL} (hn : nl.labels.Nodup)
    (he : el.labels.Nodup) {ops : List (Op m k NL EL)} {g : GraphMap m k NL EL}
    (h : Run (withLabelMap d nl el) ops g) :
    g.edgeCount = (Spec.run d ops).edgeNumber d + surplus d ops ∧
    g.edgeIndices.length = (Spec.run d ops).edgeNumber d := by
  obtain ⟨hd, hs⟩ := run_shape hn he h
  have hi := inv_run (inv_withLabelMap d nl el hn he) h
  have e : g.edgeNum = (Spec.run d ops).edgeNumber d := by
    unfold edgeNum; rw [hd]; exact hs.edgeNumber d
  exact ⟨by rw [← e]; exact run_count hn he h, by rw [← e]; exact edgeIndices_length hi.toNWF⟩

/-- **C12** (partial: histories with redundant insertions are excluded; for those the claim is false,
see `c12_edge_count_drifts`). -/
theorem c12_edge_count_partial {d : Bool} {nl : SetMap NL} {el : SetMap EL} (hn : nl.labels.Nodup)
    (he : el.labels.Nodup) {ops : List (Op m k NL EL)} {g : GraphMap m k NL EL}
    (h : Run (withLabelMap d nl el) ops g) (hs : surplus d ops = 0) :
    g.edgeCount = g.edgeIndices.length := by
  obtain ⟨h1, h2⟩ := c60_edge_count_exact hn he h
  omega

example : surplus false ([.addEdge 1 2 none, .addEdge 2 1 none, .refineEdgeCount, .addEdge 2 3 none,
    .removeNode 3] : List (Op 9 3 String String)) = 0 := by rfl

/-- **C12 fails**: relabelling an edge bumps the counter. -/
theorem c12_edge_count_drifts :
    ∃ (ops : List (Op 9 3 String String)) (g : GraphMap 9 3 String String),
      Run (withLabelMap true SetMap.empty SetMap.empty) ops g ∧
      g.edgeCount = 2 ∧ g.edgeIndices = [(1, 2)] :=
  ⟨[.addEdge 1 2 none, .updateEdgeLabel 1 2 (some "x")], _, exec_run (by rfl), by decide, by decide⟩

/-- **C14.** `max_seen_id` is `None` exactly when no id was ever inserted, otherwise the largest id
ever inserted. -/
theorem c14_max_seen_id {d : Bool} {nl : SetMap NL} {el : SetMap EL} (hn : nl.labels.Nodup)
    (he : el.labels.Nodup) {ops : List (Op m k NL EL)} {g : GraphMap m k NL EL}
    (h : Run (withLabelMap d nl el) ops g) :
    (g.maxSeenId = none ↔ ops.flatMap touched = []) ∧
    ∀ M, g.maxSeenId = some M ↔
      M ∈ ops.flatMap touched ∧ ∀ x ∈ ops.flatMap touched, x ≤ M := by
  obtain ⟨h1, h2⟩ := run_isMax hn he h
  constructor
  · refine ⟨h1, fun h0 => ?_⟩
    cases hM : g.maxSeenId with
    | none => rfl
    | some M => have := (h2 M hM).1; rw [h0] at this; cases this
  · intro M
    refine ⟨h2 M, ?_⟩
    rintro ⟨e1, e2⟩
    cases hM : g.maxSeenId with
    | none => rw [h1 hM] at e1; cases e1
    | some M' =>
      obtain ⟨f1, f2⟩ := h2 M' hM
      rw [le_antisymm (f2 M e1) (e2 M' f1)]

/-- **C14.** `max_seen_id` never decreases. -/
theorem c14_monotone {d : Bool} {nl : SetMap NL} {el : SetMap EL} (hn : nl.labels.Nodup)
    (he : el.labels.Nodup) {ops ops' : List (Op m k NL EL)} {g g' : GraphMap m k NL EL}
    (h : Run (withLabelMap d nl el) ops g) (h' : Run g ops' g') {M : Id m}
    (hM : g.maxSeenId = some M) : ∃ M', g'.maxSeenId = some M' ∧ M ≤ M' := by
  have hr := c14_max_seen_id hn he (run_append h h')
  have h1 := ((c14_max_seen_id hn he h).2 M).1 hM
  have hin : M ∈ (ops ++ ops').flatMap touched := by
    rw [List.flatMap_append]; exact List.mem_append_left _ h1.1
  cases hM' : g'.maxSeenId with
  | none => rw [hr.1.1 hM'] at hin; cases hin
  | some M' => exact ⟨M', rfl, ((hr.2 M').1 hM').2 M hin⟩

/-- **C14.** `max_seen_id` bounds every present id. -/
theorem c14_bounds_present {g : GraphMap m k NL EL} (hg : Reachable g) (n : Id m)
    (h : g.hasNode n = true) : ∃ M, g.maxSeenId = some M ∧ n ≤ M := hg.inv.maxBound n h

example : ∃ g : GraphMap 9 3 String String, Run (withLabelMap false SetMap.empty SetMap.empty) demo g ∧
    g.maxSeenId = some 3 ∧ g.hasNode 3 = false := ⟨_, exec_run (by rfl), by decide, by decide⟩

/-- **C16.** Nodes: equal label ids exactly for equal labels. -/
theorem c16_node_label_ids {d : Bool} {nl : SetMap NL} {el : SetMap EL} (hn : nl.labels.Nodup)
    (he : el.labels.Nodup) {ops : List (Op m k NL EL)} {g : GraphMap m k NL EL}
    (h : Run (withLabelMap d nl el) ops g) (hl : ∀ op ∈ ops, labelOnly op = true)
    (hc1 : g.nodeLabels.len ≤ k + 1) (hc2 : g.edgeLabels.len ≤ k + 1)
    {a b : Id m} {na nb : NodeMap m k} (ha : g.getNode a = some na) (hb : g.getNode b = some nb) :
    na.label = nb.label ↔ g.getNodeLabel a = g.getNodeLabel b := by
  obtain ⟨-, hv⟩ := run_decode hn he h hl hc1 hc2
  have hi := inv_run (inv_withLabelMap d nl el hn he) h
  have key : ∀ x nx, g.getNode x = some nx → ∀ l, nx.label = some l → l.val < g.nodeLabels.labels.length :=
    fun x nx hx l hxl => hv.node x l (by simp [labE, hx, hxl])
  unfold getNodeLabel
  simp only [ha, hb, Option.bind_some]
  cases h1 : na.label with
  | none =>
    cases h2 : nb.label with
    | none => simp
    | some l2 => simp [SetMap.getItem, List.getElem?_eq_getElem (key b nb hb l2 h2)]
  | some l1 =>
    have k1 := key a na ha l1 h1
    cases h2 : nb.label with
    | none => simp [SetMap.getItem, List.getElem?_eq_getElem k1]
    | some l2 =>
      have k2 := key b nb hb l2 h2
      simp only [SetMap.getItem, List.getElem?_eq_getElem k1, List.getElem?_eq_getElem k2,
        Option.some.injEq]
      rw [hi.nlNodup.getElem_inj_iff, Fin.ext_iff]

/-- **C16.** Edges: equal label ids exactly for equal labels. -/
theorem c16_edge_label_ids {d : Bool} {nl : SetMap NL} {el : SetMap EL} (hn : nl.labels.Nodup)
    (he : el.labels.Nodup) {ops : List (Op m k NL EL)} {g : GraphMap m k NL EL}
    (h : Run (withLabelMap d nl el) ops g) (hl : ∀ op ∈ ops, labelOnly op = true)
    (hc1 : g.nodeLabels.len ≤ k + 1) (hc2 : g.edgeLabels.len ≤ k + 1)
    {a b c e : Id m} {e1 e2 : Edge m k} (h1 : g.getEdge a b = .ok (some e1))
    (h2 : g.getEdge c e = .ok (some e2)) :
    e1.label = e2.label ↔ g.getEdgeLabel a b = g.getEdgeLabel c e := by
  obtain ⟨-, hv⟩ := run_decode hn he h hl hc1 hc2
  have hi := inv_run (inv_withLabelMap d nl el hn he) h
  have key : ∀ s t e, g.getEdge s t = .ok (some e) → ∀ l, e.label = some l →
      l.val < g.edgeLabels.labels.length := by
    intro s t e hse l hl
    rw [getEdge_eq_outE] at hse
    cases ho : g.outE s t with
    | none => rw [ho] at hse; cases hse
    | some o =>
      rw [ho] at hse
      cases hse
      exact hv.edge s t l (by rw [ho]; simp at hl; rw [hl])
  unfold getEdgeLabel
  rw [h1, h2]
  simp only [bind_ok, Option.bind_some]
  cases f1 : e1.label with
  | none =>
    cases f2 : e2.label with
    | none => simp
    | some l2 => simp [SetMap.getItem, List.getElem?_eq_getElem (key c e e2 h2 l2 f2), pure_ok]
  | some l1 =>
    have k1 := key a b e1 h1 l1 f1
    cases f2 : e2.label with
    | none => simp [SetMap.getItem, List.getElem?_eq_getElem k1, pure_ok]
    | some l2 =>
      have k2 := key c e e2 h2 l2 f2
      simp only [SetMap.getItem, List.getElem?_eq_getElem k1, List.getElem?_eq_getElem k2,
        Option.some.injEq, pure_ok, Except.ok.injEq]
      rw [hi.elNodup.getElem_inj_iff, Fin.ext_iff]

/-- **C16.** Past the capacity of the label-id type ids wrap around: the node gets the id, and then
reports the label, of an earlier label. -/
theorem c16_overflow_collides {g g' : GraphMap m k NL EL} (hg : Reachable g) {n : Id m} {x : NL} {b}
    (hx : x ∉ g.nodeLabels.items) (hfull : k + 1 ≤ g.nodeLabels.len)
    (h : g.addNode n (some x) = .ok (g', b)) :
    (∃ nd, g'.getNode n = some nd ∧ nd.label = some (Id.new g.nodeLabels.len)) ∧
    g'.getNodeLabel n = g.nodeLabels.getItem (g.nodeLabels.len % (k + 1)) ∧
    g'.getNodeLabel n ≠ some x ∧ g'.getNodeLabel n ≠ none := by
  obtain ⟨g1, nl, lid, hi, h1, h2, h3, h4, h5, h6, h7, h8, h9⟩ :=
    addNode_spec hg.inv.toNWF n (some x)
  rw [h1] at h
  obtain rfl : g1 = g' := by cases h; rfl
  have hx' : x ∉ g.nodeLabels.labels := hx
  have hnl : nl = ⟨g.nodeLabels.labels ++ [x]⟩ ∧ lid = some (Id.new g.nodeLabels.len) := by
    simp only [intern, SetMap.addItem_not_mem hx', bind_ok, pure_ok, Except.ok.injEq,
      Prod.mk.injEq] at hi
    exact ⟨hi.1.symm, hi.2.symm⟩
  have hlab : g1.labE n = some lid := by
    have := congrArg (fun r => r.node n) h8
    simpa [AGraph.addNode, rep] using this
  obtain ⟨nd, hnd⟩ : ∃ nd, g1.getNode n = some nd := by
    cases hh : g1.getNode n with
    | none => simp [labE, hh] at hlab
    | some nd => exact ⟨nd, rfl⟩
  have hl : nd.label = some (Id.new g.nodeLabels.len) := by
    simp only [labE, hnd, Option.map_some, Option.some.injEq] at hlab
    rw [hlab, hnl.2]
  have hlt : g.nodeLabels.len % (k + 1) < g.nodeLabels.labels.length :=
    lt_of_lt_of_le (Nat.mod_lt _ (Nat.succ_pos k)) hfull
  have hget : g1.getNodeLabel n = g.nodeLabels.getItem (g.nodeLabels.len % (k + 1)) := by
    unfold getNodeLabel
    simp only [hnd, Option.bind_some, hl]
    rw [h5, hnl.1]
    simp only [SetMap.getItem, Id.new, Fin.val_ofNat]
    exact List.getElem?_append_left hlt
  refine ⟨⟨nd, hnd, hl⟩, hget, ?_, ?_⟩
  · rw [hget]
    intro h0
    exact hx' (List.mem_of_getElem? h0)
  · rw [hget]
    simp only [SetMap.getItem, ne_eq, List.getElem?_eq_none_iff, not_le]
    exact hlt

example : ∃ g g' : GraphMap 9 1 String String, Reachable g ∧ "c" ∉ g.nodeLabels.items ∧
    1 + 1 ≤ g.nodeLabels.len ∧ g.addNode 5 (some "c") = .ok (g', true) ∧
    g'.getNodeLabel 5 = some "a" :=
  ⟨_, _, (exec_run (g0 := withLabelMap true SetMap.empty SetMap.empty)
    (ops := [.addNode 1 (some "a"), .addNode 2 (some "b")]) (by rfl)).reachable (by decide) (by decide),
    by decide, by decide, by rfl, by decide⟩

/-- **C16.** The same for edges, in both orientations of an undirected one. -/
theorem c16_edge_overflow_collides {g g' : GraphMap m k NL EL} (hg : Reachable g) {s t : Id m} {x : EL} {b}
    (hx : x ∉ g.edgeLabels.items) (hfull : k + 1 ≤ g.edgeLabels.len)
    (h : g.addEdge s t (some x) = .ok (g', b)) {u v : Id m}
    (huv : (u, v) = (s, t) ∨ g.isDirected = false ∧ (u, v) = (t, s)) :
    g'.getEdge u v = .ok (some ⟨u, v, some (Id.new g.edgeLabels.len)⟩) ∧
    g'.getEdgeLabel u v = .ok (g.edgeLabels.getItem (g.edgeLabels.len % (k + 1))) ∧
    g'.getEdgeLabel u v ≠ .ok (some x) ∧ g'.getEdgeLabel u v ≠ .ok none := by
  obtain ⟨g1, el, lid, hi, h1, h2, h3, h4, h5, h6, h7, h8, h9⟩ :=
    addEdge_spec hg.inv.toNWF s t (some x)
  rw [h1] at h
  obtain rfl : g1 = g' := by cases h; rfl
  have hx' : x ∉ g.edgeLabels.labels := hx
  have hel : el = ⟨g.edgeLabels.labels ++ [x]⟩ ∧ lid = some (Id.new g.edgeLabels.len) := by
    simp only [intern, SetMap.addItem_not_mem hx', bind_ok, pure_ok, Except.ok.injEq,
      Prod.mk.injEq] at hi
    exact ⟨hi.1.symm, hi.2.symm⟩
  have hout : g1.outE u v = some lid := by
    have := congrArg (fun r => r.edge u v) h8
    simp only [AGraph.addEdge, rep] at this
    rw [this, if_pos]
    rcases huv with e | ⟨hd, e⟩
    · cases e; simp [AGraph.same]
    · cases e
      have hd : g.directed = false := hd
      simp [AGraph.same, hd]
  have hge : g1.getEdge u v = .ok (some ⟨u, v, some (Id.new g.edgeLabels.len)⟩) := by
    rw [getEdge_eq_outE, hout, hel.2]; rfl
  have hlt : g.edgeLabels.len % (k + 1) < g.edgeLabels.labels.length :=
    lt_of_lt_of_le (Nat.mod_lt _ (Nat.succ_pos k)) hfull
  have hget : g1.getEdgeLabel u v = .ok (g.edgeLabels.getItem (g.edgeLabels.len % (k + 1))) := by
    unfold getEdgeLabel
    rw [hge, bind_ok, h6, hel.1]
    simp only [Option.bind_some, SetMap.getItem, Id.new, Fin.val_ofNat, pure_ok]
    exact congrArg Except.ok (List.getElem?_append_left hlt)
  refine ⟨hge, hget, ?_, ?_⟩
  · rw [hget]
    intro h0
    exact hx' (List.mem_of_getElem? (Except.ok.inj h0))
  · rw [hget]
    intro h0
    have h0 := Except.ok.inj h0
    simp only [SetMap.getItem, List.getElem?_eq_none_iff] at h0
    omega

example : ∃ g g' : GraphMap 9 1 String String, Reachable g ∧ "c" ∉ g.edgeLabels.items ∧
    1 + 1 ≤ g.edgeLabels.len ∧ g.addEdge 1 5 (some "c") = .ok (g', true) ∧
    g.isDirected = false ∧ g'.getEdgeLabel 5 1 = .ok (some "a") :=
  ⟨_, _, (exec_run (g0 := withLabelMap false SetMap.empty SetMap.empty)
    (ops := [.addEdge 1 2 (some "a"), .addEdge 2 3 (some "b")]) (by rfl)).reachable (by decide) (by decide),
    by decide, by decide, by rfl, by decide, by decide⟩

/-- **C58.** `from_edges` never panics and builds the graph with exactly the listed edges, their
endpoints as nodes, and no labels. -/
theorem c58_from_edges (d : Bool) (es : List (Id m × Id m)) :
    ∃ g : GraphMap m k NL EL, fromEdges d es = .ok g ∧ g.isDirected = d ∧
      (∀ n, g.hasNode n = true ↔ ∃ e ∈ es, n = e.1 ∨ n = e.2) ∧
      (∀ s t, g.hasEdge s t = true ↔ (s, t) ∈ es ∨ (d = false ∧ (t, s) ∈ es)) ∧
      (∀ n, g.getNodeLabel n = none) ∧ ∀ s t, g.getEdgeLabel s t = .ok none := by
  obtain ⟨g, h1, h2, h3⟩ := fromEdges_ok (k := k) (NL := NL) (EL := EL) d es
  have hr := exec_run (fromEdges_exec (NL := NL) (EL := EL) d es ▸ h1)
  have hn0 : (SetMap.empty : SetMap NL).labels.Nodup := List.nodup_nil
  have he0 : (SetMap.empty : SetMap EL).labels.Nodup := List.nodup_nil
  have hl : ∀ op ∈ es.flatMap (fun e =>
      [Op.addNode e.1 none, Op.addNode e.2 none, Op.addEdge e.1 e.2 none]),
      labelOnly (m := m) (k := k) (NL := NL) (EL := EL) op = true := by
    intro op hop
    obtain ⟨e, -, he⟩ := List.mem_flatMap.1 hop
    simp only [List.mem_cons, List.not_mem_nil, or_false] at he
    rcases he with rfl | rfl | rfl <;> rfl
  have hc1 : g.nodeLabels.len ≤ k + 1 := by rw [h2]; exact Nat.zero_le _
  have hc2 : g.edgeLabels.len ≤ k + 1 := by rw [h3]; exact Nat.zero_le _
  obtain ⟨s1, s2⟩ := spec_fromEdges (m := m) (k := k) (NL := NL) (EL := EL) d es AGraph.empty
  refine ⟨g, h1, (run_shape hn0 he0 hr).1, ?_, ?_, ?_, ?_⟩
  · intro n
    rw [c05_has_node hn0 he0 hr, Spec.run, s1]
    simp [AGraph.empty]
  · intro s t
    rw [c06_has_edge hn0 he0 hr, Spec.run, s2]
    simp [AGraph.empty]
  · intro n
    rw [c05_node_label hn0 he0 hr hl hc1 hc2, Spec.run, s1]
    split <;> rfl
  · intro s t
    rw [c06_edge_label hn0 he0 hr hl hc1 hc2, Spec.run, s2]
    split <;> rfl

example : ∃ g : GraphMap 9 3 String String, fromEdges false [(1, 2), (2, 2), (2, 1)] = .ok g ∧
    g.nodeIndices = [1, 2] ∧ g.hasEdge 2 1 = true := ⟨_, by rfl, by decide, by decide⟩

end Verif.Props
