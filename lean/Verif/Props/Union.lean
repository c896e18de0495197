import Verif.Props.SetOps
import Verif.Props.Labels

/-! `graph_union` with any number of labels (C86) and on graphs of different directedness (C87). -/

namespace Verif.Props

open Verif Verif.GraphMap Verif.Spec

variable {m k : Nat} {NL EL : Type} [DecidableEq NL] [DecidableEq EL]

theorem adds_tables (d : Bool) (ops : List (Op m k NL EL)) (ha : ∀ op ∈ ops, op.isAdd = true) :
    ∀ T : Tabled m k NL EL, (ops.foldl (Tabled.step d) T).nodes = (ops.map Op.nodeLab).foldl named T.nodes ∧
      (ops.foldl (Tabled.step d) T).edges = (ops.map Op.edgeLab).foldl named T.edges := by
  induction ops with
  | nil => intro T; exact ⟨rfl, rfl⟩
  | cons op ops ih =>
    intro T
    obtain ⟨h1, h2⟩ := ih (fun o h => ha o (by simp [h])) (Tabled.step d T op)
    have hop := ha op (by simp)
    simp only [List.foldl_cons, List.map_cons]
    rw [h1, h2]
    cases op <;> simp_all [Op.isAdd, Tabled.step, Op.nodeLab, Op.edgeLab, named]

omit [DecidableEq NL] [DecidableEq EL] in
theorem add_labelOnly {op : Op m k NL EL} (h : op.isAdd = true) : labelOnly op = true := by
  cases op <;> simp_all [Op.isAdd, labelOnly]

theorem foldl_named_none {X : Type} [DecidableEq X] {Y : Type} (l : List Y) (U : List X) :
    (l.map (fun _ => (none : Option X))).foldl named U = U := by
  induction l with
  | nil => rfl
  | cons _ _ ih => exact ih

omit [DecidableEq NL] [DecidableEq EL] in
theorem unionCalls_nodeLab (A B : AGraph (Id m) NL EL) (g0 g1 : GView m k NL EL) :
    (unionCalls A B g0 g1).map Op.nodeLab =
      g0.nodeIndices.map (fun n => (A.node n).join) ++ g1.nodeIndices.map (fun n => (B.node n).join) ++
        (g0.edgeIndices ++ g1.edgeIndices).map (fun _ => none) := by
  unfold unionCalls nodeCalls edgeCalls
  simp [Op.nodeLab, Function.comp_def]

omit [DecidableEq NL] [DecidableEq EL] in
theorem unionCalls_edgeLab (A B : AGraph (Id m) NL EL) (g0 g1 : GView m k NL EL) :
    (unionCalls A B g0 g1).map Op.edgeLab =
      (g0.nodeIndices ++ g1.nodeIndices).map (fun _ => none) ++
      (g0.edgeIndices.map (fun e => (A.edge e.1 e.2).join) ++
        g1.edgeIndices.map (fun e => (B.edge e.1 e.2).join)) := by
  unfold unionCalls nodeCalls edgeCalls
  simp [Op.edgeLab, Function.comp_def]
  rw [List.replicate_add, List.append_assoc]

/-- **C86.** The union of two graphs with any number of labels: its label tables hold the labels of both
graphs in the order they are met, and an element whose right-biased label is `x` reports the label
standing at the position of `x` modulo the number of label ids. -/
theorem c86_union_labels {g0 g1 : GView m k NL EL} {A B : AGraph (Id m) NL EL} (S0 : Shows g0 A)
    (S1 : Shows g1 B) (hd : g0.directed = g1.directed) :
    ∃ g, graphUnion g0 g1 = .ok g ∧
      g.nodeLabels.items = (g0.nodeIndices.map (fun n => (A.node n).join) ++
        g1.nodeIndices.map (fun n => (B.node n).join)).foldl named [] ∧
      g.edgeLabels.items = (g0.edgeIndices.map (fun e => (A.edge e.1 e.2).join) ++
        g1.edgeIndices.map (fun e => (B.edge e.1 e.2).join)).foldl named [] ∧
      (∀ n, g.getNodeLabel n = ((A.union B).node n).join.bind
        (fun x => g.nodeLabels.items[g.nodeLabels.items.idxOf x % (k + 1)]?)) ∧
      (∀ s t, g.getEdgeLabel s t = .ok (((A.union B).edge s t).join.bind
        (fun x => g.edgeLabels.items[g.edgeLabels.items.idxOf x % (k + 1)]?))) := by
  obtain ⟨g, a1, a2, a3, _, _⟩ := exec_adds (unionCalls A B g0 g1) (new g0.directed : GraphMap m k NL EL)
    (inv_withLabelMap _ _ _ List.nodup_nil List.nodup_nil) (unionCalls_add A B g0 g1)
  have hr : Run (withLabelMap g0.directed SetMap.empty SetMap.empty) (unionCalls A B g0 g1) g := exec_run a1
  have hl : ∀ op ∈ unionCalls A B g0 g1, labelOnly op = true :=
    fun op h => add_labelOnly (unionCalls_add A B g0 g1 op h)
  have hn0 : (SetMap.empty : SetMap NL).labels.Nodup := List.nodup_nil
  have he0 : (SetMap.empty : SetMap EL).labels.Nodup := List.nodup_nil
  obtain ⟨t1, t2⟩ := c82_tables hn0 he0 hr
  obtain ⟨u1, u2⟩ := adds_tables g0.directed (unionCalls A B g0 g1) (unionCalls_add A B g0 g1)
    ⟨AGraph.empty, [], []⟩
  have n1 := c83_node_label hn0 he0 hr hl
  have n2 := c83_edge_label hn0 he0 hr hl
  rw [run_unionCalls S0 S1 hd] at n1 n2
  refine ⟨g, by rw [graphUnion_exec S0 S1]; exact a1, ?_, ?_, n1, n2⟩
  · refine t1.trans (u1.trans ?_)
    rw [unionCalls_nodeLab, List.foldl_append, foldl_named_none]
  · refine t2.trans (u2.trans ?_)
    rw [unionCalls_edgeLab, List.foldl_append, foldl_named_none]

/-- Non-vacuity: two one-node graphs over a label-id type with a single value. -/
example : Reachable (tagged 1 "a") ∧ Reachable (tagged 2 "b") ∧
    ∃ g, graphUnion (tagged 1 "a").view (tagged 2 "b").view = .ok g ∧ g.nodeLabels.items = ["a", "b"] ∧
      g.getNodeLabel 2 = some "a" :=
  ⟨tagged_reachable _ _, tagged_reachable _ _,
    ⟨false, [(1, ⟨1, some 0, [], []⟩), (2, ⟨2, some 0, [], []⟩)], 0, ⟨["a", "b"]⟩, ⟨[]⟩, some 2⟩,
    by decide, by decide, by decide⟩

omit [DecidableEq NL] [DecidableEq EL] in
theorem adds_nodes (d : Bool) (ns : List (Id m)) (f : Id m → Option NL) (B : AGraph (Id m) NL EL) :
    ∀ x, ((((ns.map (fun n => Op.addNode n (f n))) : List (Op m k NL EL)).foldl (step d) B).node x).isSome =
      ((B.node x).isSome || decide (x ∈ ns)) := by
  induction ns generalizing B with
  | nil => intro x; simp
  | cons n ns ih =>
    intro x
    simp only [List.map_cons, List.foldl_cons]
    rw [ih]
    simp only [step, AGraph.addNode]
    by_cases h : x = n <;> simp [h]

omit [DecidableEq NL] [DecidableEq EL] in
theorem adds_nodes_edge (d : Bool) (ns : List (Id m)) (f : Id m → Option NL) (B : AGraph (Id m) NL EL) :
    (((ns.map (fun n => Op.addNode n (f n))) : List (Op m k NL EL)).foldl (step d) B).edge = B.edge := by
  induction ns generalizing B with
  | nil => rfl
  | cons n ns ih => simp only [List.map_cons, List.foldl_cons]; rw [ih]; rfl

omit [DecidableEq NL] [DecidableEq EL] in
theorem adds_edges (d : Bool) (es : List (Id m × Id m)) (f : Id m × Id m → Option EL)
    (B : AGraph (Id m) NL EL) :
    (∀ x, ((((es.map (fun e => Op.addEdge e.1 e.2 (f e))) : List (Op m k NL EL)).foldl (step d) B).node
      x).isSome = ((B.node x).isSome || decide (∃ e ∈ es, x = e.1 ∨ x = e.2))) ∧
    ∀ s t, ((((es.map (fun e => Op.addEdge e.1 e.2 (f e))) : List (Op m k NL EL)).foldl (step d) B).edge
      s t).isSome = ((B.edge s t).isSome || decide (∃ e ∈ es, AGraph.same d e.1 e.2 s t)) := by
  induction es generalizing B with
  | nil => exact ⟨fun x => by simp, fun s t => by simp⟩
  | cons e es ih =>
    obtain ⟨h1, h2⟩ := ih (step d B (Op.addEdge (k := k) e.1 e.2 (f e)))
    refine ⟨fun x => ?_, fun s t => ?_⟩
    · simp only [List.map_cons, List.foldl_cons]
      rw [h1]
      simp only [step, AGraph.addEdge]
      by_cases hx : x = e.1 ∨ x = e.2
      · cases hb : B.node x <;> simp [hx]
      · simp [hx]
    · simp only [List.map_cons, List.foldl_cons]
      rw [h2]
      simp only [step, AGraph.addEdge]
      by_cases hx : AGraph.same d e.1 e.2 s t
      · simp [hx]
      · simp [hx]

/-- **C87.** `graph_union` accepts graphs of different directedness. Whatever the two graphs, it does not
panic, keeps the directedness of the first, has the nodes of both, and `s -> t` is an edge of it exactly
if it is one of the first, or the second lists `s -> t`, or, when the first is undirected, the second
lists `t -> s`. The counter is the sum of the two listings. -/
theorem c87_union_any {g0 g1 : GView m k NL EL} {A B : AGraph (Id m) NL EL} (S0 : Shows g0 A)
    (S1 : Shows g1 B) :
    ∃ g, graphUnion g0 g1 = .ok g ∧ g.directed = g0.directed ∧ Reachable g ∧
      (∀ n, g.hasNode n = ((A.node n).isSome || (B.node n).isSome)) ∧
      (∀ s t, g.hasEdge s t = true ↔ (A.edge s t).isSome ∨ (s, t) ∈ g1.edgeIndices ∨
        (g0.directed = false ∧ (t, s) ∈ g1.edgeIndices)) ∧
      g.edgeCount = g0.edgeIndices.length + g1.edgeIndices.length := by
  obtain ⟨g, a1, a2, a3, _, _⟩ := exec_adds (unionCalls A B g0 g1) (new g0.directed : GraphMap m k NL EL)
    (inv_withLabelMap _ _ _ List.nodup_nil List.nodup_nil) (unionCalls_add A B g0 g1)
  have hr := exec_run a1
  obtain ⟨h1, h2⟩ := run_shape List.nodup_nil List.nodup_nil hr
  have hrun : Spec.run g0.directed (unionCalls A B g0 g1) =
      (edgeCalls B g1).foldl (step g0.directed) ((edgeCalls A g0).foldl (step g0.directed)
        ((nodeCalls B g1).foldl (step g0.directed) ((nodeCalls A g0).foldl (step g0.directed)
          AGraph.empty))) := by
    unfold Spec.run unionCalls
    rw [List.foldl_append, List.foldl_append, List.foldl_append]
  rw [hrun] at h2
  obtain ⟨hN, hE⟩ := h2
  refine ⟨g, by rw [graphUnion_exec S0 S1]; exact a1, h1, hr.reachable List.nodup_nil List.nodup_nil,
    ?_, ?_, ?_⟩
  · intro n
    rw [hasNode_eq_labE]
    refine (hN n).trans ?_
    have key : ∀ {g : GView m k NL EL} {A : AGraph (Id m) NL EL}, Shows g A → ∀ e ∈ g.edgeIndices,
        n = e.1 ∨ n = e.2 → n ∈ g.nodeIndices := by
      rintro g A S ⟨s, t⟩ he hx
      have := S.ends s t ((S.memEdges s t).1 he).1
      rcases hx with rfl | rfl
      · exact (S.memNodes _).2 this.1
      · exact (S.memNodes _).2 this.2
    have k0 := key S0
    have k1 := key S1
    unfold edgeCalls nodeCalls
    rw [(adds_edges g0.directed g1.edgeIndices _ _).1, (adds_edges g0.directed g0.edgeIndices _ _).1,
      adds_nodes, adds_nodes]
    rw [Bool.eq_iff_iff]
    simp only [AGraph.empty, Option.isSome_none, Bool.false_or, Bool.or_eq_true, decide_eq_true_eq,
      ← S0.memNodes, ← S1.memNodes]
    constructor
    · rintro (((h | h) | ⟨e, he, hx⟩) | ⟨e, he, hx⟩)
      · exact .inl h
      · exact .inr h
      · exact .inl (k0 e he hx)
      · exact .inr (k1 e he hx)
    · rintro (h | h)
      · exact .inl (.inl (.inl h))
      · exact .inl (.inl (.inr h))
  · intro s t
    rw [hasEdge_eq_outE]
    have hE : (g.outE s t).isSome = _ := hE s t
    rw [hE]
    unfold edgeCalls nodeCalls
    rw [(adds_edges g0.directed g1.edgeIndices _ _).2, (adds_edges g0.directed g0.edgeIndices _ _).2,
      adds_nodes_edge, adds_nodes_edge]
    simp only [AGraph.empty, Option.isSome_none, Bool.false_or, Bool.or_eq_true, decide_eq_true_eq]
    have same_iff : ∀ (es : List (Id m × Id m)), (∃ e ∈ es, AGraph.same g0.directed e.1 e.2 s t) ↔
        (s, t) ∈ es ∨ (g0.directed = false ∧ (t, s) ∈ es) := by
      intro es
      unfold AGraph.same
      constructor
      · rintro ⟨⟨a, b⟩, he, (⟨rfl, rfl⟩ | ⟨hd, rfl, rfl⟩)⟩
        · exact .inl he
        · exact .inr ⟨hd, he⟩
      · rintro (h | ⟨hd, h⟩)
        · exact ⟨_, h, .inl ⟨rfl, rfl⟩⟩
        · exact ⟨_, h, .inr ⟨hd, rfl, rfl⟩⟩
    rw [same_iff, same_iff]
    have : ((s, t) ∈ g0.edgeIndices ∨ (g0.directed = false ∧ (t, s) ∈ g0.edgeIndices)) ↔
        (A.edge s t).isSome := by
      rw [S0.memEdges, S0.memEdges]
      unfold AGraph.Listed
      constructor
      · rintro (⟨h, -⟩ | ⟨hd, h, -⟩)
        · exact h
        · rw [S0.sym hd]; exact h
      · intro h
        by_cases hst : g0.directed = true ∨ s ≤ t
        · exact .inl ⟨h, hst⟩
        · rw [not_or] at hst
          have hdf : g0.directed = false := by simpa using hst.1
          refine .inr ⟨hdf, ?_, .inr (le_of_lt (not_le.1 hst.2))⟩
          rw [S0.sym hdf]; exact h
    rw [this]
  · show g.numEdges = _
    rw [a3, unionCalls_count]
    simp [new, withLabelMap]

/-- Non-vacuity: an undirected edge `1-2` joined to a directed graph gives only `1 -> 2`. -/
example : ∃ g0 g1 g : GraphMap 9 3 String String, Reachable g0 ∧ Reachable g1 ∧ g0.directed ≠ g1.directed ∧
    graphUnion g0.view g1.view = .ok g ∧ g.hasEdge 1 2 = true ∧ g.hasEdge 2 1 = false ∧
    g1.hasEdge 2 1 = true := by
  refine ⟨_, _, _, smallGraph_reachable (d := true) (es := []) rfl,
    smallGraph_reachable (d := false) (es := [(2, 1, none)]) rfl, by decide, by rfl, by decide, by decide,
    by decide⟩

end Verif.Props
