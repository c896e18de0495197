import Verif.Proof.Order
import Verif.Props.Csv

/-! C142: calls that do not meet may change places. C143: calls that undo each other. -/

namespace Verif.Props

open GraphMap Spec Order

variable {m k : Nat} {NL EL : Type} [DecidableEq NL] [DecidableEq EL]

/-- The two graphs answer all queries alike; enumerations may differ in order, label tables in the order of
labels. -/
structure SameAnswers (g h : GraphMap m k NL EL) : Prop where
  directed : g.isDirected = h.isDirected
  hasNode : ∀ n, g.hasNode n = h.hasNode n
  nodeLabel : ∀ n, g.getNodeLabel n = h.getNodeLabel n
  hasEdge : ∀ s t, g.hasEdge s t = h.hasEdge s t
  edgeLabel : ∀ s t, g.getEdgeLabel s t = h.getEdgeLabel s t
  neighbors : ∀ n, g.neighbors n = h.neighbors n
  degree : ∀ n, g.degree n = h.degree n
  inNeighbors : g.isDirected = true → ∀ n, g.inNeighbors n = h.inNeighbors n
  inDegree : g.isDirected = true → ∀ n, g.inDegree n = h.inDegree n
  nodes : g.nodeIndices.Perm h.nodeIndices
  edges : g.edgeIndices.Perm h.edgeIndices
  nodeCount : g.nodeCount = h.nodeCount

theorem sameAnswers_of {g h : GraphMap m k NL EL} (hg : Reachable g) (hh : Reachable h)
    (h0 : g.isDirected = h.isDirected) (h1 : ∀ n, g.hasNode n = h.hasNode n)
    (h2 : ∀ n, g.getNodeLabel n = h.getNodeLabel n) (h3 : ∀ s t, g.hasEdge s t = h.hasEdge s t)
    (h4 : ∀ s t, g.getEdgeLabel s t = h.getEdgeLabel s t) : SameAnswers g h := by
  have hN : g.nodeIndices.Perm h.nodeIndices :=
    (List.perm_ext_iff_of_nodup (c11_nodes hg).1 (c11_nodes hh).1).2 (fun n => by
      rw [(c11_nodes hg).2.1, (c11_nodes hh).2.1, h1])
  have hnb : ∀ n, g.neighbors n = h.neighbors n ∧ g.degree n = h.degree n := by
    intro n
    by_cases hn : g.hasNode n = true
    · obtain ⟨l, a1, a2, a3, a4⟩ := c09_neighbors hg n hn
      obtain ⟨l', b1, b2, b3, b4⟩ := c09_neighbors hh n (h1 n ▸ hn)
      have : l = l' := a2.eq_of_mem_iff b2 (fun t => by rw [a3, b3, h3])
      subst this
      exact ⟨a1.trans b1.symm, a4.trans b4.symm⟩
    · have hn := Bool.eq_false_iff.2 hn
      have a := c09_absent g n hn
      have b := c09_absent h n (h1 n ▸ hn)
      exact ⟨a.1.trans b.1.symm, a.2.1.trans b.2.1.symm⟩
  have hin : g.isDirected = true → ∀ n, g.inNeighbors n = h.inNeighbors n ∧ g.inDegree n = h.inDegree n := by
    intro hd n
    by_cases hn : g.hasNode n = true
    · obtain ⟨l, a1, a2, a3, a4⟩ := c09_in_neighbors hg hd n hn
      obtain ⟨l', b1, b2, b3, b4⟩ := c09_in_neighbors hh (h0 ▸ hd) n (h1 n ▸ hn)
      have : l = l' := a2.eq_of_mem_iff b2 (fun t => by rw [a3, b3, h3])
      subst this
      exact ⟨a1.trans b1.symm, a4.trans b4.symm⟩
    · have hn := Bool.eq_false_iff.2 hn
      have a := c09_absent g n hn
      have b := c09_absent h n (h1 n ▸ hn)
      exact ⟨a.2.2.1.trans b.2.2.1.symm, a.2.2.2.trans b.2.2.2.symm⟩
  refine ⟨h0, h1, h2, h3, h4, fun n => (hnb n).1, fun n => (hnb n).2, fun hd n => (hin hd n).1,
    fun hd n => (hin hd n).2, hN, ?_, ?_⟩
  · refine (List.perm_ext_iff_of_nodup (c11_edges hg).1 (c11_edges hh).1).2 (fun ⟨s, t⟩ => ?_)
    rw [(c11_edges hg).2.1, (c11_edges hh).2.1, h3, h0]
  · rw [(c11_nodes hg).2.2.1, (c11_nodes hh).2.2.1, hN.length_eq]

omit [DecidableEq NL] [DecidableEq EL] in
theorem labelOnly_perm {ops ops' : List (Op m k NL EL)} (h : ops.Perm ops')
    (hl : ∀ op ∈ ops, labelOnly op = true) : ∀ op ∈ ops', labelOnly op = true :=
  fun op ho => hl op (h.mem_iff.2 ho)

/-- **C142** If a history does not panic, neither does one that comes from it by swapping calls in a row that do not
meet. -/
theorem c142_no_panic {d : Bool} {nl : SetMap NL} {el : SetMap EL} (hn : nl.labels.Nodup) (he : el.labels.Nodup)
    {ops ops' : List (Op m k NL EL)} (hs : Swapped d ops ops') (hl : ∀ op ∈ ops, labelOnly op = true)
    {g : GraphMap m k NL EL} (h : Run (withLabelMap d nl el) ops g) :
    ∃ g', (withLabelMap d nl el).exec ops' = .ok g' := by
  have A := alike_of_swapped hs
  exact good_exec hn he ops' (labelOnly_perm A.perm hl) (A.good (run_good hn he h))

/-- **C142** Both histories lead to graphs that answer alike, also to `edge_count` and `max_seen_id`, with the same labels
in their tables. Label ids may differ. -/
theorem c142_same {d : Bool} {nl : SetMap NL} {el : SetMap EL} (hn : nl.labels.Nodup) (he : el.labels.Nodup)
    {ops ops' : List (Op m k NL EL)} (hs : Swapped d ops ops') (hl : ∀ op ∈ ops, labelOnly op = true)
    {g g' : GraphMap m k NL EL} (h : Run (withLabelMap d nl el) ops g) (h' : Run (withLabelMap d nl el) ops' g')
    (hc1 : g.nodeLabels.len ≤ k + 1) (hc2 : g.edgeLabels.len ≤ k + 1) :
    SameAnswers g g' ∧ g.edgeCount = g'.edgeCount ∧ g.maxSeenId = g'.maxSeenId ∧
      g.nodeLabels.items.Perm g'.nodeLabels.items ∧ g.edgeLabels.items.Perm g'.edgeLabels.items := by
  have A := alike_of_swapped hs
  have A' := alike_of_swapped (swapped_symm hs)
  have hl' := labelOnly_perm A.perm hl
  have hR := Run.reachable hn he h
  have hR' := Run.reachable hn he h'
  obtain ⟨t1, t2⟩ := run_tables hn he h
  obtain ⟨t1', t2'⟩ := run_tables hn he h'
  have p1 : g.nodeLabels.labels.Perm g'.nodeLabels.labels :=
    (List.perm_ext_iff_of_nodup hR.inv.nlNodup hR'.inv.nlNodup).2 (fun x => by
      rw [t1, t1']; exact or_congr Iff.rfl ⟨A.nodes x, A'.nodes x⟩)
  have p2 : g.edgeLabels.labels.Perm g'.edgeLabels.labels :=
    (List.perm_ext_iff_of_nodup hR.inv.elNodup hR'.inv.elNodup).2 (fun x => by
      rw [t2, t2']; exact or_congr Iff.rfl ⟨A.edges x, A'.edges x⟩)
  have hc1' : g'.nodeLabels.len ≤ k + 1 := by unfold SetMap.len at *; rw [← p1.length_eq]; exact hc1
  have hc2' : g'.edgeLabels.len ≤ k + 1 := by unfold SetMap.len at *; rw [← p2.length_eq]; exact hc2
  refine ⟨sameAnswers_of hR hR' ?_ ?_ ?_ ?_ ?_, ?_, ?_, p1, p2⟩
  · exact (run_shape hn he h).1.trans (run_shape hn he h').1.symm
  · intro n; rw [c05_has_node hn he h, c05_has_node hn he h', A.run]
  · intro n; rw [c05_node_label hn he h hl hc1 hc2, c05_node_label hn he h' hl' hc1' hc2', A.run]
  · intro s t; rw [c06_has_edge hn he h, c06_has_edge hn he h', A.run]
  · intro s t; rw [c06_edge_label hn he h hl hc1 hc2, c06_edge_label hn he h' hl' hc1' hc2', A.run]
  · rw [(c60_edge_count_exact hn he h).1, (c60_edge_count_exact hn he h').1, A.run, A.surplus]
  · have q := A.perm.flatMap_right touched
    obtain ⟨m1, m2⟩ := c14_max_seen_id hn he h
    obtain ⟨m1', m2'⟩ := c14_max_seen_id hn he h'
    cases hM : g.maxSeenId with
    | none =>
      rw [m1] at hM
      rw [hM] at q
      exact ((m1'.2 q.symm.eq_nil)).symm
    | some M =>
      rw [m2] at hM
      refine ((m2' M).2 ⟨q.mem_iff.1 hM.1, fun x hx => hM.2 x (q.mem_iff.2 hx)⟩).symm

/-- **C142** Calls no two of which meet may be made in any order. -/
theorem c142_any_order {d : Bool} {nl : SetMap NL} {el : SetMap EL} (hn : nl.labels.Nodup) (he : el.labels.Nodup)
    {ops ops' : List (Op m k NL EL)} (hp : ops.Perm ops') (ha : ops.Pairwise (Apart d))
    (hl : ∀ op ∈ ops, labelOnly op = true) {g g' : GraphMap m k NL EL} (h : Run (withLabelMap d nl el) ops g)
    (h' : Run (withLabelMap d nl el) ops' g') (hc1 : g.nodeLabels.len ≤ k + 1) (hc2 : g.edgeLabels.len ≤ k + 1) :
    SameAnswers g g' ∧ g.edgeCount = g'.edgeCount ∧ g.maxSeenId = g'.maxSeenId ∧
      g.nodeLabels.items.Perm g'.nodeLabels.items ∧ g.edgeLabels.items.Perm g'.edgeLabels.items :=
  c142_same hn he (swapped_of_perm hp ha) hl h h' hc1 hc2

theorem rows_perm {c : Csv.Settings} (hh : c.hasHeaders = true) {bs bs' : List Byte} {hdr : List (List Byte)}
    {rs rs' : List (List (List Byte))} (hp : Csv.parse c.separator bs = hdr :: rs)
    (hp' : Csv.parse c.separator bs' = hdr :: rs') (h : rs.Perm rs') :
    (Csv.rows c bs).1 = (Csv.rows c bs').1 ∧ (Csv.rows c bs).2.Perm (Csv.rows c bs').2 := by
  unfold Csv.rows
  rw [hp, hp']
  simp only [hh, if_true]
  exact ⟨trivial, h.filter _⟩

/-- **C142** The order of rows of CSV files with headers does not matter, unless two rows for one node or edge give
different labels. -/
theorem c142_csv_rows (d : Bool) {c : Csv.Settings} (hh : c.hasHeaders = true) (xf : Field (Id m)) (nf : Field NL)
    (ef : Field EL) {nb nb' eb eb' : List Byte} {nh eh : List (List Byte)} {nr nr' er er' : List (List (List Byte))}
    (n1 : Csv.parse c.separator nb = nh :: nr) (n2 : Csv.parse c.separator nb' = nh :: nr') (hn : nr.Perm nr')
    (e1 : Csv.parse c.separator eb = eh :: er) (e2 : Csv.parse c.separator eb' = eh :: er') (he : er.Perm er')
    (an : (Csv.nodeIter c xf nf nb).Pairwise (fun a b => a.1 = b.1 → a.2 = b.2))
    (ae : (Csv.edgeIter c xf ef eb).Pairwise (fun a b => AGraph.same d a.1 a.2.1 b.1 b.2.1 → a.2.2 = b.2.2)) :
    ∃ g g' : GraphMap m k NL EL, Csv.read c xf nf ef (some nb) eb (new d) = .ok g ∧
      Csv.read c xf nf ef (some nb') eb' (new d) = .ok g' ∧
      (g.nodeLabels.len ≤ k + 1 → g.edgeLabels.len ≤ k + 1 → SameAnswers g g' ∧ g.edgeCount = g'.edgeCount ∧
        g.maxSeenId = g'.maxSeenId) := by
  have h0 : Reachable (new d : GraphMap m k NL EL) := .start d _ _ List.nodup_nil List.nodup_nil
  obtain ⟨g, a1, -, a2⟩ := c52_read h0 c xf nf ef (some nb) eb
  obtain ⟨g', b1, -, b2⟩ := c52_read h0 c xf nf ef (some nb') eb'
  refine ⟨g, g', a1, b1, fun hc1 hc2 => ?_⟩
  obtain ⟨r1, r2⟩ := rows_perm hh n1 n2 hn
  obtain ⟨r3, r4⟩ := rows_perm hh e1 e2 he
  have q1 : (Csv.nodeIter c xf nf nb).Perm (Csv.nodeIter c xf nf nb') := by
    unfold Csv.nodeIter
    simp only [r1]
    exact r2.filterMap _
  have q2 : (Csv.edgeIter c xf ef eb).Perm (Csv.edgeIter c xf ef eb') := by
    unfold Csv.edgeIter
    simp only [r3]
    exact r4.filterMap _
  have hp : ((Csv.nodeIter c xf nf nb).map (fun r => (Op.addNode r.1 r.2 : Op m k NL EL)) ++
      (Csv.edgeIter c xf ef eb).map (fun r => (Op.addEdge r.1 r.2.1 r.2.2 : Op m k NL EL))).Perm
      ((Csv.nodeIter c xf nf nb').map (fun r => (Op.addNode r.1 r.2 : Op m k NL EL)) ++
      (Csv.edgeIter c xf ef eb').map (fun r => (Op.addEdge r.1 r.2.1 r.2.2 : Op m k NL EL))) :=
    (q1.map _).append (q2.map _)
  have key := c142_any_order (d := d) (nl := SetMap.empty) (el := SetMap.empty) (g := g) (g' := g')
    List.nodup_nil List.nodup_nil hp ?_ ?_ (exec_run a2) (exec_run b2) hc1 hc2
  · exact ⟨key.1, key.2.1, key.2.2.1⟩
  · refine List.pairwise_append.2 ⟨List.pairwise_map.2 (an.imp (fun {a b} h => ?_)),
      List.pairwise_map.2 (ae.imp (fun {a b} h => ?_)), ?_⟩
    · exact ⟨fun h' => h'.2 (h h'.1), fun h' => h'.2 (h h'.1.symm).symm⟩
    · refine ⟨fun h' => h'.2 (h h'.1), fun h' => h'.2 (h ?_).symm⟩
      rcases h'.1 with ⟨x, y⟩ | ⟨hd, x, y⟩
      · exact .inl ⟨x.symm, y.symm⟩
      · exact .inr ⟨hd, y.symm, x.symm⟩
    · intro a ha b hb
      obtain ⟨_, -, rfl⟩ := List.mem_map.1 ha
      obtain ⟨_, -, rfl⟩ := List.mem_map.1 hb
      exact ⟨id, id⟩
  · intro op ho
    rcases List.mem_append.1 ho with h | h
    · obtain ⟨_, -, rfl⟩ := List.mem_map.1 h; rfl
    · obtain ⟨_, -, rfl⟩ := List.mem_map.1 h; rfl

/-! ### C143 -/

theorem sameAnswers_extend {d : Bool} {nl : SetMap NL} {el : SetMap EL} (hn : nl.labels.Nodup) (he : el.labels.Nodup)
    {ops more : List (Op m k NL EL)} {g g' : GraphMap m k NL EL} (h : Run (withLabelMap d nl el) ops g)
    (h' : Run g more g') (hl : ∀ op ∈ ops ++ more, labelOnly op = true) (hc1 : g'.nodeLabels.len ≤ k + 1)
    (hc2 : g'.edgeLabels.len ≤ k + 1) (hr : more.foldl (step d) (Spec.run d ops) = Spec.run d ops) :
    SameAnswers g g' := by
  have h2 := run_append h h'
  have hR := Run.reachable hn he h
  have hR' := Run.reachable hn he h2
  obtain ⟨t1, t2⟩ := run_tables hn he h
  obtain ⟨t1', t2'⟩ := run_tables hn he h2
  have s1 : g.nodeLabels.len ≤ g'.nodeLabels.len :=
    (hR.inv.nlNodup.subperm (fun x hx => by
      rw [t1', nodeNamed_append]
      exact ((t1 x).1 hx).imp id .inl)).length_le
  have s2 : g.edgeLabels.len ≤ g'.edgeLabels.len :=
    (hR.inv.elNodup.subperm (fun x hx => by
      rw [t2', edgeNamed_append]
      exact ((t2 x).1 hx).imp id .inl)).length_le
  have e : Spec.run d (ops ++ more) = Spec.run d ops := by
    unfold Spec.run at *
    rw [List.foldl_append, hr]
  have hl1 : ∀ op ∈ ops, labelOnly op = true := fun o ho => hl o (by simp [ho])
  refine sameAnswers_of hR hR' ?_ ?_ ?_ ?_ ?_
  · exact (run_shape hn he h).1.trans (run_shape hn he h2).1.symm
  · intro n; rw [c05_has_node hn he h, c05_has_node hn he h2, e]
  · intro n; rw [c05_node_label hn he h hl1 (by omega) (by omega), c05_node_label hn he h2 hl hc1 hc2, e]
  · intro s t; rw [c06_has_edge hn he h, c06_has_edge hn he h2, e]
  · intro s t; rw [c06_edge_label hn he h hl1 (by omega) (by omega), c06_edge_label hn he h2 hl hc1 hc2, e]

theorem edgeCount_extend {d : Bool} {nl : SetMap NL} {el : SetMap EL} (hn : nl.labels.Nodup) (he : el.labels.Nodup)
    {ops more : List (Op m k NL EL)} {g g' : GraphMap m k NL EL} (h : Run (withLabelMap d nl el) ops g)
    (h' : Run g more g') (hr : more.foldl (step d) (Spec.run d ops) = Spec.run d ops) {c : Nat}
    (hc : ∀ b, (more.foldl (surplusStep d) (Spec.run d ops, b)).2 = b + c) : g'.edgeCount = g.edgeCount + c := by
  have e : Spec.run d (ops ++ more) = Spec.run d ops := by
    unfold Spec.run at *
    rw [List.foldl_append, hr]
  have es : surplus d (ops ++ more) = surplus d ops + c := by
    unfold surplus
    have q : Spec.run d ops = ((ops.foldl (surplusStep d) (AGraph.empty, 0)).1) := (surplus_fst d ops AGraph.empty 0).symm
    rw [List.foldl_append, ← hc, q]
  rw [(c60_edge_count_exact hn he (run_append h h')).1, (c60_edge_count_exact hn he h).1, e, es]
  omega

theorem maxSeen_extend {d : Bool} {nl : SetMap NL} {el : SetMap EL} (hn : nl.labels.Nodup) (he : el.labels.Nodup)
    {ops more : List (Op m k NL EL)} {g g' : GraphMap m k NL EL} (h : Run (withLabelMap d nl el) ops g)
    (h' : Run g more g') (hm : ∀ x ∈ more.flatMap touched, g.hasNode x = true) : g'.maxSeenId = g.maxSeenId := by
  have h2 := run_append h h'
  obtain ⟨m1, m2⟩ := c14_max_seen_id hn he h
  obtain ⟨m1', m2'⟩ := c14_max_seen_id hn he h2
  rw [List.flatMap_append] at m1' m2'
  have hb := fun x hx => c14_bounds_present (Run.reachable hn he h) x (hm x hx)
  cases hM : g.maxSeenId with
  | none =>
    rw [m1']
    rw [hM] at hb
    rw [m1] at hM
    rw [hM, List.nil_append, List.eq_nil_iff_forall_not_mem]
    intro x hx
    obtain ⟨M, e, -⟩ := hb x hx
    cases e
  | some M =>
    rw [m2']
    have hM' := (m2 M).1 hM
    refine ⟨List.mem_append.2 (.inl hM'.1), fun x hx => ?_⟩
    rcases List.mem_append.1 hx with hx | hx
    · exact hM'.2 x hx
    · obtain ⟨M', e, hle⟩ := hb x hx
      rw [hM] at e
      cases e
      exact hle

omit [DecidableEq NL] [DecidableEq EL] in
theorem labelOnly_two {ops : List (Op m k NL EL)} (hl : ∀ op ∈ ops, labelOnly op = true) {a b : Op m k NL EL}
    (ha : labelOnly a = true) (hb : labelOnly b = true) : ∀ op ∈ ops ++ [a, b], labelOnly op = true := by
  intro op ho
  simp only [List.mem_append, List.mem_cons, List.not_mem_nil, or_false] at ho
  rcases ho with h | rfl | rfl
  · exact hl op h
  · exact ha
  · exact hb

theorem run_two {g g1 g2 : GraphMap m k NL EL} {a b : Op m k NL EL} (h1 : g.apply a = .ok g1)
    (h2 : g1.apply b = .ok g2) : Run g [a, b] g2 :=
  .step (ops := [a]) (.step (ops := []) .nil h1) h2

/-- **C143** An edge that was not there is added between present nodes and removed again: every query answers as
before. -/
theorem c143_add_remove_edge {d : Bool} {nl : SetMap NL} {el : SetMap EL} (hn : nl.labels.Nodup) (he : el.labels.Nodup)
    {ops : List (Op m k NL EL)} {g : GraphMap m k NL EL} (h : Run (withLabelMap d nl el) ops g)
    (hl : ∀ op ∈ ops, labelOnly op = true) {s t : Id m} (hs : g.hasNode s = true) (ht : g.hasNode t = true)
    (hst : g.hasEdge s t = false) (l : Option EL) :
    ∃ g1 g2 r1 r2, g.addEdge s t l = .ok (g1, r1) ∧ g1.removeEdge s t = .ok (g2, r2) ∧
      g2.edgeCount = g.edgeCount ∧ g2.maxSeenId = g.maxSeenId ∧
      (g2.nodeLabels.len ≤ k + 1 → g2.edgeLabels.len ≤ k + 1 → SameAnswers g g2) := by
  have hR := Run.reachable hn he h
  obtain ⟨g1, e1⟩ := c07_add_edge hR s t l
  have a1 : g.apply (.addEdge s t l) = .ok g1 := by simp only [apply, e1]; rfl
  obtain ⟨g2, r2, e2, -⟩ := c07_remove_edge (.step hR a1) s t
  have a2 : g1.apply (.removeEdge s t) = .ok g2 := by simp only [apply, e2]; rfl
  have h2 := run_two a1 a2
  rw [c05_has_node hn he h] at hs ht
  rw [c06_has_edge hn he h] at hst
  have hA := run_sym d ops
  have hr : [Op.addEdge s t l, .removeEdge s t].foldl (step (k := k) d) (Spec.run d ops) = Spec.run d ops := by
    generalize Spec.run d ops = A at *
    refine AGraph_ext (fun n => ?_) (fun a b => ?_) <;>
      simp only [List.foldl_cons, List.foldl_nil, step, AGraph.addEdge, AGraph.removeEdge, AGraph.same, Order.Sym, Option.isSome_eq_false_iff, Option.isNone_iff_eq_none, Option.isSome_iff_exists] at * <;> grind
  refine ⟨g1, g2, _, r2, e1, e2, ?_, ?_, fun c1 c2 => sameAnswers_extend hn he h h2 (labelOnly_two hl rfl rfl) c1 c2 hr⟩
  · refine edgeCount_extend (c := 0) hn he h h2 hr (fun b => ?_)
    simp only [List.foldl_cons, List.foldl_nil, surplusStep, hst]
    rfl
  · refine maxSeen_extend hn he h h2 (fun x hx => ?_)
    rw [c05_has_node hn he h]
    simp only [List.flatMap_cons, List.flatMap_nil, touched, List.append_nil, List.mem_cons, List.not_mem_nil, or_false] at hx
    rcases hx with rfl | rfl
    · exact hs
    · exact ht

/-- **C143** An edge is removed and added again with the label it had. -/
theorem c143_remove_add_edge {d : Bool} {nl : SetMap NL} {el : SetMap EL} (hn : nl.labels.Nodup) (he : el.labels.Nodup)
    {ops : List (Op m k NL EL)} {g : GraphMap m k NL EL} (h : Run (withLabelMap d nl el) ops g)
    (hl : ∀ op ∈ ops, labelOnly op = true) (hc1 : g.nodeLabels.len ≤ k + 1) (hc2 : g.edgeLabels.len ≤ k + 1)
    {s t : Id m} (hst : g.hasEdge s t = true) {l : Option EL} (hlab : g.getEdgeLabel s t = .ok l) :
    ∃ g1 g2 r1 r2, g.removeEdge s t = .ok (g1, r1) ∧ g1.addEdge s t l = .ok (g2, r2) ∧
      g2.edgeCount = g.edgeCount ∧ g2.maxSeenId = g.maxSeenId ∧
      (g2.nodeLabels.len ≤ k + 1 → g2.edgeLabels.len ≤ k + 1 → SameAnswers g g2) := by
  have hR := Run.reachable hn he h
  obtain ⟨g1, r1, e1, -⟩ := c07_remove_edge hR s t
  have a1 : g.apply (.removeEdge s t) = .ok g1 := by simp only [apply, e1]; rfl
  obtain ⟨g2, e2⟩ := c07_add_edge (.step hR a1) s t l
  have a2 : g1.apply (.addEdge s t l) = .ok g2 := by simp only [apply, e2]; rfl
  have h2 := run_two a1 a2
  obtain ⟨hs, ht⟩ := c10_no_dangling hR s t hst
  have hs' := hs
  have ht' := ht
  rw [c05_has_node hn he h] at hs ht
  rw [c06_has_edge hn he h] at hst
  rw [c06_edge_label hn he h hl hc1 hc2] at hlab
  have hlab := Except.ok.inj hlab
  have hA := run_sym d ops
  have hst' : (Spec.run d ops).edge s t = some l := by
    cases e : (Spec.run d ops).edge s t with
    | none => rw [e] at hst; cases hst
    | some o => rw [e] at hlab; exact congrArg some hlab
  have hr : [Op.removeEdge s t, .addEdge s t l].foldl (step (k := k) d) (Spec.run d ops) = Spec.run d ops := by
    generalize Spec.run d ops = A at *
    refine AGraph_ext (fun n => ?_) (fun a b => ?_) <;>
      simp only [List.foldl_cons, List.foldl_nil, step, AGraph.addEdge, AGraph.removeEdge, AGraph.same, Order.Sym, Option.isSome_eq_false_iff, Option.isNone_iff_eq_none, Option.isSome_iff_exists] at * <;> grind
  refine ⟨g1, g2, r1, _, e1, e2, ?_, ?_, fun c1 c2 => sameAnswers_extend hn he h h2 (labelOnly_two hl rfl rfl) c1 c2 hr⟩
  · refine edgeCount_extend (c := 0) hn he h h2 hr (fun b => ?_)
    simp only [List.foldl_cons, List.foldl_nil, surplusStep, step, AGraph.removeEdge]
    simp [AGraph.same]
  · refine maxSeen_extend hn he h h2 (fun x hx => ?_)
    simp only [List.flatMap_cons, List.flatMap_nil, touched, List.nil_append, List.append_nil, List.mem_cons, List.not_mem_nil, or_false] at hx
    rcases hx with rfl | rfl
    · exact hs'
    · exact ht'

/-- **C143** A new node is added and removed again: only `max_seen_id` may have grown. -/
theorem c143_add_remove_node {d : Bool} {nl : SetMap NL} {el : SetMap EL} (hn : nl.labels.Nodup) (he : el.labels.Nodup)
    {ops : List (Op m k NL EL)} {g : GraphMap m k NL EL} (h : Run (withLabelMap d nl el) ops g)
    (hl : ∀ op ∈ ops, labelOnly op = true) {n : Id m} (hs : g.hasNode n = false) (l : Option NL) :
    ∃ g1 g2 r1 r2, g.addNode n l = .ok (g1, r1) ∧ g1.removeNode n = .ok (g2, r2) ∧
      g2.edgeCount = g.edgeCount ∧ (∃ M, g2.maxSeenId = some M ∧ (M = n ∨ g.maxSeenId = some M) ∧ n ≤ M ∧
        ∀ M', g.maxSeenId = some M' → M' ≤ M) ∧
      (g2.nodeLabels.len ≤ k + 1 → g2.edgeLabels.len ≤ k + 1 → SameAnswers g g2) := by
  have hR := Run.reachable hn he h
  obtain ⟨g1, e1⟩ := c07_add_node hR n l
  have a1 : g.apply (.addNode n l) = .ok g1 := by simp only [apply, e1]; rfl
  have hd := fun s t => c10_no_dangling hR s t
  have hloop : g1.hasEdge n n = false := by
    rw [c06_has_edge hn he (.step h a1)]
    unfold Spec.run
    rw [List.foldl_append]
    show ((Spec.run d ops).edge n n).isSome = false
    rw [← c06_has_edge hn he h]
    by_contra hc
    have := (hd n n (Bool.not_eq_false _ ▸ hc)).1
    rw [hs] at this
    cases this
  obtain ⟨g2, e2, -⟩ := c07_remove_node (.step hR a1) n hloop
  have a2 : g1.apply (.removeNode n) = .ok g2 := by simp only [apply, e2]; rfl
  have h2 := run_two a1 a2
  have hE : ∀ s t, (s = n ∨ t = n) → (Spec.run d ops).edge s t = none := by
    intro s t hst
    have := hd s t
    rw [c06_has_edge hn he h] at this
    cases e : (Spec.run d ops).edge s t with
    | none => rfl
    | some o =>
      rw [e] at this
      have := this rfl
      rcases hst with rfl | rfl
      · rw [hs] at this; cases this.1
      · rw [hs] at this; cases this.2
  rw [c05_has_node hn he h] at hs
  have hr : [Op.addNode n l, .removeNode n].foldl (step (k := k) d) (Spec.run d ops) = Spec.run d ops := by
    generalize Spec.run d ops = A at *
    refine AGraph_ext (fun n => ?_) (fun a b => ?_) <;>
      simp only [List.foldl_cons, List.foldl_nil, step, AGraph.addNode, AGraph.removeNode, Option.isSome_eq_false_iff, Option.isNone_iff_eq_none] at * <;> grind
  refine ⟨g1, g2, _, _, e1, e2, ?_, ?_, fun c1 c2 => sameAnswers_extend hn he h h2 (labelOnly_two hl rfl rfl) c1 c2 hr⟩
  · exact edgeCount_extend (c := 0) hn he h h2 hr (fun b => rfl)
  · obtain ⟨m1, m2⟩ := c14_max_seen_id hn he h
    obtain ⟨m1', m2'⟩ := c14_max_seen_id hn he (run_append h h2)
    rw [List.flatMap_append] at m1' m2'
    simp only [List.flatMap_cons, List.flatMap_nil, touched, List.append_nil] at m1' m2'
    cases hM : g2.maxSeenId with
    | none => rw [m1'] at hM; simp at hM
    | some M =>
      have hM' := (m2' M).1 hM
      refine ⟨M, rfl, ?_, hM'.2 n (by simp), fun M' h' => hM'.2 M' (List.mem_append_left _ ((m2 M').1 h').1)⟩
      rcases List.mem_append.1 hM'.1 with hx | hx
      · exact .inr ((m2 M).2 ⟨hx, fun x hx => hM'.2 x (by simp [hx])⟩)
      · exact .inl (List.mem_singleton.1 hx)

/-- **C143** A node without edges is removed and added again with the label it had. -/
theorem c143_remove_add_node {d : Bool} {nl : SetMap NL} {el : SetMap EL} (hn : nl.labels.Nodup) (he : el.labels.Nodup)
    {ops : List (Op m k NL EL)} {g : GraphMap m k NL EL} (h : Run (withLabelMap d nl el) ops g)
    (hl : ∀ op ∈ ops, labelOnly op = true) (hc1 : g.nodeLabels.len ≤ k + 1) (hc2 : g.edgeLabels.len ≤ k + 1)
    {n : Id m} (hs : g.hasNode n = true) (hi : ∀ x, g.hasEdge n x = false ∧ g.hasEdge x n = false)
    {l : Option NL} (hlab : g.getNodeLabel n = l) :
    ∃ g1 g2 r1 r2, g.removeNode n = .ok (g1, r1) ∧ g1.addNode n l = .ok (g2, r2) ∧
      g2.edgeCount = g.edgeCount ∧ g2.maxSeenId = g.maxSeenId ∧
      (g2.nodeLabels.len ≤ k + 1 → g2.edgeLabels.len ≤ k + 1 → SameAnswers g g2) := by
  have hR := Run.reachable hn he h
  obtain ⟨g1, e1, -⟩ := c07_remove_node hR n (hi n).1
  have a1 : g.apply (.removeNode n) = .ok g1 := by simp only [apply, e1]; rfl
  obtain ⟨g2, e2⟩ := c07_add_node (.step hR a1) n l
  have a2 : g1.apply (.addNode n l) = .ok g2 := by simp only [apply, e2]; rfl
  have h2 := run_two a1 a2
  have hE : ∀ s t, (s = n ∨ t = n) → (Spec.run d ops).edge s t = none := by
    intro s t hst
    have h1 := (hi t).1
    have h3 := (hi s).2
    rw [c06_has_edge hn he h] at h1 h3
    rcases hst with rfl | rfl
    · simpa using h1
    · simpa using h3
  have hs' := hs
  rw [c05_has_node hn he h] at hs
  rw [c05_node_label hn he h hl hc1 hc2] at hlab
  have hr : [Op.removeNode n, .addNode n l].foldl (step (k := k) d) (Spec.run d ops) = Spec.run d ops := by
    generalize Spec.run d ops = A at *
    refine AGraph_ext (fun x => ?_) (fun a b => ?_) <;>
      simp only [List.foldl_cons, List.foldl_nil, step, AGraph.addNode, AGraph.removeNode, Option.isSome_iff_exists] at * <;> grind
  refine ⟨g1, g2, _, _, e1, e2, ?_, ?_, fun c1 c2 => sameAnswers_extend hn he h h2 (labelOnly_two hl rfl rfl) c1 c2 hr⟩
  · exact edgeCount_extend (c := 0) hn he h h2 hr (fun b => rfl)
  · refine maxSeen_extend hn he h h2 (fun x hx => ?_)
    simp only [List.flatMap_cons, List.flatMap_nil, touched, List.nil_append, List.append_nil, List.mem_cons, List.not_mem_nil, or_false] at hx
    exact hx ▸ hs'

/-- **C143** A node gets another label and then its old one again. -/
theorem c143_relabel_node {d : Bool} {nl : SetMap NL} {el : SetMap EL} (hn : nl.labels.Nodup) (he : el.labels.Nodup)
    {ops : List (Op m k NL EL)} {g : GraphMap m k NL EL} (h : Run (withLabelMap d nl el) ops g)
    (hl : ∀ op ∈ ops, labelOnly op = true) (hc1 : g.nodeLabels.len ≤ k + 1) (hc2 : g.edgeLabels.len ≤ k + 1)
    {n : Id m} {l : Option NL} (hlab : g.getNodeLabel n = l) (l' : Option NL) :
    ∃ g1 g2 r1 r2, g.updateNodeLabel n l' = .ok (g1, r1) ∧ g1.updateNodeLabel n l = .ok (g2, r2) ∧
      g2.edgeCount = g.edgeCount ∧ g2.maxSeenId = g.maxSeenId ∧
      (g2.nodeLabels.len ≤ k + 1 → g2.edgeLabels.len ≤ k + 1 → SameAnswers g g2) := by
  have hR := Run.reachable hn he h
  obtain ⟨g1, e1, -⟩ := c07_update_node_label hR n l'
  have a1 : g.apply (.updateNodeLabel n l') = .ok g1 := by simp only [apply, e1]; rfl
  obtain ⟨g2, e2, -⟩ := c07_update_node_label (.step hR a1) n l
  have a2 : g1.apply (.updateNodeLabel n l) = .ok g2 := by simp only [apply, e2]; rfl
  have h2 := run_two a1 a2
  rw [c05_node_label hn he h hl hc1 hc2] at hlab
  have hr : [Op.updateNodeLabel n l', .updateNodeLabel n l].foldl (step (k := k) d) (Spec.run d ops) = Spec.run d ops := by
    generalize Spec.run d ops = A at *
    refine AGraph_ext (fun x => ?_) (fun a b => ?_)
    · simp only [List.foldl_cons, List.foldl_nil, step, unl_node]
      cases e : A.node n <;> grind
    · simp only [List.foldl_cons, List.foldl_nil, step, unl_edge]
  refine ⟨g1, g2, _, _, e1, e2, ?_, ?_, fun c1 c2 => sameAnswers_extend hn he h h2 (labelOnly_two hl rfl rfl) c1 c2 hr⟩
  · exact edgeCount_extend (c := 0) hn he h h2 hr (fun b => rfl)
  · exact maxSeen_extend hn he h h2 (fun x hx => by simp [touched] at hx)

/-- **C143** An edge gets another label and then its old one again: `edge_count` is two too large afterwards, all
else is as before. -/
theorem c143_relabel_edge {d : Bool} {nl : SetMap NL} {el : SetMap EL} (hn : nl.labels.Nodup) (he : el.labels.Nodup)
    {ops : List (Op m k NL EL)} {g : GraphMap m k NL EL} (h : Run (withLabelMap d nl el) ops g)
    (hl : ∀ op ∈ ops, labelOnly op = true) (hc1 : g.nodeLabels.len ≤ k + 1) (hc2 : g.edgeLabels.len ≤ k + 1)
    {s t : Id m} (hst : g.hasEdge s t = true) {l : Option EL} (hlab : g.getEdgeLabel s t = .ok l) (l' : Option EL) :
    ∃ g1 g2 r1 r2, g.updateEdgeLabel s t l' = .ok (g1, r1) ∧ g1.updateEdgeLabel s t l = .ok (g2, r2) ∧
      g2.edgeCount = g.edgeCount + 2 ∧ g2.maxSeenId = g.maxSeenId ∧
      (g2.nodeLabels.len ≤ k + 1 → g2.edgeLabels.len ≤ k + 1 → SameAnswers g g2) := by
  have hR := Run.reachable hn he h
  obtain ⟨g1, e1, -⟩ := c07_update_edge_label hR s t l'
  have a1 : g.apply (.updateEdgeLabel s t l') = .ok g1 := by simp only [apply, e1]; rfl
  obtain ⟨g2, e2, -⟩ := c07_update_edge_label (.step hR a1) s t l
  have a2 : g1.apply (.updateEdgeLabel s t l) = .ok g2 := by simp only [apply, e2]; rfl
  have h2 := run_two a1 a2
  rw [c06_has_edge hn he h] at hst
  rw [c06_edge_label hn he h hl hc1 hc2] at hlab
  have hlab := Except.ok.inj hlab
  have hA := run_sym d ops
  have hst' : (Spec.run d ops).edge s t = some l := by
    cases e : (Spec.run d ops).edge s t with
    | none => rw [e] at hst; cases hst
    | some o => rw [e] at hlab; exact congrArg some hlab
  have hr : [Op.updateEdgeLabel s t l', .updateEdgeLabel s t l].foldl (step (k := k) d) (Spec.run d ops) = Spec.run d ops := by
    generalize Spec.run d ops = A at *
    refine AGraph_ext (fun x => ?_) (fun a b => ?_)
    · simp only [List.foldl_cons, List.foldl_nil, step, uel_node]
    · simp only [List.foldl_cons, List.foldl_nil, step, uel_edge, AGraph.same, Order.Sym] at *
      grind
  refine ⟨g1, g2, _, _, e1, e2, ?_, ?_, fun c1 c2 => sameAnswers_extend hn he h h2 (labelOnly_two hl rfl rfl) c1 c2 hr⟩
  · refine edgeCount_extend (c := 2) hn he h h2 hr (fun b => ?_)
    simp only [List.foldl_cons, List.foldl_nil, surplusStep, step, uel_edge, hst', AGraph.same]
    simp
  · exact maxSeen_extend hn he h h2 (fun x hx => by simp [touched] at hx)

/-! ### Concrete cases -/

/-- Four calls, two of which ask for the same node. -/
def firstOrder : List (Op 9 3 String String) :=
  [.addNode 3 (some "x"), .addEdge 1 2 (some "a"), .addNode 5 none, .addEdge 1 5 (some "b")]

/-- The same calls in another order. -/
def otherOrder : List (Op 9 3 String String) :=
  [.addNode 5 none, .addEdge 1 5 (some "b"), .addNode 3 (some "x"), .addEdge 1 2 (some "a")]

theorem firstOrder_apart : firstOrder.Pairwise (Apart false) := by
  unfold firstOrder
  simp [Apart, Meets, AGraph.same]

set_option maxRecDepth 8000 in
/-- Nothing in common but the answers: the label tables differ. -/
example : firstOrder.Perm otherOrder ∧ firstOrder.Pairwise (Apart false) ∧ (∀ op ∈ firstOrder, labelOnly op = true) ∧
    ∃ g g', (withLabelMap false SetMap.empty SetMap.empty).exec firstOrder = .ok g ∧
      (withLabelMap false SetMap.empty SetMap.empty).exec otherOrder = .ok g' ∧
      g.edgeLabels.items = ["a", "b"] ∧ g'.edgeLabels.items = ["b", "a"] ∧
      g.getEdgeLabel 1 2 = .ok (some "a") ∧ g'.getEdgeLabel 1 2 = .ok (some "a") := by
  refine ⟨List.perm_append_comm (l₁ := [_, _]) (l₂ := [_, _]), firstOrder_apart, by decide, _, _, rfl, rfl, by decide, by decide, by decide, by decide⟩

set_option maxRecDepth 8000 in
/-- Calls that meet may not change places: the later label stays, and an edge in the way makes `remove_node` panic. -/
example : ¬ Apart (m := 9) (k := 3) (NL := String) (EL := String) false (.addNode 1 (some "a")) (.addNode 1 (some "b")) ∧
    (∃ g g' : GraphMap 9 3 String String,
      (withLabelMap false SetMap.empty SetMap.empty).exec [.addNode 1 (some "a"), .addNode 1 (some "b")] = .ok g ∧
      (withLabelMap false SetMap.empty SetMap.empty).exec [.addNode 1 (some "b"), .addNode 1 (some "a")] = .ok g' ∧
      g.getNodeLabel 1 = some "b" ∧ g'.getNodeLabel 1 = some "a") ∧
    (∃ g : GraphMap 9 3 String String, (withLabelMap false SetMap.empty SetMap.empty).exec
      [.addEdge 1 1 none, .removeEdge 1 1, .removeNode 1] = .ok g) ∧
    (∃ e, (withLabelMap false SetMap.empty SetMap.empty : GraphMap 9 3 String String).exec
      [.addEdge 1 1 none, .removeNode 1, .removeEdge 1 1] = .error e) := by
  refine ⟨by simp [Apart, Meets], ⟨_, _, rfl, rfl, by decide, by decide⟩, ⟨_, rfl⟩, ⟨_, rfl⟩⟩

/-- Node files with their rows in two orders. -/
def nodeRows : List (List Byte) := [lines ["nodeId:ID,:LABEL", "1,a", "2,b", "1,a"], lines ["nodeId:ID,:LABEL", "2,b", "1,a", "1,a"]]

set_option maxRecDepth 16000 in
example : ∃ h r r', Csv.parse 44 (nodeRows.headD []) = h :: r ∧ Csv.parse 44 (nodeRows.getD 1 []) = h :: r' ∧ r.Perm r' ∧ r ≠ r' ∧
    (Csv.nodeIter usual (.decimal 255) .text (nodeRows.headD [])).Pairwise (fun a b => a.1 = b.1 → a.2 = b.2) :=
  ⟨_, _, _, rfl, rfl, by decide, by decide, by decide⟩

set_option maxRecDepth 16000 in
/-- A graph and what the laws of C143 ask of it. -/
example : ∃ g, (withLabelMap false SetMap.empty SetMap.empty).exec firstOrder = .ok g ∧
    g.hasNode 3 = true ∧ g.hasNode 2 = true ∧ g.hasEdge 3 2 = false ∧ g.hasEdge 1 2 = true ∧
    g.getEdgeLabel 1 2 = .ok (some "a") ∧ g.hasNode 4 = false ∧ (∀ x, g.hasEdge 3 x = false ∧ g.hasEdge x 3 = false) ∧
    g.getNodeLabel 3 = some "x" ∧ g.nodeLabels.len ≤ 3 + 1 ∧ g.edgeLabels.len ≤ 3 + 1 :=
  ⟨_, rfl, by decide, by decide, by decide, by decide, by decide, by decide, by decide, by decide, by decide, by decide⟩

end Verif.Props
