import Verif.Proof.Mirror
import Verif.Props.Undo
import Verif.Props.ConnComp

/-! Property theorems about graphs with their edges turned around: C186. -/

namespace Verif.Props

open GraphMap Spec

variable {m k : Nat} {NL EL : Type} [DecidableEq NL] [DecidableEq EL]

omit [DecidableEq NL] [DecidableEq EL] in
theorem flipped_twice (op : Op m k NL EL) : flipped (flipped op) = op := by cases op <;> rfl

theorem run_last {start g : GraphMap m k NL EL} {l : List (Op m k NL EL)} (h : Run start l g) :
    ∀ ops op, l = ops ++ [op] → ∃ g0 g1, Run start ops g0 ∧ g0.apply op = .ok g1 ∧
      g1.nodeMap.Perm g.nodeMap ∧ g = { g1 with nodeMap := g.nodeMap } := by
  induction h with
  | nil => intro ops op h; simp at h
  | @step ops' op' g g' hr ha ih =>
    intro ops op h
    obtain ⟨rfl, e⟩ := List.append_inj' h rfl
    obtain rfl := List.singleton_inj.1 e
    exact ⟨g, g', hr, ha, .refl _, rfl⟩
  | @rehash ops' g nm hr hp ih =>
    intro ops op h
    obtain ⟨g0, g1, a, b, c, d⟩ := ih ops op h
    refine ⟨g0, g1, a, b, c.trans hp, ?_⟩
    rw [d]

theorem run_none {start g : GraphMap m k NL EL} {l : List (Op m k NL EL)} (h : Run start l g) (hl : l = []) :
    start.nodeMap.Perm g.nodeMap ∧ g = { start with nodeMap := g.nodeMap } := by
  induction h with
  | nil => exact ⟨.refl _, rfl⟩
  | step => simp at hl
  | @rehash ops' g nm hr hp ih =>
    obtain ⟨a, b⟩ := ih hl
    refine ⟨a.trans hp, ?_⟩
    rw [b]

/-- No call of the history writes labels through `edges_mut()`. -/
def NoEdgesMut (ops : List (Op m k NL EL)) : Prop := ∀ op ∈ ops, ∀ f, op ≠ .mapEdgeLabelIds f

theorem run_mirrored {d : Bool} {nl : SetMap NL} {el : SetMap EL} (hn : nl.labels.Nodup) (he : el.labels.Nodup)
    {ops : List (Op m k NL EL)} (hm : d = false → NoEdgesMut ops) {g : GraphMap m k NL EL}
    (hg : Run (withLabelMap d nl el) ops g) :
    ∀ h, Run (withLabelMap d nl el) (ops.map flipped) h → Mirrored g h := by
  induction hg with
  | nil =>
    intro h hh
    obtain ⟨a, b⟩ := run_none hh rfl
    rw [b]
    exact ((mirrored_start d nl el hn he).symm.rehash_left a).symm
  | @step ops op g g' hr ha ih =>
    intro h hh
    obtain ⟨h0, h1, b1, b2, b3, b4⟩ := run_last hh (ops.map flipped) (flipped op) (by simp)
    have H := ih (fun hd o ho => hm hd o (by simp [ho])) h0 b1
    have hd : g.directed = d := (run_shape hn he hr).1
    rcases H.apply op (fun hg f => hm (hd ▸ hg) op (by simp) f) with ⟨g2, h2, c1, c2, c3⟩ | ⟨p, c1, -⟩
    · rw [ha] at c1
      rw [b2] at c2
      cases c1; cases c2
      rw [b4]
      exact (c3.symm.rehash_left b3).symm
    · rw [ha] at c1; cases c1
  | @rehash ops g nm hr hp ih => intro h hh; exact (ih hm h hh).rehash_left hp

/-- **C186** Turning all edges of a history around changes nothing about panics. On an undirected graph this excludes
loops over `edges_mut()`, see `c186_edges_mut`. -/
theorem c186_panics {d : Bool} {nl : SetMap NL} {el : SetMap EL} (hn : nl.labels.Nodup) (he : el.labels.Nodup)
    {ops : List (Op m k NL EL)} (hm : d = false → NoEdgesMut ops) (p : Panic) :
    (withLabelMap d nl el).exec ops = .error p ↔ (withLabelMap d nl el).exec (ops.map flipped) = .error p := by
  suffices H : ∀ (ops : List (Op m k NL EL)) (g h : GraphMap m k NL EL), Mirrored g h →
      (g.directed = false → NoEdgesMut ops) →
      (g.exec ops = .error p ↔ h.exec (ops.map flipped) = .error p) from
    H ops _ _ (mirrored_start d nl el hn he) hm
  clear hm
  intro ops
  induction ops with
  | nil => intro g h _ _; exact iff_of_false (fun h => by cases h) (fun h => by cases h)
  | cons op ops ih =>
    intro g h H hm
    unfold exec
    simp only [List.map_cons, List.foldlM_cons]
    rcases H.apply op (fun hg f => hm hg op (by simp) f) with ⟨g', h', a, b, c⟩ | ⟨q, a, b⟩
    · have hd : g'.directed = g.directed := (refines_apply H.left a).directed
      rw [a, b, bind_ok, bind_ok]
      exact ih g' h' c (fun hg o ho => hm (hd ▸ hg) o (by simp [ho]))
    · rw [a, b, bind_error, bind_error]

/-- **C186** The two graphs have the same nodes, labels, counts and label tables, and an edge of the one is the
turned edge of the other. -/
theorem c186_graph {d : Bool} {nl : SetMap NL} {el : SetMap EL} (hn : nl.labels.Nodup) (he : el.labels.Nodup)
    {ops : List (Op m k NL EL)} (hm : d = false → NoEdgesMut ops) {g h : GraphMap m k NL EL}
    (hg : Run (withLabelMap d nl el) ops g) (hh : Run (withLabelMap d nl el) (ops.map flipped) h) :
    h.nodeCount = g.nodeCount ∧ h.edgeCount = g.edgeCount ∧ h.maxSeenId = g.maxSeenId ∧
    h.nodeLabels = g.nodeLabels ∧ h.edgeLabels = g.edgeLabels ∧ h.nodeIndices.Perm g.nodeIndices ∧
    (∀ n, h.hasNode n = g.hasNode n ∧ h.getNodeLabel n = g.getNodeLabel n) ∧
    (∀ s t, h.hasEdge t s = g.hasEdge s t ∧ h.getEdgeLabel t s = g.getEdgeLabel s t) ∧
    h.edgeIndices.length = g.edgeIndices.length ∧
    (d = true → (h.edgeIndices.map Prod.swap).Perm g.edgeIndices) := by
  have H := run_mirrored hn he hm hg h hh
  have hp : h.nodeIndices.Perm g.nodeIndices :=
    (List.perm_ext_iff_of_nodup H.right.keys H.left.keys).2 (fun n => by
      rw [show AL.keys h.nodeMap = h.nodeIndices from rfl, show AL.keys g.nodeMap = g.nodeIndices from rfl,
        mem_nodeIndices, mem_nodeIndices, H.hasNode])
  refine ⟨?_, H.num, H.mx, H.nl, H.el, hp, fun n => ⟨H.hasNode n, ?_⟩, fun s t => ⟨H.hasEdge s t, ?_⟩, ?_, fun hd => ?_⟩
  · have := hp.length_eq
    simpa [nodeIndices, AL.keys, nodeCount] using this
  · rw [getNodeLabel_eq, getNodeLabel_eq]
    simp only [decode, H.lab, H.nl]
  · rw [getEdgeLabel_eq, getEdgeLabel_eq]
    simp only [decode, H.out, H.el]
  · rw [edgeIndices_length H.left.toNWF, edgeIndices_length H.right.toNWF]
    exact mirrored_edgeNum H.left.sym H.dir H.out
  · have e1 := (run_shape hn he hg).1
    refine (List.perm_ext_iff_of_nodup ((edgeIndices_nodup H.right.toNWF).map Prod.swap_injective)
      (edgeIndices_nodup H.left.toNWF)).2 (fun ⟨s, t⟩ => ?_)
    have e2 : (s, t) ∈ h.edgeIndices.map Prod.swap ↔ (t, s) ∈ h.edgeIndices := by
      simp [List.mem_map]
    rw [e2, mem_edgeIndices H.right.toNWF, mem_edgeIndices H.left.toNWF]
    have hgd : g.directed = true := e1.trans hd
    simp only [H.out, H.dir, hgd, true_or, and_true]

omit [DecidableEq NL] [DecidableEq EL] in
theorem rows_faced {g h : GraphMap m k NL EL} (H : Mirrored g h) (hd : g.directed = true) {n : Id m}
    {a b : NodeMap m k} (ha : g.getNode n = some a) (hb : h.getNode n = some b) :
    a.neighborIds = b.inNeighborIds := by
  refine sorted_ext (H.left.sortedOut n a ha) (H.right.sortedIn n b hb) (fun x => ?_)
  have e1 := mem_neighborIds_iff ha x
  have e2 := mem_inNeighbors_iff hb x
  have e3 := H.right.inSpec (H.dir.trans hd) x n
  rw [H.out] at e3
  exact e1.trans (e3.symm.trans e2.symm)

omit [DecidableEq NL] [DecidableEq EL] in
theorem rows_undirected {g h : GraphMap m k NL EL} (H : Mirrored g h) (hd : g.directed = false) {n : Id m}
    {a b : NodeMap m k} (ha : g.getNode n = some a) (hb : h.getNode n = some b) :
    a.neighborIds = b.neighborIds := by
  refine sorted_ext (H.left.sortedOut n a ha) (H.right.sortedOut n b hb) (fun x => ?_)
  refine (mem_neighborIds_iff ha x).trans (Iff.trans ?_ (mem_neighborIds_iff hb x).symm)
  rw [H.out]
  exact ⟨H.left.sym hd n x, H.left.sym hd x n⟩

omit [DecidableEq NL] [DecidableEq EL] in
theorem nodes_both {g h : GraphMap m k NL EL} (H : Mirrored g h) (n : Id m) :
    (g.getNode n = none ∧ h.getNode n = none) ∨
      ∃ a b, g.getNode n = some a ∧ h.getNode n = some b ∧ b.label = a.label := by
  have := H.lab n
  unfold labE at this
  cases ha : g.getNode n with
  | none => rw [ha] at this; left; exact ⟨rfl, by simpa using this⟩
  | some a =>
    rw [ha] at this
    cases hb : h.getNode n with
    | none => rw [hb] at this; simp at this
    | some b => rw [hb] at this; right; exact ⟨a, b, rfl, rfl, by simpa using this⟩

/-- **C186** On directed graphs out-neighbours and in-neighbours are exchanged, and with them the degrees. -/
theorem c186_directed {nl : SetMap NL} {el : SetMap EL} (hn : nl.labels.Nodup) (he : el.labels.Nodup)
    {ops : List (Op m k NL EL)} {g h : GraphMap m k NL EL}
    (hg : Run (withLabelMap true nl el) ops g) (hh : Run (withLabelMap true nl el) (ops.map flipped) h) (n : Id m) :
    h.inNeighbors n = g.neighbors n ∧ h.neighbors n = g.inNeighbors n ∧
    h.inDegree n = g.degree n ∧ h.degree n = g.inDegree n := by
  have H := run_mirrored hn he (fun h => by cases h) hg h hh
  have hd : g.directed = true := (run_shape hn he hg).1
  unfold inNeighbors neighbors inDegree degree
  rcases nodes_both H n with ⟨a, b⟩ | ⟨a, b, ha, hb, -⟩
  · rw [a, b]; exact ⟨rfl, rfl, rfl, rfl⟩
  · rw [ha, hb]
    have e1 := rows_faced H hd ha hb
    have e2 := rows_faced H.symm (H.dir.trans hd) hb ha
    simp only
    refine ⟨by rw [e1], by rw [e2], ?_, ?_⟩
    · rw [show a.degree = a.neighborIds.length by simp [NodeMap.degree, NodeMap.neighborIds, AL.keys], e1]; rfl
    · rw [show b.degree = b.neighborIds.length by simp [NodeMap.degree, NodeMap.neighborIds, AL.keys], e2]; rfl

/-- **C186** On undirected graphs the direction in which the edges were named does not show in the rows at all. -/
theorem c186_undirected {nl : SetMap NL} {el : SetMap EL} (hn : nl.labels.Nodup) (he : el.labels.Nodup)
    {ops : List (Op m k NL EL)} (hm : NoEdgesMut ops) {g h : GraphMap m k NL EL}
    (hg : Run (withLabelMap false nl el) ops g) (hh : Run (withLabelMap false nl el) (ops.map flipped) h) :
    (∀ n, h.neighbors n = g.neighbors n ∧ h.degree n = g.degree n) ∧
    (∀ s t, h.hasEdge s t = g.hasEdge s t) ∧ h.edgeIndices.Perm g.edgeIndices := by
  have H := run_mirrored hn he (fun _ => hm) hg h hh
  have hd : g.directed = false := (run_shape hn he hg).1
  have hs : ∀ s t, h.hasEdge s t = g.hasEdge s t := fun s t => by
    rw [H.hasEdge, hasEdge_eq_outE, hasEdge_eq_outE, Bool.eq_iff_iff]
    exact ⟨H.left.sym hd t s, H.left.sym hd s t⟩
  refine ⟨fun n => ?_, hs, ?_⟩
  · unfold neighbors degree
    rcases nodes_both H n with ⟨a, b⟩ | ⟨a, b, ha, hb, -⟩
    · rw [a, b]; exact ⟨rfl, rfl⟩
    · rw [ha, hb]
      have e1 := rows_undirected H hd ha hb
      simp only
      refine ⟨by rw [e1], ?_⟩
      rw [show a.degree = a.neighborIds.length by simp [NodeMap.degree, NodeMap.neighborIds, AL.keys],
        show b.degree = b.neighborIds.length by simp [NodeMap.degree, NodeMap.neighborIds, AL.keys], e1]
  · refine (List.perm_ext_iff_of_nodup (edgeIndices_nodup H.right.toNWF) (edgeIndices_nodup H.left.toNWF)).2
      (fun ⟨s, t⟩ => ?_)
    rw [mem_edgeIndices H.right.toNWF, mem_edgeIndices H.left.toNWF, ← hasEdge_eq_outE, ← hasEdge_eq_outE, hs, H.dir]

/-- **C186** The next call returns the same on both graphs; a removed edge comes back turned around. -/
theorem c186_results {d : Bool} {nl : SetMap NL} {el : SetMap EL} (hn : nl.labels.Nodup) (he : el.labels.Nodup)
    {ops : List (Op m k NL EL)} (hm : d = false → NoEdgesMut ops) {g h : GraphMap m k NL EL}
    (hg : Run (withLabelMap d nl el) ops g) (hh : Run (withLabelMap d nl el) (ops.map flipped) h) :
    (∀ n l, (g.addNode n l).map Prod.snd = (h.addNode n l).map Prod.snd) ∧
    (∀ s t l, (g.addEdge s t l).map Prod.snd = (h.addEdge t s l).map Prod.snd) ∧
    (∀ s t, (g.removeEdge s t).map (fun r => r.2.map (fun e => (e.src, e.dst, e.label))) =
      (h.removeEdge t s).map (fun r => r.2.map (fun e => (e.dst, e.src, e.label)))) ∧
    (∀ n, (g.removeNode n).map (fun r => r.2.map (fun nd => (nd.id, nd.label))) =
      (h.removeNode n).map (fun r => r.2.map (fun nd => (nd.id, nd.label)))) := by
  have H := run_mirrored hn he hm hg h hh
  refine ⟨fun n l => ?_, fun s t l => ?_, fun s t => ?_, fun n => ?_⟩
  · obtain ⟨g', h', a, b, -⟩ := H.addNode n l
    rw [a, b]; rfl
  · obtain ⟨g', h', a, b, -⟩ := H.addEdge s t l
    rw [a, b]; rfl
  · obtain ⟨g', h', a, b, -⟩ := H.removeEdge s t
    rw [a, b]
    cases g.outE s t <;> rfl
  · rcases H.removeNode n with ⟨g', h', a, b, -⟩ | ⟨a, b⟩
    · rw [a, b]
      rcases nodes_both H n with ⟨ha, hb⟩ | ⟨x, y, ha, hb, hl⟩
      · rw [ha, hb]; rfl
      · rw [ha, hb]
        show Except.ok (some (x.id, x.label)) = Except.ok (some (y.id, y.label))
        rw [H.left.ids n x ha, H.right.ids n y hb, hl]
    · rw [a, b]

omit [DecidableEq NL] [DecidableEq EL] in
theorem offsets_lengths {X Y : Type} {a : List (List X)} {b : List (List Y)}
    (h : a.map List.length = b.map List.length) : offsetsOf a = offsetsOf b := by
  have hl : a.length = b.length := by simpa using congrArg List.length h
  unfold offsetsOf
  rw [hl]
  refine List.map_congr_left fun i _ => ?_
  rw [List.length_flatten, List.length_flatten, List.map_take, List.map_take, h]

omit [DecidableEq NL] [DecidableEq EL] in
theorem frozen_rows {g h : GraphMap m k NL EL} (H : Mirrored g h) (hd : g.directed = true) (j : Nat) :
    offsetsOf (h.inRows j) = offsetsOf (g.rows j) ∧
      (h.inRows j).flatten.map Prod.fst = (g.rows j).flatten.map Prod.fst := by
  have key : ∀ i, (h.inRowOf i).map Prod.fst = (g.rowOf i).map Prod.fst := by
    intro i
    unfold inRowOf GraphMap.rowOf
    rcases nodes_both H (Id.new i) with ⟨a, b⟩ | ⟨a, b, ha, hb, -⟩
    · rw [a, b]
    · rw [ha, hb]
      have := rows_faced H hd ha hb
      unfold NodeMap.neighborIds NodeMap.inNeighborIds AL.keys at this
      simp only [List.map_map, Function.comp_def, List.map_id']
      exact this.symm
  constructor
  · apply offsets_lengths
    unfold inRows rows
    rw [List.map_map, List.map_map]
    refine List.map_congr_left fun i _ => ?_
    simpa using congrArg List.length (key i)
  · rw [List.map_flatten, List.map_flatten]
    unfold inRows rows
    rw [List.map_map, List.map_map]
    congr 1
    exact List.map_congr_left fun i _ => key i

/-- **C186** Freezing both graphs succeeds or panics alike, and the frozen graphs have the offset and edge arrays of
out- and in-neighbours exchanged, and the same sizes, node label array and label tables. -/
theorem c186_frozen {nl : SetMap NL} {el : SetMap EL} (hn : nl.labels.Nodup) (he : el.labels.Nodup)
    {ops : List (Op m k NL EL)} {g h : GraphMap m k NL EL}
    (hg : Run (withLabelMap true nl el) ops g) (hh : Run (withLabelMap true nl el) (ops.map flipped) h) :
    (∃ r r' iv iv', g.intoStatic = .ok r ∧ h.intoStatic = .ok r' ∧ r.inEdgeVec = some iv ∧ r'.inEdgeVec = some iv' ∧
      r'.edgeVec.offsets = iv.offsets ∧ r'.edgeVec.edges = iv.edges ∧
      iv'.offsets = r.edgeVec.offsets ∧ iv'.edges = r.edgeVec.edges ∧
      r'.numNodes = r.numNodes ∧ r'.numEdges = r.numEdges ∧ r'.labels = r.labels ∧
      r'.nodeLabels = r.nodeLabels ∧ r'.edgeLabels = r.edgeLabels) ∨
    ∃ p, g.intoStatic = .error p ∧ h.intoStatic = .error p := by
  have H := run_mirrored hn he (fun h => by cases h) hg h hh
  have hd : g.directed = true := (run_shape hn he hg).1
  obtain ⟨c1, c2, -, -, -, c6, -⟩ := c186_graph hn he (fun h => by cases h) hg hh
  have hM : h.nodeIndices.max? = g.nodeIndices.max? := by
    refine Option.ext fun x => ?_
    rw [List.max?_eq_some_iff, List.max?_eq_some_iff, c6.mem_iff]
    refine and_congr Iff.rfl ⟨fun h b hb => h b (c6.mem_iff.2 hb), fun h b hb => h b (c6.mem_iff.1 hb)⟩
  cases hx : g.nodeIndices.max? with
  | none =>
    right
    refine ⟨.unwrapNone, ?_, ?_⟩
    · unfold intoStatic; rw [hx]; rfl
    · unfold intoStatic; rw [hM, hx]; rfl
  | some M =>
    by_cases hlt : M.val < m
    · left
      obtain ⟨r, a1, F⟩ := intoStatic_ok H.left.toNWF hx hlt
      obtain ⟨r', b1, F'⟩ := intoStatic_ok H.right.toNWF (hM.trans hx) hlt
      obtain ⟨iv, i1, E⟩ := F.inn hd
      obtain ⟨iv', i2, E'⟩ := F'.inn (H.dir.trans hd)
      obtain ⟨o1, o2⟩ := frozen_rows H hd (M.val + 1)
      obtain ⟨o3, o4⟩ := frozen_rows H.symm (H.dir.trans hd) (M.val + 1)
      refine ⟨r, r', iv, iv', a1, b1, i1, i2, ?_, ?_, ?_, ?_, ?_, ?_, ?_, ?_, ?_⟩
      · rw [F'.out.offsets, E.offsets, o3]
      · rw [F'.out.edges, E.edges, o4]
      · rw [F.out.offsets, E'.offsets, o1]
      · rw [F.out.edges, E'.edges, o2]
      · rw [F'.numNodes, F.numNodes, c1]
      · rw [F'.numEdges, F.numEdges, c2]
      · rw [F'.labels, F.labels]
        have : h.view.hasNodeLabels = g.view.hasNodeLabels := by
          show (h.nodeLabels.items.head?.isSome) = g.nodeLabels.items.head?.isSome
          rw [H.nl]
        rw [this]
        have hl : ∀ i, h.lidOf i = g.lidOf i := fun i => by
          unfold lidOf
          rcases nodes_both H (Id.new i) with ⟨a, b⟩ | ⟨a, b, ha, hb, hl⟩
          · rw [a, b]
          · rw [ha, hb]; simp [hl]
        rw [show h.lidOf = g.lidOf from funext hl]
      · rw [F'.nodeLabels, F.nodeLabels, H.nl]
      · rw [F'.edgeLabels, F.edgeLabels, H.el]
    · right
      have hv : M = Id.maxValue := by
        apply Fin.ext
        have := M.isLt
        show M.val = m
        omega
      have := (max_spec hx).1
      rw [hv] at this
      exact ⟨_, intoStatic_max this, intoStatic_max (by rw [H.hasNode]; exact this)⟩

/-- **C186** The components do not depend on the direction of the edges. -/
theorem c186_components {d : Bool} {nl : SetMap NL} {el : SetMap EL} (hn : nl.labels.Nodup) (he : el.labels.Nodup)
    {ops : List (Op m k NL EL)} (hm : d = false → NoEdgesMut ops) {g h : GraphMap m k NL EL}
    (hg : Run (withLabelMap d nl el) ops g) (hh : Run (withLabelMap d nl el) (ops.map flipped) h) :
    ∃ c c', ConnComp.new g.view = .ok c ∧ ConnComp.new h.view = .ok c' ∧ c'.getCount = c.getCount ∧
      ∀ a b, ∃ x x' r, c.isConnected a b = .ok (x, r) ∧ c'.isConnected a b = .ok (x', r) := by
  have H := run_mirrored hn he hm hg h hh
  have S := inv_shows H.left
  have T := inv_shows H.right
  have he : ∀ s t, (h.abs.edge s t).isSome = (g.abs.edge t s).isSome := fun s t => by
    rw [abs_edge_isSome H.right, abs_edge_isSome H.left, H.hasEdge]
  have ht : ∀ n, h.abs.Touched n ↔ g.abs.Touched n := fun n => by
    unfold AGraph.Touched
    simp only [he]
    exact exists_congr fun _ => or_comm
  have half : ∀ {A B : AGraph (Id m) NL EL}, (∀ s t, (B.edge s t).isSome = (A.edge t s).isSome) →
      ∀ a b, A.Connected a b → B.Connected a b := by
    intro A B he a b hab
    induction hab with
    | rel x y hxy => exact .symm _ _ (.rel _ _ (by rw [he]; exact hxy))
    | refl x => exact .refl x
    | symm x y _ ih => exact .symm _ _ ih
    | trans x y z _ _ i1 i2 => exact .trans _ _ _ i1 i2
  have hc : ∀ a b, h.abs.Connected a b ↔ g.abs.Connected a b := fun a b =>
    ⟨half (fun s t => (he t s).symm) a b, half he a b⟩
  obtain ⟨c, a1, a2⟩ := c35_graph S
  obtain ⟨c', b1, b2⟩ := c35_graph T
  obtain ⟨_, a3, a4⟩ := c36_graph S
  obtain ⟨_, b3, b4⟩ := c36_graph T
  rw [a1] at a3
  rw [b1] at b3
  cases a3; cases b3
  refine ⟨c, c', a1, b1, ?_, fun a b => ?_⟩
  · rw [a4, b4]
    simp only [ht, hc]
  · obtain ⟨x, r, e1, e2⟩ := a2 a b
    obtain ⟨x', r', e3, e4⟩ := b2 a b
    have : r' = r := by
      rw [Bool.eq_iff_iff, e2, e4, ht, ht, hc]
    subst this
    exact ⟨x, x', r', e1, e3⟩

/-- **C186** A loop over the edges of an undirected graph reaches only the stored entry with the smaller end first, so
after it the direction of the calls does show. -/
theorem c186_edges_mut : ∃ (ops : List (Op 9 3 String String)) (g h : GraphMap 9 3 String String),
    Run (withLabelMap false ⟨[]⟩ ⟨[]⟩) ops g ∧ Run (withLabelMap false ⟨[]⟩ ⟨[]⟩) (ops.map flipped) h ∧
      g.getEdgeLabel 1 2 = .ok (some "a") ∧ g.getEdgeLabel 2 1 = .ok (some "b") ∧
      h.getEdgeLabel 1 2 = .ok (some "a") ∧ h.getEdgeLabel 2 1 = .ok (some "b") := by
  let a : List (Op 9 3 String String) :=
    [.addEdgeLabel (some "a"), .addEdge 1 2 (some "b"), .mapEdgeLabelIds (fun _ _ _ => some 0)]
  obtain ⟨g, hg⟩ : ∃ g, (withLabelMap false ⟨[]⟩ ⟨[]⟩).exec a = .ok g := ⟨_, rfl⟩
  obtain ⟨h, hh⟩ : ∃ g, (withLabelMap false ⟨[]⟩ ⟨[]⟩).exec (a.map flipped) = .ok g := ⟨_, rfl⟩
  refine ⟨a, g, h, exec_run hg, exec_run hh, ?_⟩
  cases hg
  cases hh
  decide

/-- A history with a removed edge and an edge inserted twice. -/
def turnedCalls : List (Op 9 3 String String) :=
  [.addEdge 1 2 (some "x"), .addEdge 2 1 none, .addEdge 1 3 none, .addEdge 4 2 none, .removeEdge 4 2,
    .addEdge 1 3 none]

/-- What the example below looks at. -/
def turnedSight (d : Bool) (ops : List (Op 9 3 String String)) :
    Res (List Nat × List (List (Id 9)) × Option String) := do
  let g ← (withLabelMap d ⟨[]⟩ ⟨[]⟩ : GraphMap 9 3 String String).exec ops
  let l ← g.neighbors 1
  let i ← g.inNeighbors 1
  let e ← g.getEdgeLabel 1 2
  let r ← g.intoStatic
  pure ([g.edgeCount], [l, i, r.edgeVec.edges, (r.inEdgeVec.map (·.edges)).getD []], e)

example : (turnedSight true turnedCalls).toOption = some ([4], [[2, 3], [2], [2, 3, 1], [2, 1, 1]], some "x") ∧
    (turnedSight true (turnedCalls.map flipped)).toOption =
      some ([4], [[2], [2, 3], [2, 1, 1], [2, 3, 1]], none) ∧
    (turnedSight false turnedCalls).toOption = some ([4], [[2, 3], [], [2, 3, 1, 1], []], none) ∧
    (turnedSight false (turnedCalls.map flipped)).toOption = some ([4], [[2, 3], [], [2, 3, 1, 1], []], none) :=
  ⟨rfl, rfl, rfl, rfl⟩

example : ∃ g h : GraphMap 9 3 String String, Run (withLabelMap true ⟨[]⟩ ⟨[]⟩) turnedCalls g ∧
    Run (withLabelMap true ⟨[]⟩ ⟨[]⟩) (turnedCalls.map flipped) h ∧ NoEdgesMut turnedCalls :=
  ⟨_, _, exec_run rfl, exec_run rfl, by
    intro op ho f e
    subst e
    simp [turnedCalls] at ho⟩

end Verif.Props
