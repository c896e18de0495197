import Verif.Model.Handles
import Verif.Props.Static
import Verif.Props.GraphState

/-! Property theorems about the handles of nodes and edges and about raw access to a node record:
C79, C80, C81. -/

namespace Verif.Props

open GraphMap Spec

variable {m k : Nat} {NL EL : Type}

/-! ### C79: read handles -/

/-- **C79.** `get_node` on the mutable graph. -/
theorem c79_node [DecidableEq NL] [DecidableEq EL] {g : GraphMap m k NL EL} (hg : Reachable g)
    (n : Id m) :
    (g.getNodeHandle n).isSome = g.hasNode n ∧ (g.getNodeHandle n).isNone = !g.hasNode n ∧
    g.getNodeLabel n = (g.getNodeHandle n).getLabelId.bind (fun l => g.nodeLabels.getItem l.val) ∧
    (g.hasNode n = true → (g.getNodeHandle n).getId = .ok n ∧
      (∃ nd, (g.getNodeHandle n).unwrapNodeMap = .ok nd ∧ nd.id = n ∧
        g.neighbors n = .ok nd.neighborIds ∧ (g.getNodeHandle n).getLabelId = nd.label) ∧
      (g.getNodeHandle n).unwrapStatic = .error .explicit) ∧
    (g.hasNode n = false → (g.getNodeHandle n).getId = .error .explicit ∧
      (g.getNodeHandle n).getLabelId = none ∧
      (g.getNodeHandle n).unwrapNodeMap = .error .explicit ∧
      (g.getNodeHandle n).unwrapStatic = .error .explicit) := by
  unfold getNodeHandle
  cases h : AL.get g.nodeMap n with
  | none =>
    simp [NodeHandle.isSome, NodeHandle.isNone, hasNode, h, getNodeLabel, getNode,
      NodeHandle.getLabelId, NodeHandle.getId, NodeHandle.unwrapNodeMap, NodeHandle.unwrapStatic]
  | some nd =>
    have hid := hg.inv.toNWF.ids n nd h
    refine ⟨by simp [NodeHandle.isSome, NodeHandle.isNone, hasNode, h],
      by simp [NodeHandle.isNone, hasNode, h], ?_, fun _ => ⟨?_, ⟨nd, rfl, hid, ?_, rfl⟩, rfl⟩, ?_⟩
    · simp only [getNodeLabel, getNode, h, NodeHandle.getLabelId, Option.bind_some]
      cases nd.label <;> rfl
    · simp only [NodeHandle.getId, pure_ok, hid]
    · simp [neighbors, getNode, h, pure_ok]
    · simp [hasNode, h]

/-- **C79.** `get_edge` on the mutable graph; it never panics. -/
theorem c79_edge (g : GraphMap m k NL EL) (s t : Id m) :
    ∃ h, g.getEdgeHandle s t = .ok h ∧ h.isSome = g.hasEdge s t ∧ h.isNone = !g.hasEdge s t ∧
      g.getEdgeLabel s t = .ok (h.getLabelId.bind (fun l => g.edgeLabels.getItem l.val)) ∧
      (g.hasEdge s t = true → h.getStart = .ok s ∧ h.getTarget = .ok t ∧
        h.unwrap = .ok ⟨s, t, h.getLabelId⟩) ∧
      (g.hasEdge s t = false → h.getStart = .error .explicit ∧ h.getTarget = .error .explicit ∧
        h.getLabelId = none ∧ h.unwrap = .error .explicit) := by
  have hl : g.getEdgeLabel s t = .ok (((g.outE s t).bind id).bind
      (fun l => g.edgeLabels.getItem l.val)) := by
    unfold getEdgeLabel
    rw [getEdge_eq_outE, bind_ok]
    cases g.outE s t with
    | none => rfl
    | some l => cases l <;> rfl
  rw [hl]
  unfold getEdgeHandle
  have hb : g.hasEdge s t = (g.outE s t).isSome := hasEdge_eq_outE g s t
  cases h : g.outE s t with
  | none =>
    rw [h] at hb
    rw [hb]
    exact ⟨.none, rfl, rfl, rfl, rfl, by simp, fun _ => ⟨rfl, rfl, rfl, rfl⟩⟩
  | some l =>
    rw [h] at hb
    rw [hb]
    unfold outE getNode at h
    cases h1 : AL.get g.nodeMap s with
    | none => simp [h1] at h
    | some nd =>
      simp only [h1, Option.bind_some] at h
      refine ⟨.edge ⟨s, t, l⟩, ?_, rfl, rfl, ?_, fun _ => ⟨rfl, rfl, rfl⟩, by simp⟩
      · simp [unwrap, NodeMap.getNeighbor, h, bind_ok, pure_ok]
      · rfl

/-- **C79.** `nodes()` and `edges()` yield exactly the handles that `get_node` and `get_edge` return for
`node_indices()` and `edge_indices()`, in the same order. -/
theorem c79_iter [DecidableEq NL] [DecidableEq EL] {g : GraphMap m k NL EL} (hg : Reachable g) :
    g.nodeHandles = g.nodeIndices.map g.getNodeHandle ∧
    g.edgeIndices.mapM (fun e => g.getEdgeHandle e.1 e.2) = .ok g.edgeHandles := by
  have hw := hg.inv.toNWF
  constructor
  · unfold nodeHandles nodeIndices AL.values AL.keys
    rw [List.map_map, List.map_map]
    apply List.map_congr_left
    rintro ⟨n, nd⟩ h
    simp [getNodeHandle, AL.get_eq_of_mem hw.keys h]
  · have he : g.edgeHandles = g.edges.map .edge := by
      unfold edgeHandles edges; split <;> rfl
    rw [he, GraphMap.edgeIndices_eq]
    rw [List.mapM_map]
    refine mapM_ok _ _ _ ?_
    intro e hm
    obtain ⟨h, h1, h2, -, -, h3, -⟩ := c79_edge g e.src e.dst
    have hm' := (mem_edges hw e).1 hm
    have hb : g.hasEdge e.src e.dst = true := by rw [hasEdge_eq_outE, hm'.1]; rfl
    show g.getEdgeHandle e.src e.dst = _
    rw [h1]
    cases h with
    | none => simp [EdgeHandle.isSome, EdgeHandle.isNone, hb] at h2
    | edge e' =>
      have hg1 := getEdge_eq_outE g e.src e.dst
      rw [hm'.1] at hg1
      have : g.getEdgeHandle e.src e.dst = .ok (.edge e) := by
        unfold getEdgeHandle
        unfold getEdge at hg1
        rw [hb] at hg1 ⊢
        simp only [Bool.not_true, Bool.false_eq_true, if_false] at hg1 ⊢
        obtain ⟨nd, a1, hg1⟩ := bind_eq_ok hg1
        obtain ⟨l, a2, hg1⟩ := bind_eq_ok hg1
        unfold getNode at a1
        rw [a1, bind_ok, a2, bind_ok]
        simp only [pure_ok, Except.ok.injEq, Option.map_some, Option.some.injEq, Edge.mk.injEq,
          true_and] at hg1
        simp [pure_ok, hg1]
      rw [h1] at this
      rw [Except.ok.injEq, EdgeHandle.edge.injEq] at this
      rw [this]

/-- **C79.** `get_node` on a frozen graph whose label array covers its nodes. -/
theorem c79_static_node {g : StaticGraph m k NL EL}
    (hl : ∀ ls, g.labels = some ls → g.numNodes ≤ ls.length) (n : Id m) :
    ∃ h, g.getNodeHandle n = .ok h ∧ h.isSome = g.hasNode n ∧ g.nodeLid n = .ok h.getLabelId ∧
      (g.hasNode n = true → h.getId = .ok n ∧ h.unwrapStatic = .ok (n, h.getLabelId) ∧
        h.unwrapNodeMap = .error .explicit) ∧
      (g.hasNode n = false → h.getId = .error .explicit ∧ h.getLabelId = none ∧
        h.unwrapStatic = .error .explicit ∧ h.unwrapNodeMap = .error .explicit) := by
  unfold StaticGraph.getNodeHandle StaticGraph.nodeLid
  cases hb : g.hasNode n with
  | false => exact ⟨.none, rfl, rfl, rfl, by simp, fun _ => ⟨rfl, rfl, rfl, rfl⟩⟩
  | true =>
    simp only [Bool.not_true, Bool.false_eq_true, if_false]
    cases hls : g.labels with
    | none => exact ⟨.static n none, rfl, rfl, rfl, fun _ => ⟨rfl, rfl, rfl⟩, by simp⟩
    | some ls =>
      have h1 : n.val < g.numNodes := by simpa [StaticGraph.hasNode] using hb
      have h2 := hl ls hls
      simp only [index_lt (show n.val < ls.length by omega), bind_ok]
      exact ⟨.static n (staticLabel _), rfl, rfl, rfl, fun _ => ⟨rfl, rfl, rfl⟩, by simp⟩

/-- **C79.** `get_edge` on a frozen graph; it never panics. -/
theorem c79_static_edge {g : StaticGraph m k NL EL} {rows : List (List (Id m × Id k))} {lab : Bool}
    (hx : Encodes g.edgeVec rows lab) (s t : Id m) :
    ∃ h b, g.getEdgeHandle s t = .ok h ∧ g.hasEdge s t = .ok b ∧ h.isSome = b ∧
      g.getEdge s t = .ok (if b then some ⟨s, t, h.getLabelId⟩ else none) ∧
      (b = true → h.getStart = .ok s ∧ h.getTarget = .ok t ∧ h.unwrap = .ok ⟨s, t, h.getLabelId⟩) ∧
      (b = false → h.getStart = .error .explicit ∧ h.getTarget = .error .explicit ∧
        h.getLabelId = none ∧ h.unwrap = .error .explicit) := by
  obtain ⟨b, h1, -⟩ := EdgeVec.hasEdge_spec hx s t
  obtain ⟨r, h2, -⟩ := c22_find_edge_label_id hx s t
  unfold StaticGraph.getEdgeHandle StaticGraph.getEdge StaticGraph.hasEdge
  rw [h1, bind_ok, bind_ok]
  cases b with
  | false => exact ⟨.none, false, rfl, rfl, rfl, rfl, by simp, fun _ => ⟨rfl, rfl, rfl, rfl⟩⟩
  | true =>
    simp only [Bool.not_true, Bool.false_eq_true, if_false, if_true, h2, bind_ok]
    cases r with
    | none => exact ⟨.edge ⟨s, t, none⟩, true, rfl, rfl, rfl, rfl, fun _ => ⟨rfl, rfl, rfl⟩, by simp⟩
    | some l => exact ⟨.edge ⟨s, t, staticLabel l⟩, true, rfl, rfl, rfl, rfl,
        fun _ => ⟨rfl, rfl, rfl⟩, by simp⟩

/-- **C79.** `nodes()` of a frozen graph yields the handles `get_node` returns for `node_indices()`. -/
theorem c79_static_nodes {g : StaticGraph m k NL EL} (hm : g.numNodes ≤ m + 1)
    (hl : ∀ ls, g.labels = some ls → g.numNodes ≤ ls.length) :
    g.nodeIndices.mapM g.getNodeHandle = .ok g.nodeHandles := by
  obtain ⟨h1, h2⟩ := c27_nodes_agree hm hl
  have hn : g.nodeHandles = g.nodes.map (fun p => .static p.1 p.2) := by
    unfold StaticGraph.nodeHandles StaticGraph.nodes
    cases g.labels <;> simp [Function.comp_def]
  rw [hn, ← h1, List.mapM_map]
  refine mapM_ok _ _ _ ?_
  intro p hp
  obtain ⟨h, a1, a2, a3, a4, -⟩ := c79_static_node hl p.1
  have hpn : g.hasNode p.1 = true := by
    have : p.1 ∈ g.nodeIndices := by rw [← h1]; exact List.mem_map_of_mem hp
    unfold StaticGraph.nodeIndices at this
    obtain ⟨i, hi, he⟩ := List.mem_map.1 this
    rw [List.mem_range] at hi
    have := EdgeIter.Id_new_val (m := m) (x := i) (by omega)
    simp only [StaticGraph.hasNode, decide_eq_true_eq]
    rw [← he, this]; exact hi
  rw [h2 p hp, Except.ok.injEq] at a3
  show g.getNodeHandle p.1 = _
  rw [a1]
  obtain ⟨b1, b2, -⟩ := a4 hpn
  cases h with
  | none => simp [NodeHandle.getId] at b1
  | nodeMap nd => simp [NodeHandle.unwrapStatic] at b2
  | static i l =>
    simp only [NodeHandle.getId, pure_ok, Except.ok.injEq] at b1
    simp only [NodeHandle.getLabelId] at a3
    rw [b1, a3]

/-- **C79.** `edges()` of a frozen graph, as handles, is `edges()` as in C27. -/
theorem c79_static_edges (g : StaticGraph m k NL EL) :
    g.edgeHandles = (g.edges >>= fun es => pure (es.map .edge)) := by
  unfold StaticGraph.edgeHandles StaticGraph.edges
  split
  · cases g.edgeIndices with
    | error e => rfl
    | ok es => simp [pure_ok, bind_ok, Function.comp_def]
  · cases g.edgeVec.labelled g.directed with
    | error e => rfl
    | ok es => simp [pure_ok, bind_ok, Function.comp_def]

example : ∃ g : GraphMap 9 3 String String, Reachable g ∧ g.hasNode 1 = true ∧ g.hasNode 0 = false ∧
    g.hasEdge 4 2 = true ∧ g.hasEdge 2 4 = false ∧ (g.getNodeHandle 1).getLabelId = some 0 := by
  obtain ⟨g, h, hr⟩ := sample_reachable true
  cases h
  exact ⟨_, hr, by decide, by decide, by decide, by decide, by decide⟩

example : ∃ g : StaticGraph 9 3 String String, g.numNodes ≤ 9 + 1 ∧
    (∀ ls, g.labels = some ls → g.numNodes ≤ ls.length) ∧ Encodes g.edgeVec sampleRows true ∧
    g.hasNode 2 = true ∧ g.hasNode 7 = false ∧ g.getNodeHandle 2 = .ok (.static 2 (some 1)) ∧
    g.getNodeHandle 0 = .ok (.static 0 none) ∧ g.getEdgeHandle 1 2 = .ok (.edge ⟨1, 2, some 1⟩) :=
  ⟨⟨false, 4, 3, sampleVec true, none, some [3, 0, 1, 0], SetMap.empty, SetMap.empty⟩, by decide,
    by intro ls h; cases h; decide, sample_encodes true, by decide, by decide, by decide, by decide,
    by decide⟩

/-! ### C80: mutable and owned handles -/

/-- **C80.** `get_node_mut`: present exactly for the nodes; reading an absent one panics. -/
theorem c80_node_mut [DecidableEq NL] [DecidableEq EL] {g : GraphMap m k NL EL} (hg : Reachable g)
    (n : Id m) :
    (g.getNodeMut n).isSome = g.hasNode n ∧
    (g.hasNode n = true → (g.getNodeMut n).getId = .ok n ∧
      (g.getNodeMut n).getLabelId = .ok (g.getNodeHandle n).getLabelId ∧
      (g.getNodeMut n).unwrapRef = (g.getNodeHandle n).unwrapNodeMap) ∧
    (g.hasNode n = false → (g.getNodeMut n).getId = .error .explicit ∧
      (g.getNodeMut n).getLabelId = .error .explicit ∧ (g.getNodeMut n).unwrapRef = .error .explicit ∧
      ∀ l, (g.getNodeMut n).setLabelId l = .error .explicit) := by
  unfold getNodeMut getNodeHandle
  cases h : AL.get g.nodeMap n with
  | none =>
    simp [hasNode, h, MutNode.isSome, MutNode.isNone, MutNode.getId, MutNode.getLabelId,
      MutNode.unwrapRef, MutNode.setLabelId]
  | some nd =>
    simp [hasNode, h, MutNode.isSome, MutNode.isNone, MutNode.getId, MutNode.getLabelId,
      MutNode.unwrapRef, NodeHandle.getLabelId, NodeHandle.unwrapNodeMap,
      hg.inv.toNWF.ids n nd h, pure_ok]

/-- The mutable edge handle, in terms of the adjacency. -/
theorem getEdgeMut_eq {g : GraphMap m k NL EL} (hw : g.NWF) (s t : Id m) :
    g.getEdgeMut s t = .ok (ownedEdge ((g.outE s t).map (fun l => ⟨s, t, l⟩))) := by
  unfold getEdgeMut
  rw [hasEdge_eq_outE]
  cases h : g.outE s t with
  | none => rfl
  | some l =>
    unfold outE at h
    cases h1 : g.getNode s with
    | none => simp [h1] at h
    | some nd =>
      have hid := hw.ids s nd h1
      simp only [h1, Option.bind_some] at h
      unfold getNode at h1
      simp [unwrap, NodeMap.getNeighborMut, h, h1, bind_ok, pure_ok, ownedEdge, hid]

/-- **C80.** `get_edge_mut`: it never panics and is present exactly for the edges; reading an absent one
panics, and `unwrap_edge` panics always. -/
theorem c80_edge_mut [DecidableEq NL] [DecidableEq EL] {g : GraphMap m k NL EL} (hg : Reachable g)
    (s t : Id m) :
    ∃ h r, g.getEdgeMut s t = .ok h ∧ g.getEdgeHandle s t = .ok r ∧ h.isSome = g.hasEdge s t ∧
      h.unwrapEdge = .error .explicit ∧
      (g.hasEdge s t = true → h.getStart = .ok s ∧ h.getTarget = .ok t ∧
        h.getLabelId = .ok r.getLabelId ∧ h.unwrapRef = r.unwrap) ∧
      (g.hasEdge s t = false → h.getStart = .error .explicit ∧ h.getTarget = .error .explicit ∧
        h.getLabelId = .error .explicit ∧ h.unwrapRef = .error .explicit ∧
        ∀ l, h.setLabelId l = .error .explicit) := by
  obtain ⟨r, h1, h2, -, h3, h4, h5⟩ := c79_edge g s t
  refine ⟨_, r, getEdgeMut_eq hg.inv.toNWF s t, h1, ?_⟩
  have hb : g.hasEdge s t = (g.outE s t).isSome := hasEdge_eq_outE g s t
  cases h : g.outE s t with
  | none =>
    rw [h] at hb
    refine ⟨by rw [hb]; rfl, rfl, by simp [hb], fun _ => ⟨rfl, rfl, rfl, rfl, fun _ => rfl⟩⟩
  | some l =>
    rw [h] at hb
    have hr : r.unwrap = .ok ⟨s, t, l⟩ := by
      have hg1 := getEdge_eq_outE g s t
      rw [h] at hg1
      unfold getEdgeHandle at h1
      unfold getEdge getNode at hg1
      rw [show g.hasEdge s t = true from hb] at h1 hg1
      simp only [Bool.not_true, Bool.false_eq_true, if_false] at h1 hg1
      obtain ⟨nd, a1, hg1⟩ := bind_eq_ok hg1
      obtain ⟨l', a2, hg1⟩ := bind_eq_ok hg1
      rw [a1, bind_ok, a2, bind_ok] at h1
      simp only [pure_ok, Except.ok.injEq, Option.map_some, Option.some.injEq, Edge.mk.injEq,
        true_and] at hg1 h1
      subst h1 hg1
      rfl
    have hr2 := (h4 hb).2.2
    rw [hr] at hr2
    have hlab : r.getLabelId = l := by simpa using hr2.symm
    refine ⟨by rw [hb]; rfl, rfl, fun _ => ⟨rfl, rfl, by rw [hlab]; rfl, by rw [hr]; rfl⟩, by simp [hb]⟩

/-- **C80.** `nodes_mut()` and `edges_mut()` hand out exactly the handles of `node_indices()` and
`edge_indices()`, each once, in the same order. -/
theorem c80_iter_mut [DecidableEq NL] [DecidableEq EL] {g : GraphMap m k NL EL} (hg : Reachable g) :
    g.nodesMut = g.nodeIndices.map g.getNodeMut ∧
    g.edgeIndices.mapM (fun e => g.getEdgeMut e.1 e.2) = .ok g.edgesMut := by
  have hw := hg.inv.toNWF
  constructor
  · unfold nodesMut nodeIndices AL.values AL.keys
    rw [List.map_map, List.map_map]
    apply List.map_congr_left
    rintro ⟨n, nd⟩ h
    simp [getNodeMut, AL.get_eq_of_mem hw.keys h]
  · have he : g.edgesMut = g.edges.map .ref := by
      unfold edgesMut edges NodeMap.neighborEdges NodeMap.nonLessNeighborEdges
      split <;> simp [List.map_flatMap, Function.comp_def]
    rw [he, GraphMap.edgeIndices_eq, List.mapM_map]
    refine mapM_ok _ _ _ ?_
    intro e hm
    show g.getEdgeMut e.src e.dst = _
    rw [getEdgeMut_eq hw, ((mem_edges hw e).1 hm).1]
    rfl

/-- **C80.** What `remove_node` and `remove_edge` return is the handle the mutable access gave before. -/
theorem c80_owned [DecidableEq NL] [DecidableEq EL] {g : GraphMap m k NL EL} (hg : Reachable g) :
    (∀ n g' r, g.removeNode n = .ok (g', r) → ownedNode r = g.getNodeMut n) ∧
    (∀ s t g' r, g.removeEdge s t = .ok (g', r) → g.getEdgeMut s t = .ok (ownedEdge r)) := by
  constructor
  · intro n g' r h
    unfold removeNode at h
    unfold getNodeMut
    cases h1 : AL.get g.nodeMap n with
    | none =>
      rw [h1] at h
      simp only [pure_ok, Except.ok.injEq, Prod.mk.injEq] at h
      rw [← h.2]; rfl
    | some nd =>
      rw [h1] at h
      simp only at h
      obtain ⟨a, -, h⟩ := bind_eq_ok h
      split at h
      · simp at h
      · simp only [pure_ok, Except.ok.injEq, Prod.mk.injEq] at h
        rw [← h.2]; rfl
  · intro s t g' r h
    obtain ⟨g1, h1, -⟩ := removeEdge_spec hg.inv s t
    rw [h, Except.ok.injEq, Prod.mk.injEq] at h1
    rw [h1.2, getEdgeMut_eq hg.inv.toNWF]

/-- **C80.** Writing a label through a handle is what `setNodeLabelId` and `setEdgeLabelId` of the other
theorems do: they succeed exactly when the handle accepts the write, and afterwards the graph hands out
the written handle. -/
theorem c80_set [DecidableEq NL] [DecidableEq EL] {g : GraphMap m k NL EL} (hg : Reachable g) :
    (∀ n l h, (g.getNodeMut n).setLabelId l = .ok h →
      ∃ g', g.setNodeLabelId n l = .ok g' ∧ g'.getNodeMut n = h) ∧
    (∀ n l p, (g.getNodeMut n).setLabelId l = .error p → g.setNodeLabelId n l = .error p) ∧
    (∀ s t l h h', g.getEdgeMut s t = .ok h → h.setLabelId l = .ok h' →
      ∃ g', g.setEdgeLabelId s t l = .ok g' ∧ g'.getEdgeMut s t = .ok h') ∧
    (∀ s t l h p, g.getEdgeMut s t = .ok h → h.setLabelId l = .error p →
      g.setEdgeLabelId s t l = .error p) := by
  have hw := hg.inv.toNWF
  refine ⟨?_, ?_, ?_, ?_⟩
  · intro n l h hh
    unfold getNodeMut at hh
    cases h1 : AL.get g.nodeMap n with
    | none => rw [h1] at hh; simp [MutNode.setLabelId] at hh
    | some nd =>
      rw [h1] at hh
      simp only [MutNode.setLabelId, pure_ok, Except.ok.injEq] at hh
      refine ⟨_, by simp only [setNodeLabelId, h1, pure_ok]; rfl, ?_⟩
      simp [getNodeMut, AL.get_set, h1, hh]
  · intro n l p hh
    unfold getNodeMut at hh
    cases h1 : AL.get g.nodeMap n with
    | none =>
      rw [h1] at hh
      simp only [MutNode.setLabelId, Except.error.injEq] at hh
      simp [setNodeLabelId, h1, hh]
    | some nd => rw [h1] at hh; simp [MutNode.setLabelId, pure_ok] at hh
  · intro s t l h h' h1 h2
    rw [getEdgeMut_eq hw, Except.ok.injEq] at h1
    cases ho : g.outE s t with
    | none =>
      rw [ho] at h1
      subst h1
      simp [ownedEdge, MutEdgeHandle.setLabelId] at h2
    | some l0 =>
      rw [ho] at h1
      subst h1
      simp only [ownedEdge, Option.map_some, MutEdgeHandle.setLabelId, pure_ok, Except.ok.injEq] at h2
      obtain ⟨g', a1, a2, -, -, a5⟩ := setEdgeLabelId_spec hw s t l (by rw [hasEdge_eq_outE, ho]; rfl)
      refine ⟨g', a1, ?_⟩
      rw [getEdgeMut_eq a2, a5, ← h2]
      simp [ownedEdge]
  · intro s t l h p h1 h2
    rw [getEdgeMut_eq hw, Except.ok.injEq] at h1
    cases ho : g.outE s t with
    | some l0 => rw [ho] at h1; subst h1; simp [ownedEdge, MutEdgeHandle.setLabelId, pure_ok] at h2
    | none =>
      rw [ho] at h1
      subst h1
      simp only [ownedEdge, Option.map_none, MutEdgeHandle.setLabelId, Except.error.injEq] at h2
      have : g.hasEdge s t = false := by rw [hasEdge_eq_outE, ho]; rfl
      simp [setEdgeLabelId, this, h2]

example : ∃ g : GraphMap 9 3 String String, Reachable g ∧
    (g.getNodeMut 1).setLabelId (some 2) = .ok (.ref ⟨1, some 2, [(2, some 0)], []⟩) ∧
    (g.getNodeMut 0).setLabelId (some 2) = .error .explicit ∧
    g.getEdgeMut 4 2 = .ok (.ref ⟨4, 2, some 0⟩) ∧ g.getEdgeMut 2 4 = .ok .none ∧
    (match g.removeEdge 4 2 with | .ok (_, r) => decide (r = some ⟨4, 2, some 0⟩) | _ => false) = true := by
  obtain ⟨g, h, hr⟩ := sample_reachable true
  cases h
  exact ⟨_, hr, by decide, by decide, by decide, by decide, by decide⟩

/-! ### C81: raw access to a node record -/

/-- The raw update in terms of `modNode`. -/
theorem rawNode_eq {g g' : GraphMap m k NL EL} {n : Id m} {op : RawOp m k} {a : RawAns m k}
    (h : g.rawNode n op = .ok (g', a)) : ∃ nd nd', g.getNode n = some nd ∧ nd.raw op = .ok (nd', a) ∧
      g' = g.modNode n (fun _ => nd') := by
  unfold rawNode getNodeMut at h
  cases h1 : AL.get g.nodeMap n with
  | none => rw [h1] at h; simp [MutNode.unwrapRef, bind_error] at h
  | some nd =>
    rw [h1] at h
    simp only [MutNode.unwrapRef, pure_ok, bind_ok] at h
    obtain ⟨⟨nd', a'⟩, h2, h⟩ := bind_eq_ok h
    simp only [pure_ok, Except.ok.injEq, Prod.mk.injEq] at h
    obtain ⟨h3, rfl⟩ := h
    exact ⟨nd, nd', h1, h2, by simp [modNode, h1, ← h3]⟩

theorem modNode_const {g : GraphMap m k NL EL} {n : Id m} {nd : NodeMap m k} (f)
    (h : g.getNode n = some nd) : g.modNode n f = g.modNode n (fun _ => f nd) := by
  unfold getNode at h
  simp [modNode, h]

theorem raw_keeps {nd nd' : NodeMap m k} {op : RawOp m k} {a} (h : nd.raw op = .ok (nd', a)) :
    nd'.id = nd.id ∧ nd'.label = nd.label := by
  cases op with
  | addInEdge adj =>
    simp only [NodeMap.raw, pure_ok, Except.ok.injEq, Prod.mk.injEq] at h
    rw [← h.1]; unfold NodeMap.addInEdge; split <;> exact ⟨rfl, rfl⟩
  | addEdge adj l =>
    simp only [NodeMap.raw, pure_ok, Except.ok.injEq, Prod.mk.injEq] at h
    rw [← h.1]; exact ⟨rfl, rfl⟩
  | removeInEdge adj =>
    simp only [NodeMap.raw, pure_ok, Except.ok.injEq, Prod.mk.injEq] at h
    rw [← h.1]; exact ⟨rfl, rfl⟩
  | removeEdge adj =>
    simp only [NodeMap.raw, pure_ok, Except.ok.injEq, Prod.mk.injEq] at h
    rw [← h.1, NodeMap_removeEdge_fst]; exact ⟨rfl, rfl⟩
  | setNeighbor adj l =>
    simp only [NodeMap.raw] at h
    obtain ⟨_, -, h⟩ := bind_eq_ok h
    simp only [pure_ok, Except.ok.injEq, Prod.mk.injEq] at h
    rw [← h.1]; exact ⟨rfl, rfl⟩

/-- **C81.** A raw call changes nothing but the adjacency kept in that one record; in particular
`edge_count` does not move. -/
theorem c81_frame {g g' : GraphMap m k NL EL} {n : Id m} {op : RawOp m k} {a : RawAns m k}
    (h : g.rawNode n op = .ok (g', a)) :
    g'.edgeCount = g.edgeCount ∧ g'.nodeCount = g.nodeCount ∧ g'.nodeIndices = g.nodeIndices ∧
    g'.maxSeenId = g.maxSeenId ∧ g'.isDirected = g.isDirected ∧ g'.nodeLabels = g.nodeLabels ∧
    g'.edgeLabels = g.edgeLabels ∧ (∀ x, g'.getNodeLabel x = g.getNodeLabel x) ∧
    (∀ x, x ≠ n → g'.getNodeHandle x = g.getNodeHandle x) ∧
    (∀ x t, x ≠ n → g'.hasEdge x t = g.hasEdge x t) := by
  obtain ⟨nd, nd', h1, h2, rfl⟩ := rawNode_eq h
  obtain ⟨hid, hlab⟩ := raw_keeps h2
  have hk := keys_modNode g n (fun _ => nd')
  refine ⟨by simp [edgeCount], ?_, hk, by simp [maxSeenId], by simp [isDirected], by simp, by simp,
    ?_, ?_, ?_⟩
  · have := congrArg List.length hk
    simpa [nodeCount, AL.keys] using this
  · intro x
    unfold getNodeLabel
    rw [getNode_modNode, modNode_nodeLabels]
    by_cases hx : n = x
    · subst hx; simp [h1, hlab]
    · simp [hx]
  · intro x hx
    have := getNode_modNode g n (fun _ => nd') x
    rw [if_neg (Ne.symm hx)] at this
    unfold getNode at this
    unfold getNodeHandle
    rw [this]
  · intro x t hx
    unfold hasEdge
    rw [getNode_modNode, if_neg (Ne.symm hx)]

/-- **C81.** A raw call panics exactly when the node is absent or `get_neighbor_mut` finds nothing to
write to. -/
theorem c81_panics_iff (g : GraphMap m k NL EL) (n : Id m) (op : RawOp m k) :
    (∃ r, g.rawNode n op = .ok r) ↔
      g.hasNode n = true ∧ ∀ t l, op = .setNeighbor t l → g.hasEdge n t = true := by
  unfold rawNode getNodeMut hasNode hasEdge getNode
  cases h : AL.get g.nodeMap n with
  | none => simp [MutNode.unwrapRef, bind_error]
  | some nd =>
    simp only [MutNode.unwrapRef, pure_ok, bind_ok, Option.isSome_some, true_and]
    cases op with
    | setNeighbor t l =>
      simp only [RawOp.setNeighbor.injEq, and_imp, forall_apply_eq_imp_iff, forall_eq',
        NodeMap.raw, NodeMap.hasNeighbor, NodeMap.getNeighborMut]
      cases h2 : AL.get nd.neighbors t with
      | none => simp [MutEdgeHandle.setLabelId, bind_error]
      | some l' => simp [MutEdgeHandle.setLabelId, bind_ok, pure_ok]
    | _ => simp [NodeMap.raw, bind_ok, pure_ok]

/-- **C81.** `add_edge` and `remove_edge` on a record change what the graph says about edges from that
node to that neighbour and report whether they changed it. -/
theorem c81_out {g g' : GraphMap m k NL EL} {n t : Id m} :
    (∀ l a, g.rawNode n (.addEdge t l) = .ok (g', a) → a = .flag (!g.hasEdge n t) ∧
      g'.getEdge n t = .ok (some ⟨n, t, l⟩) ∧ ∀ x, x ≠ t → g'.getEdge n x = g.getEdge n x) ∧
    (∀ a, g.NWF → g.rawNode n (.removeEdge t) = .ok (g', a) →
      (∃ h, g.getEdgeMut n t = .ok h ∧ a = .owned h) ∧
      g'.hasEdge n t = false ∧ ∀ x, x ≠ t → g'.getEdge n x = g.getEdge n x) := by
  constructor
  · intro l a h
    obtain ⟨nd, nd', h1, h2, rfl⟩ := rawNode_eq h
    simp only [NodeMap.raw, NodeMap.addEdge, pure_ok, Except.ok.injEq, Prod.mk.injEq] at h2
    obtain ⟨rfl, rfl⟩ := h2
    refine ⟨by simp [hasEdge, h1], ?_, ?_⟩
    · rw [getEdge_eq_outE]
      unfold outE
      rw [getNode_modNode]
      simp [h1, AL.get_binsert]
    · intro x hx
      rw [getEdge_eq_outE, getEdge_eq_outE]
      unfold outE
      rw [getNode_modNode]
      simp [h1, AL.get_binsert, hx, Ne.symm hx]
  · intro a hw h
    obtain ⟨nd, nd', h1, h2, rfl⟩ := rawNode_eq h
    simp only [NodeMap.raw, pure_ok, Except.ok.injEq, Prod.mk.injEq] at h2
    obtain ⟨rfl, rfl⟩ := h2
    refine ⟨⟨_, getEdgeMut_eq hw n t, ?_⟩, ?_, ?_⟩
    · congr 1
      have hid := hw.ids n nd h1
      unfold outE NodeMap.removeEdge
      simp only [h1, Option.bind_some]
      cases AL.get nd.neighbors t <;> simp [ownedEdge, hid]
    · rw [hasEdge_eq_outE]
      unfold outE
      rw [getNode_modNode]
      simp [h1, NodeMap_removeEdge_fst, AL.get_erase]
    · intro x hx
      rw [getEdge_eq_outE, getEdge_eq_outE]
      unfold outE
      rw [getNode_modNode]
      simp [h1, NodeMap_removeEdge_fst, AL.get_erase, hx, Ne.symm hx]

/-- **C81.** `add_in_edge` and `remove_in_edge` change the in-neighbours of that node alone. -/
theorem c81_in {g g' : GraphMap m k NL EL} {n s : Id m} :
    (∀ a, g.rawNode n (.addInEdge s) = .ok (g', a) → ∃ before after,
      g.inNeighbors n = .ok before ∧ g'.inNeighbors n = .ok after ∧
      (a = .flag true ↔ s ∉ before) ∧ (∀ x, x ∈ after ↔ x = s ∨ x ∈ before) ∧
      ∀ x t, g'.hasEdge x t = g.hasEdge x t) ∧
    (∀ a, g.rawNode n (.removeInEdge s) = .ok (g', a) → ∃ before after,
      g.inNeighbors n = .ok before ∧ g'.inNeighbors n = .ok after ∧
      (a = .flag true ↔ s ∈ before) ∧ (∀ x, x ∈ after ↔ x ≠ s ∧ x ∈ before) ∧
      ∀ x t, g'.hasEdge x t = g.hasEdge x t) := by
  have keep : ∀ (nd nd' : NodeMap m k), g.getNode n = some nd → nd'.neighbors = nd.neighbors →
      ∀ x t, (g.modNode n (fun _ => nd')).hasEdge x t = g.hasEdge x t := by
    intro nd nd' h1 h2 x t
    unfold hasEdge
    rw [getNode_modNode]
    by_cases hx : n = x
    · subst hx; simp [h1, NodeMap.hasNeighbor, h2]
    · simp [hx]
  constructor
  · intro a h
    obtain ⟨nd, nd', h1, h2, rfl⟩ := rawNode_eq h
    simp only [NodeMap.raw, pure_ok, Except.ok.injEq, Prod.mk.injEq] at h2
    obtain ⟨h3, rfl⟩ := h2
    refine ⟨nd.inNeighbors, nd'.inNeighbors, by simp [inNeighbors, h1, pure_ok, NodeMap.inNeighborIds],
      by simp [inNeighbors, getNode_modNode, h1, pure_ok, NodeMap.inNeighborIds], ?_, ?_,
      keep nd nd' h1 ?_⟩
    · simp [NodeMap.hasInNeighbor, BSet.contains]
    · intro x
      rw [← h3]
      unfold NodeMap.addInEdge
      split
      · rename_i hc
        simp only [NodeMap.hasInNeighbor, BSet.contains, decide_eq_true_eq, List.contains_iff_mem] at hc
        constructor
        · exact Or.inr
        · rintro (rfl | h)
          · exact hc
          · exact h
      · exact BSet.mem_sinsert _ _ _
    · rw [← h3]; unfold NodeMap.addInEdge; split <;> rfl
  · intro a h
    obtain ⟨nd, nd', h1, h2, rfl⟩ := rawNode_eq h
    simp only [NodeMap.raw, pure_ok, Except.ok.injEq, Prod.mk.injEq] at h2
    obtain ⟨h3, rfl⟩ := h2
    refine ⟨nd.inNeighbors, nd'.inNeighbors, by simp [inNeighbors, h1, pure_ok, NodeMap.inNeighborIds],
      by simp [inNeighbors, getNode_modNode, h1, pure_ok, NodeMap.inNeighborIds], ?_, ?_,
      keep nd nd' h1 (by rw [← h3]; rfl)⟩
    · simp [NodeMap.hasInNeighbor, BSet.contains]
    · intro x
      rw [← h3]
      unfold NodeMap.removeInEdge
      rw [BSet.mem_erase]
      exact And.comm

/-- **C81.** Writing a label through the record is writing it through `get_edge_mut`. -/
theorem c81_set_neighbor {g g' : GraphMap m k NL EL} {n t : Id m} {l a}
    (h : g.rawNode n (.setNeighbor t l) = .ok (g', a)) : g.setEdgeLabelId n t l = .ok g' := by
  have hp := (c81_panics_iff g n (.setNeighbor t l)).1 ⟨_, h⟩
  obtain ⟨nd, nd', h1, h2, rfl⟩ := rawNode_eq h
  simp only [NodeMap.raw] at h2
  obtain ⟨_, -, h2⟩ := bind_eq_ok h2
  simp only [pure_ok, Except.ok.injEq, Prod.mk.injEq] at h2
  unfold setEdgeLabelId
  rw [hp.2 t l rfl, withNode_eq _ hp.1]
  unfold getNode at h1
  simp [modNode, h1, h2.1]

/-- **C81.** Raw `add_edge` towards an absent node leaves a dangling edge that is not counted; from then
on `remove_edge` on it and `remove_node` on its start panic. -/
theorem c81_dangling {g : GraphMap m k NL EL}
    {n t : Id m} (hn : g.hasNode n = true) (ht : g.hasNode t = false) (l : Option (Id k)) :
    ∃ g' a, g.rawNode n (.addEdge t l) = .ok (g', a) ∧ g'.hasEdge n t = true ∧ g'.hasNode t = false ∧
      g'.edgeCount = g.edgeCount ∧
      (∃ p, g'.removeEdge n t = .error p) ∧ (∃ p, g'.removeNode n = .error p) := by
  obtain ⟨⟨g', a⟩, h⟩ := (c81_panics_iff g n (.addEdge t l)).2 ⟨hn, by simp⟩
  have hf := c81_frame h
  obtain ⟨-, he, -⟩ := (c81_out (g := g) (g' := g') (n := n) (t := t)).1 l a h
  have hnt : n ≠ t := by rintro rfl; rw [hn] at ht; cases ht
  have hout : (g'.outE n t) = some l := by
    rw [getEdge_eq_outE, Except.ok.injEq, Option.map_eq_some_iff] at he
    obtain ⟨l', h1, h2⟩ := he
    rw [h1]; simpa using h2
  have hb : g'.hasEdge n t = true := by rw [hasEdge_eq_outE, hout]; rfl
  have hmem : ∀ x, g'.hasNode x = g.hasNode x := by
    intro x
    rw [Bool.eq_iff_iff, ← mem_nodeIndices, ← mem_nodeIndices, hf.2.2.1]
  have hn' : g'.hasNode n = true := by rw [hmem]; exact hn
  have ht' : g'.hasNode t = false := by rw [hmem]; exact ht
  refine ⟨g', a, h, hb, ht', hf.1, ?_, ?_⟩
  · unfold removeEdge
    obtain ⟨nd, hnd⟩ := (hasNode_iff _ _).1 hn'
    unfold getNode at hnd
    rw [hb]
    simp only [Bool.not_true, Bool.false_eq_true, if_false]
    rw [hnd, withNode_eq _ hn']
    simp only [unwrap, bind_ok]
    unfold removeEdgeTarget
    split <;> rw [withNode_error _ (by rw [hasNode_modNode]; exact ht'), bind_error] <;> exact ⟨_, rfl⟩
  · obtain ⟨nd, hnd⟩ := (hasNode_iff _ _).1 hn'
    have hmemt : t ∈ nd.neighborIds := by
      unfold NodeMap.neighborIds
      rw [← AL.get_isSome_iff]
      unfold outE at hout
      rw [hnd, Option.bind_some] at hout
      rw [hout]; rfl
    unfold getNode at hnd
    have habs : ({ g' with nodeMap := AL.erase g'.nodeMap n } : GraphMap m k NL EL).hasNode t = false := by
      have h0 : AL.get g'.nodeMap t = none := by simpa [hasNode] using ht'
      simp [hasNode, AL.get_erase, hnt, h0]
    unfold removeNode
    rw [hnd]
    simp only
    unfold unlink
    simp only
    split
    · rw [foldlM_withNode_error _ _ ⟨t, hmemt, habs⟩]; exact ⟨_, rfl⟩
    · rw [foldlM_withNode_error _ _ ⟨t, hmemt, habs⟩]; exact ⟨_, rfl⟩

/-- **C81.** On an undirected graph raw `add_edge` breaks symmetry. -/
theorem c81_asymmetric [DecidableEq NL] [DecidableEq EL] {g : GraphMap m k NL EL} (hg : Reachable g)
    (hd : g.isDirected = false) {n t : Id m} (hn : g.hasNode n = true) (hnt : n ≠ t)
    (he : g.hasEdge n t = false) (l : Option (Id k)) :
    ∃ g' a, g.rawNode n (.addEdge t l) = .ok (g', a) ∧ g'.hasEdge n t = true ∧
      g'.hasEdge t n = false := by
  obtain ⟨⟨g', a⟩, h⟩ := (c81_panics_iff g n (.addEdge t l)).2 ⟨hn, by simp⟩
  have hf := c81_frame h
  obtain ⟨-, h1, -⟩ := (c81_out (g := g) (g' := g') (n := n) (t := t)).1 l a h
  refine ⟨g', a, h, ?_, ?_⟩
  · rw [getEdge_eq_outE, Except.ok.injEq, Option.map_eq_some_iff] at h1
    obtain ⟨l', h2, -⟩ := h1
    rw [hasEdge_eq_outE, h2]; rfl
  · rw [hf.2.2.2.2.2.2.2.2.2 t n (Ne.symm hnt), hasEdge_eq_outE]
    rw [hasEdge_eq_outE] at he
    have := hg.inv.sym hd t n
    cases h2 : (g.outE t n).isSome with
    | false => rfl
    | true => rw [show (g.outE n t).isSome = true from this h2] at he; cases he

/-- **C81.** The graph's own `add_edge` between two present nodes is the label registration, the raw
write at the start, the raw write at the target (none for an undirected self loop) and one more counted
edge. -/
theorem c81_add_edge [DecidableEq NL] [DecidableEq EL] {g g1 g2 g3 : GraphMap m k NL EL} {s t : Id m}
    {lid : Option (Id k)} {label : Option EL} {a b : RawAns m k}
    (hs : g.hasNode s = true) (ht : g.hasNode t = true)
    (h1 : g.addEdgeLabel label = .ok (g1, lid))
    (h2 : g1.rawNode s (.addEdge t lid) = .ok (g2, a))
    (h3 : (g.isDirected = true ∧ g2.rawNode t (.addInEdge s) = .ok (g3, b)) ∨
      (g.isDirected = false ∧ s ≠ t ∧ g2.rawNode t (.addEdge s lid) = .ok (g3, b)) ∨
      (g.isDirected = false ∧ s = t ∧ g3 = g2)) :
    ∃ f, a = .flag f ∧ g.addEdge s t label = .ok ({ g3 with numEdges := g.edgeCount + 1 }, f) := by
  unfold addEdgeLabel at h1
  obtain ⟨r, hi, h1⟩ := bind_eq_ok h1
  simp only [pure_ok, Except.ok.injEq, Prod.mk.injEq] at h1
  obtain ⟨rfl, rfl⟩ := h1
  obtain ⟨nd, nd', k1, k2, rfl⟩ := rawNode_eq h2
  simp only [NodeMap.raw, pure_ok, Except.ok.injEq, Prod.mk.injEq] at k2
  obtain ⟨rfl, rfl⟩ := k2
  refine ⟨_, rfl, ?_⟩
  have hs1 : ({ g with edgeLabels := r.1 } : GraphMap m k NL EL).hasNode s = true := hs
  have k1' : AL.get g.nodeMap s = some nd := k1
  unfold addEdge ensureNode
  simp only [Bool.not_true, Bool.false_eq_true, if_false, pure_ok, bind_ok, hs, ht, hi, k1', unwrap]
  rw [withNode_eq _ hs1, bind_ok]
  have he : ({ g with edgeLabels := r.1 } : GraphMap m k NL EL).modNode s
      (fun nd => (nd.addEdge t r.2).1) = ({ g with edgeLabels := r.1 } : GraphMap m k NL EL).modNode s
      (fun _ => (nd.addEdge t r.2).1) := by
    simp [modNode, k1']
  rw [he]
  have hfin : (({ g with edgeLabels := r.1 } : GraphMap m k NL EL).modNode s
      (fun _ => (nd.addEdge t r.2).1)).addEdgeTarget s t r.2 = .ok g3 := by
    unfold addEdgeTarget
    rw [modNode_directed]
    show (if g.directed = true then _ else _) = _
    rcases h3 with ⟨hd, h3⟩ | ⟨hd, hne, h3⟩ | ⟨hd, rfl, rfl⟩
    · rw [if_pos (show g.directed = true from hd)]
      obtain ⟨ndt, ndt', t1, t2, rfl⟩ := rawNode_eq h3
      simp only [NodeMap.raw, pure_ok, Except.ok.injEq, Prod.mk.injEq] at t2
      obtain ⟨rfl, -⟩ := t2
      rw [withNode_eq _ ((hasNode_iff _ _).2 ⟨ndt, t1⟩)]
      rw [modNode_const _ t1]
    · rw [if_neg (by simp [show g.directed = false from hd]), if_pos hne]
      obtain ⟨ndt, ndt', t1, t2, rfl⟩ := rawNode_eq h3
      simp only [NodeMap.raw, pure_ok, Except.ok.injEq, Prod.mk.injEq] at t2
      obtain ⟨rfl, -⟩ := t2
      rw [withNode_eq _ ((hasNode_iff _ _).2 ⟨ndt, t1⟩)]
      rw [modNode_const _ t1]
    · rw [if_neg (by simp [show g.directed = false from hd]), if_neg (by simp), pure_ok]
  rw [hfin, bind_ok]
  have hnum : g3.numEdges = g.numEdges := by
    rcases h3 with ⟨-, h3⟩ | ⟨-, -, h3⟩ | ⟨-, -, rfl⟩
    · have := (c81_frame h3).1
      simpa [edgeCount] using this
    · have := (c81_frame h3).1
      simpa [edgeCount] using this
    · simp
  rw [hnum]; rfl

example : ∃ g : GraphMap 9 3 String String, Reachable g ∧ g.isDirected = false ∧ g.hasNode 4 = true ∧
    g.hasNode 0 = false ∧ g.hasNode 3 = true ∧ g.hasEdge 4 3 = false ∧
    (match g.rawNode 4 (.addEdge 0 (some 1)) with
      | .ok (g', _) => decide (g'.neighbors 4 = .ok [0, 2]) | _ => false) = true ∧
    (match g.addEdgeLabel (some "x") with
      | .ok (g1, lid) => match g1.rawNode 4 (.addEdge 3 lid) with
        | .ok (g2, a) => match g2.rawNode 3 (.addEdge 4 lid) with
          | .ok (g3, _) => decide (a = .flag true ∧ g.addEdge 4 3 (some "x")
              = .ok ({ g3 with numEdges := 5 }, true))
          | _ => false
        | _ => false
      | _ => false) = true := by
  obtain ⟨g, h, hr⟩ := sample_reachable false
  cases h
  exact ⟨_, hr, by decide, by decide, by decide, by decide, by decide, by decide, by decide⟩

end Verif.Props
