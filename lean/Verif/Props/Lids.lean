import Verif.Spec.Lids
import Verif.Proof.Ids
import Verif.Proof.Order
import Verif.Props.SameSearch
import Verif.Props.Equality2
import Verif.Props.Makeable

/-! C169: the width of the label-id type does not matter while there are few labels. -/

namespace Verif.Props

open Spec Proof.Ids

section Calls

variable {m k k' : Nat} {NL EL : Type} {u : Id k → Id k'}

theorem fold_lids {X Y Z : Type} {F : Y → X → Res Y} {G : Z → X → Res Z} {e : Z → Y}
    (hs : ∀ z x, F (e z) x = e <$> G z x) (l : List X) (z : Z) :
    l.foldlM F (e z) = e <$> l.foldlM G z := by
  induction l generalizing z with
  | nil => rfl
  | cons x l ih => simp only [List.foldlM_cons, hs, bind_map_left, map_bind, ih]

theorem node_lids (g : GraphMap m k NL EL) (n : Id m) :
    AL.get (mapLids u g).nodeMap n = (AL.get g.nodeMap n).map (nodeLids u) :=
  get_ids (f := id) (F := nodeLids u) strictMono_id g.nodeMap n

theorem with_lids (g : GraphMap m k NL EL) (n : Id m) {F : NodeMap m k → NodeMap m k}
    {F' : NodeMap m k' → NodeMap m k'} (h : ∀ nd, F' (nodeLids u nd) = nodeLids u (F nd)) :
    (mapLids u g).withNode n F' = mapLids u <$> g.withNode n F := by
  unfold GraphMap.withNode
  rw [node_lids]
  cases AL.get g.nodeMap n with
  | none => rfl
  | some nd =>
    have := set_ids (f := id) (F := nodeLids u) strictMono_id g.nodeMap n (F nd)
    simp only [id_eq] at this
    have hu : ∀ {Z : Type} (z : Z), unwrap (some z) = pure z := fun _ => rfl
    simp only [Option.map_some, hu, pure_bind, map_pure, h]
    simp only [mapLids, this]

theorem neighbor_lids (nd : NodeMap m k) (x : Id m) :
    (nodeLids u nd).getNeighbor x = (nd.getNeighbor x).map (Option.map u) :=
  get_ids (f := id) (F := Option.map u) strictMono_id nd.neighbors x

theorem has_lids (nd : NodeMap m k) (x : Id m) : (nodeLids u nd).hasNeighbor x = nd.hasNeighbor x := by
  have := neighbor_lids (u := u) nd x
  unfold NodeMap.getNeighbor at this
  unfold NodeMap.hasNeighbor
  rw [this, Option.isSome_map]

theorem in_edge_lids (nd : NodeMap m k) (x : Id m) :
    (nodeLids u nd).addInEdge x = nodeLids u (nd.addInEdge x) := by
  unfold NodeMap.addInEdge NodeMap.hasInNeighbor
  have h : (nodeLids u nd).inNeighbors = nd.inNeighbors := rfl
  rw [h]
  split_ifs <;> rfl

theorem add_lids (nd : NodeMap m k) (x : Id m) (l : Option (Id k)) :
    (nodeLids u nd).addEdge x (l.map u) = (nodeLids u (nd.addEdge x l).1, (nd.addEdge x l).2) := by
  unfold NodeMap.addEdge
  rw [has_lids]
  have h := binsert_ids (f := id) (F := Option.map u) strictMono_id nd.neighbors x l
  simp only [id_eq] at h
  simp only [nodeLids, h]

theorem remove_lids (nd : NodeMap m k) (x : Id m) :
    (nodeLids u nd).removeEdge x = (nodeLids u (nd.removeEdge x).1, (nd.removeEdge x).2.map (edgeLids u)) := by
  unfold NodeMap.removeEdge
  have h := neighbor_lids (u := u) nd x
  unfold NodeMap.getNeighbor at h
  have h2 := erase_ids (f := id) (F := Option.map u) strictMono_id nd.neighbors x
  simp only [id_eq] at h2
  rw [h]
  cases AL.get nd.neighbors x with
  | none => rfl
  | some l => simp only [nodeLids, h2, Option.map_some, edgeLids]

theorem non_less_lids (nd : NodeMap m k) :
    (nodeLids u nd).nonLess = nd.nonLess.map (fun p => (p.1, p.2.map u)) := by
  simp only [NodeMap.nonLess, nodeLids, List.filter_map]
  rfl

/-- **C169**, queries: with label ids of another type, of the same value, the same answers. -/
theorem c169_queries (hu : ∀ i, (u i).val = i.val) (g : GraphMap m k NL EL) :
    (∀ n, (mapLids u g).hasNode n = g.hasNode n) ∧
      (∀ n, (mapLids u g).getNode n = (g.getNode n).map (nodeLids u)) ∧
      (∀ s t, (mapLids u g).hasEdge s t = g.hasEdge s t) ∧
      (∀ s t, (mapLids u g).getEdge s t = Option.map (edgeLids u) <$> g.getEdge s t) ∧
      (∀ n, (mapLids u g).degree n = g.degree n) ∧ (∀ n, (mapLids u g).inDegree n = g.inDegree n) ∧
      (∀ n, (mapLids u g).neighbors n = g.neighbors n) ∧
      (∀ n, (mapLids u g).inNeighbors n = g.inNeighbors n) ∧
      (∀ n, (mapLids u g).getNodeLabel n = g.getNodeLabel n) ∧
      (∀ s t, (mapLids u g).getEdgeLabel s t = g.getEdgeLabel s t) ∧
      (mapLids u g).nodeIndices = g.nodeIndices ∧ (mapLids u g).edgeIndices = g.edgeIndices ∧
      (mapLids u g).edges = g.edges.map (edgeLids u) ∧ (mapLids u g).maxSeenId = g.maxSeenId ∧
      (mapLids u g).nodeCount = g.nodeCount ∧ (mapLids u g).edgeCount = g.edgeCount := by
  have hn : ∀ n, (mapLids u g).getNode n = (g.getNode n).map (nodeLids u) := fun n => node_lids g n
  have he : ∀ s t, (mapLids u g).hasEdge s t = g.hasEdge s t := by
    intro s t
    unfold GraphMap.hasEdge
    rw [hn]
    cases g.getNode s with
    | none => rfl
    | some nd => exact has_lids nd t
  have hge : ∀ s t, (mapLids u g).getEdge s t = Option.map (edgeLids u) <$> g.getEdge s t := by
    intro s t
    unfold GraphMap.getEdge
    rw [he, hn]
    split_ifs
    · rfl
    · cases g.getNode s with
      | none => rfl
      | some nd =>
        have hu : ∀ {Z : Type} (z : Z), unwrap (some z) = pure z := fun _ => rfl
        simp only [Option.map_some, hu, pure_bind, neighbor_lids]
        cases nd.getNeighbor t <;> rfl
  refine ⟨fun n => ?_, hn, he, hge, fun n => ?_, fun n => ?_, fun n => ?_, fun n => ?_, fun n => ?_, fun s t => ?_,
    ?_, ?_, ?_, rfl, ?_, rfl⟩
  · unfold GraphMap.hasNode
    rw [node_lids, Option.isSome_map]
  · unfold GraphMap.degree
    rw [hn]
    cases g.getNode n with
    | none => rfl
    | some nd => simp [NodeMap.degree, nodeLids]
  · unfold GraphMap.inDegree
    rw [hn]
    cases g.getNode n <;> rfl
  · unfold GraphMap.neighbors
    rw [hn]
    cases g.getNode n with
    | none => rfl
    | some nd => simp [NodeMap.neighborIds, AL.keys, nodeLids, Function.comp_def]
  · unfold GraphMap.inNeighbors
    rw [hn]
    cases g.getNode n <;> rfl
  · unfold GraphMap.getNodeLabel
    rw [hn]
    cases g.getNode n with
    | none => rfl
    | some nd =>
      obtain ⟨i, l, a, b⟩ := nd
      cases l with
      | none => rfl
      | some l => exact congrArg g.nodeLabels.getItem (hu l)
  · unfold GraphMap.getEdgeLabel
    rw [hge, bind_map_left]
    congr 1
    funext e
    cases e with
    | none => rfl
    | some e =>
      obtain ⟨a, b, l⟩ := e
      cases l with
      | none => rfl
      | some l => exact congrArg (fun i => pure (g.edgeLabels.getItem i)) (hu l)
  · simp [GraphMap.nodeIndices, mapLids, AL.keys, Function.comp_def]
  · unfold GraphMap.edgeIndices
    have hd : (mapLids u g).directed = g.directed := rfl
    rw [hd]
    split_ifs
    · simp [mapLids, AL.values, List.flatMap_map, NodeMap.neighborIds, AL.keys, nodeLids, Function.comp_def]
    · simp only [mapLids, AL.values, List.flatMap_map, NodeMap.nonLessNeighborIds, AL.keys, non_less_lids,
        List.map_map, Function.comp_def]
      rfl
  · unfold GraphMap.edges
    have hd : (mapLids u g).directed = g.directed := rfl
    rw [hd]
    split_ifs
    · simp [mapLids, AL.values, List.flatMap_map, List.map_flatMap, NodeMap.neighborEdges, nodeLids, edgeLids,
        Function.comp_def]
    · simp only [mapLids, AL.values, List.flatMap_map, List.map_flatMap, NodeMap.nonLessNeighborEdges,
        non_less_lids, List.map_map, Function.comp_def, edgeLids]
      rfl
  · simp [GraphMap.nodeCount, mapLids]

theorem unlink_lids (g : GraphMap m k NL EL) (nd : NodeMap m k) (n : Id m) :
    (mapLids u g).unlink (nodeLids u nd) n = mapLids u <$> g.unlink nd n := by
  have hd : (mapLids u g).directed = g.directed := rfl
  have h1 : (nodeLids u nd).neighborIds = nd.neighborIds := by
    simp [NodeMap.neighborIds, AL.keys, nodeLids, Function.comp_def]
  have h2 : (nodeLids u nd).inNeighborIds = nd.inNeighborIds := rfl
  have hs : ∀ (z : GraphMap m k NL EL) (x : Id m),
      GraphMap.withNode (mapLids u z) x (fun nd => (nd.removeEdge n).1) =
        mapLids u <$> z.withNode x (fun nd => (nd.removeEdge n).1) :=
    fun z x => with_lids z x (fun nd => by rw [remove_lids])
  unfold GraphMap.unlink
  rw [hd, h1, h2]
  split_ifs
  · rw [fold_lids (fun z x => with_lids z x (F := fun nd => nd.removeInEdge n) (fun nd => rfl)), map_bind,
      bind_map_left]
    congr 1
    funext z
    exact fold_lids hs _ _
  · exact fold_lids hs _ _

/-- **C169**, `remove_node`. -/
theorem c169_remove_node (g : GraphMap m k NL EL) (n : Id m) :
    (mapLids u g).removeNode n = (fun r => (mapLids u r.1, r.2.map (nodeLids u))) <$> g.removeNode n := by
  unfold GraphMap.removeNode
  rw [node_lids]
  cases AL.get g.nodeMap n with
  | none => rfl
  | some nd =>
    have he := erase_ids (f := id) (F := nodeLids u) strictMono_id g.nodeMap n
    simp only [id_eq] at he
    have e : ({ mapLids u g with nodeMap := AL.erase (mapLids u g).nodeMap n } : GraphMap m k' NL EL) =
        mapLids u { g with nodeMap := AL.erase g.nodeMap n } := by
      simp only [mapLids, he]
    have h1 : (nodeLids u nd).degree = nd.degree := by simp [NodeMap.degree, nodeLids]
    have h2 : (nodeLids u nd).inDegree = nd.inDegree := rfl
    simp only [Option.map_some, e, unlink_lids, bind_map_left, map_bind, h1, h2]
    congr 1
    funext z
    have hz : (mapLids u z).numEdges = z.numEdges := rfl
    rw [hz]
    split_ifs <;> rfl

/-- **C169**, `remove_edge`. -/
theorem c169_remove_edge (hu : ∀ i, (u i).val = i.val) (g : GraphMap m k NL EL) (s t : Id m) :
    (mapLids u g).removeEdge s t = (fun r => (mapLids u r.1, r.2.map (edgeLids u))) <$> g.removeEdge s t := by
  unfold GraphMap.removeEdge
  rw [(c169_queries hu g).2.2.1, node_lids]
  by_cases hb : (!g.hasEdge s t) = true
  · rw [if_pos hb, if_pos hb]; rfl
  rw [if_neg hb, if_neg hb]
  cases AL.get g.nodeMap s with
  | none => rfl
  | some nd =>
    have hu : ∀ {Z : Type} (z : Z), unwrap (some z) = pure z := fun _ => rfl
    have hs : ∀ (z : GraphMap m k NL EL) (x y : Id m),
        GraphMap.withNode (mapLids u z) x (fun nd => (nd.removeEdge y).1) =
          mapLids u <$> z.withNode x (fun nd => (nd.removeEdge y).1) :=
      fun z x y => with_lids z x (fun nd => by rw [remove_lids])
    simp only [Option.map_some, hu, pure_bind, map_bind]
    rw [hs, bind_map_left]
    congr 1
    funext z
    have ht : (mapLids u z).removeEdgeTarget s t = mapLids u <$> z.removeEdgeTarget s t := by
      unfold GraphMap.removeEdgeTarget
      have hd : (mapLids u z).directed = z.directed := rfl
      rw [hd, hs, with_lids z t (F := fun nd => nd.removeInEdge s) (fun nd => rfl)]
      split_ifs <;> rfl
    rw [ht, bind_map_left]
    congr 1
    funext y
    have hz : (mapLids u y).numEdges = y.numEdges := rfl
    rw [hz, remove_lids]
    split_ifs <;> rfl

/-! ### Calls that number labels -/

theorem new_lids (hu : ∀ i, (u i).val = i.val) {i : Nat} (h : i ≤ k) : (Id.new i : Id k') = u (Id.new i) := by
  have h1 : (Id.new i : Id k).val = i := by
    simp only [Id.new, Fin.ofNat]
    exact Nat.mod_eq_of_lt (Nat.lt_succ_of_le h)
  refine Fin.ext ?_
  rw [hu, h1]
  simp only [Id.new, Fin.ofNat]
  refine Nat.mod_eq_of_lt ?_
  have := (u (Id.new i)).isLt
  rw [hu, h1] at this
  exact this

theorem intern_lids {X : Type} [DecidableEq X] (hu : ∀ i, (u i).val = i.val) {s : SetMap X} {l : Option X}
    (hr : Room k s l) :
    (intern s l : Res (SetMap X × Option (Id k'))) = (fun r => (r.1, r.2.map u)) <$> intern s l := by
  cases l with
  | none => rfl
  | some x =>
    obtain ⟨h1, h2⟩ := hr x rfl
    unfold intern SetMap.addItem
    by_cases hc : s.contains x = true
    · simp only [hc, if_true, bind_assoc, map_bind]
      cases hi : s.findIndex x with
      | none => rfl
      | some i =>
        have hlt : i ≤ k := by
          unfold SetMap.findIndex at hi
          have := (List.findIdx?_eq_some_iff_getElem.1 hi).1
          omega
        have hw : ∀ {Z : Type} (z : Z), unwrap (some z) = pure z := fun _ => rfl
        simp only [hw, pure_bind, map_pure, Option.map_some, new_lids hu hlt]
    · have hx : x ∉ s.labels := by simpa [SetMap.contains] using hc
      have hlt := h2 hx
      have hc' : s.contains x = false := by simpa using hc
      simp only [hc', Bool.false_eq_true, if_false]
      have hl : (s.insert x).len - 1 ≤ k := by
        simp [SetMap.insert, SetMap.len, hx]
        exact hlt
      split_ifs
      · rfl
      · simp only [pure_bind, map_pure, Option.map_some, new_lids hu hl]

variable [DecidableEq NL] [DecidableEq EL]

omit [DecidableEq EL] in
/-- **C169**, `add_node`. -/
theorem c169_add_node (hu : ∀ i, (u i).val = i.val) (g : GraphMap m k NL EL) (n : Id m) {l : Option NL}
    (hr : Room k g.nodeLabels l) :
    (mapLids u g).addNode n l = (fun r => (mapLids u r.1, r.2)) <$> g.addNode n l := by
  unfold GraphMap.addNode
  have hg : (mapLids u g).nodeLabels = g.nodeLabels := rfl
  rw [hg, intern_lids hu hr, map_bind, bind_map_left]
  congr 1
  funext r
  have e : ({ mapLids u g with nodeLabels := r.1 } : GraphMap m k' NL EL) =
    mapLids u { g with nodeLabels := r.1 } := rfl
  simp only [e]
  rw [(c169_queries hu _).1]
  split_ifs
  · rw [with_lids _ n (F := fun nd => nd.setLabelId r.2) (fun nd => rfl)]
    simp only [bind_map_left, map_bind, map_pure]
  · have hi := hinsert_ids (f := id) (F := nodeLids u) strictMono_id g.nodeMap n (NodeMap.new n r.2)
    simp only [id_eq] at hi
    have e2 : NodeMap.new n (r.2.map u) = nodeLids u (NodeMap.new n r.2) := rfl
    simp only [map_pure]
    simp only [mapLids, e2, hi]

omit [DecidableEq EL] in
theorem ensure_lids (hu : ∀ i, (u i).val = i.val) (g : GraphMap m k NL EL) (n : Id m) :
    (mapLids u g).ensureNode n = mapLids u <$> g.ensureNode n := by
  unfold GraphMap.ensureNode
  rw [(c169_queries hu _).1, c169_add_node hu g n (l := none) (fun x h => by cases h)]
  split_ifs
  · simp only [bind_map_left, map_bind, map_pure]
  · rfl

omit [DecidableEq EL] in
theorem ensure_table {g g' : GraphMap m k NL EL} {n : Id m} (h : g.ensureNode n = .ok g') :
    g'.edgeLabels = g.edgeLabels := by
  unfold GraphMap.ensureNode at h
  split_ifs at h with hn
  · have hn' : g.hasNode n = false := by simpa using hn
    have hn2 : ({ g with nodeLabels := g.nodeLabels } : GraphMap m k NL EL).hasNode n = false := hn'
    simp only [GraphMap.addNode, intern, pure_ok, bind_ok, hn', Bool.false_eq_true, if_false] at h
    cases h; rfl
  · cases h; rfl

/-- **C169**, `add_edge`. -/
theorem c169_add_edge (hu : ∀ i, (u i).val = i.val) (g : GraphMap m k NL EL) (s t : Id m) {l : Option EL}
    (hr : Room k g.edgeLabels l) :
    (mapLids u g).addEdge s t l = (fun r => (mapLids u r.1, r.2)) <$> g.addEdge s t l := by
  unfold GraphMap.addEdge
  rw [ensure_lids hu, bind_map_left, map_bind]
  cases h1 : g.ensureNode s with
  | error e => rfl
  | ok g1 =>
  simp only [bind_ok]
  rw [ensure_lids hu, bind_map_left]
  cases h2 : g1.ensureNode t with
  | error e => rfl
  | ok g2 =>
  simp only [bind_ok]
  rw [← ensure_table h1, ← ensure_table h2] at hr
  have hg : (mapLids u g2).edgeLabels = g2.edgeLabels := rfl
  rw [hg, intern_lids hu hr, map_bind, bind_map_left]
  congr 1
  funext r
  have e : ({ mapLids u g2 with edgeLabels := r.1 } : GraphMap m k' NL EL) =
    mapLids u { g2 with edgeLabels := r.1 } := rfl
  simp only [e]
  rw [node_lids]
  cases AL.get ({ g2 with edgeLabels := r.1 } : GraphMap m k NL EL).nodeMap s with
  | none => rfl
  | some nd =>
    have hw : ∀ {Z : Type} (z : Z), unwrap (some z) = pure z := fun _ => rfl
    have hs : ∀ (z : GraphMap m k NL EL) (x y : Id m),
        GraphMap.withNode (mapLids u z) x (fun nd => (nd.addEdge y (r.2.map u)).1) =
          mapLids u <$> z.withNode x (fun nd => (nd.addEdge y r.2).1) :=
      fun z x y => with_lids z x (fun nd => by rw [add_lids])
    simp only [Option.map_some, hw, pure_bind, map_bind]
    rw [hs, bind_map_left]
    congr 1
    funext z
    have ht : (mapLids u z).addEdgeTarget s t (r.2.map u) = mapLids u <$> z.addEdgeTarget s t r.2 := by
      unfold GraphMap.addEdgeTarget
      have hd : (mapLids u z).directed = z.directed := rfl
      rw [hd, hs, with_lids z t (F := fun nd => nd.addInEdge s) (fun nd => in_edge_lids nd s)]
      split_ifs <;> rfl
    rw [ht, bind_map_left, add_lids]
    congr 1

omit [DecidableEq EL] in
/-- **C169**, `update_node_label`. -/
theorem c169_update_node (hu : ∀ i, (u i).val = i.val) (g : GraphMap m k NL EL) (n : Id m) {l : Option NL}
    (hr : Room k g.nodeLabels l) :
    (mapLids u g).updateNodeLabel n l = (fun r => (mapLids u r.1, r.2)) <$> g.updateNodeLabel n l := by
  unfold GraphMap.updateNodeLabel
  rw [(c169_queries hu _).1, c169_add_node hu g n hr]
  split_ifs
  · rfl
  · simp only [bind_map_left, map_bind, map_pure]

/-- **C169**, `update_edge_label`. -/
theorem c169_update_edge (hu : ∀ i, (u i).val = i.val) (g : GraphMap m k NL EL) (s t : Id m) {l : Option EL}
    (hr : Room k g.edgeLabels l) :
    (mapLids u g).updateEdgeLabel s t l = (fun r => (mapLids u r.1, r.2)) <$> g.updateEdgeLabel s t l := by
  unfold GraphMap.updateEdgeLabel
  rw [(c169_queries hu _).2.2.1, c169_add_edge hu g s t hr]
  split_ifs
  · rfl
  · simp only [bind_map_left, map_bind, map_pure]

/-- **C169**, one call of any kind, with room in the tables for its label. -/
theorem c169_apply (hu : ∀ i, (u i).val = i.val) (g : GraphMap m k NL EL) {op : Op m k NL EL}
    {op' : Op m k' NL EL} (h : OpLids u op op') (hn : Room k g.nodeLabels (givenNode op))
    (he : Room k g.edgeLabels (givenEdge op)) : (mapLids u g).apply op' = mapLids u <$> g.apply op := by
  cases h with
  | addNode n l => simp only [GraphMap.apply, c169_add_node hu g n (l := l) hn, bind_map_left, map_bind, map_pure]
  | removeNode n => simp only [GraphMap.apply, c169_remove_node, bind_map_left, map_bind, map_pure]
  | addEdge s t l => simp only [GraphMap.apply, c169_add_edge hu g s t (l := l) he, bind_map_left, map_bind, map_pure]
  | removeEdge s t => simp only [GraphMap.apply, c169_remove_edge hu, bind_map_left, map_bind, map_pure]
  | updateNodeLabel n l => simp only [GraphMap.apply, c169_update_node hu g n (l := l) hn, bind_map_left, map_bind, map_pure]
  | updateEdgeLabel s t l =>
    simp only [GraphMap.apply, c169_update_edge hu g s t (l := l) he, bind_map_left, map_bind, map_pure]
  | addNodeLabel l =>
    have hg : (mapLids u g).nodeLabels = g.nodeLabels := rfl
    have hi := intern_lids hu (l := l) hn
    simp only [GraphMap.apply, GraphMap.addNodeLabel, hg, map_bind, bind_assoc]
    rw [hi, bind_map_left]
    rfl
  | addEdgeLabel l =>
    have hg : (mapLids u g).edgeLabels = g.edgeLabels := rfl
    have hi := intern_lids hu (l := l) he
    simp only [GraphMap.apply, GraphMap.addEdgeLabel, hg, map_bind, bind_assoc]
    rw [hi, bind_map_left]
    rfl
  | refineEdgeCount =>
    simp only [GraphMap.apply, GraphMap.refineEdgeCount, (c169_queries hu g).2.2.2.2.2.2.2.2.2.2.2.1, map_pure]
    rfl
  | setNodeLabelId n l =>
    simp only [GraphMap.apply, GraphMap.setNodeLabelId]
    rw [node_lids]
    cases AL.get g.nodeMap n with
    | none => rfl
    | some nd =>
      have := set_ids (f := id) (F := nodeLids u) strictMono_id g.nodeMap n (nd.setLabelId l)
      simp only [id_eq] at this
      have e : (nodeLids u nd).setLabelId (l.map u) = nodeLids u (nd.setLabelId l) := rfl
      simp only [Option.map_some, map_pure, e]
      simp only [mapLids, this]
  | setEdgeLabelId s t l =>
    simp only [GraphMap.apply, GraphMap.setEdgeLabelId]
    rw [(c169_queries hu g).2.2.1]
    split_ifs
    · rfl
    · refine with_lids g s (fun nd => ?_)
      have := set_ids (f := id) (F := Option.map u) strictMono_id nd.neighbors t l
      simp only [id_eq] at this
      simp only [nodeLids, this]
  | mapNodeLabelIds hp =>
    simp only [GraphMap.apply, GraphMap.mapNodeLabelIds, map_pure]
    simp only [mapLids, List.map_map, Function.comp_def, nodeLids, NodeMap.setLabelId, hp]
  | mapEdgeLabelIds hp =>
    simp only [GraphMap.apply, GraphMap.mapEdgeLabelIds, map_pure]
    have hd : (mapLids u g).directed = g.directed := rfl
    rw [hd]
    split_ifs
    · simp only [mapLids, List.map_map, Function.comp_def, nodeLids, NodeMap.mapNeighbors, hp]
    · simp only [mapLids, List.map_map, Function.comp_def, nodeLids, NodeMap.mapNonLess]
      congr 3
      funext p
      congr 2
      refine List.map_congr_left (fun q _ => ?_)
      by_cases hq : p.2.id ≤ q.1
      · rw [if_pos hq, if_pos hq, hp]
      · rw [if_neg hq, if_neg hq]

/-! ### Programs -/

open GraphMap

/-- The tables of the graph hold labels of `U` and of `V` only. -/
def Keeps (U : Finset NL) (V : Finset EL) (g : GraphMap m k NL EL) : Prop :=
  (∀ x ∈ g.nodeLabels.labels, x ∈ U) ∧ ∀ x ∈ g.edgeLabels.labels, x ∈ V

/-- The call is given labels of `U` and of `V` only. -/
def Gives (U : Finset NL) (V : Finset EL) (op : Op m k NL EL) : Prop :=
  (∀ x, givenNode op = some x → x ∈ U) ∧ ∀ x, givenEdge op = some x → x ∈ V

theorem table_apply {g g' : GraphMap m k NL EL} (hg : g.Inv) {op : Op m k NL EL} (h : g.apply op = .ok g') :
    (∀ x ∈ g'.nodeLabels.labels, x ∈ g.nodeLabels.labels ∨ givenNode op = some x) ∧
      ∀ x ∈ g'.edgeLabels.labels, x ∈ g.edgeLabels.labels ∨ givenEdge op = some x := by
  have ht := tabled_apply hg h
  have e1 : g'.nodeLabels.labels = (Tabled.step g.directed g.tabled op).nodes := congrArg Tabled.nodes ht
  have e2 : g'.edgeLabels.labels = (Tabled.step g.directed g.tabled op).edges := congrArg Tabled.edges ht
  have t3 : g.tabled.nodes = g.nodeLabels.labels := rfl
  have t4 : g.tabled.edges = g.edgeLabels.labels := rfl
  rw [e1, e2, ← t3, ← t4]
  generalize g.tabled = T at *
  constructor
  · intro x hx
    cases op <;> simp only [Tabled.step] at hx <;> (try split at hx) <;>
      first
        | exact .inl hx
        | exact (Order.mem_named _ _ _).1 hx
  · intro x hx
    cases op <;> simp only [Tabled.step] at hx <;> (try split at hx) <;>
      first
        | exact .inl hx
        | exact (Order.mem_named _ _ _).1 hx

theorem keeps_apply {U : Finset NL} {V : Finset EL} {g g' : GraphMap m k NL EL} (hg : g.Inv) (hk : Keeps U V g)
    {op : Op m k NL EL} (ho : Gives U V op) (h : g.apply op = .ok g') : Keeps U V g' := by
  obtain ⟨h1, h2⟩ := table_apply hg h
  exact ⟨fun x hx => (h1 x hx).elim (hk.1 x) (ho.1 x), fun x hx => (h2 x hx).elim (hk.2 x) (ho.2 x)⟩

omit [DecidableEq NL] in
theorem room_of {X : Type} {U : Finset X} (hU : U.card ≤ k + 1) {s : SetMap X} (hs : s.labels.Nodup)
    (h : ∀ x ∈ s.labels, x ∈ U) {l : Option X} (hl : ∀ x, l = some x → x ∈ U) : Room k s l := by
  classical
  intro x hx
  have h1 : s.labels.toFinset ⊆ U := fun y hy => h y (List.mem_toFinset.1 hy)
  have c1 : s.labels.toFinset.card = s.labels.length := List.toFinset_card_of_nodup hs
  refine ⟨?_, fun hn => ?_⟩
  · have := Finset.card_le_card h1
    omega
  · have h2 : insert x s.labels.toFinset ⊆ U := Finset.insert_subset (hl x hx) h1
    have := Finset.card_le_card h2
    rw [Finset.card_insert_of_notMem (by simpa using hn)] at this
    omega

/-- **C169**, programs: if a program is given at most `k + 1` different node labels and as many edge labels, counting
those in the tables before, it does the same with the wider label ids. -/
theorem c169_exec (hu : ∀ i, (u i).val = i.val) {U : Finset NL} {V : Finset EL} (hU : U.card ≤ k + 1)
    (hV : V.card ≤ k + 1) {g : GraphMap m k NL EL} (hg : Reachable g) (hk : Keeps U V g) {ops : List (Op m k NL EL)}
    {ops' : List (Op m k' NL EL)} (h : List.Forall₂ (OpLids u) ops ops') (ho : ∀ op ∈ ops, Gives U V op) :
    (mapLids u g).exec ops' = mapLids u <$> g.exec ops := by
  have hi := hg.inv
  clear hg
  induction h generalizing g with
  | nil => rfl
  | @cons op op' ops ops' h1 _ ih =>
    simp only [GraphMap.exec, List.foldlM_cons] at ih ⊢
    have hop := ho op List.mem_cons_self
    rw [c169_apply hu g h1 (room_of hU hi.nlNodup hk.1 hop.1) (room_of hV hi.elNodup hk.2 hop.2), bind_map_left,
      map_bind]
    cases ha : g.apply op with
    | error e => rfl
    | ok g' =>
      exact ih (keeps_apply hi hk hop ha) (fun o h => ho o (List.mem_cons_of_mem _ h)) (inv_apply hi ha)

/-- **C169**, histories, with the hash map reordered in between as it may be. -/
theorem c169_run (hu : ∀ i, (u i).val = i.val) {U : Finset NL} {V : Finset EL} (hU : U.card ≤ k + 1)
    (hV : V.card ≤ k + 1) {start g : GraphMap m k NL EL} (hs : Reachable start) (hk : Keeps U V start)
    {ops : List (Op m k NL EL)} {ops' : List (Op m k' NL EL)} (h : Run start ops g)
    (ho : List.Forall₂ (OpLids u) ops ops') (hgv : ∀ op ∈ ops, Gives U V op) :
    Run (mapLids u start) ops' (mapLids u g) ∧ Keeps U V g := by
  have hi := hs.inv
  induction h generalizing ops' with
  | nil => cases ho; exact ⟨.nil, hk⟩
  | @step ops op g g' hr ha ih =>
    obtain ⟨l1, op', h2, h3, rfl⟩ : ∃ l1 op', List.Forall₂ (OpLids u) ops l1 ∧ OpLids u op op' ∧ ops' = l1 ++ [op'] := by
      obtain ⟨op', l2, h3, h4, h5⟩ := List.forall₂_cons_left_iff.1 (by simpa using List.rel_reverse ho)
      refine ⟨l2.reverse, op', by simpa using List.rel_reverse h4, h3, ?_⟩
      rw [← List.reverse_reverse ops', h5, List.reverse_cons]
    obtain ⟨r1, r2⟩ := ih h2 (fun o h => hgv o (by simp [h]))
    have hop := hgv op (by simp)
    have hj := inv_run hi hr
    refine ⟨.step r1 ?_, keeps_apply hj r2 hop ha⟩
    rw [c169_apply hu g h3 (room_of hU hj.nlNodup r2.1 hop.1) (room_of hV hj.elNodup r2.2 hop.2), ha]
    rfl
  | rehash _ hp ih =>
    obtain ⟨r1, r2⟩ := ih ho hgv
    exact ⟨.rehash r1 (hp.map _), r2⟩

omit [DecidableEq NL] [DecidableEq EL] in
theorem out_lids (hu : ∀ i, (u i).val = i.val) (g : GraphMap m k NL EL) (s t : Id m) :
    (mapLids u g).outE s t = (g.outE s t).map (Option.map u) := by
  unfold outE
  rw [(c169_queries hu g).2.1]
  cases g.getNode s with
  | none => rfl
  | some nd => exact neighbor_lids nd t

omit [DecidableEq NL] [DecidableEq EL] in
/-- **C169**: the graph with the other label ids shows the same abstract graph, so that searches, components, union,
difference and clones of it come out the same. -/
theorem c169_abs (hu : ∀ i, (u i).val = i.val) (g : GraphMap m k NL EL) : (mapLids u g).abs = g.abs := by
  have hn : ∀ n, (mapLids u g).decode.node n = g.decode.node n := by
    intro n
    simp only [decode, labE, (c169_queries hu g).2.1]
    cases g.getNode n with
    | none => rfl
    | some nd =>
      obtain ⟨i, l, a, b⟩ := nd
      cases l with
      | none => rfl
      | some l => exact congrArg (fun i => some (g.nodeLabels.getItem i)) (hu l)
  have he : ∀ s t, (mapLids u g).decode.edge s t = g.decode.edge s t := by
    intro s t
    simp only [decode, out_lids hu]
    cases g.outE s t with
    | none => rfl
    | some l =>
      cases l with
      | none => rfl
      | some l => exact congrArg (fun i => some (g.edgeLabels.getItem i)) (hu l)
  have hd : (mapLids u g).directed = g.directed := rfl
  unfold GraphMap.abs
  simp only [funext hn, he, hd]

/-- **C169**: the graphs a program can hold are again such graphs. -/
theorem c169_reachable (hu : ∀ i, (u i).val = i.val) {g : GraphMap m k NL EL} (hg : Reachable g) :
    Reachable (mapLids u g) := by
  have hi := hg.inv
  have hn := (c169_queries hu g).2.1
  have hh := (c169_queries hu g).1
  have hin : ∀ t s, (mapLids u g).inE t s ↔ g.inE t s := by
    intro t s
    unfold inE
    rw [hn]
    cases g.getNode t with
    | none => simp
    | some nd => simp [nodeLids]
  refine (reachable_iff _).2 ⟨⟨?_, ?_, ?_, ?_⟩, ?_, ?_, ?_, ?_, ?_, hi.nlNodup, hi.elNodup, ?_⟩
  · have := hi.keys
    have e : AL.keys (mapLids u g).nodeMap = AL.keys g.nodeMap := (c169_queries hu g).2.2.2.2.2.2.2.2.2.2.1
    rw [e]; exact this
  · intro n nd h
    rw [hn] at h
    obtain ⟨nd', h1, rfl⟩ := Option.map_eq_some_iff.1 h
    exact hi.ids n nd' h1
  · intro n nd h
    rw [hn] at h
    obtain ⟨nd', h1, rfl⟩ := Option.map_eq_some_iff.1 h
    have := hi.sortedOut n nd' h1
    simpa [nodeLids, AL.keys, Function.comp_def] using this
  · intro n nd h
    rw [hn] at h
    obtain ⟨nd', h1, rfl⟩ := Option.map_eq_some_iff.1 h
    exact hi.sortedIn n nd' h1
  · intro s t h
    rw [out_lids hu, Option.isSome_map] at h
    rw [hh]; exact hi.target s t h
  · intro hd s t
    rw [hin, out_lids hu, Option.isSome_map]
    exact hi.inSpec hd s t
  · intro hd t s
    rw [hin]; exact hi.inNil hd t s
  · intro hd s t h
    have e1 : (mapLids u g).rep.edge s t = _ := out_lids hu g s t
    have e2 : (mapLids u g).rep.edge t s = _ := out_lids hu g t s
    rw [e1, Option.isSome_map] at h
    rw [e2, Option.isSome_map]
    exact hi.sym hd s t h
  · have e : (mapLids u g).edgeNum = g.edgeNum := by
      unfold edgeNum AGraph.edgeNumber rep
      simp only [out_lids hu, Option.isSome_map]
      rfl
    rw [e]; exact hi.count
  · intro n h
    rw [hh] at h
    exact hi.maxBound n h

/-- **C169**: a graph and the one with the other label ids compare equal and hash alike. -/
theorem c169_equal (hu : ∀ i, (u i).val = i.val) {g : GraphMap m k NL EL} (hg : Reachable g) :
    g.view.equal (mapLids u g).view = .ok true ∧ (mapLids u g).view.equal g.view = .ok true ∧
      (mapLids u g).view.hashData = g.view.hashData := by
  have S := reachable_shows hg
  have T := reachable_shows (c169_reachable hu hg)
  rw [c169_abs hu] at T
  have hc : (mapLids u g).view.nodeCount = g.view.nodeCount := (c169_queries hu g).2.2.2.2.2.2.2.2.2.2.2.2.2.2.1
  refine ⟨?_, ?_, ?_⟩
  · obtain ⟨b, h1, h2⟩ := c84_equal_exact S T
    rw [h1, h2.2 ⟨rfl, hc.symm, rfl, ⟨fun n l h => h, fun s t l h => h⟩⟩]
  · obtain ⟨b, h1, h2⟩ := c84_equal_exact T S
    rw [h1, h2.2 ⟨rfl, hc, rfl, ⟨fun n l h => h, fun s t l h => h⟩⟩]
  · exact (c84_hash_data_iff T S rfl).2 ((sameGraph_iff T S).2 ⟨rfl, rfl⟩)

end Calls

/-- **C169**, too many labels: with one label more the narrow ids run over, the wide ones do not. -/
theorem c169_overrun :
    ∃ (ops : List (Op 3 1 Nat Nat)) (ops' : List (Op 3 3 Nat Nat)),
      List.Forall₂ (OpLids (Fin.castLE (by decide))) ops ops' ∧
      (GraphMap.new true : GraphMap 3 3 Nat Nat).exec ops' ≠
        mapLids (Fin.castLE (by decide)) <$> (GraphMap.new true : GraphMap 3 1 Nat Nat).exec ops :=
  ⟨[.addNode 0 (some 7), .addNode 1 (some 8), .addNode 2 (some 9)],
    [.addNode 0 (some 7), .addNode 1 (some 8), .addNode 2 (some 9)],
    .cons (.addNode _ _) (.cons (.addNode _ _) (.cons (.addNode _ _) .nil)), by decide⟩

/-- The conditions can be met: two labels with ids up to one, removed and given again. -/
example : (GraphMap.new true : GraphMap 3 9 Nat Nat).exec
      [.addNode 0 (some 7), .addEdge 0 2 (some 5), .updateNodeLabel 0 (some 8), .addNode 1 (some 7), .removeNode 2] =
    mapLids (Fin.castLE (by decide)) <$> (GraphMap.new true : GraphMap 3 1 Nat Nat).exec
      [.addNode 0 (some 7), .addEdge 0 2 (some 5), .updateNodeLabel 0 (some 8), .addNode 1 (some 7), .removeNode 2] :=
  c169_exec (u := Fin.castLE (by decide)) (U := {7, 8}) (V := {5}) (g := GraphMap.new true) (fun _ => rfl) (by decide)
    (by decide) (GraphMap.Reachable.start true SetMap.empty SetMap.empty List.nodup_nil List.nodup_nil) ⟨by simp [GraphMap.new, SetMap.empty, GraphMap.withLabelMap],
      by simp [GraphMap.new, SetMap.empty, GraphMap.withLabelMap]⟩
    (.cons (.addNode _ _) (.cons (.addEdge _ _ _) (.cons (.updateNodeLabel _ _) (.cons (.addNode _ _)
      (.cons (.removeNode _) .nil)))))
    (by simp [Gives, givenNode, givenEdge])

end Verif.Props
