import Verif.Proof.Ids
import Verif.Props.SameSearch
import Verif.Props.Iso
import Verif.Props.Makeable
import Mathlib.Order.Fin.Basic

/-! C168: node ids matter only through their order. -/

namespace Verif.Props

open Spec Proof.Ids Traversal

section Calls

variable {m m' k : Nat} {NL EL : Type} {f : Id m → Id m'}

theorem fold_ids {X X' Y Z : Type} {F : Y → X' → Res Y} {G : Z → X → Res Z} {e : Z → Y} {j : X → X'}
    (hs : ∀ z x, F (e z) (j x) = e <$> G z x) (l : List X) (z : Z) :
    (l.map j).foldlM F (e z) = e <$> l.foldlM G z := by
  induction l generalizing z with
  | nil => rfl
  | cons x l ih => simp only [List.map_cons, List.foldlM_cons, hs, bind_map_left, map_bind, ih]

theorem node_ids (hf : StrictMono f) (g : GraphMap m k NL EL) (n : Id m) :
    AL.get (mapIds f g).nodeMap (f n) = (AL.get g.nodeMap n).map (nodeIds f) := get_ids hf g.nodeMap n

theorem with_ids (hf : StrictMono f) (g : GraphMap m k NL EL) (n : Id m) {F : NodeMap m k → NodeMap m k}
    {F' : NodeMap m' k → NodeMap m' k} (h : ∀ nd, F' (nodeIds f nd) = nodeIds f (F nd)) :
    (mapIds f g).withNode (f n) F' = mapIds f <$> g.withNode n F := by
  unfold GraphMap.withNode
  rw [node_ids hf]
  cases AL.get g.nodeMap n with
  | none => rfl
  | some nd =>
    have := set_ids (F := nodeIds f) hf g.nodeMap n (F nd)
    have hu : ∀ {Z : Type} (z : Z), unwrap (some z) = pure z := fun _ => rfl
    simp only [Option.map_some, hu, pure_bind, map_pure, h]
    simp only [mapIds, this]

/-! ### Queries -/

/-- **C168**, queries: with every id replaced by another, in the same order, the same answers. -/
theorem c168_queries (hf : StrictMono f) (g : GraphMap m k NL EL) :
    (∀ n, (mapIds f g).hasNode (f n) = g.hasNode n) ∧
      (∀ n, (mapIds f g).getNode (f n) = (g.getNode n).map (nodeIds f)) ∧
      (∀ s t, (mapIds f g).hasEdge (f s) (f t) = g.hasEdge s t) ∧
      (∀ s t, (mapIds f g).getEdge (f s) (f t) = Option.map (edgeIds f) <$> g.getEdge s t) ∧
      (∀ n, (mapIds f g).degree (f n) = g.degree n) ∧ (∀ n, (mapIds f g).inDegree (f n) = g.inDegree n) ∧
      (∀ n, (mapIds f g).neighbors (f n) = List.map f <$> g.neighbors n) ∧
      (∀ n, (mapIds f g).inNeighbors (f n) = List.map f <$> g.inNeighbors n) ∧
      (∀ n, (mapIds f g).getNodeLabel (f n) = g.getNodeLabel n) ∧
      (∀ s t, (mapIds f g).getEdgeLabel (f s) (f t) = g.getEdgeLabel s t) ∧
      (mapIds f g).nodeIndices = g.nodeIndices.map f ∧
      (mapIds f g).edgeIndices = g.edgeIndices.map (fun e => (f e.1, f e.2)) ∧
      (mapIds f g).edges = g.edges.map (edgeIds f) ∧ (mapIds f g).maxSeenId = g.maxSeenId.map f ∧
      (mapIds f g).nodeCount = g.nodeCount ∧ (mapIds f g).edgeCount = g.edgeCount ∧
      ∀ y, (∀ n, f n ≠ y) → (mapIds f g).hasNode y = false := by
  have hn : ∀ n, (mapIds f g).getNode (f n) = (g.getNode n).map (nodeIds f) := fun n => node_ids hf g n
  have he : ∀ s t, (mapIds f g).hasEdge (f s) (f t) = g.hasEdge s t := by
    intro s t
    unfold GraphMap.hasEdge
    rw [hn]
    cases g.getNode s with
    | none => rfl
    | some nd => exact hasNeighbor_ids hf nd t
  have hge : ∀ s t, (mapIds f g).getEdge (f s) (f t) = Option.map (edgeIds f) <$> g.getEdge s t := by
    intro s t
    unfold GraphMap.getEdge
    rw [he, hn]
    split_ifs
    · rfl
    · cases g.getNode s with
      | none => rfl
      | some nd =>
        have hu : ∀ {Z : Type} (z : Z), unwrap (some z) = pure z := fun _ => rfl
        simp only [Option.map_some, hu, pure_bind, getNeighbor_ids hf]
        cases nd.getNeighbor t <;> rfl
  refine ⟨fun n => ?_, hn, he, hge, fun n => ?_, fun n => ?_, fun n => ?_, fun n => ?_, fun n => ?_, fun s t => ?_,
    ?_, ?_, ?_, rfl, ?_, rfl, fun y hy => ?_⟩
  · unfold GraphMap.hasNode
    rw [node_ids hf, Option.isSome_map]
  · unfold GraphMap.degree
    rw [hn]
    cases g.getNode n with
    | none => rfl
    | some nd => simp [NodeMap.degree, nodeIds]
  · unfold GraphMap.inDegree
    rw [hn]
    cases g.getNode n with
    | none => rfl
    | some nd => simp [NodeMap.inDegree, nodeIds]
  · unfold GraphMap.neighbors
    rw [hn]
    cases g.getNode n with
    | none => rfl
    | some nd => simp [NodeMap.neighborIds, AL.keys, nodeIds, Function.comp_def]
  · unfold GraphMap.inNeighbors
    rw [hn]
    cases g.getNode n with
    | none => rfl
    | some nd => rfl
  · unfold GraphMap.getNodeLabel
    rw [hn]
    cases g.getNode n <;> rfl
  · unfold GraphMap.getEdgeLabel
    rw [hge, bind_map_left]
    congr 1
    funext e
    cases e <;> rfl
  · simp [GraphMap.nodeIndices, mapIds, AL.keys, Function.comp_def]
  · unfold GraphMap.edgeIndices
    have hd : (mapIds f g).directed = g.directed := rfl
    rw [hd]
    split_ifs
    · simp [mapIds, AL.values, List.flatMap_map, List.map_flatMap, NodeMap.neighborIds, AL.keys, nodeIds,
        Function.comp_def]
    · simp only [mapIds, AL.values, List.flatMap_map, List.map_flatMap, NodeMap.nonLessNeighborIds, AL.keys,
        nonLess_ids hf, List.map_map, Function.comp_def]
      rfl
  · unfold GraphMap.edges
    have hd : (mapIds f g).directed = g.directed := rfl
    rw [hd]
    split_ifs
    · simp [mapIds, AL.values, List.flatMap_map, List.map_flatMap, NodeMap.neighborEdges, nodeIds, edgeIds,
        Function.comp_def]
    · simp only [mapIds, AL.values, List.flatMap_map, List.map_flatMap, NodeMap.nonLessNeighborEdges,
        nonLess_ids hf, List.map_map, Function.comp_def, edgeIds]
      rfl
  · simp [GraphMap.nodeCount, mapIds]
  · unfold GraphMap.hasNode
    have : AL.get (mapIds f g).nodeMap y = none := get_off g.nodeMap hy
    rw [this]
    rfl

/-! ### Calls -/

theorem unlink_ids (hf : StrictMono f) (g : GraphMap m k NL EL) (nd : NodeMap m k) (n : Id m) :
    (mapIds f g).unlink (nodeIds f nd) (f n) = mapIds f <$> g.unlink nd n := by
  have hd : (mapIds f g).directed = g.directed := rfl
  have h1 : (nodeIds f nd).neighborIds = nd.neighborIds.map f := by
    simp [NodeMap.neighborIds, AL.keys, nodeIds, Function.comp_def]
  have h2 : (nodeIds f nd).inNeighborIds = nd.inNeighborIds.map f := rfl
  have hs : ∀ (z : GraphMap m k NL EL) (x : Id m),
      GraphMap.withNode (mapIds f z) (f x) (fun nd => (nd.removeEdge (f n)).1) =
        mapIds f <$> z.withNode x (fun nd => (nd.removeEdge n).1) :=
    fun z x => with_ids hf z x (fun nd => by rw [removeEdge_ids hf])
  unfold GraphMap.unlink
  rw [hd, h1, h2]
  split_ifs
  · rw [fold_ids (fun z x => with_ids hf z x (fun nd => removeInEdge_ids hf nd n)), map_bind, bind_map_left]
    congr 1
    funext z
    exact fold_ids hs _ _
  · exact fold_ids hs _ _

/-- **C168**, `remove_node`. -/
theorem c168_remove_node (hf : StrictMono f) (g : GraphMap m k NL EL) (n : Id m) :
    (mapIds f g).removeNode (f n) = (fun r => (mapIds f r.1, r.2.map (nodeIds f))) <$> g.removeNode n := by
  unfold GraphMap.removeNode
  rw [node_ids hf]
  cases AL.get g.nodeMap n with
  | none => rfl
  | some nd =>
    have he := erase_ids (F := nodeIds f) hf g.nodeMap n
    have e : ({ mapIds f g with nodeMap := AL.erase (mapIds f g).nodeMap (f n) } : GraphMap m' k NL EL) =
        mapIds f { g with nodeMap := AL.erase g.nodeMap n } := by
      simp only [mapIds, he]
    have h1 : (nodeIds f nd).degree = nd.degree := by simp [NodeMap.degree, nodeIds]
    have h2 : (nodeIds f nd).inDegree = nd.inDegree := by simp [NodeMap.inDegree, nodeIds]
    simp only [Option.map_some, e, unlink_ids hf, bind_map_left, map_bind, h1, h2]
    congr 1
    funext z
    have hz : (mapIds f z).numEdges = z.numEdges := rfl
    rw [hz]
    split_ifs <;> rfl

/-- **C168**, `remove_edge`. -/
theorem c168_remove_edge (hf : StrictMono f) (g : GraphMap m k NL EL) (s t : Id m) :
    (mapIds f g).removeEdge (f s) (f t) =
      (fun r => (mapIds f r.1, r.2.map (edgeIds f))) <$> g.removeEdge s t := by
  unfold GraphMap.removeEdge
  rw [(c168_queries hf g).2.2.1, node_ids hf]
  by_cases hb : (!g.hasEdge s t) = true
  · rw [if_pos hb, if_pos hb]; rfl
  rw [if_neg hb, if_neg hb]
  cases AL.get g.nodeMap s with
  | none => rfl
  | some nd =>
    have hu : ∀ {Z : Type} (z : Z), unwrap (some z) = pure z := fun _ => rfl
    have hs : ∀ (z : GraphMap m k NL EL) (x y : Id m),
        GraphMap.withNode (mapIds f z) (f x) (fun nd => (nd.removeEdge (f y)).1) =
          mapIds f <$> z.withNode x (fun nd => (nd.removeEdge y).1) :=
      fun z x y => with_ids hf z x (fun nd => by rw [removeEdge_ids hf])
    simp only [Option.map_some, hu, pure_bind, map_bind]
    rw [hs, bind_map_left]
    congr 1
    funext z
    have ht : (mapIds f z).removeEdgeTarget (f s) (f t) = mapIds f <$> z.removeEdgeTarget s t := by
      unfold GraphMap.removeEdgeTarget
      have hd : (mapIds f z).directed = z.directed := rfl
      rw [hd, hs, with_ids hf z t (fun nd => removeInEdge_ids hf nd s)]
      split_ifs <;> rfl
    rw [ht, bind_map_left]
    congr 1
    funext y
    have hz : (mapIds f y).numEdges = y.numEdges := rfl
    rw [hz, removeEdge_ids hf]
    split_ifs <;> rfl

theorem bump_ids (hf : StrictMono f) (mx : Option (Id m)) (n : Id m) :
    GraphMap.bumpMax (mx.map f) (f n) = (GraphMap.bumpMax mx n).map f := by
  cases mx with
  | none => rfl
  | some i =>
    simp only [Option.map_some, GraphMap.bumpMax, hf.lt_iff_lt]
    split_ifs <;> rfl

variable [DecidableEq NL] [DecidableEq EL]

omit [DecidableEq EL] in
/-- **C168**, `add_node`. -/
theorem c168_add_node (hf : StrictMono f) (g : GraphMap m k NL EL) (n : Id m) (l : Option NL) :
    (mapIds f g).addNode (f n) l = (fun r => (mapIds f r.1, r.2)) <$> g.addNode n l := by
  unfold GraphMap.addNode
  have hg : (mapIds f g).nodeLabels = g.nodeLabels := rfl
  rw [hg, map_bind]
  congr 1
  funext r
  have e : ({ mapIds f g with nodeLabels := r.1 } : GraphMap m' k NL EL) =
    mapIds f { g with nodeLabels := r.1 } := rfl
  simp only [e]
  rw [(c168_queries hf _).1]
  split_ifs
  · rw [with_ids hf _ n (F := fun nd => nd.setLabelId r.2) (fun nd => rfl)]
    simp only [bind_map_left, map_bind, map_pure]
  · have hi := hinsert_ids (F := nodeIds f) hf g.nodeMap n (NodeMap.new n r.2)
    have hb := bump_ids hf g.maxId n
    have e2 : NodeMap.new (f n) r.2 = nodeIds f (NodeMap.new n r.2) := rfl
    simp only [map_pure]
    simp only [mapIds, e2, hi, hb]

omit [DecidableEq EL] in
theorem ensure_ids (hf : StrictMono f) (g : GraphMap m k NL EL) (n : Id m) :
    (mapIds f g).ensureNode (f n) = mapIds f <$> g.ensureNode n := by
  unfold GraphMap.ensureNode
  rw [(c168_queries hf _).1, c168_add_node hf]
  split_ifs
  · simp only [bind_map_left, map_bind, map_pure]
  · rfl

/-- **C168**, `add_edge`. -/
theorem c168_add_edge (hf : StrictMono f) (g : GraphMap m k NL EL) (s t : Id m) (l : Option EL) :
    (mapIds f g).addEdge (f s) (f t) l = (fun r => (mapIds f r.1, r.2)) <$> g.addEdge s t l := by
  unfold GraphMap.addEdge
  rw [ensure_ids hf, bind_map_left, map_bind]
  congr 1
  funext g1
  rw [ensure_ids hf, bind_map_left, map_bind]
  congr 1
  funext g2
  have hg : (mapIds f g2).edgeLabels = g2.edgeLabels := rfl
  rw [hg, map_bind]
  congr 1
  funext r
  have e : ({ mapIds f g2 with edgeLabels := r.1 } : GraphMap m' k NL EL) =
    mapIds f { g2 with edgeLabels := r.1 } := rfl
  simp only [e]
  rw [node_ids hf]
  cases AL.get ({ g2 with edgeLabels := r.1 } : GraphMap m k NL EL).nodeMap s with
  | none => rfl
  | some nd =>
    have hu : ∀ {Z : Type} (z : Z), unwrap (some z) = pure z := fun _ => rfl
    have hs : ∀ (z : GraphMap m k NL EL) (x y : Id m),
        GraphMap.withNode (mapIds f z) (f x) (fun nd => (nd.addEdge (f y) r.2).1) =
          mapIds f <$> z.withNode x (fun nd => (nd.addEdge y r.2).1) :=
      fun z x y => with_ids hf z x (fun nd => by rw [addEdge_ids hf])
    simp only [Option.map_some, hu, pure_bind, map_bind]
    rw [hs, bind_map_left]
    congr 1
    funext z
    have ht : (mapIds f z).addEdgeTarget (f s) (f t) r.2 = mapIds f <$> z.addEdgeTarget s t r.2 := by
      unfold GraphMap.addEdgeTarget
      have hd : (mapIds f z).directed = z.directed := rfl
      rw [hd, hs, with_ids hf z t (fun nd => addInEdge_ids hf nd s)]
      simp only [ne_eq, hf.injective.eq_iff]
      split_ifs <;> rfl
    rw [ht, bind_map_left, addEdge_ids hf]
    congr 1

omit [DecidableEq EL] in
/-- **C168**, `update_node_label`. -/
theorem c168_update_node (hf : StrictMono f) (g : GraphMap m k NL EL) (n : Id m) (l : Option NL) :
    (mapIds f g).updateNodeLabel (f n) l = (fun r => (mapIds f r.1, r.2)) <$> g.updateNodeLabel n l := by
  unfold GraphMap.updateNodeLabel
  rw [(c168_queries hf _).1, c168_add_node hf]
  split_ifs
  · rfl
  · simp only [bind_map_left, map_bind, map_pure]

/-- **C168**, `update_edge_label`. -/
theorem c168_update_edge (hf : StrictMono f) (g : GraphMap m k NL EL) (s t : Id m) (l : Option EL) :
    (mapIds f g).updateEdgeLabel (f s) (f t) l =
      (fun r => (mapIds f r.1, r.2)) <$> g.updateEdgeLabel s t l := by
  unfold GraphMap.updateEdgeLabel
  rw [(c168_queries hf _).2.2.1, c168_add_edge hf]
  split_ifs
  · rfl
  · simp only [bind_map_left, map_bind, map_pure]

/-- **C168**, one call of any kind. -/
theorem c168_apply (hf : StrictMono f) (g : GraphMap m k NL EL) {op : Op m k NL EL} {op' : Op m' k NL EL}
    (h : OpIds f op op') : (mapIds f g).apply op' = mapIds f <$> g.apply op := by
  cases h with
  | addNode n l => simp only [GraphMap.apply, c168_add_node hf, bind_map_left, map_bind, map_pure]
  | removeNode n => simp only [GraphMap.apply, c168_remove_node hf, bind_map_left, map_bind, map_pure]
  | addEdge s t l => simp only [GraphMap.apply, c168_add_edge hf, bind_map_left, map_bind, map_pure]
  | removeEdge s t => simp only [GraphMap.apply, c168_remove_edge hf, bind_map_left, map_bind, map_pure]
  | updateNodeLabel n l => simp only [GraphMap.apply, c168_update_node hf, bind_map_left, map_bind, map_pure]
  | updateEdgeLabel s t l => simp only [GraphMap.apply, c168_update_edge hf, bind_map_left, map_bind, map_pure]
  | addNodeLabel l =>
    simp only [GraphMap.apply, GraphMap.addNodeLabel, map_bind, bind_assoc]
    rfl
  | addEdgeLabel l =>
    simp only [GraphMap.apply, GraphMap.addEdgeLabel, map_bind, bind_assoc]
    rfl
  | refineEdgeCount =>
    simp only [GraphMap.apply, GraphMap.refineEdgeCount, (c168_queries hf g).2.2.2.2.2.2.2.2.2.2.2.1, map_pure,
      List.length_map]
    rfl
  | setNodeLabelId n l =>
    simp only [GraphMap.apply, GraphMap.setNodeLabelId]
    rw [node_ids hf]
    cases AL.get g.nodeMap n with
    | none => rfl
    | some nd =>
      have := set_ids (F := nodeIds f) hf g.nodeMap n (nd.setLabelId l)
      have e : (nodeIds f nd).setLabelId l = nodeIds f (nd.setLabelId l) := rfl
      simp only [Option.map_some, map_pure, e]
      simp only [mapIds, this]
  | setEdgeLabelId s t l =>
    simp only [GraphMap.apply, GraphMap.setEdgeLabelId]
    rw [(c168_queries hf g).2.2.1]
    split_ifs
    · rfl
    · refine with_ids hf g s (fun nd => ?_)
      have := set_ids (F := id) hf nd.neighbors t l
      simp only [id_eq] at this
      simp only [nodeIds, this]
  | mapNodeLabelIds hp =>
    simp only [GraphMap.apply, GraphMap.mapNodeLabelIds, map_pure]
    simp only [mapIds, List.map_map, Function.comp_def, nodeIds, NodeMap.setLabelId, hp]
  | mapEdgeLabelIds hp =>
    simp only [GraphMap.apply, GraphMap.mapEdgeLabelIds, map_pure]
    have hd : (mapIds f g).directed = g.directed := rfl
    rw [hd]
    split_ifs
    · simp only [mapIds, List.map_map, Function.comp_def, nodeIds, NodeMap.mapNeighbors, hp]
    · simp only [mapIds, List.map_map, Function.comp_def, nodeIds, NodeMap.mapNonLess, hf.le_iff_le]
      congr 3
      funext p
      congr 2
      refine List.map_congr_left (fun q _ => ?_)
      by_cases hq : p.2.id ≤ q.1
      · rw [if_pos hq, if_pos hq, hp]
      · rw [if_neg hq, if_neg hq]

/-- **C168**, any program of calls: with other ids in the same order it makes the same graph with those ids, or
panics in the same way. -/
theorem c168_exec (hf : StrictMono f) (g : GraphMap m k NL EL) {ops : List (Op m k NL EL)}
    {ops' : List (Op m' k NL EL)} (h : List.Forall₂ (OpIds f) ops ops') :
    (mapIds f g).exec ops' = mapIds f <$> g.exec ops := by
  induction h generalizing g with
  | nil => rfl
  | cons ho _ ih =>
    simp only [GraphMap.exec, List.foldlM_cons] at ih ⊢
    rw [c168_apply hf g ho, bind_map_left, map_bind]
    congr 1
    funext z
    exact ih z

end Calls

/-! ### Searches -/

section Searches

variable {m m' k k' : Nat} {NL EL : Type} {f : Id m → Id m'} {A : AGraph (Id m) NL EL} {B : AGraph (Id m') NL EL}
  {g : GView m k NL EL} {h : GView m' k' NL EL}

theorem seen_ids (I : A.Iso B f) {l : List (Id m)} (hl : ∀ n ∈ l, (A.node n).isSome) {x : Id m}
    (hx : (A.node x).isSome) : B.firstSeen (l.map f) (f x) = A.firstSeen l x := by
  unfold AGraph.firstSeen
  rw [List.findIdx_map]
  induction l with
  | nil => rfl
  | cons u l ih =>
    simp only [List.findIdx_cons, Function.comp_apply, I.edge u x (hl u List.mem_cons_self) hx,
      ih (fun n hn => hl n (List.mem_cons_of_mem _ hn))]

theorem key_ids (I : A.Iso B f) (hf : StrictMonoOn f {n | (A.node n).isSome}) {l : List (Id m)}
    (hl : ∀ n ∈ l, (A.node n).isSome) {x y : Id m} (hx : (A.node x).isSome) (hy : (A.node y).isSome) :
    B.seenKey (l.map f) (f x) < B.seenKey (l.map f) (f y) ↔ A.seenKey l x < A.seenKey l y := by
  simp only [AGraph.seenKey, Prod.Lex.toLex_lt_toLex, seen_ids I hl hx, seen_ids I hl hy, hf.lt_iff_lt hx hy]

theorem search_ids (I : A.Iso B f) {l : List (Id m)} (hl : ∀ n ∈ l, (A.node n).isSome) (h : A.SearchOrder l) :
    B.SearchOrder (l.map f) := by
  intro i hi h0
  rw [List.length_map] at hi
  rw [List.getElem_map, seen_ids I hl (hl _ (List.getElem_mem hi))]
  exact h i hi h0

theorem firstIn_ids (I : A.Iso B f) (hf : StrictMonoOn f {n | (A.node n).isSome}) {l : List (Id m)}
    (hl : ∀ n ∈ l, (A.node n).isSome) (h : A.FirstIn l) : B.FirstIn (l.map f) := by
  refine ⟨search_ids I hl h.1, fun i j hi hj h0 hij => ?_⟩
  rw [List.length_map] at hi hj
  rw [List.getElem_map, List.getElem_map, key_ids I hf hl (hl _ (List.getElem_mem hi)) (hl _ (List.getElem_mem hj))]
  exact h.2 i j hi hj h0 hij

theorem lastIn_ids (I : A.Iso B f) (hf : StrictMonoOn f {n | (A.node n).isSome}) {l : List (Id m)}
    (hl : ∀ n ∈ l, (A.node n).isSome) (h : A.LastIn l) : B.LastIn (l.map f) := by
  refine ⟨search_ids I hl h.1, fun i j hi hj hij => ?_⟩
  rw [List.length_map] at hi hj
  rw [List.getElem_map, List.getElem_map, key_ids I hf hl (hl _ (List.getElem_mem hj)) (hl _ (List.getElem_mem hi)),
    seen_ids I hl (hl _ (List.getElem_mem hj))]
  exact h.2 i j hi hj hij

theorem sweep_ids (I : A.Iso B f) (hf : StrictMonoOn f {n | (A.node n).isSome}) (hA : AIso.Closed A) (hB : AIso.Closed B)
    {s : Id m} {P : List (Id m) → Prop} {Q : List (Id m') → Prop}
    (hP : ∀ l, (∀ n ∈ l, (A.node n).isSome) → P l → Q (l.map f)) {l : List (Id m)} (h : A.Sweep s P l) :
    B.Sweep (f s) Q (l.map f) := by
  obtain ⟨h1, h2, segs, rfl, ⟨rest, h3⟩, h4⟩ := h
  have hin : ∀ sg ∈ segs, ∀ n ∈ sg, (A.node n).isSome := fun sg hs n hn =>
    (h2 n).1 (List.mem_flatten.2 ⟨sg, hs, hn⟩)
  have htake : ∀ i n, (A.node n).isSome →
      (f n ∈ ((segs.map (List.map f)).take i).flatten ↔ n ∈ (segs.take i).flatten) := by
    intro i n hn
    rw [← List.map_take, ← List.map_flatten, List.mem_map]
    constructor
    · rintro ⟨x, hx, e⟩
      have hx' : (A.node x).isSome := by
        obtain ⟨sg, hs, hm⟩ := List.mem_flatten.1 hx
        exact hin sg (List.mem_of_mem_take hs) x hm
      rwa [← AIso.inj I hx' hn e]
    · intro hn
      exact ⟨n, hn, rfl⟩
  refine ⟨?_, ?_, segs.map (List.map f), by rw [List.map_flatten], ⟨rest.map f, ?_⟩, ?_⟩
  · exact h1.map_on (fun x hx y hy e => AIso.inj I ((h2 x).1 hx) ((h2 y).1 hy) e)
  · intro y
    rw [List.mem_map]
    constructor
    · rintro ⟨x, hx, rfl⟩
      exact AIso.mem I ((h2 x).1 hx)
    · intro hy
      obtain ⟨x, hx, rfl⟩ := AIso.onto I hy
      exact ⟨x, (h2 x).2 hx, rfl⟩
  · rw [List.head?_map, h3]; rfl
  · intro i hi
    rw [List.length_map] at hi
    obtain ⟨s', r, e1, e2, e3, e4⟩ := h4 i hi
    have hsg := hin _ (List.getElem_mem hi)
    have hs' : (A.node s').isSome := hsg s' (by rw [e1]; exact List.mem_cons_self)
    refine ⟨f s', r.map f, by rw [List.getElem_map, e1]; rfl, ?_, ?_, ?_⟩
    · rw [List.getElem_map]
      exact hP _ hsg e2
    · intro y
      rw [List.getElem_map, List.mem_map]
      constructor
      · rintro ⟨x, hx, rfl⟩
        have hx' := hsg x hx
        obtain ⟨a, b⟩ := (e3 x).1 hx
        exact ⟨(AIso.reaches I hA hB hs' hx').2 a, fun hc => b ((htake i x hx').1 hc)⟩
      · rintro ⟨⟨n, w⟩, b⟩
        have hy := AIso.walk_node hB (AIso.mem I hs') w
        obtain ⟨x, hx, rfl⟩ := AIso.onto I hy
        exact ⟨x, (e3 x).2 ⟨(AIso.reaches I hA hB hs' hx).1 ⟨n, w⟩, fun hc => b ((htake i x hx).2 hc)⟩, rfl⟩
    · intro h0 y hy hn
      obtain ⟨x, hx, rfl⟩ := AIso.onto I hy
      exact (hf.le_iff_le hs' hx).2 (e4 h0 x hx (fun hc => hn ((htake i x hx).2 hc)))

/-- **C168**, breadth-first: in two graphs that differ only by other ids in the same order, searches from
corresponding nodes visit corresponding nodes in the same order. -/
theorem c168_bfs (S : Shows g A) (T : Shows h B) (I : A.Iso B f) (hf : StrictMonoOn f {n | (A.node n).isSome})
    {start : Option (Id m)} {start' : Option (Id m')} {s : Id m} (hb : BeginsAt g A start s)
    (hb' : BeginsAt h B start' (f s)) :
    ∃ l st st' t t', Traversal.new g start = .ok st ∧ Yields (Bfs.next g) st l st' ∧
      Traversal.new h start' = .ok t ∧ Yields (Bfs.next h) t (l.map f) t' := by
  obtain ⟨st, l, st', a1, a2, -, a3⟩ := c66_bfs_order S hb
  obtain ⟨t, l', t', b1, b2, -, b3⟩ := c66_bfs_order T hb'
  obtain rfl := c113_bfs_order_unique (sweep_ids I hf S.ends T.ends (fun l hl => firstIn_ids I hf hl) a3) b3
  exact ⟨l, st, st', t, t', a1, a2, b1, b2⟩

/-- **C168**, depth-first. -/
theorem c168_dfs (S : Shows g A) (T : Shows h B) (I : A.Iso B f) (hf : StrictMonoOn f {n | (A.node n).isSome})
    {start : Option (Id m)} {start' : Option (Id m')} {s : Id m} (hb : BeginsAt g A start s)
    (hb' : BeginsAt h B start' (f s)) :
    ∃ l st st' t t', Traversal.new g start = .ok st ∧ Yields (Dfs.next g) st l st' ∧
      Traversal.new h start' = .ok t ∧ Yields (Dfs.next h) t (l.map f) t' := by
  obtain ⟨st, l, st', a1, a2, -, a3⟩ := c66_dfs_order S hb
  obtain ⟨t, l', t', b1, b2, -, b3⟩ := c66_dfs_order T hb'
  obtain rfl := c113_dfs_order_unique (sweep_ids I hf S.ends T.ends (fun l hl => lastIn_ids I hf hl) a3) b3
  exact ⟨l, st, st', t, t', a1, a2, b1, b2⟩

end Searches

/-! ### Graphs made by calls -/

section Made

variable {m m' k : Nat} {NL EL : Type} [DecidableEq NL] [DecidableEq EL] {f : Id m → Id m'}

open GraphMap

omit [DecidableEq NL] [DecidableEq EL] in
/-- Every call has a counterpart. -/
theorem op_ids (hf : StrictMono f) (op : Op m k NL EL) : ∃ op', OpIds f op op' := by
  cases op with
  | addNode n l => exact ⟨_, .addNode n l⟩
  | removeNode n => exact ⟨_, .removeNode n⟩
  | addEdge s t l => exact ⟨_, .addEdge s t l⟩
  | removeEdge s t => exact ⟨_, .removeEdge s t⟩
  | updateNodeLabel n l => exact ⟨_, .updateNodeLabel n l⟩
  | updateEdgeLabel s t l => exact ⟨_, .updateEdgeLabel s t l⟩
  | addNodeLabel l => exact ⟨_, .addNodeLabel l⟩
  | addEdgeLabel l => exact ⟨_, .addEdgeLabel l⟩
  | refineEdgeCount => exact ⟨_, .refineEdgeCount⟩
  | setNodeLabelId n l => exact ⟨_, .setNodeLabelId n l⟩
  | setEdgeLabelId s t l => exact ⟨_, .setEdgeLabelId s t l⟩
  | mapNodeLabelIds p =>
    exact ⟨_, .mapNodeLabelIds (q := Function.extend f p (fun _ => id)) (fun n => hf.injective.extend_apply _ _ n)⟩
  | mapEdgeLabelIds p =>
    refine ⟨_, .mapEdgeLabelIds (q := fun a b => Function.extend f (fun s => Function.extend f (p s) (fun _ => id) b)
      (fun _ => id) a) (fun s t => ?_)⟩
    rw [hf.injective.extend_apply, hf.injective.extend_apply]

/-- **C168**: a history of calls, with the hash map reordered in between as it may be. -/
theorem c168_run (hf : StrictMono f) {start g : GraphMap m k NL EL} {ops : List (Op m k NL EL)}
    (h : Run start ops g) {ops' : List (Op m' k NL EL)} (ho : List.Forall₂ (OpIds f) ops ops') :
    Run (mapIds f start) ops' (mapIds f g) := by
  induction h generalizing ops' with
  | nil => cases ho; exact .nil
  | @step ops op g g' _ ha ih =>
    obtain ⟨l1, op', h2, h3, rfl⟩ : ∃ l1 op', List.Forall₂ (OpIds f) ops l1 ∧ OpIds f op op' ∧ ops' = l1 ++ [op'] := by
      obtain ⟨op', l2, h3, h4, h5⟩ := List.forall₂_cons_left_iff.1 (by simpa using List.rel_reverse ho)
      refine ⟨l2.reverse, op', by simpa using List.rel_reverse h4, h3, ?_⟩
      rw [← List.reverse_reverse ops', h5, List.reverse_cons]
    refine .step (ih h2) ?_
    rw [c168_apply hf g h3, ha]
    rfl
  | rehash _ hp ih => exact .rehash (ih ho) (hp.map _)

/-- **C168**: the graphs a program can hold are again such graphs. -/
theorem c168_reachable (hf : StrictMono f) {g : GraphMap m k NL EL} (hg : Reachable g) : Reachable (mapIds f g) := by
  have hi := hg.inv
  cases hm : g.maxId with
  | some M =>
    obtain ⟨ops, h⟩ := made_of_inv _ hi (fun h => by rw [hm] at h; cases h) rfl
    have : ∀ l : List (Op m k NL EL), ∃ l', List.Forall₂ (OpIds f) l l' := by
      intro l
      induction l with
      | nil => exact ⟨[], .nil⟩
      | cons op l ih =>
        obtain ⟨l', h⟩ := ih
        obtain ⟨op', h'⟩ := op_ids hf op
        exact ⟨op' :: l', .cons h' h⟩
    obtain ⟨ops', ho⟩ := this ops
    have hr := c168_run hf h ho
    exact Run.reachable (nl := SetMap.empty) (el := SetMap.empty) List.nodup_nil List.nodup_nil hr
  | none =>
    have hnil := get_nil_of_no_node (g := g) (fun n => by
      by_contra h
      obtain ⟨M, hM, -⟩ := hi.maxBound n (by simpa using h)
      rw [hm] at hM; cases hM)
    obtain ⟨d, nm, c, nl, el, mx⟩ := g
    simp only at hnil hm
    subst hnil hm
    have h1 := (made_empty (m := m') (k := k) d nl el hi.nlNodup hi.elNodup 0 c).reachable
    exact .reorder (some SetMap.empty) none none h1 (fun s hs => by cases hs; simp [SetMap.len, SetMap.empty])
      (by simp [reorderIdWith, AL.values, newLabelMap, pure_ok, bind_ok, AL.keys, mapIds])

omit [DecidableEq NL] [DecidableEq EL] in
/-- **C168**: the graph with other ids shows the same abstract graph with other ids. -/
theorem c168_iso (hf : StrictMono f) (g : GraphMap m k NL EL) : g.abs.Iso (mapIds f g).abs f := by
  have hn : ∀ n, (mapIds f g).labE (f n) = g.labE n := by
    intro n
    unfold labE
    rw [(c168_queries hf g).2.1]
    cases g.getNode n <;> rfl
  have he : ∀ s t, (mapIds f g).outE (f s) (f t) = g.outE s t := by
    intro s t
    unfold outE
    rw [(c168_queries hf g).2.1]
    cases g.getNode s with
    | none => rfl
    | some nd => exact getNeighbor_ids hf nd t
  have hnode : ∀ n, (mapIds f g).abs.node (f n) = g.abs.node n := by
    intro n
    simp only [GraphMap.abs, decode, hn]
    rfl
  refine ⟨⟨fun n h => ?_, fun a _ b _ e => hf.injective e, fun y hy => ?_⟩, fun n _ => hnode n, fun s t _ _ => ?_⟩
  · show ((mapIds f g).abs.node (f n)).isSome
    rw [hnode]; exact h
  · by_cases h : ∃ n, f n = y
    · obtain ⟨n, rfl⟩ := h
      refine ⟨n, ?_, rfl⟩
      have : ((mapIds f g).abs.node (f n)).isSome := hy
      rw [hnode] at this; exact this
    · push Not at h
      have h0 := (c168_queries hf g).2.2.2.2.2.2.2.2.2.2.2.2.2.2.2.2 y h
      have hy' : ((mapIds f g).abs.node y).isSome := hy
      rw [hasNode_eq_labE] at h0
      simp only [GraphMap.abs, decode, Option.isSome_map] at hy'
      rw [h0] at hy'
      cases hy'
  · have hd : (mapIds f g).directed = g.directed := rfl
    simp only [GraphMap.abs, hd, hf.le_iff_le, decode, he]
    rfl

/-- **C168**: searches of the graph with other ids, from any start. -/
theorem c168_search (hf : StrictMono f) {g : GraphMap m k NL EL} (hg : Reachable g) {start : Option (Id m)}
    {st : Traversal m} (hst : Traversal.new g.view start = .ok st) :
    ∃ t lb st1 t1 ld st2 t2, Traversal.new (mapIds f g).view (start.map f) = .ok t ∧
      Yields (Bfs.next g.view) st lb st1 ∧ Yields (Bfs.next (mapIds f g).view) t (lb.map f) t1 ∧
      Yields (Dfs.next g.view) st ld st2 ∧ Yields (Dfs.next (mapIds f g).view) t (ld.map f) t2 := by
  have S := reachable_shows hg
  have T := reachable_shows (c168_reachable hf hg)
  have I := c168_iso hf g
  obtain ⟨s, hn, hs⟩ := new_start S hst
  have hb : BeginsAt g.view g.abs start s := ⟨hn, hs⟩
  have hb' : BeginsAt (mapIds f g).view (mapIds f g).abs (start.map f) (f s) := by
    refine ⟨AIso.mem I hn, hs.imp (fun e => by rw [e]; rfl) (fun e => ⟨by rw [e.1]; rfl, ?_⟩)⟩
    show (mapIds f g).nodeIndices.head? = some (f s)
    rw [(c168_queries hf g).2.2.2.2.2.2.2.2.2.2.1, List.head?_map]
    have h2 : g.nodeIndices.head? = some s := e.2
    rw [h2]; rfl
  obtain ⟨l, s1, s2, t, t2, a1, a2, a3, a4⟩ := c168_bfs S T I (fun a _ b _ h => hf h) hb hb'
  obtain ⟨l', u1, u2, v, v2, b1, b2, b3, b4⟩ := c168_dfs S T I (fun a _ b _ h => hf h) hb hb'
  rw [hst] at a1 b1
  cases a1; cases b1
  rw [a3] at b3
  cases b3
  exact ⟨t, l, s2, t2, l', u2, v2, a3, a2, a4, b2, b4⟩

end Made

/-! ### Generic functions -/

section Generic

variable {m m' k : Nat} {NL EL : Type} [DecidableEq NL] [DecidableEq EL] {f : Id m → Id m'}

omit [DecidableEq NL] [DecidableEq EL] in
theorem label_ids (hf : StrictMono f) (g : GraphMap m k NL EL) (n : Id m) :
    (mapIds f g).view.getNodeLabel (f n) = g.view.getNodeLabel n := by
  rw [GraphMap.view_getNodeLabel, GraphMap.view_getNodeLabel, (c168_queries hf g).2.2.2.2.2.2.2.2.1]

omit [DecidableEq NL] [DecidableEq EL] in
theorem edge_label_ids (hf : StrictMono f) (g : GraphMap m k NL EL) (s t : Id m) :
    (mapIds f g).view.getEdgeLabel (f s) (f t) = g.view.getEdgeLabel s t := by
  rw [GraphMap.view_getEdgeLabel, GraphMap.view_getEdgeLabel, (c168_queries hf g).2.2.2.2.2.2.2.2.2.1]

omit [DecidableEq NL] [DecidableEq EL] in
theorem listed_ids (hf : StrictMono f) (g : GraphMap m k NL EL) :
    (mapIds f g).view.nodeIndices = g.view.nodeIndices.map f ∧
      (mapIds f g).view.edgeIndices = g.view.edgeIndices.map (fun e => (f e.1, f e.2)) :=
  ⟨(c168_queries hf g).2.2.2.2.2.2.2.2.2.2.1, (c168_queries hf g).2.2.2.2.2.2.2.2.2.2.2.1⟩

/-- **C168**: the label counters are the same, in the same order. -/
theorem c168_counters (hf : StrictMono f) (g : GraphMap m k NL EL) :
    (mapIds f g).view.nodeLabelCounter = g.view.nodeLabelCounter ∧
      (mapIds f g).view.edgeLabelCounter = g.view.edgeLabelCounter := by
  constructor
  · unfold GView.nodeLabelCounter
    rw [(listed_ids hf g).1, List.mapM_map]
    simp only [Function.comp_def, label_ids hf]
  · unfold GView.edgeLabelCounter
    rw [(listed_ids hf g).2, List.mapM_map]
    simp only [Function.comp_def, edge_label_ids hf]

theorem all_ids {X Y : Type} (j : X → Y) (F : Y → Res Bool) (l : List X) :
    GView.allM F (l.map j) = GView.allM (fun x => F (j x)) l := by
  induction l with
  | nil => rfl
  | cons x l ih => simp only [List.map_cons, GView.allM, ih]

theorem contained_ids (hf : StrictMono f) (a b : GraphMap m k NL EL) :
    (mapIds f a).view.contained (mapIds f b).view = a.view.contained b.view := by
  have hn : ∀ n, (mapIds f a).view.nodeAgrees (mapIds f b).view (f n) = a.view.nodeAgrees b.view n := by
    intro n
    unfold GView.nodeAgrees
    have e : (mapIds f b).view.hasNode (f n) = b.view.hasNode n := (c168_queries hf b).1 n
    rw [e, label_ids hf, label_ids hf]
  have he : ∀ p : Id m × Id m,
      (mapIds f a).view.edgeAgrees (mapIds f b).view (f p.1, f p.2) = a.view.edgeAgrees b.view p := by
    intro p
    unfold GView.edgeAgrees
    have e : (mapIds f b).view.hasEdge (f p.1) (f p.2) = b.view.hasEdge p.1 p.2 := by
      show pure _ = pure _
      rw [(c168_queries hf b).2.2.1]
    simp only [e, edge_label_ids hf]
  unfold GView.contained
  rw [(listed_ids hf a).1, (listed_ids hf a).2, all_ids, all_ids]
  simp only [hn, he]

/-- **C168**: comparing graphs, by `equal` or by the comparison of the concrete type. -/
theorem c168_equal (hf : StrictMono f) (a b : GraphMap m k NL EL) :
    (mapIds f a).view.equal (mapIds f b).view = a.view.equal b.view ∧
      (mapIds f a).view.typedEq (mapIds f b).view = a.view.typedEq b.view := by
  have hc : ∀ g : GraphMap m k NL EL, (mapIds f g).view.nodeCount = g.view.nodeCount :=
    fun g => (c168_queries hf g).2.2.2.2.2.2.2.2.2.2.2.2.2.2.1
  have hd : ∀ g : GraphMap m k NL EL, (mapIds f g).view.directed = g.view.directed := fun _ => rfl
  have hE : ∀ g : GraphMap m k NL EL, (mapIds f g).view.edgeCount = g.view.edgeCount := fun _ => rfl
  unfold GView.equal GView.typedEq
  simp only [contained_ids hf, hc, hd, hE, and_self]

omit [DecidableEq EL] in
theorem nodes_of_ids (hf : StrictMono f) (a g : GraphMap m k NL EL) :
    GraphMap.addNodesOf (mapIds f a).view (mapIds f g) = mapIds f <$> GraphMap.addNodesOf a.view g := by
  unfold GraphMap.addNodesOf
  rw [(listed_ids hf a).1]
  refine fold_ids (fun z n => ?_) _ _
  rw [label_ids hf, map_bind]
  congr 1
  funext l
  rw [c168_add_node hf, bind_map_left, map_bind]
  rfl

theorem edges_of_ids (hf : StrictMono f) (a g : GraphMap m k NL EL) :
    GraphMap.addEdgesOf (mapIds f a).view (mapIds f g) = mapIds f <$> GraphMap.addEdgesOf a.view g := by
  unfold GraphMap.addEdgesOf
  rw [(listed_ids hf a).2]
  refine fold_ids (fun z p => ?_) _ _
  rw [edge_label_ids hf, map_bind]
  congr 1
  funext l
  rw [c168_add_edge hf, bind_map_left, map_bind]
  rfl

/-- **C168**, `graph_union`. -/
theorem c168_union (hf : StrictMono f) (a b : GraphMap m k NL EL) :
    GraphMap.graphUnion (mapIds f a).view (mapIds f b).view = mapIds f <$> GraphMap.graphUnion a.view b.view := by
  unfold GraphMap.graphUnion
  have e : (GraphMap.new (mapIds f a).view.directed : GraphMap m' k NL EL) =
    mapIds f (GraphMap.new a.view.directed) := rfl
  rw [e, nodes_of_ids hf, bind_map_left, map_bind]
  congr 1
  funext g
  rw [nodes_of_ids hf, bind_map_left, map_bind]
  congr 1
  funext g
  rw [edges_of_ids hf, bind_map_left, map_bind]
  congr 1
  funext g
  rw [edges_of_ids hf]

/-- **C168**, `graph_minus`. -/
theorem c168_minus (hf : StrictMono f) (a b : GraphMap m k NL EL) :
    GraphMap.graphMinus (mapIds f a).view (mapIds f b).view = mapIds f <$> GraphMap.graphMinus a.view b.view := by
  unfold GraphMap.graphMinus
  have e : (GraphMap.new (mapIds f a).view.directed : GraphMap m' k NL EL) =
    mapIds f (GraphMap.new a.view.directed) := rfl
  rw [e, nodes_of_ids hf, bind_map_left, map_bind]
  congr 1
  funext g
  rw [edges_of_ids hf, bind_map_left, map_bind]
  congr 1
  funext g
  unfold GraphMap.removeNodesOf
  rw [(listed_ids hf b).1, fold_ids (e := mapIds f) (G := fun g n => do let r ← g.removeNode n; pure r.1)
    (fun z n => by rw [c168_remove_node hf, bind_map_left, map_bind]; rfl), bind_map_left, map_bind]
  congr 1
  funext g
  unfold GraphMap.removeEdgesOf
  rw [(listed_ids hf b).2, fold_ids (e := mapIds f) (G := fun g p => do let r ← g.removeEdge p.1 p.2; pure r.1)
    (fun z n => by rw [c168_remove_edge hf, bind_map_left, map_bind]; rfl)]

/-- **C168**, the `Clone` of boxed graphs. -/
theorem c168_clone (hf : StrictMono f) (a : GraphMap m k NL EL) :
    GraphMap.cloneBox (mapIds f a).view = mapIds f <$> GraphMap.cloneBox a.view := by
  unfold GraphMap.cloneBox
  rw [← c168_union hf]
  rfl

end Generic

/-- **C168**, wider ids: a graph with ids of one type, taken with a wider type. -/
theorem c168_widen {m m' k : Nat} {NL EL : Type} [DecidableEq NL] [DecidableEq EL] (h : m ≤ m')
    {ops : List (Op m k NL EL)} {ops' : List (Op m' k NL EL)}
    (ho : List.Forall₂ (OpIds (Fin.castLE (Nat.succ_le_succ h))) ops ops') (d : Bool) :
    (GraphMap.new d : GraphMap m' k NL EL).exec ops' =
      mapIds (Fin.castLE (Nat.succ_le_succ h)) <$> (GraphMap.new d : GraphMap m k NL EL).exec ops :=
  c168_exec (Fin.strictMono_castLE _) (GraphMap.new d) ho

/-- **C168**, the order matters: with two ids exchanged the neighbours are listed in another order. -/
theorem c168_order :
    ∃ (f : Id 3 → Id 3) (g : GraphMap 3 3 Nat Nat), Function.Injective f ∧
      (mapIds f g).apply (.addEdge (f 0) (f 2) none) ≠ mapIds f <$> g.apply (.addEdge 0 2 none) := by
  refine ⟨Equiv.swap 1 2, ⟨true, [(0, ⟨0, none, [(1, none)], []⟩), (1, ⟨1, none, [], [0]⟩)], 1, ⟨[]⟩, ⟨[]⟩, some 1⟩,
    (Equiv.swap 1 2).injective, by decide⟩

/-- The conditions can be met: the same program with ids of two types. -/
example : (GraphMap.new true : GraphMap 9 3 Nat Nat).exec [.addEdge 1 0 (some 7), .addNode 3 none, .removeNode 0] =
    mapIds (Fin.castLE (by decide)) <$>
      (GraphMap.new true : GraphMap 3 3 Nat Nat).exec [.addEdge 1 0 (some 7), .addNode 3 none, .removeNode 0] :=
  c168_widen (by decide) (.cons (.addEdge 1 0 (some 7)) (.cons (.addNode 3 none) (.cons (.removeNode 0) .nil))) true

end Verif.Props
