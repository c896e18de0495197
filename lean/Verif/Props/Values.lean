import Verif.Proof.Values
import Verif.Model.SetOps
import Verif.Model.Reorder

/-! C167: label values matter only through their equality. -/

namespace Verif.Props

open Spec Proof.Values

section Tables

variable {L L' : Type} [DecidableEq L] [DecidableEq L'] {f : L → L'}

theorem find_values (hf : Function.Injective f) (s : SetMap L) (x : L) :
    (tableValues f s).findIndex (f x) = s.findIndex x := by
  obtain ⟨l⟩ := s
  simp only [SetMap.findIndex, tableValues]
  induction l with
  | nil => rfl
  | cons a l ih =>
    simp only [List.map_cons, List.idxOf?_cons, ih]
    by_cases h : a = x
    · subst h; simp
    · have h' : ¬ f a = f x := fun e => h (hf e)
      simp [h, h']

theorem add_values (hf : Function.Injective f) (s : SetMap L) (x : L) :
    (tableValues f s).addItem (f x) = (fun r => (tableValues f r.1, r.2)) <$> s.addItem x := by
  have hc : (tableValues f s).contains (f x) = s.contains x := by
    simp only [SetMap.contains, tableValues, List.mem_map, decide_eq_decide]
    constructor
    · rintro ⟨y, hy, e⟩; exact hf e ▸ hy
    · intro hx; exact ⟨x, hx, rfl⟩
  have hl : ((tableValues f s).insert (f x)).len = (s.insert x).len := by
    rw [← insert_values hf]; simp [SetMap.len, tableValues]
  unfold SetMap.addItem
  dsimp only
  rw [hc, find_values hf, hl, ← insert_values hf]
  by_cases h : s.contains x = true
  · rw [if_pos h, if_pos h]
    cases s.findIndex x <;> rfl
  · rw [if_neg h, if_neg h]
    split_ifs <;> rfl

theorem intern_values {k : Nat} (hf : Function.Injective f) (s : SetMap L) (x : Option L) :
    intern (k := k) (tableValues f s) (x.map f) = (fun r => (tableValues f r.1, r.2)) <$> intern s x := by
  cases x with
  | none => rfl
  | some x =>
    simp only [Option.map_some, intern, add_values hf, map_bind, bind_map_left]
    rfl

end Tables

variable {m k : Nat} {NL EL NL' EL' : Type} {f : NL → NL'} {h : EL → EL'}

theorem fold_map {X Y Z : Type} {F : Y → X → Res Y} {G : Z → X → Res Z} {e : Z → Y}
    (hs : ∀ z x, F (e z) x = e <$> G z x) (l : List X) (z : Z) : l.foldlM F (e z) = e <$> l.foldlM G z := by
  induction l generalizing z with
  | nil => rfl
  | cons x l ih =>
    simp only [List.foldlM_cons, hs, bind_map_left, map_bind, ih]

theorem with_values (g : GraphMap m k NL EL) (n : Id m) (F : NodeMap m k → NodeMap m k) :
    (mapValues f h g).withNode n F = mapValues f h <$> g.withNode n F := by
  simp only [GraphMap.withNode, map_bind]
  rfl

theorem unlink_values (g : GraphMap m k NL EL) (nd : NodeMap m k) (n : Id m) :
    (mapValues f h g).unlink nd n = mapValues f h <$> g.unlink nd n := by
  have hd : (mapValues f h g).directed = g.directed := rfl
  unfold GraphMap.unlink
  rw [hd]
  split_ifs
  · rw [fold_map (fun z x => with_values z x _), map_bind, bind_map_left]
    congr 1
    funext z
    rw [fold_map (fun z x => with_values z x _)]
  · rw [fold_map (fun z x => with_values z x _)]

/-! ### Calls -/

/-- **C167**, `remove_node`. -/
theorem c167_remove_node (g : GraphMap m k NL EL) (n : Id m) :
    (mapValues f h g).removeNode n = (fun r => (mapValues f h r.1, r.2)) <$> g.removeNode n := by
  unfold GraphMap.removeNode
  have hg : (mapValues f h g).nodeMap = g.nodeMap := rfl
  rw [hg]
  cases he : AL.get g.nodeMap n with
  | none => rfl
  | some nd =>
    have hu := unlink_values (f := f) (h := h) { g with nodeMap := AL.erase g.nodeMap n } nd n
    simp only [map_bind]
    have e : ({ mapValues f h g with nodeMap := AL.erase g.nodeMap n } : GraphMap m k NL' EL') =
      mapValues f h { g with nodeMap := AL.erase g.nodeMap n } := rfl
    rw [e, hu, bind_map_left]
    congr 1
    funext z
    have hz : (mapValues f h z).numEdges = z.numEdges := rfl
    rw [hz]
    split_ifs <;> rfl

/-- **C167**, `remove_edge`. -/
theorem c167_remove_edge (g : GraphMap m k NL EL) (s t : Id m) :
    (mapValues f h g).removeEdge s t = (fun r => (mapValues f h r.1, r.2)) <$> g.removeEdge s t := by
  unfold GraphMap.removeEdge
  have hg : (mapValues f h g).hasEdge s t = g.hasEdge s t := rfl
  have hm : (mapValues f h g).nodeMap = g.nodeMap := rfl
  rw [hg, hm]
  by_cases hb : (!g.hasEdge s t) = true
  · rw [if_pos hb, if_pos hb]; rfl
  rw [if_neg hb, if_neg hb, map_bind]
  congr 1
  funext nd
  rw [with_values, bind_map_left, map_bind]
  congr 1
  funext z
  have ht : (mapValues f h z).removeEdgeTarget s t = mapValues f h <$> z.removeEdgeTarget s t := by
    unfold GraphMap.removeEdgeTarget
    have hd : (mapValues f h z).directed = z.directed := rfl
    rw [hd, with_values, with_values]
    split_ifs <;> rfl
  rw [ht, bind_map_left, map_bind]
  congr 1
  funext y
  have hz : (mapValues f h y).numEdges = y.numEdges := rfl
  rw [hz]
  split_ifs <;> rfl

section Adds

variable [DecidableEq NL] [DecidableEq EL] [DecidableEq NL'] [DecidableEq EL']

omit [DecidableEq EL] [DecidableEq EL'] in
/-- **C167**, `add_node`. -/
theorem c167_add_node (hf : Function.Injective f) (g : GraphMap m k NL EL) (n : Id m) (l : Option NL) :
    (mapValues f h g).addNode n (l.map f) = (fun r => (mapValues f h r.1, r.2)) <$> g.addNode n l := by
  unfold GraphMap.addNode
  have hg : (mapValues f h g).nodeLabels = tableValues f g.nodeLabels := rfl
  rw [hg, intern_values hf, bind_map_left, map_bind]
  congr 1
  funext r
  have e : ({ mapValues f h g with nodeLabels := tableValues f r.1 } : GraphMap m k NL' EL') =
    mapValues f h { g with nodeLabels := r.1 } := rfl
  simp only [e, with_values]
  have hn : (mapValues f h { g with nodeLabels := r.1 }).hasNode n = ({ g with nodeLabels := r.1 } : GraphMap m k NL EL).hasNode n := rfl
  rw [hn]
  split_ifs
  · simp only [bind_map_left, map_bind, map_pure]
  · rfl

omit [DecidableEq EL] [DecidableEq EL'] in
theorem ensure_values (hf : Function.Injective f) (g : GraphMap m k NL EL) (n : Id m) :
    (mapValues f h g).ensureNode n = mapValues f h <$> g.ensureNode n := by
  unfold GraphMap.ensureNode
  have hn : (mapValues f h g).hasNode n = g.hasNode n := rfl
  have ha := c167_add_node (h := h) hf g n none
  rw [Option.map_none] at ha
  rw [hn, ha]
  split_ifs
  · simp only [bind_map_left, map_bind, map_pure]
  · rfl

/-- **C167**, `add_edge`. -/
theorem c167_add_edge (hf : Function.Injective f) (hh : Function.Injective h) (g : GraphMap m k NL EL) (s t : Id m)
    (l : Option EL) :
    (mapValues f h g).addEdge s t (l.map h) = (fun r => (mapValues f h r.1, r.2)) <$> g.addEdge s t l := by
  unfold GraphMap.addEdge
  rw [ensure_values hf, bind_map_left, map_bind]
  congr 1
  funext g1
  rw [ensure_values hf, bind_map_left, map_bind]
  congr 1
  funext g2
  have hg : (mapValues f h g2).edgeLabels = tableValues h g2.edgeLabels := rfl
  rw [hg, intern_values hh, bind_map_left, map_bind]
  congr 1
  funext r
  have e : ({ mapValues f h g2 with edgeLabels := tableValues h r.1 } : GraphMap m k NL' EL') =
    mapValues f h { g2 with edgeLabels := r.1 } := rfl
  simp only [e, with_values, map_bind]
  congr 1
  funext nd
  rw [bind_map_left]
  congr 1
  funext z
  have ht : (mapValues f h z).addEdgeTarget s t r.2 = mapValues f h <$> z.addEdgeTarget s t r.2 := by
    unfold GraphMap.addEdgeTarget
    have hd : (mapValues f h z).directed = z.directed := rfl
    rw [hd, with_values, with_values]
    split_ifs <;> rfl
  rw [ht, bind_map_left]
  congr 1

omit [DecidableEq EL] [DecidableEq EL'] in
/-- **C167**, `update_node_label`. -/
theorem c167_update_node (hf : Function.Injective f) (g : GraphMap m k NL EL) (n : Id m) (l : Option NL) :
    (mapValues f h g).updateNodeLabel n (l.map f) =
      (fun r => (mapValues f h r.1, r.2)) <$> g.updateNodeLabel n l := by
  unfold GraphMap.updateNodeLabel
  have hn : (mapValues f h g).hasNode n = g.hasNode n := rfl
  rw [hn, c167_add_node hf]
  split_ifs
  · rfl
  · simp only [bind_map_left, map_bind, map_pure]

/-- **C167**, `update_edge_label`. -/
theorem c167_update_edge (hf : Function.Injective f) (hh : Function.Injective h) (g : GraphMap m k NL EL) (s t : Id m)
    (l : Option EL) :
    (mapValues f h g).updateEdgeLabel s t (l.map h) =
      (fun r => (mapValues f h r.1, r.2)) <$> g.updateEdgeLabel s t l := by
  unfold GraphMap.updateEdgeLabel
  have hn : (mapValues f h g).hasEdge s t = g.hasEdge s t := rfl
  rw [hn, c167_add_edge hf hh]
  split_ifs
  · rfl
  · simp only [bind_map_left, map_bind, map_pure]

omit [DecidableEq EL] [DecidableEq EL'] in
/-- **C167**, `add_node_label`. -/
theorem c167_add_node_label (hf : Function.Injective f) (g : GraphMap m k NL EL) (l : Option NL) :
    (mapValues f h g).addNodeLabel (l.map f) = (fun r => (mapValues f h r.1, r.2)) <$> g.addNodeLabel l := by
  unfold GraphMap.addNodeLabel
  have hg : (mapValues f h g).nodeLabels = tableValues f g.nodeLabels := rfl
  rw [hg, intern_values hf, bind_map_left, map_bind]
  rfl

omit [DecidableEq NL] [DecidableEq NL'] in
/-- **C167**, `add_edge_label`. -/
theorem c167_add_edge_label (hh : Function.Injective h) (g : GraphMap m k NL EL) (l : Option EL) :
    (mapValues f h g).addEdgeLabel (l.map h) = (fun r => (mapValues f h r.1, r.2)) <$> g.addEdgeLabel l := by
  unfold GraphMap.addEdgeLabel
  have hg : (mapValues f h g).edgeLabels = tableValues h g.edgeLabels := rfl
  rw [hg, intern_values hh, bind_map_left, map_bind]
  rfl

/-- **C167**, one call of any kind: with other values the same call gives the same graph with other values, or
panics in the same way. -/
theorem c167_apply (hf : Function.Injective f) (hh : Function.Injective h) (g : GraphMap m k NL EL)
    (op : Op m k NL EL) : (mapValues f h g).apply (opValues f h op) = mapValues f h <$> g.apply op := by
  cases op <;> simp only [opValues, GraphMap.apply, c167_add_node hf, c167_remove_node, c167_add_edge hf hh,
    c167_remove_edge, c167_update_node hf, c167_update_edge hf hh, c167_add_node_label hf, c167_add_edge_label hh,
    bind_map_left, map_bind, map_pure]
  case refineEdgeCount => rfl
  case setNodeLabelId n l =>
    unfold GraphMap.setNodeLabelId
    have hm : (mapValues f h g).nodeMap = g.nodeMap := rfl
    rw [hm]
    cases AL.get g.nodeMap n <;> rfl
  case setEdgeLabelId s t l =>
    unfold GraphMap.setEdgeLabelId
    have hn : (mapValues f h g).hasEdge s t = g.hasEdge s t := rfl
    rw [hn, with_values]
    split_ifs <;> rfl
  case mapNodeLabelIds => rfl
  case mapEdgeLabelIds F =>
    unfold GraphMap.mapEdgeLabelIds
    have hd : (mapValues f h g).directed = g.directed := rfl
    rw [hd]
    split_ifs <;> rfl

/-- **C167**, any program of calls. -/
theorem c167_exec (hf : Function.Injective f) (hh : Function.Injective h) (g : GraphMap m k NL EL)
    (ops : List (Op m k NL EL)) :
    (mapValues f h g).exec (ops.map (opValues f h)) = mapValues f h <$> g.exec ops := by
  unfold GraphMap.exec
  rw [List.foldlM_map]
  exact fold_map (fun z x => c167_apply hf hh z x) ops g

end Adds

/-! ### Queries -/

/-- **C167**: everything generic code sees of the graph is the same but for the values. -/
theorem c167_view (g : GraphMap m k NL EL) : (mapValues f h g).view = viewValues f h g.view := rfl

theorem item_values {L L' : Type} (f : L → L') (s : SetMap L) (i : Nat) :
    (tableValues f s).getItem i = (s.getItem i).map f := by
  simp [SetMap.getItem, tableValues]

/-- **C167**: the label of a node is the one it had, with the other value. -/
theorem c167_node_label (g : GView m k NL EL) (n : Id m) :
    (viewValues f h g).getNodeLabel n = Option.map f <$> g.getNodeLabel n := by
  unfold GView.getNodeLabel
  have hn : (viewValues f h g).nodeLid n = g.nodeLid n := rfl
  rw [hn, map_bind]
  congr 1
  funext l
  cases l with
  | none => rfl
  | some l => rw [map_pure, ← item_values]; rfl

/-- **C167**: the same for the label of an edge. -/
theorem c167_edge_label (g : GView m k NL EL) (s t : Id m) :
    (viewValues f h g).getEdgeLabel s t = Option.map h <$> g.getEdgeLabel s t := by
  unfold GView.getEdgeLabel
  have hn : (viewValues f h g).edgeLid s t = g.edgeLid s t := rfl
  rw [hn, map_bind]
  congr 1
  funext l
  cases l with
  | none => rfl
  | some l => rw [map_pure, ← item_values]; rfl

section Compare

variable [DecidableEq NL] [DecidableEq EL] [DecidableEq NL'] [DecidableEq EL'] {k' : Nat}

/-- **C167**: comparing two graphs gives the same answer when the values of both are replaced. -/
theorem c167_equal (hf : Function.Injective f) (hh : Function.Injective h) (a : GView m k NL EL)
    (b : GView m k' NL EL) : (viewValues f h a).equal (viewValues f h b) = a.equal b := by
  have hn : (viewValues f h a).nodeAgrees (viewValues f h b) = a.nodeAgrees b := by
    funext n
    unfold GView.nodeAgrees
    have e : (viewValues f h b).hasNode n = b.hasNode n := rfl
    simp only [e, c167_node_label, bind_map_left, (Option.map_injective hf).eq_iff]
  have he : (viewValues f h a).edgeAgrees (viewValues f h b) = a.edgeAgrees b := by
    funext p
    unfold GView.edgeAgrees
    have e : (viewValues f h b).hasEdge p.1 p.2 = b.hasEdge p.1 p.2 := rfl
    simp only [e, c167_edge_label, bind_map_left, (Option.map_injective hh).eq_iff]
  unfold GView.equal GView.contained
  rw [hn, he]
  rfl

omit [DecidableEq EL] [DecidableEq EL'] in
theorem nodes_values (hf : Function.Injective f) (a : GView m k NL EL) (g : GraphMap m k NL EL) :
    GraphMap.addNodesOf (viewValues f h a) (mapValues f h g) = mapValues f h <$> GraphMap.addNodesOf a g := by
  unfold GraphMap.addNodesOf
  refine fold_map (fun z n => ?_) _ _
  rw [c167_node_label, bind_map_left, map_bind]
  congr 1
  funext l
  rw [c167_add_node hf, bind_map_left, map_bind]
  rfl

theorem edges_values (hf : Function.Injective f) (hh : Function.Injective h) (a : GView m k NL EL)
    (g : GraphMap m k NL EL) :
    GraphMap.addEdgesOf (viewValues f h a) (mapValues f h g) = mapValues f h <$> GraphMap.addEdgesOf a g := by
  unfold GraphMap.addEdgesOf
  refine fold_map (fun z p => ?_) _ _
  rw [c167_edge_label, bind_map_left, map_bind]
  congr 1
  funext l
  rw [c167_add_edge hf hh, bind_map_left, map_bind]
  rfl

/-- **C167**: so does `graph_union`. -/
theorem c167_union (hf : Function.Injective f) (hh : Function.Injective h) (a b : GView m k NL EL) :
    GraphMap.graphUnion (viewValues f h a) (viewValues f h b) = mapValues f h <$> GraphMap.graphUnion a b := by
  unfold GraphMap.graphUnion
  have e : (GraphMap.new (viewValues f h a).directed : GraphMap m k NL' EL') =
    mapValues f h (GraphMap.new a.directed) := rfl
  rw [e, nodes_values hf, bind_map_left, map_bind]
  congr 1
  funext g
  rw [nodes_values hf, bind_map_left, map_bind]
  congr 1
  funext g
  rw [edges_values hf hh, bind_map_left, map_bind]
  congr 1
  funext g
  rw [edges_values hf hh]

/-- **C167**: and `graph_minus`. -/
theorem c167_minus (hf : Function.Injective f) (hh : Function.Injective h) (a b : GView m k NL EL) :
    GraphMap.graphMinus (viewValues f h a) (viewValues f h b) = mapValues f h <$> GraphMap.graphMinus a b := by
  unfold GraphMap.graphMinus
  have e : (GraphMap.new (viewValues f h a).directed : GraphMap m k NL' EL') =
    mapValues f h (GraphMap.new a.directed) := rfl
  rw [e, nodes_values hf, bind_map_left, map_bind]
  congr 1
  funext g
  rw [edges_values hf hh, bind_map_left, map_bind]
  congr 1
  funext g
  unfold GraphMap.removeNodesOf
  have e2 : (viewValues f h b).nodeIndices = b.nodeIndices := rfl
  rw [e2, fold_map (e := mapValues f h) (G := fun g n => do let r ← g.removeNode n; pure r.1)
    (fun z n => by rw [c167_remove_node, bind_map_left, map_bind]; rfl), bind_map_left, map_bind]
  congr 1
  funext g
  unfold GraphMap.removeEdgesOf
  have e3 : (viewValues f h b).edgeIndices = b.edgeIndices := rfl
  rw [e3, fold_map (e := mapValues f h) (G := fun g p => do let r ← g.removeEdge p.1 p.2; pure r.1)
    (fun z n => by rw [c167_remove_edge, bind_map_left, map_bind]; rfl)]

/-- **C167**: and the comparison of the concrete types. -/
theorem c167_typed_eq (hf : Function.Injective f) (hh : Function.Injective h) (a b : GView m k NL EL) :
    (viewValues f h a).typedEq (viewValues f h b) = a.typedEq b := by
  have hc : (viewValues f h a).contained (viewValues f h b) = a.contained b := by
    have hn : (viewValues f h a).nodeAgrees (viewValues f h b) = a.nodeAgrees b := by
      funext n
      unfold GView.nodeAgrees
      have e : (viewValues f h b).hasNode n = b.hasNode n := rfl
      simp only [e, c167_node_label, bind_map_left, (Option.map_injective hf).eq_iff]
    have he : (viewValues f h a).edgeAgrees (viewValues f h b) = a.edgeAgrees b := by
      funext p
      unfold GView.edgeAgrees
      have e : (viewValues f h b).hasEdge p.1 p.2 = b.hasEdge p.1 p.2 := rfl
      simp only [e, c167_edge_label, bind_map_left, (Option.map_injective hh).eq_iff]
    unfold GView.contained
    rw [hn, he]
    rfl
  unfold GView.typedEq
  rw [hc]
  rfl

/-- **C167**: and the `Clone` of a boxed graph. -/
theorem c167_clone (hf : Function.Injective f) (hh : Function.Injective h) (a : GView m k NL EL) :
    GraphMap.cloneBox (viewValues f h a) = mapValues f h <$> GraphMap.cloneBox a := by
  unfold GraphMap.cloneBox
  rw [← c167_union hf hh]
  rfl

/-! ### Renumbering -/

theorem take_values {X Y : Type} [DecidableEq X] [DecidableEq Y] {f : X → Y} (hf : Function.Injective f)
    (st : List (Option X) × SetMap X) (i : Id k) :
    takeLabel (st.1.map (Option.map f), tableValues f st.2) i =
      (fun r : List (Option X) × SetMap X => (r.1.map (Option.map f), tableValues f r.2)) <$> takeLabel st i := by
  obtain ⟨l, s⟩ := st
  unfold takeLabel takeLabel.index'
  simp only [List.getElem?_map]
  cases hx : l[i.val]? with
  | none => rfl
  | some x =>
    cases x with
    | none => rfl
    | some x =>
      have hu : ∀ {Z : Type} (z : Z), unwrap (some z) = pure z := fun _ => rfl
      simp only [Option.map_some, pure_bind, hu, add_values hf, bind_map_left, map_bind, map_pure,
        List.map_set, Option.map_none]

theorem reorder_table_values {X Y : Type} [DecidableEq X] [DecidableEq Y] {f : X → Y} (hf : Function.Injective f)
    (t : Option (SetMap (Id k))) (old : SetMap X) :
    GraphMap.newLabelMap t (tableValues f old) = tableValues f <$> GraphMap.newLabelMap t old := by
  cases t with
  | none => rfl
  | some t =>
    unfold GraphMap.newLabelMap reorderLabelMap
    have e : ((tableValues f old).items.map some, (SetMap.empty : SetMap Y)) =
        (fun r : List (Option X) × SetMap X => (r.1.map (Option.map f), tableValues f r.2))
          (old.items.map some, SetMap.empty) := by
      simp [tableValues, SetMap.items, SetMap.empty]
    dsimp only at e ⊢
    rw [e]
    have hs := fold_map (e := fun r : List (Option X) × SetMap X => (r.1.map (Option.map f), tableValues f r.2))
      (fun z i => take_values hf z i) t.items (old.items.map some, SetMap.empty)
    dsimp only at hs
    rw [hs, bind_map_left, map_bind]
    rfl

/-- **C167**: `reorder_id_with`. -/
theorem c167_reorder_with (hf : Function.Injective f) (hh : Function.Injective h) (g : GraphMap m k NL EL)
    (idm : Option (SetMap (Id m))) (nlm elm : Option (SetMap (Id k))) :
    (mapValues f h g).reorderIdWith idm nlm elm = mapValues f h <$> g.reorderIdWith idm nlm elm := by
  unfold GraphMap.reorderIdWith
  split_ifs
  · rfl
  · have hm : (mapValues f h g).nodeMap = g.nodeMap := rfl
    have h1 : (mapValues f h g).nodeLabels = tableValues f g.nodeLabels := rfl
    have h2 : (mapValues f h g).edgeLabels = tableValues h g.edgeLabels := rfl
    rw [hm, h1, h2, reorder_table_values hf, reorder_table_values hh]
    simp only [map_bind, bind_map_left, map_pure]
    rfl

/-- **C167**: `reorder_id`, for the same outcome of the two counts. -/
theorem c167_reorder (hf : Function.Injective f) (hh : Function.Injective h) (g : GraphMap m k NL EL)
    (rn rnl rel : Bool) (mcN mcE : List (Id k × Nat)) :
    (mapValues f h g).reorderId rn rnl rel mcN mcE =
      (fun r => ⟨r.nodeIdMap, r.graph.map (mapValues f h)⟩) <$> g.reorderId rn rnl rel mcN mcE := by
  unfold GraphMap.reorderId
  have hi : (mapValues f h g).idsByDegree = g.idsByDegree := rfl
  simp only [hi, c167_reorder_with hf hh, map_bind, bind_map_left, map_pure, Option.map_some]

end Compare

/-! ### Freezing -/

theorem first_values {L L' : Type} (f : L → L') (s : SetMap L) :
    (tableValues f s).items.head?.isSome = s.items.head?.isSome := by
  obtain ⟨l⟩ := s
  cases l <;> rfl

/-- **C167**: `into_static`, for any change of the values. -/
theorem c167_freeze (f : NL → NL') (h : EL → EL') (g : GraphMap m k NL EL) :
    (mapValues f h g).intoStatic = staticValues f h <$> g.intoStatic := by
  have hi : (mapValues f h g).freezeInit = g.freezeInit := by
    unfold GraphMap.freezeInit GView.hasEdgeLabels GView.hasNodeLabels
    have h1 : (mapValues f h g).view.edgeLabels = tableValues h g.view.edgeLabels := rfl
    have h2 : (mapValues f h g).view.nodeLabels = tableValues f g.view.nodeLabels := rfl
    rw [h1, h2, first_values, first_values]
    rfl
  unfold GraphMap.intoStatic
  have hn : (mapValues f h g).nodeIndices = g.nodeIndices := rfl
  rw [hn, hi, map_bind]
  congr 1
  funext mx
  rw [map_bind]
  congr 1
  funext st
  rw [map_bind]
  congr 1
  funext ev
  unfold StaticGraph.fromRaw
  have h3 : (mapValues f h g).nodeCount = g.nodeCount := rfl
  have h4 : (mapValues f h g).edgeCount = g.edgeCount := rfl
  rw [map_bind]
  congr 1
  funext u
  rw [h3, h4]
  have h5 : (mapValues f h g).directed = g.directed := rfl
  rw [h5]
  split_ifs <;> rfl

/-- **C167**: everything generic code sees of a frozen graph. -/
theorem c167_static_view (f : NL → NL') (h : EL → EL') (g : StaticGraph m k NL EL) :
    (staticValues f h g).view = viewValues f h <$> g.view := by
  unfold StaticGraph.view
  simp only [map_bind]
  rfl

/-! ### Values that collapse -/

/-- **C167**, the values must stay different: when two labels become one, the second node gets the id of the
first label and the table has one entry less. -/
theorem c167_collapse :
    ∃ (f : Nat → Nat) (ops : List (Op 3 3 Nat Nat)),
      (mapValues f id (GraphMap.new true)).exec (ops.map (opValues f id)) ≠
        mapValues f id <$> (GraphMap.new true).exec ops :=
  ⟨fun _ => 0, [.addNode 0 (some 5), .addNode 1 (some 6)], by decide⟩

/-- The conditions can be met: a program with other values, node for node and id for id. -/
example : (mapValues Nat.succ id (GraphMap.new true : GraphMap 3 3 Nat Nat)).exec
      ([.addNode 0 (some 5), .addEdge 0 1 (some 7), .addNode 1 (some 6)].map (opValues Nat.succ id)) =
    .ok ⟨true, [(0, ⟨0, some 0, [(1, some 0)], []⟩), (1, ⟨1, some 1, [], [0]⟩)], 1, ⟨[6, 7]⟩, ⟨[7]⟩, some 1⟩ := by
  decide

end Verif.Props
