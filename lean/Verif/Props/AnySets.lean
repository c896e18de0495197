import Verif.Proof.AnySets
import Verif.Props.Union
import Verif.Props.RawCsr
import Verif.Props.AnyComp

/-! Union, difference and clones of anything behind the traits (C159). -/

namespace Verif.Props

open Verif Verif.GraphMap Verif.Spec

variable {m k : Nat} {NL EL : Type} [DecidableEq NL] [DecidableEq EL]

/-- The pair is listed, in either direction if the directions are not told apart. -/
def Lists (d : Bool) (es : List (Id m × Id m)) (s t : Id m) : Prop :=
  (s, t) ∈ es ∨ (d = false ∧ (t, s) ∈ es)

/-- The node is listed, or is an end of a listed pair. -/
def Names (g : GView m k NL EL) (n : Id m) : Prop :=
  n ∈ g.nodeIndices ∨ ∃ e ∈ g.edgeIndices, n = e.1 ∨ n = e.2

/-- The calls a union makes, in order. -/
def unionAsks (g0 g1 : GView m k NL EL) : List (Res (Op m k NL EL)) :=
  nodeAsks g0 ++ nodeAsks g1 ++ edgeAsks g0 ++ edgeAsks g1

omit [DecidableEq NL] [DecidableEq EL] in
theorem unionAsks_add (g0 g1 : GView m k NL EL) : ∀ op ∈ answersOf (unionAsks g0 g1), op.isAdd = true := by
  intro op h
  unfold unionAsks at h
  simp only [answersOf_append, List.mem_append] at h
  rcases h with ((h | h) | h) | h
  · exact nodeAsks_add _ _ h
  · exact nodeAsks_add _ _ h
  · exact edgeAsks_add _ _ h
  · exact edgeAsks_add _ _ h

theorem union_follow (g0 g1 : GView m k NL EL) :
    graphUnion g0 g1 = (new g0.directed : GraphMap m k NL EL).follow (unionAsks g0 g1) := by
  unfold graphUnion unionAsks
  simp only [follow_append, addNodesOf_follow, addEdgesOf_follow, bind_assoc]

/-- **C159.** Whatever implements the traits: the union panics exactly as the first label that is asked for and not
given, nodes before edges; otherwise it is the graph built by adding the listed nodes of both and then the listed
pairs of both, with the labels the graphs give. -/
theorem c159_union (g0 g1 : GView m k NL EL) :
    (∀ p, graphUnion g0 g1 = .error p ↔ firstPanic (unionAsks g0 g1) = some p) ∧
    ((∃ g, graphUnion g0 g1 = .ok g) ↔
      (∀ h ∈ [g0, g1], (∀ n ∈ h.nodeIndices, ∃ l, h.getNodeLabel n = .ok l) ∧
        ∀ e ∈ h.edgeIndices, ∃ l, h.getEdgeLabel e.1 e.2 = .ok l)) ∧
    ∀ g, graphUnion g0 g1 = .ok g → Run (new g0.directed) (answersOf (unionAsks g0 g1)) g ∧ Reachable g ∧
      g.directed = g0.directed ∧ (∀ n, g.hasNode n = true ↔ Names g0 n ∨ Names g1 n) ∧
      (∀ s t, g.hasEdge s t = true ↔ Lists g0.directed g0.edgeIndices s t ∨ Lists g0.directed g1.edgeIndices s t) ∧
      g.edgeCount = g0.edgeIndices.length + g1.edgeIndices.length ∧
      (g.nodeLabels.len ≤ k + 1 → g.edgeLabels.len ≤ k + 1 →
        Shows g.view (Spec.run g0.directed (answersOf (unionAsks g0 g1)))) := by
  have hinv : (new g0.directed : GraphMap m k NL EL).Inv := inv_withLabelMap _ _ _ List.nodup_nil List.nodup_nil
  obtain ⟨h1, h2⟩ := follow_adds (unionAsks g0 g1) _ hinv (unionAsks_add g0 g1)
  obtain ⟨g, a1, a2, a3, -, -⟩ := exec_adds (answersOf (unionAsks g0 g1)) _ hinv (unionAsks_add g0 g1)
  rw [← union_follow] at h1 h2
  rw [a1] at h2
  have hnone : firstPanic (unionAsks g0 g1) = none ↔
      (∀ h ∈ [g0, g1], (∀ n ∈ h.nodeIndices, ∃ l, h.getNodeLabel n = .ok l) ∧
        ∀ e ∈ h.edgeIndices, ∃ l, h.getEdgeLabel e.1 e.2 = .ok l) := by
    have map_ok : ∀ {X Y : Type} (r : Res X) (f : X → Y), (∃ y, r.map f = .ok y) ↔ ∃ x, r = .ok x := by
      intro X Y r f
      cases r with
      | error p => exact ⟨fun ⟨y, e⟩ => (by cases e), fun ⟨y, e⟩ => (by cases e)⟩
      | ok x => exact ⟨fun _ => ⟨x, rfl⟩, fun _ => ⟨f x, rfl⟩⟩
    rw [firstPanic_none]
    unfold unionAsks nodeAsks edgeAsks
    simp only [List.mem_append, or_imp, forall_and, List.forall_mem_map, map_ok, List.forall_mem_cons,
      List.not_mem_nil, false_imp_iff, implies_true, and_true]
    tauto
  have hok : ∀ g', graphUnion g0 g1 = .ok g' → firstPanic (unionAsks g0 g1) = none ∧ g' = g := by
    intro g' e
    cases hf : firstPanic (unionAsks g0 g1) with
    | none => rw [h2 hf] at e; cases e; exact ⟨rfl, rfl⟩
    | some p => rw [h1 p hf] at e; cases e
  refine ⟨fun p => ⟨fun e => ?_, h1 p⟩, ?_, ?_⟩
  · cases hf : firstPanic (unionAsks g0 g1) with
    | none => rw [h2 hf] at e; cases e
    | some q => rw [h1 q hf] at e; cases e; rfl
  · rw [← hnone]
    exact ⟨fun ⟨g', e⟩ => (hok g' e).1, fun e => ⟨g, h2 e⟩⟩
  · intro g' e
    obtain ⟨hf, rfl⟩ := hok g' e
    have hr : Run (new g0.directed) (answersOf (unionAsks g0 g1)) g' := exec_run a1
    obtain ⟨hd, hN, hE⟩ := run_shape List.nodup_nil List.nodup_nil hr
    have hlo : ∀ op ∈ answersOf (unionAsks g0 g1), labelOnly op = true := fun op ho =>
      add_labelOnly (unionAsks_add g0 g1 op ho)
    have hops : answersOf (unionAsks g0 g1) =
        g0.nodeIndices.map (fun n => Op.addNode n (given (g0.getNodeLabel n))) ++
        g1.nodeIndices.map (fun n => Op.addNode n (given (g1.getNodeLabel n))) ++
        g0.edgeIndices.map (fun e => Op.addEdge e.1 e.2 (given (g0.getEdgeLabel e.1 e.2))) ++
        g1.edgeIndices.map (fun e => Op.addEdge e.1 e.2 (given (g1.getEdgeLabel e.1 e.2))) := by
      have hp := firstPanic_none.1 hf
      unfold unionAsks at hp ⊢
      simp only [List.mem_append, or_imp, forall_and] at hp
      obtain ⟨⟨⟨p1, p2⟩, p3⟩, p4⟩ := hp
      simp only [answersOf_append]
      rw [nodeAsks_answers (firstPanic_none.2 p1), nodeAsks_answers (firstPanic_none.2 p2),
        edgeAsks_answers (firstPanic_none.2 p3), edgeAsks_answers (firstPanic_none.2 p4)]
    have same_iff : ∀ (es : List (Id m × Id m)) s t, (∃ e ∈ es, AGraph.same g0.directed e.1 e.2 s t) ↔
        Lists g0.directed es s t := by
      intro es s t
      unfold AGraph.same Lists
      constructor
      · rintro ⟨⟨a, b⟩, he, (⟨rfl, rfl⟩ | ⟨hd, rfl, rfl⟩)⟩
        · exact .inl he
        · exact .inr ⟨hd, he⟩
      · rintro (h | ⟨hd, h⟩)
        · exact ⟨_, h, .inl ⟨rfl, rfl⟩⟩
        · exact ⟨_, h, .inr ⟨hd, rfl, rfl⟩⟩
    refine ⟨hr, hr.reachable List.nodup_nil List.nodup_nil, hd, ?_, ?_, ?_, ?_⟩
    · intro n
      have e : (g'.labE n).isSome = _ := hN n
      rw [hasNode_eq_labE, e]
      unfold Spec.run
      rw [hops]
      simp only [List.foldl_append]
      rw [(adds_edges g0.directed g1.edgeIndices _ _).1, (adds_edges g0.directed g0.edgeIndices _ _).1,
        adds_nodes, adds_nodes]
      simp only [AGraph.empty, Option.isSome_none, Bool.false_or, Bool.or_eq_true, decide_eq_true_eq, Names]
      constructor
      · rintro (((h | h) | h) | h)
        · exact .inl (.inl h)
        · exact .inr (.inl h)
        · exact .inl (.inr h)
        · exact .inr (.inr h)
      · rintro ((h | h) | (h | h))
        · exact .inl (.inl (.inl h))
        · exact .inl (.inr h)
        · exact .inl (.inl (.inr h))
        · exact .inr h
    · intro s t
      have e : (g'.outE s t).isSome = _ := hE s t
      rw [hasEdge_eq_outE, e]
      unfold Spec.run
      rw [hops]
      simp only [List.foldl_append]
      rw [(adds_edges g0.directed g1.edgeIndices _ _).2, (adds_edges g0.directed g0.edgeIndices _ _).2,
        adds_nodes_edge, adds_nodes_edge]
      simp only [AGraph.empty, Option.isSome_none, Bool.false_or, Bool.or_eq_true, decide_eq_true_eq, same_iff]
    · show g'.numEdges = _
      rw [a3, hops]
      simp [List.filter_append, List.filter_map, Op.addsEdge, Function.comp_def, new, withLabelMap]
    · exact run_shows List.nodup_nil List.nodup_nil hr hlo

/-- **C159.** So a clone of anything behind the traits panics exactly as the first label it asks for, and otherwise
has the listed nodes and edges. -/
theorem c159_clone (g : GView m k NL EL) :
    (∀ p, cloneBox g = .error p ↔ firstPanic (nodeAsks g ++ edgeAsks g) = some p) ∧
    ∀ c, cloneBox g = .ok c → Run (new g.directed) (answersOf (nodeAsks g ++ edgeAsks g)) c ∧ Reachable c ∧
      c.directed = g.directed ∧ (∀ n, c.hasNode n = true ↔ Names g n) ∧
      (∀ s t, c.hasEdge s t = true ↔ Lists g.directed g.edgeIndices s t) ∧
      c.edgeCount = g.edgeIndices.length := by
  have e : unionAsks g (new g.directed : GraphMap m k NL EL).view = nodeAsks g ++ edgeAsks g := by
    have e1 : nodeAsks (new g.directed : GraphMap m k NL EL).view = [] := rfl
    have e2 : edgeAsks (new g.directed : GraphMap m k NL EL).view = [] := by
      show List.map _ (edgeIndices _) = _
      unfold edgeIndices
      cases g.directed <;> rfl
    unfold unionAsks
    rw [e1, e2]; simp
  have e3 : (new g.directed : GraphMap m k NL EL).view.edgeIndices = [] := by
    show edgeIndices _ = _
    unfold edgeIndices
    cases g.directed <;> rfl
  obtain ⟨h1, -, h3⟩ := c159_union g (new g.directed : GraphMap m k NL EL).view
  rw [e] at h1 h3
  refine ⟨h1, fun c hc => ?_⟩
  obtain ⟨a1, a2, a3, a4, a5, a6, -⟩ := h3 c hc
  rw [e3] at a6
  refine ⟨a1, a2, a3, fun n => ?_, fun s t => ?_, by simpa using a6⟩
  · rw [a4]
    have : ¬ Names (new g.directed : GraphMap m k NL EL).view n := by
      rintro (h | ⟨e, h, -⟩)
      · exact absurd h (by show n ∉ []; simp)
      · rw [e3] at h; simp at h
    simp [this]
  · rw [a5, e3]
    simp [Lists]

theorem minus_clone (g0 g1 : GView m k NL EL) :
    graphMinus g0 g1 = (cloneBox g0 >>= fun c => removeNodesOf g1 c >>= fun g => removeEdgesOf g1 g) := by
  have e : cloneBox g0 = (addNodesOf g0 (new g0.directed) >>= fun g => addEdgesOf g0 g) := by
    unfold cloneBox graphUnion
    have e1 : ∀ g, addNodesOf (new g0.directed : GraphMap m k NL EL).view g = .ok g := fun _ => rfl
    have e2 : ∀ g, addEdgesOf (new g0.directed : GraphMap m k NL EL).view g = .ok g := by
      intro g
      have e3 : (new g0.directed : GraphMap m k NL EL).view.edgeIndices = [] := by
        show edgeIndices _ = _
        unfold edgeIndices
        cases g0.directed <;> rfl
      unfold addEdgesOf
      rw [e3]; rfl
    simp only [e1, e2, bind_ok]
    congr 1
    funext g
    cases addEdgesOf g0 g <;> rfl
  rw [e]
  unfold graphMinus
  simp only [bind_assoc]

/-- **C159.** The difference of anything behind the traits: it panics as the clone of the first does; if not, it
panics exactly if a node the second lists has a self loop listed by the first; otherwise it is the clone without the
nodes and the pairs that the second lists, with labels as in the clone, and the counter goes down by the edges that
went. -/
theorem c159_minus (g0 g1 : GView m k NL EL) :
    (∀ p, cloneBox g0 = .error p → graphMinus g0 g1 = .error p) ∧
    ∀ c, cloneBox g0 = .ok c →
      ((∃ n ∈ g1.nodeIndices, (n, n) ∈ g0.edgeIndices) → graphMinus g0 g1 = .error .unwrapNone) ∧
      ((∀ n ∈ g1.nodeIndices, (n, n) ∉ g0.edgeIndices) →
        ∃ g, graphMinus g0 g1 = .ok g ∧ Reachable g ∧ g.directed = g0.directed ∧
          (∀ n, g.hasNode n = true ↔ Names g0 n ∧ n ∉ g1.nodeIndices) ∧
          (∀ s t, g.hasEdge s t = true ↔ Lists g0.directed g0.edgeIndices s t ∧ s ∉ g1.nodeIndices ∧
            t ∉ g1.nodeIndices ∧ ¬ Lists g0.directed g1.edgeIndices s t) ∧
          (∀ n, g.hasNode n = true → g.getNodeLabel n = c.getNodeLabel n) ∧
          (∀ s t, g.hasEdge s t = true → g.getEdgeLabel s t = c.getEdgeLabel s t) ∧
          g.edgeCount + c.edgeIndices.length = c.edgeCount + g.edgeIndices.length) := by
  rw [minus_clone]
  refine ⟨fun p h => by rw [h]; rfl, fun c hc => ?_⟩
  obtain ⟨-, h3⟩ := c159_clone g0
  obtain ⟨-, hr, hd, hN, hE, -⟩ := h3 c hc
  have hself : ∀ n, c.hasEdge n n = true ↔ (n, n) ∈ g0.edgeIndices := by
    intro n; rw [hE]; unfold Lists; tauto
  obtain ⟨r1, r2⟩ := removeNodes_any g1.nodeIndices c hr
  rw [hc, bind_ok]
  refine ⟨fun ⟨n, hn, hl⟩ => ?_, fun hno => ?_⟩
  · unfold removeNodesOf
    rw [r1 ⟨n, hn, (hself n).2 hl⟩]; rfl
  · obtain ⟨g', a1, a2, a3, a4, a5, a6, a7, a8⟩ := r2 (fun n hn => by
      rw [← Bool.not_eq_true, hself]; exact hno n hn)
    obtain ⟨g, b1, b2, b3, b4, b5, b6, b7, b8⟩ := removeEdges_any g1.edgeIndices g' a2
    have hlab : ∀ n, g.labE n = if n ∈ g1.nodeIndices then none else c.labE n := by
      intro n; rw [b7, a7]
    have hout : ∀ s t, g.outE s t = if (s, t) ∈ g1.edgeIndices ∨ (g'.directed = false ∧ (t, s) ∈ g1.edgeIndices) then
        none else if s ∈ g1.nodeIndices ∨ t ∈ g1.nodeIndices then none else c.outE s t := by
      intro s t; rw [b8, a8]
    refine ⟨g, ?_, b2, b3.trans (a3.trans hd), ?_, ?_, ?_, ?_, ?_⟩
    · unfold removeNodesOf removeEdgesOf
      rw [a1, bind_ok, b1]
    · intro n
      rw [← hN, hasNode_eq_labE, hasNode_eq_labE, hlab]
      split <;> simp_all
    · intro s t
      rw [← hE, hasEdge_eq_outE, hasEdge_eq_outE, hout, a3, hd]
      unfold Lists
      split_ifs with h1 h2
      · simp [h1]
      · simp only [Option.isSome_none, Bool.false_eq_true, false_iff]; tauto
      · tauto
    · intro n hn
      rw [hasNode_eq_labE, hlab] at hn
      have hlab := hlab n
      split at hn
      · cases hn
      · rename_i hx
        rw [if_neg hx] at hlab
        unfold GraphMap.getNodeLabel
        unfold labE at hlab
        have : (g.getNode n).bind (·.label) = (c.getNode n).bind (·.label) := by
          cases h1 : g.getNode n <;> cases h2 : c.getNode n <;> simp_all
        rw [this, b4, a4]
    · intro s t hst
      rw [hasEdge_eq_outE] at hst
      have ho := hout s t
      unfold GraphMap.getEdgeLabel
      rw [getEdge_eq_outE, getEdge_eq_outE, b5, a5]
      have : g.outE s t = c.outE s t := by
        rw [ho] at hst ⊢
        split_ifs at hst ⊢ with h1 h2 <;> simp_all
      rw [this]
    · have e1 := edgeIndices_length b2.inv.toNWF
      have e2 := edgeIndices_length hr.inv.toNWF
      show g.numEdges + _ = c.numEdges + _
      rw [e1, e2]
      omega

theorem static_answers (g : StaticGraph m k NL EL) (h0 : g.edgeVec.offsets ≠ []) {s t : Id m}
    (hrow : t ∈ Spec.rowOf g.edgeVec s.val) (hp : Passable g.edgeVec s.val) : ∃ e, g.getEdge s t = .ok e := by
  have hthere : RowThere g.edgeVec s.val := by
    obtain ⟨a, b, hb, hab, h⟩ := hp
    rcases h with rfl | h
    · unfold Spec.rowOf at hrow
      have h1 : g.edgeVec.offsets.getD s.val 0 = a := by
        rw [List.getD_eq_getElem?_getD, hb.1]; rfl
      have h2 : g.edgeVec.offsets.getD (s.val + 1) 0 = a := by
        rw [List.getD_eq_getElem?_getD, hb.2]; rfl
      rw [h1, h2, List.drop_eq_nil_of_le (by simp)] at hrow
      simp at hrow
    · exact ⟨a, b, hb, hab, h⟩
  have hidx : ∃ r, g.edgeVec.findEdgeIndex s t = .ok r := by
    rcases hasEdge_cases g.edgeVec s t h0 with ⟨-, h⟩ | ⟨h1, -, h⟩
    · exact ⟨_, h⟩
    · rw [h]
      rcases searchRow_cases (ev := g.edgeVec) (t := t) h1 with ⟨h2, -⟩ | ⟨-, ⟨o, i, -, -, h2⟩ | ⟨h2, -⟩⟩
      · exact absurd hthere h2
      · exact ⟨_, h2⟩
      · exact ⟨_, h2⟩
  obtain ⟨r, hr⟩ := hidx
  unfold StaticGraph.getEdge StaticGraph.hasEdge EdgeVec.hasEdge EdgeVec.findEdgeLabelId
  simp only [hr, bind_ok, pure_ok]
  cases r with
  | none => exact ⟨_, rfl⟩
  | some j =>
    simp only [Option.isSome_some, if_true]
    by_cases hl : g.edgeVec.getLabels = []
    · rw [if_pos hl]; exact ⟨_, rfl⟩
    · rw [if_neg hl]
      simp only [bind_ok]
      cases g.edgeVec.getLabels[j]? <;> exact ⟨_, rfl⟩

/-- **C159.** A frozen graph of which nothing is known but that its edges can be enumerated: it can be cloned exactly
if its node labels, if any, reach to its last node; the clone then has an edge for every listed entry of the rows, and
nodes for the ends that lie beyond. -/
theorem c159_frozen (g : StaticGraph m k NL EL) (h0 : g.edgeVec.offsets ≠ [])
    (hm : g.edgeVec.offsets.length ≤ m + 1)
    (hrow : g.directed = true ∨ ∀ n, (Spec.rowOf g.edgeVec n).Pairwise (· < ·)) {v : GView m k NL EL}
    (hv : g.view = .ok v) :
    ((∃ c, cloneBox v = .ok c) ↔ ∀ ls, g.labels = some ls → min g.numNodes (m + 1) ≤ ls.length) ∧
    (∀ p, cloneBox v = .error p → p = .indexOutOfBounds) ∧
    ∀ c, cloneBox v = .ok c → c.directed = g.directed ∧
      (∀ n, c.hasNode n = true ↔ n.val < g.numNodes ∨ ∃ e ∈ rowPairs g.edgeVec g.directed, n = e.1 ∨ n = e.2) ∧
      (∀ s t, c.hasEdge s t = true ↔ Lists g.directed (rowPairs g.edgeVec g.directed) s t) ∧
      c.edgeCount = (rowPairs g.edgeVec g.directed).length := by
  obtain ⟨hiff, -⟩ := c158_frozen g h0 hm hrow
  have hpass := hiff.1 ⟨v, hv⟩
  obtain ⟨c1, -, -⟩ := c156_edges g.edgeVec h0 hm g.directed hrow _ (le_refl _)
  have hE : g.edgeIndices = .ok (rowPairs g.edgeVec g.directed) := (c1 _).2 ⟨hpass, rfl⟩
  have hedges : ∃ eds, g.edges = .ok eds := ⟨_, StaticGraph.edges_of hE⟩
  obtain ⟨eds, heds⟩ := hedges
  unfold StaticGraph.view at hv
  rw [hE, bind_ok, heds, bind_ok] at hv
  have hvd : v.directed = g.directed := by cases hv; rfl
  have hve : v.edgeIndices = rowPairs g.edgeVec g.directed := by cases hv; rfl
  have hvn : v.nodeIndices = g.nodeIndices := by cases hv; rfl
  have hnl : v.nodeLid = g.nodeLid := by cases hv; rfl
  have hel : ∀ s t, v.edgeLid s t = (g.getEdge s t >>= fun e => pure (e.bind (·.label))) := by
    cases hv; intro s t; rfl
  have hmem : ∀ n : Id m, n ∈ g.nodeIndices ↔ n.val < g.numNodes := by
    intro n
    unfold StaticGraph.nodeIndices
    rw [List.mem_map]
    constructor
    · rintro ⟨i, hi, rfl⟩
      have := Nat.mod_le i (m + 1)
      simp only [List.mem_range] at hi
      show i % (m + 1) < _
      omega
    · intro h
      exact ⟨n.val, by simpa using h, Fin.ext (Nat.mod_eq_of_lt n.isLt)⟩
  have hedge : firstPanic (edgeAsks v) = none := by
    rw [firstPanic_none]
    unfold edgeAsks
    rw [List.forall_mem_map]
    rintro ⟨s, t⟩ he
    rw [hve] at he
    have hmem : t ∈ Spec.rowOf g.edgeVec s.val ∧ s.val + 1 < g.edgeVec.offsets.length := by
      unfold rowPairs at he
      simp only [List.mem_flatMap, List.mem_range, List.mem_map, List.mem_filter, Prod.mk.injEq] at he
      obtain ⟨n, hn, t', ⟨ht, -⟩, rfl, rfl⟩ := he
      have : (Id.new n : Id m).val = n := Nat.mod_eq_of_lt (by omega)
      rw [this]
      exact ⟨ht, by omega⟩
    obtain ⟨e, he⟩ := static_answers g h0 hmem.1 (hpass _ hmem.2)
    unfold GView.getEdgeLabel
    simp only [hel, he, bind_ok, pure_ok]
    cases e.bind (·.label) <;> exact ⟨_, rfl⟩
  have hlab : ∀ n, (∃ l, v.getNodeLabel n = .ok l) ∨
      (v.getNodeLabel n = .error .indexOutOfBounds ∧ g.nodeLid n = .error .indexOutOfBounds) := by
    intro n
    unfold GView.getNodeLabel
    rw [hnl]
    rcases (c156_node_label g n).2 with h | ⟨l, h⟩
    · rw [h]; exact .inr ⟨rfl, rfl⟩
    · rw [h, bind_ok]; cases l <;> exact .inl ⟨_, rfl⟩
  have hpn : ∀ p, firstPanic (nodeAsks v) = some p → p = .indexOutOfBounds := by
    intro p
    unfold nodeAsks
    induction v.nodeIndices with
    | nil => intro h; cases h
    | cons n ns ih =>
      rw [List.map_cons]
      rcases hlab n with ⟨l, h⟩ | ⟨h, -⟩
      · rw [h]; exact ih
      · rw [h]; intro e; cases e; rfl
  obtain ⟨q1, q2⟩ := c159_clone v
  refine ⟨?_, ?_, ?_⟩
  · have hc : (∃ c, cloneBox v = .ok c) ↔ firstPanic (nodeAsks v) = none := by
      have q := q1
      simp only [firstPanic_append, hedge] at q
      cases hf : firstPanic (nodeAsks v) with
      | none =>
        refine ⟨fun _ => rfl, fun _ => ?_⟩
        cases hcl : cloneBox v with
        | ok c => exact ⟨c, rfl⟩
        | error p => have := (q p).1 hcl; rw [hf] at this; cases this
      | some p =>
        rw [hf] at q
        refine ⟨fun ⟨c, e⟩ => ?_, fun e => by cases e⟩
        rw [(q p).2 rfl] at e; cases e
    rw [hc, firstPanic_none]
    unfold nodeAsks
    rw [List.forall_mem_map, hvn]
    constructor
    · intro h ls hls
      by_contra hcon
      have hlt : ls.length < m + 1 := by omega
      have hln : ls.length < g.numNodes := by omega
      obtain ⟨x, hx⟩ := h ⟨ls.length, hlt⟩ ((hmem _).2 hln)
      have hbad := (c156_node_label g ⟨ls.length, hlt⟩).1.2 ⟨hln, ls, hls, le_refl _⟩
      unfold GView.getNodeLabel at hx
      rw [hnl, hbad] at hx
      cases hx
    · intro h n hn
      rcases hlab n with ⟨l, e⟩ | ⟨-, e⟩
      · rw [e]; exact ⟨_, rfl⟩
      · obtain ⟨h1, ls, h2, h3⟩ := (c156_node_label g n).1.1 e
        have := h ls h2
        have := n.isLt
        omega
  · intro p hp
    rw [q1, firstPanic_append, hedge] at hp
    apply hpn
    cases hf : firstPanic (nodeAsks v) with
    | none => rw [hf] at hp; cases hp
    | some q => rw [hf] at hp; exact hp
  · intro c hc
    obtain ⟨-, -, a3, a4, a5, a6⟩ := q2 c hc
    rw [hvd] at a3 a5
    rw [hve] at a5 a6
    refine ⟨a3, fun n => ?_, a5, a6⟩
    rw [a4]
    unfold Names
    rw [hvn, hve, hmem]

/-- The frozen graph of `c158_lopsided` with a label for its first node only. -/
def halfNamed : StaticGraph 9 3 String String := { lopsided with labels := some [0] }

/-- **C159.** Both cases arise: the graph of C158 is cloned, with an edge for each of its two listed pairs; with a label
for one of its nodes only the clone panics. -/
theorem c159_halfNamed : ∃ v w c, lopsided.view = .ok v ∧ halfNamed.view = .ok w ∧ cloneBox v = .ok c ∧
    c.edgeCount = 2 ∧ c.hasEdge 3 1 = true ∧ c.hasEdge 2 0 = false ∧
    cloneBox w = .error .indexOutOfBounds := ⟨_, _, _, rfl, rfl, rfl, by decide, by decide, by decide, by decide⟩

/-- Non-vacuity of `c159_minus`: taking a graph away from itself. -/
example : ∃ v, lopsided.view = .ok v ∧ (∃ c, cloneBox v = .ok c) ∧
    ∀ n ∈ v.nodeIndices, (n, n) ∉ v.edgeIndices := ⟨_, rfl, ⟨_, rfl⟩, by decide⟩

end Verif.Props
