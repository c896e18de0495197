import Verif.Proof.ReorderIso
import Verif.Props.GraphHistory

/-! Property theorems about `reorder_id`: C29, C30, C65. -/

namespace Verif.Props

open GraphMap Spec

variable {m k : Nat} {NL EL : Type}

/-- `f` carries the labelled graph `g` onto `h`: it is a bijection of the nodes, and every node and every
edge keeps its label. -/
def Carries (f : Id m → Id m) (g h : GraphMap m k NL EL) : Prop :=
  Set.BijOn f {n | g.hasNode n = true} {n | h.hasNode n = true} ∧
  (∀ n, g.hasNode n = true → h.getNodeLabel (f n) = g.getNodeLabel n) ∧
  ∀ s t, g.hasNode s = true → g.hasNode t = true →
    h.hasEdge (f s) (f t) = g.hasEdge s t ∧ h.getEdgeLabel (f s) (f t) = g.getEdgeLabel s t

/-- Every label id on a node is the index of a label. -/
def NodeIdsKnown (g : GraphMap m k NL EL) : Prop :=
  ∀ n nd l, g.getNode n = some nd → nd.label = some l → l.val < g.nodeLabels.len

/-- Every label id on an edge is the index of a label. -/
def EdgeIdsKnown (g : GraphMap m k NL EL) : Prop :=
  ∀ s t e l, g.getEdge s t = .ok (some e) → e.label = some l → l.val < g.edgeLabels.len

/-- Both directions of an undirected edge carry the same label id. -/
def EdgeIdsSymmetric (g : GraphMap m k NL EL) : Prop :=
  g.isDirected = false → ∀ s t e e', g.getEdge s t = .ok (some e) → g.getEdge t s = .ok (some e') →
    e.label = e'.label

theorem nodeIdsKnown_iff (g : GraphMap m k NL EL) :
    NodeIdsKnown g ↔ ∀ n l, g.labE n = some (some l) → l.val < g.nodeLabels.len := by
  constructor
  · intro h n l hl
    obtain ⟨nd, h1, h2⟩ := Option.map_eq_some_iff.1 hl
    exact h n nd l h1 h2
  · intro h n nd l h1 h2
    exact h n l (by simp [labE, h1, h2])

theorem edgeIdsKnown_iff (g : GraphMap m k NL EL) :
    EdgeIdsKnown g ↔ ∀ s t l, g.outE s t = some (some l) → l.val < g.edgeLabels.len := by
  constructor
  · intro h s t l hl
    exact h s t ⟨s, t, some l⟩ l (by rw [getEdge_eq_outE, hl]; rfl) rfl
  · intro h s t e l h1 h2
    rw [getEdge_eq_outE] at h1
    have h1 : (g.outE s t).map (fun l => (⟨s, t, l⟩ : Edge m k)) = some e := Except.ok.inj h1
    obtain ⟨l', h3, rfl⟩ := Option.map_eq_some_iff.1 h1
    exact h s t l (by rw [h3, ← h2])

theorem edgeIdsSymmetric_iff {g : GraphMap m k NL EL} (hg : g.Inv) :
    EdgeIdsSymmetric g ↔ (g.directed = false → ∀ s t, g.outE s t = g.outE t s) := by
  constructor
  · intro h hd s t
    cases h1 : g.outE s t with
    | none =>
      cases h2 : g.outE t s with
      | none => rfl
      | some l =>
        have := hg.sym hd t s (show (g.outE t s).isSome by rw [h2]; rfl)
        have h3 : (g.outE s t).isSome := this
        rw [h1] at h3; cases h3
    | some l =>
      have h2 : (g.outE t s).isSome := hg.sym hd s t (show (g.outE s t).isSome by rw [h1]; rfl)
      obtain ⟨l', h2⟩ := Option.isSome_iff_exists.1 h2
      have := h hd s t ⟨s, t, l⟩ ⟨t, s, l'⟩ (by rw [getEdge_eq_outE, h1]; rfl)
        (by rw [getEdge_eq_outE, h2]; rfl)
      simp only at this
      rw [h2, this]
  · intro h hd s t e e' h1 h2
    rw [getEdge_eq_outE] at h1 h2
    obtain ⟨l, h3, rfl⟩ := Option.map_eq_some_iff.1 (Except.ok.inj h1)
    obtain ⟨l', h4, rfl⟩ := Option.map_eq_some_iff.1 (Except.ok.inj h2)
    rw [h hd s t, h4] at h3
    simpa using h3.symm

variable [DecidableEq NL] [DecidableEq EL]

/-! ### C65 -/

/-- **C65.** A successful `reorder_id_with` gives an isomorphic graph; the new id of a node is its index
in the given map, and a label keeps its meaning under its new id. -/
theorem c65_reorder_with_isomorphism {g h : GraphMap m k NL EL} (hg : Reachable g)
    (idm : Option (SetMap (Id m))) (nlm elm : Option (SetMap (Id k)))
    (hid : ∀ s, idm = some s → s.labels.Nodup) (hh : g.reorderIdWith idm nlm elm = .ok h) :
    Reachable h ∧ h.isDirected = g.isDirected ∧ h.nodeCount = g.nodeCount ∧
    h.edgeCount = g.edgeCount ∧
    ∃ f, Carries f g h ∧ (idm = none → f = id) ∧
      ∀ s, idm = some s → ∀ n, g.hasNode n = true → s.getItem (f n).val = some n := by
  have hid' := fun s e => SetMap.len_le (hid s e)
  obtain ⟨_, H, _, _, hc⟩ := reorderIdWith_all hg.inv hid' hh
  refine ⟨.reorder idm nlm elm hg hid' hh, H.dir, hc, H.cnt, ren idm,
    ⟨H.bijOn hid', fun n hn => getNodeLabel_ren hg.inv hid' hh hn, fun s t hs ht =>
      ⟨H.hasEdge_ren hid' hs ht, getEdgeLabel_ren hg.inv hid' hh hs ht⟩⟩, ?_, ?_⟩
  · rintro rfl; funext n; exact newId_ren ((newId_none _ _).2 rfl)
  · rintro s rfl n hn
    exact (newId_some (hid s rfl) _ _).1 (H.ren_ok hn)

/-- **C65.** `reorder_id_with` (with maps without repeats) panics exactly if a map lacks an id in use or
a label map has no label for a listed id. -/
theorem c65_reorder_with_total {g : GraphMap m k NL EL} (hg : Reachable g)
    (idm : Option (SetMap (Id m))) (nlm elm : Option (SetMap (Id k)))
    (h1 : ∀ s, idm = some s → s.labels.Nodup) (h2 : ∀ s, nlm = some s → s.labels.Nodup)
    (h3 : ∀ s, elm = some s → s.labels.Nodup) :
    (∃ h, g.reorderIdWith idm nlm elm = .ok h) ↔
      (∀ s, idm = some s → ∀ n, g.hasNode n = true → n ∈ s.items) ∧
      (∀ s, nlm = some s → (∀ n nd l, g.getNode n = some nd → nd.label = some l → l ∈ s.items) ∧
        ∀ i ∈ s.items, i.val < g.nodeLabels.len) ∧
      (∀ s, elm = some s →
        (∀ a b e l, g.getEdge a b = .ok (some e) → e.label = some l → l ∈ s.items) ∧
        ∀ i ∈ s.items, i.val < g.edgeLabels.len) := by
  rw [reorderIdWith_total hg.inv]
  constructor
  · rintro ⟨c1, c2, c3, c4, c5⟩
    refine ⟨c1, fun s e => ⟨?_, (c4 s e).2⟩, fun s e => ⟨?_, (c5 s e).2⟩⟩
    · intro n nd l hn hl
      exact c2 s e n l (by simp [labE, hn, hl])
    · intro a b e' l he hl
      rw [getEdge_eq_outE] at he
      obtain ⟨l', h4, rfl⟩ := Option.map_eq_some_iff.1 (Except.ok.inj he)
      exact c3 s e a b l (by rw [h4, ← hl])
  · rintro ⟨c1, c2, c3⟩
    refine ⟨c1, ?_, ?_, fun s e => ⟨h2 s e, (c2 s e).2⟩, fun s e => ⟨h3 s e, (c3 s e).2⟩⟩
    · intro s e n l hl
      obtain ⟨nd, h4, h5⟩ := Option.map_eq_some_iff.1 hl
      exact (c2 s e).1 n nd l h4 h5
    · intro s e a b l hl
      exact (c3 s e).1 a b ⟨a, b, some l⟩ l (by rw [getEdge_eq_outE, hl]; rfl) rfl

/-! ### C29 -/

/-- How `reorder_id` calls `reorder_id_with`. -/
theorem reorderId_unfold {g : GraphMap m k NL EL} (hg : g.Inv) (rn rnl rel : Bool)
    {mcN mcE : List (Id k × Nat)} (hN : IsMostCommon g.view.nodeLabelIdCounter mcN)
    (hE : IsMostCommon g.view.edgeLabelIdCounter mcE) :
    g.reorderId rn rnl rel mcN mcE =
      (g.reorderIdWith (if rn then some ⟨g.idsByDegree⟩ else none)
        (if rnl then some ⟨labelOrder mcN⟩ else none) (if rel then some ⟨labelOrder mcE⟩ else none) >>=
        fun h => pure ⟨if rn then some ⟨g.idsByDegree⟩ else none, some h⟩) := by
  unfold reorderId
  rw [mapIf_nodup rn (idsByDegree_spec hg.toNWF).1, bind_ok, mapIf_nodup rnl (labelOrder_spec hN).1,
    bind_ok, mapIf_nodup rel (labelOrder_spec hE).1, bind_ok]

omit [DecidableEq NL] [DecidableEq EL] in
theorem mem_nodeCounter {g : GraphMap m k NL EL} (hg : g.NWF) (l : Id k) :
    l ∈ g.view.nodes.filterMap (fun p => p.2) ↔ ∃ n, g.labE n = some (some l) := by
  simp only [view, List.filterMap_map, List.mem_filterMap, Function.comp]
  constructor
  · rintro ⟨nd, h1, h2⟩
    exact ⟨nd.id, by simp [labE, (mem_values hg nd).1 h1, h2]⟩
  · rintro ⟨n, hl⟩
    obtain ⟨nd, h1, h2⟩ := Option.map_eq_some_iff.1 hl
    exact ⟨nd, (mem_values hg nd).2 (by rw [hg.ids n nd h1]; exact h1), h2⟩

omit [DecidableEq NL] [DecidableEq EL] in
theorem mem_edgeCounter {g : GraphMap m k NL EL} (hg : g.Inv)
    (hs : g.directed = false → ∀ s t, g.outE s t = g.outE t s) (l : Id k) :
    l ∈ g.view.edges.filterMap (fun e => e.label) ↔ ∃ s t, g.outE s t = some (some l) := by
  simp only [view, List.mem_filterMap]
  constructor
  · rintro ⟨e, h1, h2⟩
    have := ((mem_edges hg.toNWF e).1 h1).1
    rw [h2] at this
    exact ⟨_, _, this⟩
  · rintro ⟨s, t, hl⟩
    by_cases hd : g.directed = true ∨ s ≤ t
    · exact ⟨⟨s, t, some l⟩, (mem_edges hg.toNWF _).2 ⟨hl, hd⟩, rfl⟩
    · rw [not_or, Bool.not_eq_true] at hd
      exact ⟨⟨t, s, some l⟩, (mem_edges hg.toNWF _).2 ⟨by rw [← hs hd.1]; exact hl,
        Or.inr (le_of_not_ge hd.2)⟩, rfl⟩

/-- `reorder_id` succeeds, and which `reorder_id_with` it is. -/
theorem reorderId_ok {g : GraphMap m k NL EL} (hg : Reachable g) (rn rnl rel : Bool)
    {mcN mcE : List (Id k × Nat)} (hN : IsMostCommon g.view.nodeLabelIdCounter mcN)
    (hE : IsMostCommon g.view.edgeLabelIdCounter mcE)
    (hnk : rnl = true → NodeIdsKnown g) (hek : rel = true → EdgeIdsKnown g ∧ EdgeIdsSymmetric g) :
    ∃ h, g.reorderIdWith (if rn then some ⟨g.idsByDegree⟩ else none)
        (if rnl then some ⟨labelOrder mcN⟩ else none) (if rel then some ⟨labelOrder mcE⟩ else none) =
          .ok h ∧
      g.reorderId rn rnl rel mcN mcE =
        .ok ⟨if rn then some ⟨g.idsByDegree⟩ else none, some h⟩ := by
  have hi := hg.inv
  have hc : Covers g (if rn then some ⟨g.idsByDegree⟩ else none)
      (if rnl then some ⟨labelOrder mcN⟩ else none) (if rel then some ⟨labelOrder mcE⟩ else none) := by
    refine ⟨?_, ?_, ?_, ?_, ?_⟩
    · intro s e n hn
      cases rn with
      | false => cases e
      | true => cases e; exact ((idsByDegree_spec hi.toNWF).2.1 n).2 hn
    · intro s e n l hl
      cases rnl with
      | false => cases e
      | true =>
        cases e
        exact ((labelOrder_spec hN).2.1 l).2 ((mem_nodeCounter hi.toNWF l).2 ⟨n, hl⟩)
    · intro s e a b l hl
      cases rel with
      | false => cases e
      | true =>
        cases e
        exact ((labelOrder_spec hE).2.1 l).2 ((mem_edgeCounter hi
          ((edgeIdsSymmetric_iff hi).1 (hek rfl).2) l).2 ⟨a, b, hl⟩)
    · intro s e
      cases rnl with
      | false => cases e
      | true =>
        cases e
        refine ⟨(labelOrder_spec hN).1, fun i hm => ?_⟩
        obtain ⟨n, hl⟩ := (mem_nodeCounter hi.toNWF i).1 (((labelOrder_spec hN).2.1 i).1 hm)
        exact (nodeIdsKnown_iff g).1 (hnk rfl) n i hl
    · intro s e
      cases rel with
      | false => cases e
      | true =>
        cases e
        refine ⟨(labelOrder_spec hE).1, fun i hm => ?_⟩
        obtain ⟨a, b, hl⟩ := (mem_edgeCounter hi ((edgeIdsSymmetric_iff hi).1 (hek rfl).2) i).1
          (((labelOrder_spec hE).2.1 i).1 hm)
        exact (edgeIdsKnown_iff g).1 (hek rfl).1 a b i hl
  have hid : ∀ s : SetMap (Id m), (if rn then some ⟨g.idsByDegree⟩ else none) = some s →
      s.labels.Nodup := by
    intro s e
    cases rn with
    | false => cases e
    | true => cases e; exact (idsByDegree_spec hi.toNWF).1
  obtain ⟨h, hh⟩ := (reorderIdWith_total hi).2 hc
  exact ⟨h, hh, by rw [reorderId_unfold hi rn rnl rel hN hE, hh]; rfl⟩

omit [DecidableEq NL] [DecidableEq EL] in
theorem ids_nodup {g : GraphMap m k NL EL} (hg : g.Inv) (rn : Bool) :
    ∀ s : SetMap (Id m), (if rn then some ⟨g.idsByDegree⟩ else none) = some s → s.labels.Nodup := by
  intro s e
  cases rn with
  | false => cases e
  | true => cases e; exact (idsByDegree_spec hg.toNWF).1

omit [DecidableEq NL] [DecidableEq EL] in
theorem ids_len {g : GraphMap m k NL EL} (hg : g.Inv) (rn : Bool) (s : SetMap (Id m))
    (e : (if rn then some ⟨g.idsByDegree⟩ else none) = some s) : s.len ≤ m + 1 :=
  SetMap.len_le (ids_nodup hg rn s e)

/-- **C29.** `reorder_id` returns a graph isomorphic to the input through `find_new_node_id`, with every
node and edge keeping its label, for every choice of flags and every way of breaking ties. Label ids
must be label indices, and undirected edges must carry one label id, where label ids are reordered. -/
theorem c29_reorder_isomorphism {g : GraphMap m k NL EL} (hg : Reachable g) (rn rnl rel : Bool)
    {mcN mcE : List (Id k × Nat)} (hN : IsMostCommon g.view.nodeLabelIdCounter mcN)
    (hE : IsMostCommon g.view.edgeLabelIdCounter mcE)
    (hnk : rnl = true → NodeIdsKnown g) (hek : rel = true → EdgeIdsKnown g ∧ EdgeIdsSymmetric g) :
    ∃ r h, g.reorderId rn rnl rel mcN mcE = .ok r ∧ r.graph = some h ∧ Reachable h ∧
      h.isDirected = g.isDirected ∧ h.nodeCount = g.nodeCount ∧ h.edgeCount = g.edgeCount ∧
      ∃ f, Carries f g h ∧ ∀ n, g.hasNode n = true → r.findNewNodeId n = .ok (f n) := by
  obtain ⟨h, hh, hr⟩ := reorderId_ok hg rn rnl rel hN hE hnk hek
  have hid := ids_len hg.inv rn
  obtain ⟨_, H, _, _, hc⟩ := reorderIdWith_all hg.inv hid hh
  refine ⟨_, h, hr, rfl, .reorder _ _ _ hg hid hh, H.dir, hc, H.cnt,
    ren (if rn then some ⟨g.idsByDegree⟩ else none), ⟨H.bijOn hid,
      fun n hn => getNodeLabel_ren hg.inv hid hh hn, fun s t hs ht =>
      ⟨H.hasEdge_ren hid hs ht, getEdgeLabel_ren hg.inv hid hh hs ht⟩⟩, ?_⟩
  intro n hn
  have := H.ren_ok hn
  rw [← this]
  cases rn <;> rfl

/-- **C29.** After any history of calls that name labels, all flags are allowed. -/
theorem c29_reorder_history {d : Bool} {nl : SetMap NL} {el : SetMap EL} (hn : nl.labels.Nodup)
    (he : el.labels.Nodup) {ops : List (Op m k NL EL)} {g : GraphMap m k NL EL}
    (hr : Run (withLabelMap d nl el) ops g) (hl : ∀ op ∈ ops, labelOnly op = true)
    (hc1 : g.nodeLabels.len ≤ k + 1) (hc2 : g.edgeLabels.len ≤ k + 1) (rn rnl rel : Bool)
    {mcN mcE : List (Id k × Nat)} (hN : IsMostCommon g.view.nodeLabelIdCounter mcN)
    (hE : IsMostCommon g.view.edgeLabelIdCounter mcE) :
    ∃ r h, g.reorderId rn rnl rel mcN mcE = .ok r ∧ r.graph = some h ∧ Reachable h ∧
      h.isDirected = g.isDirected ∧ h.nodeCount = g.nodeCount ∧ h.edgeCount = g.edgeCount ∧
      ∃ f, Carries f g h ∧ ∀ n, g.hasNode n = true → r.findNewNodeId n = .ok (f n) := by
  obtain ⟨hdec, hv⟩ := run_decode hn he hr hl hc1 hc2
  have hd := (run_shape hn he hr).1
  refine c29_reorder_isomorphism (hr.reachable hn he) rn rnl rel hN hE
    (fun _ => (nodeIdsKnown_iff g).2 hv.node) (fun _ => ⟨(edgeIdsKnown_iff g).2 hv.edge, ?_⟩)
  intro hdd s t e e' h1 h2
  have hdd : g.directed = false := hdd
  rw [hd] at hdd
  subst hdd
  rw [c16_edge_label_ids hn he hr hl hc1 hc2 h1 h2, getEdgeLabel_eq, getEdgeLabel_eq, hdec,
    spec_symmetric]

/-! ### C30 -/

/-- **C30.** With the node flag the new ids are `0 .. n-1`, and the two lookups of the result are
inverse to each other; an unknown node is refused. -/
theorem c30_reorder_ids {g : GraphMap m k NL EL} (hg : Reachable g) (rnl rel : Bool)
    {mcN mcE : List (Id k × Nat)} (hN : IsMostCommon g.view.nodeLabelIdCounter mcN)
    (hE : IsMostCommon g.view.edgeLabelIdCounter mcE) {r h}
    (hr : g.reorderId true rnl rel mcN mcE = .ok r) (hh : r.graph = some h) :
    (∀ i, h.hasNode i = true ↔ i.val < g.nodeCount) ∧
    (∀ n, g.hasNode n = true → ∃ i, r.findNewNodeId n = .ok i ∧ r.getOriginalNodeId i = .ok n) ∧
    (∀ i, h.hasNode i = true → ∃ n, g.hasNode n = true ∧ r.getOriginalNodeId i = .ok n ∧
      r.findNewNodeId n = .ok i) ∧
    (∀ n, g.hasNode n = false → r.findNewNodeId n = .error .unwrapNone) ∧
    (∀ i, h.hasNode i = false → r.getOriginalNodeId i = .error .unwrapNone) := by
  rw [reorderId_unfold hg.inv true rnl rel hN hE] at hr
  obtain ⟨h', hw, hr⟩ := bind_eq_ok hr
  cases hr
  obtain rfl : h' = h := Option.some.inj hh
  have hid := ids_len hg.inv true
  obtain ⟨_, H, _, _, hc⟩ := reorderIdWith_all hg.inv hid hw
  obtain ⟨i1, i2, i3, _⟩ := idsByDegree_spec hg.inv.toNWF
  have hnew : ∀ n i, newId (some ⟨g.idsByDegree⟩) n = .ok i ↔ g.idsByDegree[i.val]? = some n :=
    fun n i => newId_some (s := ⟨g.idsByDegree⟩) i1 n i
  have hlt : ∀ i : Id m, h'.hasNode i = true ↔ i.val < g.nodeCount := by
    intro i
    rw [H.hasNode, ← i3]
    simp only [if_true, hnew]
    constructor
    · rintro ⟨n, _, e⟩; exact (List.getElem?_eq_some_iff.1 e).1
    · intro hi
      exact ⟨g.idsByDegree[i.val], (i2 _).1 (List.getElem_mem hi), List.getElem?_eq_getElem hi⟩
  have hfind : ∀ n, ReorderResult.findNewNodeId
      (⟨some ⟨g.idsByDegree⟩, some h'⟩ : ReorderResult m k NL EL) n = newId (some ⟨g.idsByDegree⟩) n :=
    fun n => rfl
  have hget : ∀ i : Id m, ReorderResult.getOriginalNodeId
      (⟨some ⟨g.idsByDegree⟩, some h'⟩ : ReorderResult m k NL EL) i =
        unwrap (g.idsByDegree[i.val]?) := fun i => rfl
  simp only [if_true, hfind, hget]
  refine ⟨hlt, ?_, ?_, ?_, ?_⟩
  · intro n hn
    obtain ⟨i, hi⟩ := (newId_total (s := ⟨g.idsByDegree⟩) n).2 ((i2 n).2 hn)
    exact ⟨i, hi, by rw [(hnew n i).1 hi]; rfl⟩
  · intro i hi
    have hi := (hlt i).1 hi
    rw [← i3] at hi
    refine ⟨g.idsByDegree[i.val], (i2 _).1 (List.getElem_mem hi), ?_, ?_⟩
    · rw [List.getElem?_eq_getElem hi]; rfl
    · rw [hnew, List.getElem?_eq_getElem hi]
  · intro n hn
    have : n ∉ g.idsByDegree := fun hm => by rw [(i2 n).1 hm] at hn; cases hn
    unfold newId SetMap.findIndex
    simp only [List.idxOf?_eq_none_iff.2 this]
    rfl
  · intro i hi
    have : ¬ i.val < g.nodeCount := fun hlt' => by rw [(hlt i).2 hlt'] at hi; cases hi
    rw [← i3] at this
    rw [List.getElem?_eq_none (by omega)]; rfl

/-- **C30.** With the node flag the new ids are ordered by degree plus in-degree. -/
theorem c30_reorder_sorted {g : GraphMap m k NL EL} (hg : Reachable g) (rnl rel : Bool)
    {mcN mcE : List (Id k × Nat)} (hN : IsMostCommon g.view.nodeLabelIdCounter mcN)
    (hE : IsMostCommon g.view.edgeLabelIdCounter mcE) {r h}
    (hr : g.reorderId true rnl rel mcN mcE = .ok r) (hh : r.graph = some h)
    {i j : Id m} (hij : i ≤ j) {di ii dj ij : Nat} (h1 : h.degree i = .ok di)
    (h2 : h.inDegree i = .ok ii) (h3 : h.degree j = .ok dj) (h4 : h.inDegree j = .ok ij) :
    di + ii ≤ dj + ij := by
  rw [reorderId_unfold hg.inv true rnl rel hN hE] at hr
  obtain ⟨h', hw, hr⟩ := bind_eq_ok hr
  cases hr
  obtain rfl : h' = h := Option.some.inj hh
  have hid := ids_len hg.inv true
  obtain ⟨hi', H, _, _, hc⟩ := reorderIdWith_all hg.inv hid hw
  obtain ⟨i1, i2, i3, i4⟩ := idsByDegree_spec hg.inv.toNWF
  have key : ∀ x dx ix, h'.degree x = .ok dx → h'.inDegree x = .ok ix →
      ∃ n nd, g.idsByDegree[x.val]? = some n ∧ g.getNode n = some nd ∧
        dx + ix = nd.degree + nd.inDegree := by
    intro x dx ix e1 e2
    unfold GraphMap.degree at e1
    unfold GraphMap.inDegree at e2
    cases hx : h'.getNode x with
    | none => rw [hx] at e1; cases e1
    | some nd' =>
      rw [hx] at e1 e2
      cases e1; cases e2
      obtain ⟨n, h5, h6⟩ := (H.hasNode x).1 ((hasNode_iff _ _).2 ⟨nd', hx⟩)
      obtain ⟨nd, hnd⟩ := (hasNode_iff _ _).1 h5
      rw [← newId_ren h6] at hx
      obtain ⟨d1, d2⟩ := H.degree_ren hg.inv hi' hid hnd hx
      refine ⟨n, nd, ?_, hnd, by rw [d1, d2]⟩
      exact (newId_some (s := ⟨g.idsByDegree⟩) i1 n x).1 h6
  obtain ⟨a, na, a1, a2, a3⟩ := key i di ii h1 h2
  obtain ⟨b, nb, b1, b2, b3⟩ := key j dj ij h3 h4
  rw [a3, b3]
  obtain ⟨la, ea⟩ := List.getElem?_eq_some_iff.1 a1
  obtain ⟨lb, eb⟩ := List.getElem?_eq_some_iff.1 b1
  rcases Nat.lt_or_ge i.val j.val with hlt | hge
  · have := (List.pairwise_iff_getElem.1 i4) i.val j.val la lb hlt na nb
    rw [ea, eb] at this
    exact this a2 b2
  · have : i = j := le_antisymm hij (Fin.le_def.2 hge)
    subst this
    rw [a1] at b1
    cases b1
    rw [a2] at b2
    cases b2; exact le_refl _

/-- How many nodes carry label id `l`. -/
def nodeFreq (g : GraphMap m k NL EL) (l : Id k) : Nat :=
  (g.nodes.filter (fun nd => decide (nd.label = some l))).length

/-- How many edges carry label id `l`. -/
def edgeFreq (g : GraphMap m k NL EL) (l : Id k) : Nat :=
  (g.edges.filter (fun e => decide (e.label = some l))).length

theorem newLabel_some_iff {s : SetMap (Id k)} (hs : s.labels.Nodup) {j i : Id k}
    (hj : s.getItem j.val = some i) (x : Option (Id k)) :
    newLabel (some s) x = .ok (some j) ↔ x = some i := by
  cases x with
  | none => simp [newLabel, pure_ok]
  | some y =>
    constructor
    · intro h
      obtain ⟨z, h1, h2⟩ := bind_eq_ok h
      cases h2
      rw [newId_some hs, hj] at h1
      exact h1.symm
    · intro h
      cases h
      simp only [newLabel, (newId_some hs i j).2 hj, bind_ok, pure_ok]

/-- **C30.** With the node-label flag every label id of the new map is in use, and ids are ordered by
how many nodes carry them. -/
theorem c30_reorder_node_labels {g : GraphMap m k NL EL} (hg : Reachable g) (rn rel : Bool)
    {mcN mcE : List (Id k × Nat)} (hN : IsMostCommon g.view.nodeLabelIdCounter mcN)
    (hE : IsMostCommon g.view.edgeLabelIdCounter mcE) {r h}
    (hr : g.reorderId rn true rel mcN mcE = .ok r) (hh : r.graph = some h) :
    NodeIdsKnown h ∧ (∀ i : Id k, i.val < h.nodeLabels.len → 0 < nodeFreq h i) ∧
    ∀ i j : Id k, i ≤ j → j.val < h.nodeLabels.len → nodeFreq h i ≤ nodeFreq h j := by
  rw [reorderId_unfold hg.inv rn true rel hN hE] at hr
  obtain ⟨h', hw, hr⟩ := bind_eq_ok hr
  cases hr
  obtain rfl : h' = h := Option.some.inj hh
  have hid := ids_len hg.inv rn
  obtain ⟨hi', H, h3, _, _⟩ := reorderIdWith_all hg.inv hid hw
  obtain ⟨o1, o2, o3⟩ := labelOrder_spec hN
  obtain ⟨_, l2, l3⟩ := reorderLabelMap_getItem hg.inv.nlNodup h3
  have hlen : h'.nodeLabels.len = (labelOrder mcN).length := l2
  have hfreq : ∀ i : Id k, (hi : i.val < (labelOrder mcN).length) →
      nodeFreq h' i = (g.view.nodes.filterMap (fun p => p.2)).count (labelOrder mcN)[i.val] := by
    intro i hi
    have hj : (⟨labelOrder mcN⟩ : SetMap (Id k)).getItem i.val = some (labelOrder mcN)[i.val] :=
      List.getElem?_eq_getElem hi
    have := H.node_freq hid (newLabel_some_iff o1 hj)
    unfold nodeFreq
    rw [nodes_filter_card hi'.toNWF, ← this, ← nodes_filter_card hg.inv.toNWF, count_filterMap]
    simp only [view, List.filter_map, List.length_map]
    rfl
  refine ⟨?_, ?_, ?_⟩
  · rw [nodeIdsKnown_iff]
    intro n l hl
    obtain ⟨n0, x, e1, e2, e3⟩ := (H.node _ _).1 hl
    cases x with
    | none => cases e3
    | some y =>
      obtain ⟨z, f1, f2⟩ := bind_eq_ok e3
      cases f2
      rw [hlen]
      exact (List.getElem?_eq_some_iff.1 ((newId_some (s := ⟨labelOrder mcN⟩) o1 y l).1 f1)).1
  · intro i hi
    rw [hlen] at hi
    rw [hfreq i hi, List.count_pos_iff]
    exact (o2 _).1 (List.getElem_mem hi)
  · intro i j hij hj
    rw [hlen] at hj
    have hi : i.val < (labelOrder mcN).length := lt_of_le_of_lt (Fin.le_def.1 hij) hj
    rw [hfreq i hi, hfreq j hj]
    rcases Nat.lt_or_ge i.val j.val with hlt | hge
    · exact (List.pairwise_iff_getElem.1 o3) _ _ hi hj hlt
    · have : i = j := le_antisymm hij (Fin.le_def.2 hge)
      subst this; exact le_refl _

/-- **C30.** The same for edge labels. -/
theorem c30_reorder_edge_labels {g : GraphMap m k NL EL} (hg : Reachable g) (rn rnl : Bool)
    {mcN mcE : List (Id k × Nat)} (hN : IsMostCommon g.view.nodeLabelIdCounter mcN)
    (hE : IsMostCommon g.view.edgeLabelIdCounter mcE) (hs : EdgeIdsSymmetric g) {r h}
    (hr : g.reorderId rn rnl true mcN mcE = .ok r) (hh : r.graph = some h) :
    EdgeIdsKnown h ∧ (∀ i : Id k, i.val < h.edgeLabels.len → 0 < edgeFreq h i) ∧
    ∀ i j : Id k, i ≤ j → j.val < h.edgeLabels.len → edgeFreq h i ≤ edgeFreq h j := by
  rw [reorderId_unfold hg.inv rn rnl true hN hE] at hr
  obtain ⟨h', hw, hr⟩ := bind_eq_ok hr
  cases hr
  obtain rfl : h' = h := Option.some.inj hh
  have hid := ids_len hg.inv rn
  obtain ⟨hi', H, _, h3, _⟩ := reorderIdWith_all hg.inv hid hw
  obtain ⟨o1, o2, o3⟩ := labelOrder_spec hE
  obtain ⟨_, l2, l3⟩ := reorderLabelMap_getItem hg.inv.elNodup h3
  have hlen : h'.edgeLabels.len = (labelOrder mcE).length := l2
  have hsym := (edgeIdsSymmetric_iff hg.inv).1 hs
  have hfreq : ∀ i : Id k, (hi : i.val < (labelOrder mcE).length) →
      edgeFreq h' i = (g.view.edges.filterMap (fun e => e.label)).count (labelOrder mcE)[i.val] := by
    intro i hi
    have hj : (⟨labelOrder mcE⟩ : SetMap (Id k)).getItem i.val = some (labelOrder mcE)[i.val] :=
      List.getElem?_eq_getElem hi
    have := H.edge_freq hg.inv hid hsym (newLabel_some_iff o1 hj)
    unfold edgeFreq
    rw [edges_filter_card hi'.toNWF, ← this, ← edges_filter_card hg.inv.toNWF, count_filterMap]
    rfl
  refine ⟨?_, ?_, ?_⟩
  · rw [edgeIdsKnown_iff]
    intro s t l hl
    obtain ⟨s0, t0, x, e1, e2, e3, e4⟩ := (H.arc _ _ _).1 hl
    cases x with
    | none => cases e4
    | some y =>
      obtain ⟨z, f1, f2⟩ := bind_eq_ok e4
      cases f2
      rw [hlen]
      exact (List.getElem?_eq_some_iff.1 ((newId_some (s := ⟨labelOrder mcE⟩) o1 y l).1 f1)).1
  · intro i hi
    rw [hlen] at hi
    rw [hfreq i hi, List.count_pos_iff]
    exact (o2 _).1 (List.getElem_mem hi)
  · intro i j hij hj
    rw [hlen] at hj
    have hi : i.val < (labelOrder mcE).length := lt_of_le_of_lt (Fin.le_def.1 hij) hj
    rw [hfreq i hi, hfreq j hj]
    rcases Nat.lt_or_ge i.val j.val with hlt | hge
    · exact (List.pairwise_iff_getElem.1 o3) _ _ hi hj hlt
    · have : i = j := le_antisymm hij (Fin.le_def.2 hge)
      subst this; exact le_refl _

/-! ### Instances and witnesses -/

/-- A star around node 5 with labels: nodes 5, 7, 2, 9; the frequent label comes first in the map. -/
def starOps : List (Op 9 3 String String) :=
  [.addNode 5 (some "hub"), .addNode 7 (some "leaf"), .addNode 2 (some "leaf"),
   .addEdge 5 7 (some "x"), .addEdge 5 2 (some "y"), .addEdge 5 9 (some "x")]

/-- The graph these calls make. -/
def star : GraphMap 9 3 String String :=
  ⟨false, [(5, ⟨5, some 0, [(2, some 1), (7, some 0), (9, some 0)], []⟩),
    (7, ⟨7, some 1, [(5, some 0)], []⟩), (2, ⟨2, some 1, [(5, some 1)], []⟩),
    (9, ⟨9, none, [(5, some 0)], []⟩)], 3, ⟨["hub", "leaf"]⟩, ⟨["x", "y"]⟩, some 9⟩

theorem star_run : Run (withLabelMap false SetMap.empty SetMap.empty) starOps star :=
  exec_run (by decide)

/-- The hypotheses of the theorems above are met, and what the call returns. -/
example : Reachable star ∧ (∀ op ∈ starOps, labelOnly op = true) ∧ star.nodeLabels.len ≤ 4 ∧
    star.edgeLabels.len ≤ 4 ∧
    IsMostCommon star.view.nodeLabelIdCounter [(1, 2), (0, 1)] ∧
    IsMostCommon star.view.edgeLabelIdCounter [(0, 2), (1, 1)] :=
  ⟨star_run.reachable List.nodup_nil List.nodup_nil, by decide, by decide, by decide,
    ⟨by decide, by decide⟩, ⟨by decide, by decide⟩⟩

example : star.reorderId true true true [(1, 2), (0, 1)] [(0, 2), (1, 1)] =
    .ok ⟨some ⟨[7, 2, 9, 5]⟩, some ⟨false,
      [(3, ⟨3, some 0, [(0, some 1), (1, some 0), (2, some 1)], []⟩),
       (0, ⟨0, some 1, [(3, some 1)], []⟩), (1, ⟨1, some 1, [(3, some 0)], []⟩),
       (2, ⟨2, none, [(3, some 1)], []⟩)], 3, ⟨["hub", "leaf"]⟩, ⟨["y", "x"]⟩, some 3⟩⟩ := by
  decide

/-- Where the two directions of an undirected edge carry different label ids (a raw write through
`get_edge_mut`), edge label reordering panics: the counter saw only one of them. -/
theorem c65_asymmetric_panics : ∃ g : GraphMap 9 3 String String, Reachable g ∧
    g.isDirected = false ∧ EdgeIdsKnown g ∧
    IsMostCommon g.view.edgeLabelIdCounter [(0, 1)] ∧ IsMostCommon g.view.nodeLabelIdCounter [] ∧
    g.reorderId false false true [] [(0, 1)] = .error .unwrapNone := by
  refine ⟨⟨false, [(1, ⟨1, none, [(2, some 0)], []⟩), (2, ⟨2, none, [(1, some 1)], []⟩)], 1, ⟨[]⟩,
    ⟨["x", "y"]⟩, some 2⟩, (exec_run (ops := [.addEdge 1 2 (some "x"), .addEdgeLabel "y",
    .setEdgeLabelId 2 1 (some 1)]) (g0 := withLabelMap false SetMap.empty SetMap.empty)
    (by decide)).reachable List.nodup_nil List.nodup_nil, rfl, ?_, ⟨by decide, by decide⟩,
    ⟨by decide, by decide⟩, by decide⟩
  rw [edgeIdsKnown_iff]
  decide

/-- A label id without a label (a raw write) makes label reordering panic. -/
theorem c65_unknown_id_panics : ∃ g : GraphMap 9 3 String String, Reachable g ∧
    IsMostCommon g.view.nodeLabelIdCounter [(2, 1)] ∧ IsMostCommon g.view.edgeLabelIdCounter [] ∧
    g.reorderId false true false [(2, 1)] [] = .error .indexOutOfBounds :=
  ⟨⟨false, [(1, ⟨1, some 2, [], []⟩)], 0, ⟨["x"]⟩, ⟨[]⟩, some 1⟩,
    (exec_run (ops := [.addNode 1 (some "x"), .setNodeLabelId 1 (some 2)])
    (g0 := withLabelMap false SetMap.empty SetMap.empty) (by decide)).reachable
      List.nodup_nil List.nodup_nil, ⟨by decide, by decide⟩, ⟨by decide, by decide⟩, by decide⟩

/-- A map that lacks a node makes `reorder_id_with` panic; one with extra ids does not. -/
example : star.reorderIdWith (some ⟨[2]⟩) none none = .error .unwrapNone ∧
    ∃ h, star.reorderIdWith (some ⟨[1, 2, 9, 5, 7, 0]⟩) none none = .ok h ∧ h.hasEdge 1 3 = true ∧
      h.hasNode 0 = false ∧ h.getEdgeLabel 3 1 = .ok (some "y") :=
  ⟨by decide, _, rfl, by decide, by decide, by decide⟩

end Verif.Props
