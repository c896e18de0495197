import Verif.Props.Reorder
import Verif.Props.Static
import Verif.Props.Traversal

/-! C136: reordering the node ids first makes any graph fit the frozen form. -/

namespace Verif.Props

open GraphMap Spec Traversal

variable {m k : Nat} {NL EL : Type} [DecidableEq NL] [DecidableEq EL]

theorem newLabelMap_len {X : Type} [DecidableEq X] {map : Option (SetMap (Id k))} {old new : SetMap X}
    (hold : old.labels.Nodup) (h : newLabelMap map old = .ok new) : new.len ≤ old.len := by
  cases map with
  | none => cases h; exact le_refl _
  | some s =>
    have h : reorderLabelMap s old = .ok new := h
    obtain ⟨hs, hlt⟩ := (reorderLabelMap_spec hold).2.1 ⟨_, h⟩
    rw [(reorderLabelMap_getItem hold h).2.1]
    have h1 : (s.labels.map Fin.val).Nodup := hs.map Fin.val_injective
    have h2 : (s.labels.map Fin.val) ⊆ List.range old.len := by
      intro x hx
      obtain ⟨i, hi, rfl⟩ := List.mem_map.1 hx
      exact List.mem_range.2 (hlt i hi)
    simpa [SetMap.len] using (List.subperm_of_subset h1 h2).length_le

theorem edge_node {g : GraphMap m k NL EL} (hg : Reachable g) {s t : Id m} (h : g.hasEdge s t = true) :
    g.hasNode t = true := by
  rw [hasEdge_eq_outE] at h
  exact hg.inv.target s t h

theorem view_nbr {g : GraphMap m k NL EL} (hg : Reachable g) {n : Id m} (h : g.hasNode n = true) :
    ∃ l, g.neighbors n = .ok l ∧ l.Pairwise (· < ·) ∧ ∀ t, t ∈ l ↔ g.hasEdge n t = true := by
  have S := reachable_shows hg
  have hn : (g.abs.node n).isSome := by rw [← S.hasNode]; exact h
  obtain ⟨l, q1, q2, q3, -⟩ := S.neighbors n hn
  refine ⟨l, q1, q2, fun t => ?_⟩
  rw [q3]
  have := S.hasEdge n t hn
  have e : g.hasEdge n t = (g.abs.edge n t).isSome := Except.ok.inj this
  rw [e]

/-- **C136.** Any graph can be frozen after its node ids have been reordered, unless it has no node or a
node for every id. -/
theorem c136_freezes_iff {g : GraphMap m k NL EL} (hg : Reachable g) (rnl rel : Bool)
    {mcN mcE : List (Id k × Nat)} (hN : IsMostCommon g.view.nodeLabelIdCounter mcN)
    (hE : IsMostCommon g.view.edgeLabelIdCounter mcE)
    (hnk : rnl = true → NodeIdsKnown g) (hek : rel = true → EdgeIdsKnown g ∧ EdgeIdsSymmetric g) :
    ∃ r h, g.reorderId true rnl rel mcN mcE = .ok r ∧ r.graph = some h ∧
      ((∃ s, h.intoStatic = .ok s) ↔ g.nodeCount ≠ 0 ∧ g.nodeCount ≤ m) := by
  obtain ⟨r, h, h1, h2, h3, -, h5, -⟩ := c29_reorder_isomorphism hg true rnl rel hN hE hnk hek
  refine ⟨r, h, h1, h2, ?_⟩
  rw [c26_into_static_succeeds_iff h3, h5]
  refine and_congr_right fun _ => ?_
  have := (c30_reorder_ids hg rnl rel hN hE h1 h2).1 Id.maxValue
  have e : (Id.maxValue : Id m).val = m := rfl
  rw [e] at this
  rw [← Bool.not_eq_true, this]
  omega

/-- **C136.** Reordered and then frozen, a graph with at least one node and fewer nodes than ids has the
ids below the number of nodes, is isomorphic to the original through `find_new_node_id` with every label
kept, and answers neighbour queries like the original. The ids ascend by degree (in-degree added if
directed). -/
theorem c136_keeps_graph {g : GraphMap m k NL EL} (hg : Reachable g) (rnl rel : Bool)
    {mcN mcE : List (Id k × Nat)} (hN : IsMostCommon g.view.nodeLabelIdCounter mcN)
    (hE : IsMostCommon g.view.edgeLabelIdCounter mcE)
    (hnk : rnl = true → NodeIdsKnown g) (hek : rel = true → EdgeIdsKnown g ∧ EdgeIdsSymmetric g)
    (h0 : g.nodeCount ≠ 0) (hm : g.nodeCount ≤ m) (hnl : g.nodeLabels.len ≤ k)
    (hel : g.edgeLabels.len ≤ k) :
    ∃ r h s v f, g.reorderId true rnl rel mcN mcE = .ok r ∧ r.graph = some h ∧
      h.intoStatic = .ok s ∧ s.view = .ok v ∧
      (∀ n, g.hasNode n = true → r.findNewNodeId n = .ok (f n)) ∧
      v.directed = g.isDirected ∧ v.nodeCount = g.nodeCount ∧ v.edgeCount = g.edgeCount ∧
      (∀ i, v.hasNode i = true ↔ i.val < g.nodeCount) ∧
      Set.BijOn f {n | g.hasNode n = true} {i | i.val < g.nodeCount} ∧
      (∀ n, g.hasNode n = true → v.getNodeLabel (f n) = .ok (g.getNodeLabel n)) ∧
      (∀ a b, g.hasNode a = true → g.hasNode b = true →
        v.hasEdge (f a) (f b) = .ok (g.hasEdge a b) ∧
        v.getEdgeLabel (f a) (f b) = g.getEdgeLabel a b) ∧
      (∀ n, g.hasNode n = true → ∃ l l', g.neighbors n = .ok l ∧ v.neighbors (f n) = .ok l' ∧
        l'.Pairwise (· < ·) ∧ (l.map f).Perm l') ∧
      ∀ i j : Id m, i ≤ j → j.val < g.nodeCount → ∃ di dj, v.degree i = .ok di ∧ v.degree j = .ok dj ∧
        (g.isDirected = false → di ≤ dj) ∧
        (g.isDirected = true → ∃ ii ij, s.inDegree i = .ok ii ∧ s.inDegree j = .ok ij ∧
          di + ii ≤ dj + ij) := by
  obtain ⟨r, h, h1, h2, h3, h4, h5, h6, f, hf, hn⟩ :=
    c29_reorder_isomorphism hg true rnl rel hN hE hnk hek
  have hids := (c30_reorder_ids hg rnl rel hN hE h1 h2).1
  obtain ⟨h', hh', hr'⟩ := reorderId_ok hg true rnl rel hN hE hnk hek
  have eh : h' = h := by
    rw [h1] at hr'
    cases hr'
    exact Option.some.inj h2
  subst eh
  obtain ⟨-, -, l1, l2, -⟩ := reorderIdWith_all hg.inv (ids_len hg.inv true) hh'
  have k1 := newLabelMap_len hg.inv.nlNodup l1
  have k2 := newLabelMap_len hg.inv.elNodup l2
  obtain ⟨s, v, s1, s2, s3, s4, s5, s6, -, s8, s9, -, s11, s12, s13⟩ :=
    c24_into_static_keeps_graph h3 (by omega) (by rw [h5]; exact hids) (by omega) (by omega) (by omega)
  have hset : {n | h'.hasNode n = true} = {i : Id m | i.val < g.nodeCount} := by
    ext i; exact hids i
  have hfn : ∀ n, g.hasNode n = true → h'.hasNode (f n) = true := fun n hn => hf.1.1 hn
  refine ⟨r, h', s, v, f, h1, h2, s1, s2, hn, s3.trans h4, s4.trans h5, s5.trans h6,
    fun i => by rw [s6]; exact hids i, hset ▸ hf.1, fun n e => ?_, fun a b ea eb => ?_,
    fun n e => ?_, fun i j hij hj => ?_⟩
  · rw [s8, hf.2.1 n e]
  · rw [s9, s11, (hf.2.2 a b ea eb).1, (hf.2.2 a b ea eb).2]
    exact ⟨rfl, rfl⟩
  · rw [(s12 _ (hfn n e)).1]
    have hl := view_nbr hg e
    have hl' := view_nbr h3 (hfn n e)
    obtain ⟨l, q1, q2, q3⟩ := hl
    obtain ⟨l', p1, p2, p3⟩ := hl'
    refine ⟨l, l', q1, p1, p2, ?_⟩
    have hnode : ∀ t, t ∈ l → g.hasNode t = true := fun t ht =>
      edge_node hg ((q3 t).1 ht)
    refine (List.perm_ext_iff_of_nodup ?_ (p2.imp ne_of_lt)).2 fun x => ?_
    · exact List.Nodup.map_on (fun a ha b hb hab => hf.1.2.1 (hnode a ha) (hnode b hb) hab)
        (q2.imp ne_of_lt)
    · rw [p3, List.mem_map]
      constructor
      · rintro ⟨y, hy, rfl⟩
        rw [(hf.2.2 n y e (hnode y hy)).1]
        exact (q3 y).1 hy
      · intro hx
        obtain ⟨y, hy, e'⟩ := hf.1.2.2 (show x ∈ {n | h'.hasNode n = true} from edge_node h3 hx)
        subst e'
        refine ⟨y, (q3 y).2 ?_, rfl⟩
        rw [← (hf.2.2 n y e hy).1]
        exact hx
  · have hi : h'.hasNode i = true := (hids i).2 (lt_of_le_of_lt (Fin.le_def.1 hij) hj)
    have hj : h'.hasNode j = true := (hids j).2 hj
    obtain ⟨ni, ei⟩ := (hasNode_iff _ _).1 hi
    obtain ⟨nj, ej⟩ := (hasNode_iff _ _).1 hj
    have a1 : h'.degree i = .ok ni.degree := by unfold GraphMap.degree; rw [ei]; rfl
    have a2 : h'.inDegree i = .ok ni.inDegree := by unfold GraphMap.inDegree; rw [ei]; rfl
    have b1 : h'.degree j = .ok nj.degree := by unfold GraphMap.degree; rw [ej]; rfl
    have b2 : h'.inDegree j = .ok nj.inDegree := by unfold GraphMap.inDegree; rw [ej]; rfl
    have hle := c30_reorder_sorted hg rnl rel hN hE h1 h2 hij a1 a2 b1 b2
    refine ⟨_, _, (s12 i hi).2.trans a1, (s12 j hj).2.trans b1, fun hd => ?_, fun hd => ?_⟩
    · have hz : ni.inDegree = 0 := by
        unfold NodeMap.inDegree
        rw [List.length_eq_zero_iff, List.eq_nil_iff_forall_not_mem]
        intro x hx
        exact h3.inv.inNil (h4.trans hd) i x ⟨ni, ei, hx⟩
      have hz' : nj.inDegree = 0 := by
        unfold NodeMap.inDegree
        rw [List.length_eq_zero_iff, List.eq_nil_iff_forall_not_mem]
        intro x hx
        exact h3.inv.inNil (h4.trans hd) j x ⟨nj, ej, hx⟩
      omega
    · refine ⟨_, _, ((s13 (h4.trans hd)) i hi).2.trans a2, ((s13 (h4.trans hd)) j hj).2.trans b2, hle⟩

/-- **C136.** Searches of the frozen graph from any node come by every node of the original graph once,
the yielded ids being the new ids of the original nodes. Without reordering they miss nodes if there are
gaps (C115). -/
theorem c136_searches {g : GraphMap m k NL EL} (hg : Reachable g) (rnl rel : Bool)
    {mcN mcE : List (Id k × Nat)} (hN : IsMostCommon g.view.nodeLabelIdCounter mcN)
    (hE : IsMostCommon g.view.edgeLabelIdCounter mcE) {r h s v}
    (hr : g.reorderId true rnl rel mcN mcE = .ok r) (hh : r.graph = some h) (hs : h.intoStatic = .ok s)
    (hv : s.view = .ok v) (hnl : h.nodeLabels.len ≤ k) (hel : h.edgeLabels.len ≤ k)
    {n i : Id m} (hn : r.findNewNodeId n = .ok i) :
    (∃ st l st' l0, Traversal.new v (some i) = .ok st ∧ Yields (Bfs.next v) st l st' ∧
      l.mapM r.getOriginalNodeId = .ok l0 ∧ l0.head? = some n ∧ l0.Nodup ∧
      ∀ x, x ∈ l0 ↔ g.hasNode x = true) ∧
    ∃ st l st' l0, Traversal.new v (some i) = .ok st ∧ Yields (Dfs.next v) st l st' ∧
      l.mapM r.getOriginalNodeId = .ok l0 ∧ l0.head? = some n ∧ l0.Nodup ∧
      ∀ x, x ∈ l0 ↔ g.hasNode x = true := by
  obtain ⟨i1, i2, i3, i4, i5⟩ := c30_reorder_ids hg rnl rel hN hE hr hh
  obtain ⟨h', hw, e⟩ := bind_eq_ok ((reorderId_unfold hg.inv true rnl rel hN hE).symm.trans hr)
  cases e
  cases hh
  have hid := ids_len hg.inv true
  obtain ⟨-, -, -, -, hc⟩ := reorderIdWith_all hg.inv hid hw
  have hh : Reachable h := .reorder _ _ _ hg hid hw
  obtain ⟨c0, c1⟩ := (c26_into_static_succeeds_iff hh).1 ⟨s, hs⟩
  have hm : g.nodeCount ≤ m := by
    by_contra hgt
    have := (i1 Id.maxValue).2 (by show m < _; omega)
    rw [c1] at this
    cases this
  obtain ⟨s', v', e1, e2, S⟩ := c24_shows hh c0 (by rw [hc]; exact i1) (by omega) hnl hel
  rw [hs] at e1
  cases e1
  rw [hv] at e2
  cases e2
  have hnode : ∀ x, (h.abs.node x).isSome = h.hasNode x := fun x => by
    rw [← (reachable_shows hh).hasNode]; rfl
  generalize hrr : (⟨if true = true then some ⟨g.idsByDegree⟩ else none, some h⟩ :
    ReorderResult m k NL EL) = r at *
  have hgn : g.hasNode n = true := by
    by_contra hx
    rw [i4 n (by simpa using hx)] at hn
    cases hn
  have hback : r.getOriginalNodeId i = .ok n := by
    obtain ⟨i', a, b⟩ := i2 n hgn
    rw [hn] at a
    cases a
    exact b
  have hin : h.hasNode i = true := by
    by_contra hx
    rw [i5 i (by simpa using hx)] at hback
    cases hback
  have main : ∀ l : List (Id m), l.head? = some i → l.Nodup → (∀ x, x ∈ l ↔ (h.abs.node x).isSome) →
      ∃ l0, l.mapM r.getOriginalNodeId = .ok l0 ∧ l0.head? = some n ∧ l0.Nodup ∧
        ∀ x, x ∈ l0 ↔ g.hasNode x = true := by
    intro l hl hnd hmem
    have hex : ∀ x : Id m, ∃ y, h.hasNode x = true → g.hasNode y = true ∧
        r.getOriginalNodeId x = .ok y ∧ r.findNewNodeId y = .ok x := by
      intro x
      by_cases hx : h.hasNode x = true
      · obtain ⟨y, hy⟩ := i3 x hx
        exact ⟨y, fun _ => hy⟩
      · exact ⟨x, fun hx' => absurd hx' hx⟩
    choose o ho using hex
    have hmem' : ∀ x ∈ l, h.hasNode x = true := fun x hx => by
      rw [← hnode]; exact (hmem x).1 hx
    have hmap : ∀ l' : List (Id m), (∀ x ∈ l', h.hasNode x = true) →
        l'.mapM r.getOriginalNodeId = .ok (l'.map o) := by
      intro l'
      induction l' with
      | nil => intro _; rfl
      | cons a l' ih =>
        intro hl'
        rw [List.mapM_cons, (ho a (hl' a (by simp))).2.1, ih (fun x hx => hl' x (by simp [hx]))]
        rfl
    refine ⟨l.map o, hmap l hmem', ?_, ?_, fun x => ?_⟩
    · rw [List.head?_map, hl]
      have := (ho i hin).2.1
      rw [hback] at this
      exact congrArg some (Except.ok.inj this).symm
    · refine List.Nodup.map_on (fun a ha b hb hab => ?_) hnd
      have h1 := (ho a (hmem' a ha)).2.2
      have h2 := (ho b (hmem' b hb)).2.2
      rw [hab, h2] at h1
      exact (Except.ok.inj h1).symm
    · rw [List.mem_map]
      constructor
      · rintro ⟨y, hy, rfl⟩
        exact (ho y (hmem' y hy)).1
      · intro hx
        obtain ⟨j, a, b⟩ := i2 x hx
        have hj : h.hasNode j = true := by
          by_contra hx
          rw [i5 j (by simpa using hx)] at b
          cases b
        refine ⟨j, (hmem j).2 (by rw [hnode]; exact hj), ?_⟩
        have := (ho j hj).2.1
        rw [b] at this
        exact (Except.ok.inj this).symm
  have hb : BeginsAt v h.abs (some i) i := ⟨by rw [hnode]; exact hin, .inl rfl⟩
  constructor
  · obtain ⟨st, l, st', b1, b2, -, b4, b5, b6⟩ := c31_bfs_visits_once S hb
    obtain ⟨l0, d⟩ := main l b4 b5 b6
    exact ⟨st, l, st', l0, b1, b2, d⟩
  · obtain ⟨st, l, st', b1, b2, -, b4, b5, b6, -⟩ := c33_dfs_visits_once S hb
    obtain ⟨l0, d⟩ := main l b4 b5 b6
    exact ⟨st, l, st', l0, b1, b2, d⟩

/-- The hypotheses are met by a graph with a node at the largest id and gaps, which cannot be frozen as it
is. -/
example : Reachable star ∧ IsMostCommon star.view.nodeLabelIdCounter [(1, 2), (0, 1)] ∧
    IsMostCommon star.view.edgeLabelIdCounter [(0, 2), (1, 1)] ∧ star.nodeCount ≠ 0 ∧
    star.nodeCount ≤ 9 ∧ star.nodeLabels.len ≤ 3 ∧ star.edgeLabels.len ≤ 3 ∧
    (¬ ∃ s, star.intoStatic = .ok s) ∧
    ∃ r h s v, star.reorderId true false false [(1, 2), (0, 1)] [(0, 2), (1, 1)] = .ok r ∧
      r.graph = some h ∧ h.intoStatic = .ok s ∧ s.view = .ok v ∧ r.findNewNodeId 5 = .ok 3 ∧
      h.nodeLabels.len ≤ 3 ∧ h.edgeLabels.len ≤ 3 ∧ v.neighbors 3 = .ok [0, 1, 2] :=
  ⟨star_run.reachable List.nodup_nil List.nodup_nil, ⟨by decide, by decide⟩, ⟨by decide, by decide⟩,
    by decide, by decide, by decide, by decide, by
      rw [c26_into_static_succeeds_iff (star_run.reachable List.nodup_nil List.nodup_nil)]
      decide, ⟨_, _, _, _, rfl, rfl, rfl, rfl, rfl, by decide, by decide, rfl⟩⟩

end Verif.Props
