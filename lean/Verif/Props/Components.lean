import Verif.Proof.Components
import Verif.Props.ConnComp
import Verif.Props.Union
import Verif.Props.ConnSubgraph
import Verif.Props.Lists

/-! C138: components of joined graphs. C139: searches of undirected graphs and components. -/

namespace Verif.Props

open Verif.Spec Traversal GraphMap

variable {m k : Nat} {NL EL : Type}

/-- **C138** `run_detection` on top of what was processed before: it never panics, and connectivity is then
that of the edges processed before together with those of the graph. -/
theorem c138_run_detection {E : List (Id m × Id m)} {c : ConnComp m} (H : History E c) {g : GView m k NL EL}
    {A : AGraph (Id m) NL EL} (S : Shows g A) :
    ∃ c', c.runDetection g = .ok c' ∧ History (E ++ g.edgeIndices) c' ∧
      ∀ a b, ∃ c'' r, c'.isConnected a b = .ok (c'', r) ∧
        (r = true ↔ (Occurs E a ∨ A.Touched a) ∧ (Occurs E b ∨ A.Touched b) ∧
          Relation.EqvGen (fun s t => (s, t) ∈ E ∨ (A.edge s t).isSome) a b) := by
  obtain ⟨c', h1, h2⟩ := ConnComp.fold_history g.edges E c H
  rw [S.edgesEnds] at h2
  refine ⟨c', h1, h2, fun a b => ?_⟩
  obtain ⟨c'', r, h3, h4⟩ := c35_is_connected h2 a b
  refine ⟨c'', r, h3, ?_⟩
  have ho : ∀ n, Occurs (E ++ g.edgeIndices) n ↔ Occurs E n ∨ A.Touched n := by
    intro n
    rw [← ConnComp.occurs_graph S]
    unfold Occurs
    simp only [List.mem_append, or_and_right, exists_or]
  have hl : Linked (E ++ g.edgeIndices) a b ↔
      Relation.EqvGen (fun s t => (s, t) ∈ E ∨ (A.edge s t).isSome) a b := by
    constructor
    · intro h
      refine Relation.EqvGen.mono (fun a b hab => ?_) _ _ h
      rcases List.mem_append.1 hab with e | e
      · exact .inl e
      · exact .inr ((S.memEdges a b).1 e).1
    · clear h3 h4
      intro h
      induction h with
      | rel a b hab =>
        rcases hab with e | e
        · exact ConnComp.linked_edge (List.mem_append_left _ e)
        · rcases ConnComp.edge_listed S e with e | e
          · exact ConnComp.linked_edge (List.mem_append_right _ e)
          · exact ConnComp.linked_symm (ConnComp.linked_edge (List.mem_append_right _ e))
      | refl a => exact ConnComp.linked_refl _ _
      | symm a b _ ih => exact ConnComp.linked_symm ih
      | trans a b c _ _ ih1 ih2 => exact ConnComp.linked_trans ih1 ih2
  rw [h4, ho, ho, hl]

variable [DecidableEq NL] [DecidableEq EL]

/-- **C138** Detecting in one graph and then in another gives the answers that detecting in their union
gives, whatever the directedness of the two and however their labels collide. -/
theorem c138_union {g0 g1 : GView m k NL EL} {A B : AGraph (Id m) NL EL} (S0 : Shows g0 A) (S1 : Shows g1 B) :
    ∃ c c' u d, ConnComp.new g0 = .ok c ∧ c.runDetection g1 = .ok c' ∧
      graphUnion g0 g1 = .ok u ∧ ConnComp.new u.view = .ok d ∧
      (∀ a b, ∃ c1 d1 r, c'.isConnected a b = .ok (c1, r) ∧ d.isConnected a b = .ok (d1, r)) ∧
      c'.getCount = d.getCount ∧
      ∀ n, ∃ c1 d1 l l', c'.getConnectedNodes n = .ok (c1, l) ∧ d.getConnectedNodes n = .ok (d1, l') ∧
        Option.Rel List.Perm l l' := by
  obtain ⟨c, h1, H1⟩ := ConnComp.new_history S0
  obtain ⟨c', h2, H2, -⟩ := c138_run_detection H1 S1
  obtain ⟨u, h3, h4, h5, h6, h7, -⟩ := c87_union_any S0 S1
  have SU := reachable_shows h5
  obtain ⟨d, h8, H8⟩ := ConnComp.new_history SU
  refine ⟨c, c', u, d, h1, h2, h3, h8, c38_order_independent H2 H8 ?_⟩
  have hu : ∀ a b, u.hasEdge a b = true ↔ (u.abs.edge a b).isSome := by
    intro a b
    rw [abs_edge_isSome h5.inv]
  have hlist : ∀ a b, ((a, b) ∈ u.view.edgeIndices ∨ (b, a) ∈ u.view.edgeIndices) ↔
      u.hasEdge a b = true ∨ u.hasEdge b a = true := by
    intro a b
    rw [hu, hu]
    constructor
    · rintro (h | h)
      · exact .inl ((SU.memEdges _ _).1 h).1
      · exact .inr ((SU.memEdges _ _).1 h).1
    · rintro (h | h)
      · exact ConnComp.edge_listed SU h
      · exact (ConnComp.edge_listed SU h).symm
  intro a b
  rw [hlist, h7, h7]
  simp only [List.mem_append]
  constructor
  · rintro ((h | h) | (h | h))
    · exact .inl (.inl ((S0.memEdges _ _).1 h).1)
    · exact .inl (.inr (.inl h))
    · exact .inr (.inl ((S0.memEdges _ _).1 h).1)
    · exact .inr (.inr (.inl h))
  · rintro ((h | h | ⟨-, h⟩) | (h | h | ⟨-, h⟩))
    · exact (ConnComp.edge_listed S0 h).imp .inl .inl
    · exact .inl (.inr h)
    · exact .inr (.inr h)
    · exact (ConnComp.edge_listed S0 h).symm.imp .inl .inl
    · exact .inr (.inr h)
    · exact .inl (.inr h)

omit [DecidableEq NL] [DecidableEq EL]

/-- A node of an undirected graph without edges is one of degree zero. -/
theorem untouched_degree {g : GView m k NL EL} {A : AGraph (Id m) NL EL} (S : Shows g A)
    (hd : g.directed = false) {n : Id m} (hn : (A.node n).isSome) : ¬ A.Touched n ↔ g.degree n = .ok 0 := by
  obtain ⟨l, -, -, h2, h3⟩ := S.neighbors n hn
  rw [h3]
  constructor
  · intro h
    have : l = [] := List.eq_nil_iff_forall_not_mem.2 (fun t ht => h ⟨t, .inl ((h2 t).1 ht)⟩)
    rw [this]; rfl
  · intro h
    have : l = [] := List.length_eq_zero_iff.1 (Except.ok.inj h)
    subst this
    rintro ⟨t, e | e⟩
    · simpa using (h2 t).2 e
    · rw [S.sym hd] at e
      simpa using (h2 t).2 e

/-- What C139 says of a search that yields `l`. -/
def FollowsComponents (g : GView m k NL EL) (A : AGraph (Id m) NL EL) (s : Id m) (l : List (Id m)) : Prop :=
  ∃ segs c, segs.flatten = l ∧ A.ByComponents s segs ∧ ConnComp.new g = .ok c ∧
    (∀ seg ∈ segs, ∀ x ∈ seg,
      (g.degree x = .ok 0 ∧ seg = [x] ∧ c.getConnectedNodes x = .ok (c, none)) ∨
      ∃ c' l', c.getConnectedNodes x = .ok (c', some l') ∧ l'.Perm seg) ∧
    c.getCount + (g.nodeIndices.filter (fun n => decide (g.degree n = .ok 0))).length = segs.length

theorem sweep_follows {g : GView m k NL EL} {A : AGraph (Id m) NL EL} (S : Shows g A) (hd : g.directed = false)
    {s : Id m} {P : List (Id m) → Prop} {l : List (Id m)} (h : A.Sweep s P l) : FollowsComponents g A s l := by
  obtain ⟨segs, h1, h2⟩ := sweep_components (S.sym hd) S.ends h
  obtain ⟨c, h3, H⟩ := ConnComp.new_history S
  have hnd : segs.flatten.Nodup := by rw [h1]; exact h.1
  have hmem : ∀ n, n ∈ segs.flatten ↔ (A.node n).isSome := by rw [h1]; exact h.2.1
  refine ⟨segs, c, h1, h2, h3, fun seg hseg x hx => ?_, ?_⟩
  · obtain ⟨r, rest, er, hw⟩ := h2.whole seg hseg
    have hxn : (A.node x).isSome := (hmem x).1 (List.mem_flatten.2 ⟨seg, hseg, hx⟩)
    have hsegnd : seg.Nodup := (List.nodup_flatten.1 hnd).1 seg hseg
    have hrx := (hw x).1 hx
    have hseg' : ∀ y, y ∈ seg ↔ A.Connected x y := fun y => by
      rw [hw]
      exact ⟨fun h => .trans _ _ _ (.symm _ _ hrx) h, fun h => .trans _ _ _ hrx h⟩
    by_cases ht : A.Touched x
    · right
      obtain ⟨c', l', e1, e2, e3⟩ := (c36_connected_nodes H x).2 ((ConnComp.occurs_graph S x).2 ht)
      refine ⟨c', l', e1, (List.perm_ext_iff_of_nodup e2 hsegnd).2 (fun y => ?_)⟩
      rw [e3, ConnComp.linked_graph S, hseg']
    · left
      refine ⟨(untouched_degree S hd hxn).1 ht, ?_,
        (c36_connected_nodes H x).1 (fun h => ht ((ConnComp.occurs_graph S x).1 h))⟩
      have : ∀ y, y ∈ seg ↔ y = x := by
        intro y
        rw [hseg']
        refine ⟨fun h => ?_, fun h => by rw [h]; exact .refl _⟩
        rcases connected_touched h with e | e
        · exact e.symm
        · exact absurd e.1 ht
      have hp : seg.Perm [x] := (List.perm_ext_iff_of_nodup hsegnd (List.nodup_singleton x)).2 (by simpa using this)
      exact List.perm_singleton.1 hp
  · classical
    have := components_count hnd hmem S.ends h2
    obtain ⟨c', h4, h5⟩ := c36_graph S
    rw [h3] at h4
    cases h4
    rw [h5, ← this]
    congr 1
    have hp : g.nodeIndices.Perm segs.flatten :=
      (List.perm_ext_iff_of_nodup S.nodesNodup hnd).2 (fun n => by rw [S.memNodes, hmem])
    rw [(hp.filter _).length_eq]
    congr 1
    refine List.filter_congr (fun n hn => ?_)
    rw [decide_eq_decide]
    exact (untouched_degree S hd ((hmem n).1 hn)).symm

/-- **C139** A breadth-first search of an undirected graph visits the connected components one after the
other, as whole segments; `get_connected_nodes` of a node lists its segment; and the components counted by
`ConnComp` and the nodes of degree zero are together as many as the segments. -/
theorem c139_bfs {g : GView m k NL EL} {A : AGraph (Id m) NL EL} (S : Shows g A) (hd : g.directed = false)
    {start : Option (Id m)} {s : Id m} (h : BeginsAt g A start s) :
    ∃ st l st', Traversal.new g start = .ok st ∧ Yields (Bfs.next g) st l st' ∧
      FollowsComponents g A s l := by
  obtain ⟨st, l, st', h1, h2, -, h3⟩ := c66_bfs_order S h
  exact ⟨st, l, st', h1, h2, sweep_follows S hd h3⟩

/-- **C139** for the depth-first search. -/
theorem c139_dfs {g : GView m k NL EL} {A : AGraph (Id m) NL EL} (S : Shows g A) (hd : g.directed = false)
    {start : Option (Id m)} {s : Id m} (h : BeginsAt g A start s) :
    ∃ st l st', Traversal.new g start = .ok st ∧ Yields (Dfs.next g) st l st' ∧
      FollowsComponents g A s l := by
  obtain ⟨st, l, st', h1, h2, -, h3⟩ := c66_dfs_order S h
  exact ⟨st, l, st', h1, h2, sweep_follows S hd h3⟩

/-! ### Instances -/

/-- Non-vacuity for C138: an undirected graph with components {0,1,2,3}, {5,7}, then a directed one with
edges 1 -> 0, 5 -> 4; 4 and 7 end up connected, 1 and 5 do not. -/
example : Shows kite.view kite.abs ∧ Shows twoParts.view twoParts.abs ∧
    (do let c ← ConnComp.new kite.view
        let c ← c.runDetection twoParts.view
        let (c, r) ← c.isConnected 4 7
        let (c, r') ← c.isConnected 1 5
        pure (c.getCount, r, r')) = .ok (2, true, false) ∧
    (do let u ← graphUnion kite.view twoParts.view
        let c ← ConnComp.new u.view
        let (c, r) ← c.isConnected 4 7
        let (c, r') ← c.isConnected 1 5
        pure (c.getCount, r, r')) = .ok (2, true, false) :=
  ⟨reachable_shows kite_reachable, reachable_shows twoParts_reachable, by decide, by decide⟩

/-- Non-vacuity for C139: `gappy`, with the edge 1-5 and the node 7 alone. The search from 5 visits
[5, 1] and then [7]; one component is counted, and one node has degree zero. -/
example : Shows gappy.view gappy.abs ∧ gappy.view.directed = false ∧ BeginsAt gappy.view gappy.abs (some 5) 5 ∧
    (do let st ← Traversal.new gappy.view (some 5)
        let r ← drain (Bfs.next gappy.view) 9 st
        pure r.1) = .ok [5, 1, 7] ∧
    (do let c ← ConnComp.new gappy.view
        let (c, l) ← c.getConnectedNodes 1
        let (c, l') ← c.getConnectedNodes 7
        pure (c.getCount, l.map List.length, l')) = .ok (1, some 2, none) ∧
    gappy.view.degree 7 = .ok 0 := by
  have h := reachable_shows gappy_reachable
  refine ⟨h, rfl, ⟨?_, .inl rfl⟩, by decide, by decide, by decide⟩
  rw [← h.hasNode]; rfl

end Verif.Props
