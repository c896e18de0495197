import Verif.Proof.SetOps
import Verif.Props.Traversal

/-! C40–C42 and C68: union, difference and clone of graphs behind the traits. -/

namespace Verif.Props

open Spec GraphMap

variable {m k : Nat} {NL EL : Type} [DecidableEq NL] [DecidableEq EL]

/-- **C40** (partial: the labels of both graphs together must fit the label-id type; without that the claim
is false, see `c40_labels_collide`). The union has the nodes and edges of both, labels of the second graph
where it has the element, directedness of the first. -/
theorem c40_union_partial {g0 g1 : GView m k NL EL} {A B : AGraph (Id m) NL EL} (S0 : Shows g0 A)
    (S1 : Shows g1 B) (hd : g0.directed = g1.directed)
    {nl : List NL} {el : List EL} (hnl : nl.length ≤ k + 1) (hel : el.length ≤ k + 1)
    (h1 : ∀ n x, A.node n = some (some x) ∨ B.node n = some (some x) → x ∈ nl)
    (h2 : ∀ s t x, A.edge s t = some (some x) ∨ B.edge s t = some (some x) → x ∈ el) :
    ∃ g, graphUnion g0 g1 = .ok g ∧ g.directed = g0.directed ∧ Reachable g ∧ Shows g.view (A.union B) := by
  obtain ⟨g, a1, a2, a3, a4, _⟩ := graphUnion_ok S0 S1 hd hnl hel h1 h2
  exact ⟨g, a1, a2, a3, a4⟩

/-- **C68** Whatever the labels, the union has the nodes and edges of both graphs, and its `edge_count` is
the sum of both, so that a shared edge is counted twice. -/
theorem c68_union_structure {g0 g1 : GView m k NL EL} {A B : AGraph (Id m) NL EL} (S0 : Shows g0 A)
    (S1 : Shows g1 B) (hd : g0.directed = g1.directed) :
    ∃ g, graphUnion g0 g1 = .ok g ∧ g.directed = g0.directed ∧ Reachable g ∧
      (∀ n, g.hasNode n = ((A.node n).isSome || (B.node n).isSome)) ∧
      (∀ s t, g.hasEdge s t = ((A.edge s t).isSome || (B.edge s t).isSome)) ∧
      g.edgeCount = g0.edgeIndices.length + g1.edgeIndices.length := by
  obtain ⟨g, a1, a2, a3, _, _⟩ := exec_adds (unionCalls A B g0 g1) (new g0.directed : GraphMap m k NL EL)
    (inv_withLabelMap _ _ _ List.nodup_nil List.nodup_nil) (unionCalls_add A B g0 g1)
  have hr := exec_run a1
  obtain ⟨h1, h2⟩ := run_shape List.nodup_nil List.nodup_nil hr
  rw [run_unionCalls S0 S1 hd] at h2
  refine ⟨g, by rw [graphUnion_exec S0 S1]; exact a1, h1, hr.reachable List.nodup_nil List.nodup_nil, ?_, ?_, ?_⟩
  · intro n
    rw [hasNode_eq_labE]
    refine (h2.1 n).trans ?_
    unfold AGraph.union
    cases h : B.node n <;> simp [h]
  · intro s t
    rw [hasEdge_eq_outE]
    refine (h2.2 s t).trans ?_
    unfold AGraph.union
    cases h : B.edge s t <;> simp [h]
  · show g.numEdges = _
    rw [a3, unionCalls_count]
    simp [new, withLabelMap]

/-- A one-node graph with a label, over label ids that can only be 0. -/
def tagged (n : Id 9) (l : String) : GraphMap 9 0 String String :=
  ⟨false, [(n, ⟨n, some 0, [], []⟩)], 0, ⟨[l]⟩, ⟨[]⟩, some n⟩

theorem tagged_reachable (n : Id 9) (l : String) : Reachable (tagged n l) := by
  refine (exec_run (ops := [.addNode n (some l)]) (g0 := withLabelMap false SetMap.empty SetMap.empty)
    ?_).reachable List.nodup_nil List.nodup_nil
  rfl

/-- **C40 fails** when the labels of both graphs do not fit the label-id type: here node 2, labelled "b" in
the second graph and absent from the first, is labelled "a" in the union. -/
theorem c40_labels_collide : ∃ g0 g1 g : GraphMap 9 0 String String, Reachable g0 ∧ Reachable g1 ∧
    g0.directed = g1.directed ∧ graphUnion g0.view g1.view = .ok g ∧
    g1.getNodeLabel 2 = some "b" ∧ g.getNodeLabel 2 = some "a" :=
  ⟨tagged 1 "a", tagged 2 "b",
    ⟨false, [(1, ⟨1, some 0, [], []⟩), (2, ⟨2, some 0, [], []⟩)], 0, ⟨["a", "b"]⟩, ⟨[]⟩, some 2⟩,
    tagged_reachable _ _, tagged_reachable _ _, rfl, by decide, by decide, by decide⟩

/-- **C41** The difference is the subgraph induced on the nodes that are not in the second graph, labels
kept, with an exact `edge_count`; it panics exactly when a shared node has a self loop. -/
theorem c41_minus {g0 g1 : GView m k NL EL} {A B : AGraph (Id m) NL EL} (S0 : Shows g0 A)
    (S1 : Shows g1 B) :
    (A.SharedLoop B → graphMinus g0 g1 = .error .unwrapNone) ∧
    (¬ A.SharedLoop B → ∃ g, graphMinus g0 g1 = .ok g ∧ g.directed = g0.directed ∧ Reachable g ∧
      Shows g.view (A.restrict (fun n => B.node n = none)) ∧ g.edgeCount = g.edgeIndices.length) := by
  obtain ⟨g, c1, c2, c3, c4⟩ := copy_ok S0
  have hrun : graphMinus g0 g1 = (do let g ← removeNodesOf g1 g; removeEdgesOf g1 g) := by
    have e := c1
    unfold graphMinus
    rw [← bind_assoc, e]
    rfl
  constructor
  · rintro ⟨n, h1, h2⟩
    rw [hrun]
    unfold removeNodesOf
    rw [removeNodes_loop g1.nodeIndices A g c3 ⟨n, (S1.memNodes n).2 h1, h2⟩]
    rfl
  · intro hno
    obtain ⟨g', d1, d2, d3, d4⟩ := removeNodes_ok g1.nodeIndices A g c2 c3 c4 (by
      intro n hn
      by_contra hcon
      exact hno ⟨n, (S1.memNodes n).1 hn, Option.isSome_iff_ne_none.2 hcon⟩)
    have hP : A.restrict (fun n => n ∉ g1.nodeIndices) = A.restrict (fun n => B.node n = none) := by
      apply restrict_congr
      intro n; rw [S1.memNodes]; simp
    rw [hP] at d3
    refine ⟨g', ?_, d3.dir, d2, ?_, ?_⟩
    · rw [hrun]
      unfold removeNodesOf
      rw [d1, bind_ok]
      apply removeEdges_absent d3
      rintro ⟨s, t⟩ he
      have := (S1.ends s t ((S1.memEdges s t).1 he).1).1
      obtain ⟨l, hl⟩ := Option.isSome_iff_exists.1 this
      apply restrict_edge_none
      rintro ⟨h, -⟩
      rw [hl] at h; cases h
    · apply d3.shows
      intro hd s t
      unfold AGraph.restrict
      simp only [S0.sym hd s t, and_comm]
    · show g'.numEdges = _
      rw [d4, edgeIndices_length d3.inv.toNWF]

/-- **C42** The clone of a boxed graph of any implementation shows the same labelled graph, has the same
directedness, and its `edge_count` is exact. -/
theorem c42_clone {g : GView m k NL EL} {A : AGraph (Id m) NL EL} (S : Shows g A) :
    ∃ c, cloneBox g = .ok c ∧ c.directed = g.directed ∧ Reachable c ∧ Shows c.view A ∧
      c.edgeCount = c.edgeIndices.length := by
  obtain ⟨⟨nl, hnl, h1⟩, el, hel, h2⟩ := shows_fits S
  have hE : Shows (new g.directed : GraphMap m k NL EL).view AGraph.empty := by
    have := reachable_shows (m := m) (k := k) (.start g.directed (SetMap.empty : SetMap NL)
      (SetMap.empty : SetMap EL) List.nodup_nil List.nodup_nil)
    have e : (new g.directed : GraphMap m k NL EL).abs = AGraph.empty := by
      apply AGraph_ext
      · intro n; rfl
      · intro s t
        show (if _ then _ else _) = _
        split <;> rfl
    rw [← e]; exact this
  obtain ⟨c, a1, a2, a3, a4, a5⟩ := graphUnion_ok S hE rfl hnl hel
    (by
      rintro n x (h | h)
      · exact h1 n x h
      · cases h)
    (by
      rintro s t x (h | h)
      · exact h2 s t x h
      · cases h)
  have hu : A.union AGraph.empty = A := rfl
  rw [hu] at a4
  refine ⟨c, a1, a2, a3, a4, ?_⟩
  have h0 : (new g.directed : GraphMap m k NL EL).view.edgeIndices.length = 0 := by
    show (if _ then _ else _ : List _).length = 0
    split <;> rfl
  rw [a5, h0, Nat.add_zero]
  apply List.Perm.length_eq
  have p1 : c.edgeIndices.Nodup := a4.edgesNodup
  rw [List.perm_ext_iff_of_nodup S.edgesNodup p1]
  rintro ⟨x, y⟩
  have q1 : (x, y) ∈ c.edgeIndices ↔ A.Listed c.view.directed x y := a4.memEdges x y
  rw [q1, S.memEdges]
  have : c.view.directed = g.directed := a2
  rw [this]

/-- **C42** The library's own comparison finds the clone equal exactly when the original's `edge_count` is
exact (it may have drifted, C12). -/
theorem c42_clone_equal {g : GView m k NL EL} {A : AGraph (Id m) NL EL} (S : Shows g A) :
    ∃ c, cloneBox g = .ok c ∧
      c.view.equal g = .ok (decide (g.edgeCount = g.edgeIndices.length)) := by
  obtain ⟨c, h1, h2, h3, h4, h5⟩ := c42_clone S
  refine ⟨c, h1, ?_⟩
  have hlen : c.edgeIndices.length = g.edgeIndices.length := by
    apply List.Perm.length_eq
    have p1 : c.edgeIndices.Nodup := h4.edgesNodup
    rw [List.perm_ext_iff_of_nodup p1 S.edgesNodup]
    rintro ⟨x, y⟩
    have q1 : (x, y) ∈ c.edgeIndices ↔ A.Listed c.view.directed x y := h4.memEdges x y
    rw [q1, S.memEdges]
    have : c.view.directed = g.directed := h2
    rw [this]
  by_cases hc : g.edgeCount = g.edgeIndices.length
  · obtain ⟨b, e1, e2⟩ := c20_equal_views_partial h4 S h5 hc
    rw [e1]
    have : b = true := e2.2 ((sameGraph_iff h4 S).2 ⟨h2, rfl⟩)
    simp [this, hc]
  · have : c.view.edgeCount ≠ g.edgeCount := by
      show c.edgeCount ≠ _
      rw [h5, hlen]; exact fun h => hc h.symm
    unfold GView.equal
    rw [if_pos (by simp [this])]
    simp [hc, pure_ok]

/-! Concrete cases. -/

/-- Two overlapping labelled graphs; the second relabels node 1 and unlabels the edge. -/
def left : GraphMap 9 3 String String :=
  ⟨false, [(1, ⟨1, some 0, [(2, some 0)], []⟩), (2, ⟨2, none, [(1, some 0), (3, none)], []⟩),
    (3, ⟨3, none, [(2, none)], []⟩)], 2, ⟨["a"]⟩, ⟨["x"]⟩, some 3⟩

def right : GraphMap 9 3 String String :=
  ⟨false, [(2, ⟨2, some 0, [(1, none)], []⟩), (1, ⟨1, none, [(2, none)], []⟩)], 1, ⟨["b"]⟩, ⟨[]⟩, some 2⟩

theorem left_reachable : Reachable left :=
  (exec_run (ops := [.addNode 1 (some "a"), .addEdge 1 2 (some "x"), .addEdge 2 3 none])
    (g0 := withLabelMap false SetMap.empty SetMap.empty) (by decide)).reachable List.nodup_nil List.nodup_nil

theorem right_reachable : Reachable right :=
  (exec_run (ops := [.addNode 2 (some "b"), .addEdge 2 1 none])
    (g0 := withLabelMap false SetMap.empty SetMap.empty) (by decide)).reachable List.nodup_nil List.nodup_nil

/-- The label bound of `c40_union_partial` is met. -/
example : (∀ n x, left.abs.node n = some (some x) ∨ right.abs.node n = some (some x) → x ∈ ["a", "b"]) ∧
    (∀ s t x, left.abs.edge s t = some (some x) ∨ right.abs.edge s t = some (some x) → x ∈ ["x"]) := by
  have hl : ∀ n, left.abs.node n ∈ [none, some none, some (some "a")] := by decide
  have hr : ∀ n, right.abs.node n ∈ [none, some none, some (some "b")] := by decide
  have hl' : ∀ s t, left.abs.edge s t ∈ [none, some none, some (some "x")] := by decide
  have hr' : ∀ s t, right.abs.edge s t ∈ [none, some none] := by decide
  constructor
  · rintro n x (h | h)
    · have := hl n; rw [h] at this; simpa using .inl (by simpa using this)
    · have := hr n; rw [h] at this; simpa using .inr (by simpa using this)
  · rintro s t x (h | h)
    · have := hl' s t; rw [h] at this; simpa using this
    · have := hr' s t; rw [h] at this; simp at this

/-- The shared edge is counted twice, and takes the missing label of the second graph. -/
example : ∃ g, graphUnion left.view right.view = .ok g ∧ g.edgeCount = 3 ∧ g.edgeIndices.length = 2 ∧
    g.getNodeLabel 1 = none ∧ g.getNodeLabel 2 = some "b" ∧ g.getEdgeLabel 1 2 = .ok none :=
  ⟨⟨false, [(1, ⟨1, none, [(2, none)], []⟩), (2, ⟨2, some 1, [(1, none), (3, none)], []⟩),
    (3, ⟨3, none, [(2, none)], []⟩)], 3, ⟨["a", "b"]⟩, ⟨["x"]⟩, some 3⟩,
    by decide, by decide, by decide, by decide, by decide, by decide⟩

example : (graphMinus left.view right.view).map (fun g => (g.nodeIndices, g.edgeCount)) = .ok ([3], 0) ∧
    (cloneBox left.view).map (fun g => (g.nodeIndices, g.edgeCount)) = .ok ([1, 2, 3], 2) := by decide

/-- Both cases of C41 occur. -/
example : ¬ left.abs.SharedLoop right.abs := by
  rintro ⟨n, -, h⟩
  revert n
  decide

/-- A graph with a self loop at a shared node. -/
def looped : GraphMap 9 3 String String :=
  ⟨false, [(1, ⟨1, none, [(1, none)], []⟩)], 1, ⟨[]⟩, ⟨[]⟩, some 1⟩

example : Reachable looped ∧ looped.abs.SharedLoop right.abs ∧
    graphMinus looped.view right.view = .error .unwrapNone :=
  ⟨(exec_run (ops := [.addEdge 1 1 none])
    (g0 := withLabelMap false SetMap.empty SetMap.empty) (by decide)).reachable List.nodup_nil List.nodup_nil,
    ⟨1, by decide, by decide⟩, by decide⟩

end Verif.Props
