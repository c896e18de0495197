import Verif.Proof.Cycles
import Verif.Props.Traversal

/-! C148: how edges that come and go change the number of components, and when there are no cycles. -/

namespace Verif.Props

open Spec GraphMap

variable {m k : Nat} {NL EL : Type}

/-- **C148.** What `process_new_edge` does to the count: an edge between two nodes seen before leaves it if they are
linked and lowers it by one if not; an edge from a node seen to a new one leaves it; an edge between new nodes raises
it by one. -/
theorem c148_step {E : List (Id m × Id m)} {c c' : ConnComp m} (H : History E c) {x y : Id m}
    (h : c.processEdge x y = .ok c') :
    (Occurs E x → Occurs E y → Linked E x y → c'.getCount = c.getCount) ∧
    (Occurs E x → Occurs E y → ¬ Linked E x y → c'.getCount + 1 = c.getCount) ∧
    (¬ (Occurs E x ↔ Occurs E y) → c'.getCount = c.getCount) ∧
    (¬ Occurs E x → ¬ Occurs E y → c'.getCount = c.getCount + 1) := by
  rw [c36_count H, c36_count (.edge H h)]
  exact Cycles.count_snoc E x y

/-- **C148.** The count and the number of edges that joined what was not linked before give the number of nodes seen. -/
theorem c148_joins {E : List (Id m × Id m)} {c : ConnComp m} (H : History E c) :
    {n | Occurs E n}.ncard =
      c.getCount + {i | ∃ x y, E[i]? = some (x, y) ∧ ¬ Linked (E.take i) x y}.ncard := by
  rw [c36_count H]
  exact Cycles.occurs_joins E

/-- **C148.** So the nodes seen are at most as many as the count and the edges processed, and exactly as many if and
only if there is no cycle: no edge whose ends the other ones link. -/
theorem c148_forest {E : List (Id m × Id m)} {c : ConnComp m} (H : History E c) :
    {n | Occurs E n}.ncard ≤ c.getCount + E.length ∧
    ({n | Occurs E n}.ncard = c.getCount + E.length ↔
      ∀ i x y, E[i]? = some (x, y) → ¬ Linked (E.eraseIdx i) x y) := by
  rw [c36_count H]
  refine ⟨?_, Cycles.forest_iff E⟩
  rw [Cycles.occurs_joins]
  exact Nat.add_le_add_left (Cycles.joins_le E) _

/-- **C148** for a graph: the nodes with an edge are at most as many as components and edges together, and exactly as
many if and only if each edge is the only link between its ends. -/
theorem c148_graph {g : GView m k NL EL} {A : AGraph (Id m) NL EL} (S : Shows g A) :
    ∃ c, ConnComp.new g = .ok c ∧ {n | A.Touched n}.ncard ≤ c.getCount + g.edgeIndices.length ∧
      ({n | A.Touched n}.ncard = c.getCount + g.edgeIndices.length ↔
        ∀ s t, (A.edge s t).isSome →
          ¬ Relation.EqvGen (fun a b => (A.edge a b).isSome ∧ ¬ AGraph.same g.directed s t a b) s t) := by
  obtain ⟨c, h, H⟩ := ConnComp.new_history S
  obtain ⟨h1, h2⟩ := c148_forest H
  have ho : {n | Occurs g.edgeIndices n} = {n | A.Touched n} := by
    ext n
    exact ConnComp.occurs_graph S n
  rw [ho] at h1 h2
  refine ⟨c, h, h1, h2.trans ?_⟩
  have hsw : ∀ s t : Id m, (∀ a b, AGraph.same g.directed s t a b ↔ AGraph.same g.directed t s a b) ∨ g.directed = true := by
    intro s t
    cases hd : g.directed with
    | true => exact .inr rfl
    | false => exact .inl (fun a b => by unfold AGraph.same; tauto)
  constructor
  · intro hall s t hst hc
    rcases ConnComp.edge_listed S hst with he | he
    · obtain ⟨i, hi⟩ := List.mem_iff_getElem?.1 he
      refine hall i s t hi ?_
      rw [Cycles.eraseIdx_nodup S.edgesNodup hi]
      exact (Cycles.linked_erase S he s t).2 hc
    · rcases hsw s t with hs | hd
      · obtain ⟨i, hi⟩ := List.mem_iff_getElem?.1 he
        refine hall i t s hi ?_
        rw [Cycles.eraseIdx_nodup S.edgesNodup hi]
        refine (Cycles.linked_erase S he t s).2 (.symm _ _ ?_)
        exact Relation.EqvGen.mono (fun a b h => ⟨h.1, fun h' => h.2 ((hs a b).2 h')⟩) _ _ hc
      · have he := (S.memEdges s t).2 ⟨hst, .inl hd⟩
        obtain ⟨i, hi⟩ := List.mem_iff_getElem?.1 he
        refine hall i s t hi ?_
        rw [Cycles.eraseIdx_nodup S.edgesNodup hi]
        exact (Cycles.linked_erase S he s t).2 hc
  · intro hall i s t hi hl
    have he := List.mem_of_getElem? hi
    rw [Cycles.eraseIdx_nodup S.edgesNodup hi] at hl
    exact hall s t ((S.memEdges s t).1 he).1 ((Cycles.linked_erase S he s t).1 hl)

variable [DecidableEq NL] [DecidableEq EL]

/-- **C148.** What `add_edge` does to the components found in the graph: as `process_new_edge` does, whether or not the
edge was there before. Two nodes are connected afterwards if they were or each was with another end of the edge. -/
theorem c148_add_edge {g g' : GraphMap m k NL EL} (hg : Reachable g) {u v : Id m} {l : Option EL}
    (h : g.apply (.addEdge u v l) = .ok g') :
    ∃ c c', ConnComp.new g.view = .ok c ∧ ConnComp.new g'.view = .ok c' ∧
      (g.abs.Touched u → g.abs.Touched v → g.abs.Connected u v → c'.getCount = c.getCount) ∧
      (g.abs.Touched u → g.abs.Touched v → ¬ g.abs.Connected u v → c'.getCount + 1 = c.getCount) ∧
      (¬ (g.abs.Touched u ↔ g.abs.Touched v) → c'.getCount = c.getCount) ∧
      (¬ g.abs.Touched u → ¬ g.abs.Touched v → c'.getCount = c.getCount + 1) ∧
      ∀ a b, g'.abs.Connected a b ↔ g.abs.Connected a b ∨ (g.abs.Connected a u ∧ g.abs.Connected v b) ∨
        (g.abs.Connected a v ∧ g.abs.Connected u b) := by
  have S := reachable_shows hg
  have hg' : Reachable g' := .step hg h
  have S' := reachable_shows hg'
  have hE : SameEdges g'.view.edgeIndices (g.view.edgeIndices ++ [(u, v)]) :=
    Cycles.same_add S S' (Cycles.edge_add hg h)
  obtain ⟨c, h1, H⟩ := ConnComp.new_history S
  obtain ⟨c', h2, H'⟩ := ConnComp.new_history S'
  refine ⟨c, c', h1, h2, ?_⟩
  simp only [← ConnComp.occurs_graph S, ← ConnComp.linked_graph S, ← ConnComp.linked_graph S']
  rw [c36_count H, c36_count H', Cycles.components_ext hE]
  obtain ⟨d1, d2, d3, d4⟩ := Cycles.count_snoc g.view.edgeIndices u v
  refine ⟨d1, d2, d3, d4, fun a b => ?_⟩
  rw [ConnComp.linked_ext hE]
  exact Cycles.linked_snoc _ u v a b

/-- **C148.** What `remove_edge` does to them, in terms of the graph afterwards: the reverse. So one call changes the
count by at most one. -/
theorem c148_remove_edge {g g' : GraphMap m k NL EL} (hg : Reachable g) {u v : Id m} (huv : g.hasEdge u v = true)
    (h : g.apply (.removeEdge u v) = .ok g') :
    ∃ c c', ConnComp.new g.view = .ok c ∧ ConnComp.new g'.view = .ok c' ∧
      (g'.abs.Touched u → g'.abs.Touched v → g'.abs.Connected u v → c'.getCount = c.getCount) ∧
      (g'.abs.Touched u → g'.abs.Touched v → ¬ g'.abs.Connected u v → c'.getCount = c.getCount + 1) ∧
      (¬ (g'.abs.Touched u ↔ g'.abs.Touched v) → c'.getCount = c.getCount) ∧
      (¬ g'.abs.Touched u → ¬ g'.abs.Touched v → c'.getCount + 1 = c.getCount) ∧
      ∀ a b, g.abs.Connected a b ↔ g'.abs.Connected a b ∨ (g'.abs.Connected a u ∧ g'.abs.Connected v b) ∨
        (g'.abs.Connected a v ∧ g'.abs.Connected u b) := by
  have S := reachable_shows hg
  have hg' : Reachable g' := .step hg h
  have S' := reachable_shows hg'
  have hE : SameEdges g.view.edgeIndices (g'.view.edgeIndices ++ [(u, v)]) :=
    Cycles.same_add S' S (Cycles.edge_remove hg huv h)
  obtain ⟨c, h1, H⟩ := ConnComp.new_history S
  obtain ⟨c', h2, H'⟩ := ConnComp.new_history S'
  refine ⟨c, c', h1, h2, ?_⟩
  simp only [← ConnComp.occurs_graph S', ← ConnComp.linked_graph S, ← ConnComp.linked_graph S']
  rw [c36_count H, c36_count H', Cycles.components_ext hE]
  obtain ⟨d1, d2, d3, d4⟩ := Cycles.count_snoc g'.view.edgeIndices u v
  refine ⟨fun a b e => (d1 a b e).symm, fun a b e => (d2 a b e).symm, fun a => (d3 a).symm, fun a b => (d4 a b).symm,
    fun a b => ?_⟩
  rw [ConnComp.linked_ext hE]
  exact Cycles.linked_snoc _ u v a b

/-- **C148.** Calls that add or relabel nodes change neither the count nor what is connected. -/
theorem c148_add_node {g g' : GraphMap m k NL EL} (hg : Reachable g) {op : Op m k NL EL}
    (hop : (∃ n l, op = .addNode n l) ∨ (∃ n l, op = .updateNodeLabel n l) ∨ (∃ u v l, op = .updateEdgeLabel u v l))
    (h : g.apply op = .ok g') :
    ∃ c c', ConnComp.new g.view = .ok c ∧ ConnComp.new g'.view = .ok c' ∧ c'.getCount = c.getCount ∧
      ∀ a b, g'.abs.Connected a b ↔ g.abs.Connected a b := by
  have S := reachable_shows hg
  have hg' : Reachable g' := .step hg h
  have S' := reachable_shows hg'
  have hE : SameEdges g'.view.edgeIndices g.view.edgeIndices :=
    Cycles.same_kept S S' (Cycles.edge_kept hg hop h)
  obtain ⟨c, h1, H⟩ := ConnComp.new_history S
  obtain ⟨c', h2, H'⟩ := ConnComp.new_history S'
  refine ⟨c, c', h1, h2, ?_, fun a b => ?_⟩
  · rw [c36_count H, c36_count H', Cycles.components_ext hE]
  · rw [← ConnComp.linked_graph S, ← ConnComp.linked_graph S', ConnComp.linked_ext hE]

/-! ### Instances -/

/-- `kite` has two components and the cycle 0-1-3: six nodes with edges, one less than components and edges. An edge
between 2 and 5 joins its components, taking away 7-5 loses one, and taking away 0-1 leaves both. -/
example : Reachable kite ∧ (ConnComp.new kite.view).map ConnComp.getCount = .ok 2 ∧ kite.view.edgeIndices.length = 5 ∧
    kite.hasEdge 7 5 = true ∧ kite.hasEdge 0 1 = true ∧
    (do let g ← kite.apply (.addEdge 2 5 none)
        return (← ConnComp.new g.view).getCount) = .ok 1 ∧
    (do let g ← kite.apply (.removeEdge 5 7)
        return (← ConnComp.new g.view).getCount) = .ok 1 ∧
    (do let g ← kite.apply (.removeEdge 1 0)
        return (← ConnComp.new g.view).getCount) = .ok 2 ∧
    (do let g ← kite.apply (.addEdge 8 9 none)
        return (← ConnComp.new g.view).getCount) = .ok 3 ∧
    (do let g ← kite.apply (.removeEdge 0 2)
        return (← ConnComp.new g.view).getCount) = .ok 2 :=
  ⟨kite_reachable, by decide, by decide, by decide, by decide, by decide, by decide, by decide, by decide, by decide⟩

/-- Removing the middle edge of a path of three leaves one component more. -/
example : (do let g ← (withLabelMap false SetMap.empty SetMap.empty : GraphMap 9 3 String String).exec
                [.addEdge 0 1 none, .addEdge 1 2 none, .addEdge 2 3 none, .removeEdge 1 2]
              return (← ConnComp.new g.view).getCount) = .ok 2 := by decide

/-- The first edge of a `ConnComp`, and an edge that joins two pairs. -/
example : ∃ c c' : ConnComp 9, History [(0, 1), (2, 3)] c ∧ c.processEdge 1 3 = .ok c' ∧ c.getCount = 2 ∧
    c'.getCount = 1 ∧ Occurs [((0 : Id 9), (1 : Id 9)), (2, 3)] 1 ∧ ¬ Occurs [((0 : Id 9), (1 : Id 9)), (2, 3)] 5 :=
  ⟨_, _, .edge (E := [(0, 1)]) (.edge (E := []) .empty rfl) rfl, rfl, by decide, by decide, by unfold Occurs; decide,
    by unfold Occurs; decide⟩

end Verif.Props
