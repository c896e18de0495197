import Verif.Proof.FrozenSearch
import Verif.Props.Traversal
import Verif.Props.ConnComp

/-! C115: searches and components of frozen graphs, whatever their ids. -/

namespace Verif.Props

open Spec Traversal GraphMap

variable {m k : Nat} {NL EL : Type} [DecidableEq NL] [DecidableEq EL] {g : GraphMap m k NL EL}

/-- What the searches ask of a frozen graph. -/
theorem frozen_asks (hg : Reachable g) {r : StaticGraph m k NL EL} (hr : g.intoStatic = .ok r) :
    0 < g.nodeCount ∧ g.nodeCount ≤ m ∧ ∃ v, r.view = .ok v ∧ (∀ n, v.hasNode n = decide (n.val < g.nodeCount)) ∧
      v.nodeCount = g.nodeCount ∧ v.nodeIndices = (List.range g.nodeCount).map Id.new ∧
      v.maxSeenId = .ok (some (Id.new (g.nodeCount - 1))) ∧
      (∀ n : Id m, n.val < g.nodeCount → ∃ l, v.neighbors n = .ok l ∧ l.Pairwise (· < ·) ∧
        ∀ t, t ∈ l ↔ (g.abs.edge n t).isSome) ∧
      (v.edges.map (fun e => (e.src, e.dst))).Perm g.edgeIndices := by
  obtain ⟨h0, h1⟩ := (c26_into_static_succeeds_iff hg).1 ⟨r, hr⟩
  obtain ⟨M, hmax, hlt⟩ := exists_max h0 h1
  obtain ⟨r', hr', hf⟩ := intoStatic_ok hg.inv.toNWF hmax hlt
  rw [hr] at hr'
  obtain rfl := Except.ok.inj hr'
  have hM := (max_spec hmax).2
  have hcount := nodeCount_le hg.inv.toNWF hM
  obtain ⟨v, hv, e1, e2, e3, e4, e5, e6, e7, e8, e9, e10, e11, e12, e13, e14, e15, e16⟩ :=
    StaticGraph.view_ok hf.out (by simp; omega)
  refine ⟨Nat.pos_of_ne_zero h0, by omega, v, hv, ?_, by rw [e2, hf.numNodes], ?_, ?_, ?_, ?_⟩
  · intro n; rw [e4]; simp [StaticGraph.hasNode, hf.numNodes]
  · rw [e8]; simp [StaticGraph.nodeIndices, hf.numNodes]
  · rw [e14]; unfold StaticGraph.maxSeenId; rw [hf.numNodes, if_neg h0]; rfl
  · intro n hn
    have hs := reachable_shows hg
    have hnode : (g.abs.node n).isSome = g.hasNode n := (hs.hasNode n).symm
    cases hget : g.getNode n with
    | some nd =>
      have hn' := (hasNode_iff g n).2 ⟨nd, hget⟩
      obtain ⟨h3, -⟩ := frozen_neighbors hM hf hget
      obtain ⟨l, a1, a2, a3, -⟩ := hs.neighbors n (by rw [hnode, hn'])
      have a4 : g.neighbors n = .ok l := a1
      rw [e13, h3]
      unfold GraphMap.neighbors at a4
      rw [hget] at a4
      obtain rfl := Except.ok.inj a4
      exact ⟨_, rfl, a2, a3⟩
    | none =>
      have hlt : n.val < (g.rows (M.val + 1)).length := by simp; omega
      have he : (g.rows (M.val + 1))[n.val].map Prod.fst = [] := by
        rw [rows_getElem, rowOf_fst, hget]; rfl
      refine ⟨[], ?_, List.Pairwise.nil, fun t => ⟨fun h => absurd h List.not_mem_nil, fun h => ?_⟩⟩
      · rw [e13]
        unfold StaticGraph.neighbors
        rw [EdgeVec.neighbors_eq hf.out n hlt, he]
      · have h2 := (hs.ends n t h).1
        rw [hnode] at h2
        obtain ⟨nd, h3⟩ := (hasNode_iff g n).1 h2
        rw [hget] at h3
        cases h3
  · rw [StaticGraph.view_edges hf.out (by rw [rows_length]; omega) hv]
    obtain ⟨es, h3, h4, h5⟩ := frozen_edgeIndices hM hlt hf
    rw [h3] at e9
    obtain rfl := Except.ok.inj e9
    rw [List.perm_ext_iff_of_nodup h4 (edgeIndices_nodup hg.inv.toNWF)]
    rintro ⟨s, t⟩
    rw [h5, mem_edgeIndices hg.inv.toNWF]

/-- The start of a search of a frozen graph. -/
theorem frozen_start (hg : Reachable g) {r : StaticGraph m k NL EL} (hr : g.intoStatic = .ok r) :
    ∃ v, r.view = .ok v ∧ Shows (low v g.abs g.nodeCount) (g.abs.below g.nodeCount) ∧
      (∀ start : Option (Id m), (∀ s, start = some s → s.val < g.nodeCount) →
        BeginsAt (low v g.abs g.nodeCount) (g.abs.below g.nodeCount) start (start.getD 0)) ∧
      (∀ start st, Traversal.new (low v g.abs g.nodeCount) start = .ok st →
        Traversal.new v start = .ok st ∧ st.undiscovered.length = g.nodeCount) ∧
      ∀ s : Id m, g.nodeCount ≤ s.val → Traversal.new v (some s) = .error .explicit := by
  obtain ⟨h0, h1, v, hv, a1, a2, a3, a4, a5, -⟩ := frozen_asks hg hr
  have S := low_shows h0 (by omega) a1 a2 a3 a4 a5
  have hnode : ∀ n : Id m, n.val < g.nodeCount → ((g.abs.below g.nodeCount).node n).isSome = true := by
    intro n h
    rw [← S.hasNode]
    exact (a1 n).trans (decide_eq_true h)
  refine ⟨v, hv, S, ?_, ?_, ?_⟩
  · intro start hs
    cases start with
    | some s => exact ⟨hnode s (hs s rfl), .inl rfl⟩
    | none =>
      refine ⟨hnode 0 h0, .inr ⟨rfl, ?_⟩⟩
      show v.nodeIndices.head? = some 0
      rw [a3]
      obtain ⟨c, hc⟩ : ∃ c, g.nodeCount = c + 1 := ⟨g.nodeCount - 1, by omega⟩
      rw [hc, List.range_succ_eq_map]
      rfl
  · intro start st h
    rw [← new_low] at h
    refine ⟨h, ?_⟩
    rw [new_length a4 h, EdgeIter.Id_new_val (by omega)]
    omega
  · intro s hs
    unfold Traversal.new Traversal.withCapacity
    rw [a4]
    simp only [bind_ok, unwrap, pure_ok]
    unfold Traversal.moveTo Traversal.startNode
    have e : v.hasNode s = false := (a1 s).trans (decide_eq_false (by omega))
    simp only [e]
    rfl

/-- **C115.** A breadth-first search of a frozen graph, whatever its ids, visits exactly the ids below the
number of nodes, in the order of a search of the graph that has these ids as nodes and the edges between
them. Without a start it begins at 0; a start beyond is refused. -/
theorem c115_bfs (hg : Reachable g) {r : StaticGraph m k NL EL} (hr : g.intoStatic = .ok r) :
    ∃ v, r.view = .ok v ∧
      (∀ start, (∀ s, start = some s → s.val < g.nodeCount) → ∃ st l st', Traversal.new v start = .ok st ∧
        Yields (Bfs.next v) st l st' ∧ (g.abs.below g.nodeCount).Sweep (start.getD 0)
          (g.abs.below g.nodeCount).FirstIn l) ∧
      ∀ s : Id m, g.nodeCount ≤ s.val → Traversal.new v (some s) = .error .explicit := by
  obtain ⟨v, hv, S, hb, hn, he⟩ := frozen_start hg hr
  refine ⟨v, hv, fun start hs => ?_, he⟩
  obtain ⟨st, l, st', b1, ⟨fuel, b2⟩, -, b3⟩ := c66_bfs_order S (hb start hs)
  obtain ⟨c1, c2⟩ := hn start st b1
  refine ⟨st, l, st', c1, ⟨fuel, ?_⟩, b3⟩
  rw [bfs_next] at b2 ⊢
  rw [drain_low fuel c2, b2]

/-- **C115** for depth-first searches. -/
theorem c115_dfs (hg : Reachable g) {r : StaticGraph m k NL EL} (hr : g.intoStatic = .ok r) :
    ∃ v, r.view = .ok v ∧
      (∀ start, (∀ s, start = some s → s.val < g.nodeCount) → ∃ st l st', Traversal.new v start = .ok st ∧
        Yields (Dfs.next v) st l st' ∧ (g.abs.below g.nodeCount).Sweep (start.getD 0)
          (g.abs.below g.nodeCount).LastIn l) ∧
      ∀ s : Id m, g.nodeCount ≤ s.val → Traversal.new v (some s) = .error .explicit := by
  obtain ⟨v, hv, S, hb, hn, he⟩ := frozen_start hg hr
  refine ⟨v, hv, fun start hs => ?_, he⟩
  obtain ⟨st, l, st', b1, ⟨fuel, b2⟩, -, b3⟩ := c66_dfs_order S (hb start hs)
  obtain ⟨c1, c2⟩ := hn start st b1
  refine ⟨st, l, st', c1, ⟨fuel, ?_⟩, b3⟩
  rw [dfs_next] at b2 ⊢
  rw [drain_low fuel c2, b2]

/-- **C115.** So with a gap in the ids every search of the frozen graph leaves out a node of the graph and
visits an id that is none. -/
theorem c115_gap (hg : Reachable g) {r : StaticGraph m k NL EL} (hr : g.intoStatic = .ok r)
    (hgap : ¬ ∀ n : Id m, g.hasNode n = true ↔ n.val < g.nodeCount) :
    ∃ v a b, r.view = .ok v ∧ g.hasNode a = true ∧ g.hasNode b = false ∧
      ∀ start st l st', Traversal.new v start = .ok st →
        (Yields (Bfs.next v) st l st' ∨ Yields (Dfs.next v) st l st') → a ∉ l ∧ b ∈ l := by
  obtain ⟨⟨a, ha, ha'⟩, b, hb', hb⟩ := gap hg.inv.toNWF hgap
  obtain ⟨v, hv, h1, h2⟩ := c115_bfs hg hr
  obtain ⟨v', hv', h3, -⟩ := c115_dfs hg hr
  rw [hv] at hv'
  cases hv'
  have out : ∀ {s : Id m} {P} {l : List (Id m)}, (g.abs.below g.nodeCount).Sweep s P l → a ∉ l ∧ b ∈ l := by
    intro s P l h
    rw [h.2.1, h.2.1]
    unfold AGraph.below
    simp only
    rw [if_neg (by omega), if_pos (by omega)]
    exact ⟨fun h => by simp at h, rfl⟩
  refine ⟨v, a, b, hv, ha, hb', fun start st l st' hnew hy => ?_⟩
  have hs : ∀ s, start = some s → s.val < g.nodeCount := by
    rintro s rfl
    by_contra hc
    rw [h2 s (by omega)] at hnew
    cases hnew
  rcases hy with hy | hy
  · obtain ⟨st2, l2, st2', c1, c2, c3⟩ := h1 start hs
    rw [hnew] at c1
    cases c1
    obtain ⟨rfl, -⟩ := hy.unique c2
    exact out c3
  · obtain ⟨st2, l2, st2', c1, c2, c3⟩ := h3 start hs
    rw [hnew] at c1
    cases c1
    obtain ⟨rfl, -⟩ := hy.unique c2
    exact out c3

/-- **C115.** Components, on the other hand, are those of the graph, gaps or not. -/
theorem c115_components (hg : Reachable g) {r : StaticGraph m k NL EL} (hr : g.intoStatic = .ok r) :
    ∃ v c d, r.view = .ok v ∧ ConnComp.new g.view = .ok c ∧ ConnComp.new v = .ok d ∧
      c.getCount = d.getCount ∧
      (∀ a b, ∃ c' d' x, c.isConnected a b = .ok (c', x) ∧ d.isConnected a b = .ok (d', x)) ∧
      ∀ n, ∃ c' d' l l', c.getConnectedNodes n = .ok (c', l) ∧ d.getConnectedNodes n = .ok (d', l') ∧
        Option.Rel List.Perm l l' := by
  obtain ⟨-, -, v, hv, -, -, -, -, -, hp⟩ := frozen_asks hg hr
  obtain ⟨c, h1, h2⟩ := ConnComp.new_history (reachable_shows hg)
  obtain ⟨d, h3, h4⟩ := ConnComp.fold_history v.edges [] ConnComp.empty .empty
  rw [List.nil_append] at h4
  obtain ⟨a1, a2, a3⟩ := c38_order_independent h2 h4 (fun a b => by
    rw [hp.mem_iff, hp.mem_iff]; rfl)
  exact ⟨v, c, d, hv, h1, h3, a2, a1, a3⟩

set_option maxRecDepth 8000 in
/-- Non-vacuity: `1 → 2`, `3 → 2`, so 3 nodes and the ids 0, 1, 2 after freezing. The search from 1 misses 3
and visits 0. -/
example : ∃ g : GraphMap 9 3 String String, Reachable g ∧
    (¬ ∀ n : Id 9, g.hasNode n = true ↔ n.val < g.nodeCount) ∧
    ∃ r v, g.intoStatic = .ok r ∧ r.view = .ok v ∧
      ∃ st st', Traversal.new v (some 1) = .ok st ∧ Yields (Bfs.next v) st [1, 2, 0] st' := by
  refine ⟨_, smallGraph_reachable (d := true) (es := [(1, 2, some "x"), (3, 2, some "y")]) rfl,
    by decide, _, _, rfl, rfl, _, _, rfl, ⟨9, rfl⟩⟩

end Verif.Props
