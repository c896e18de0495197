import Verif.Props.Lists

/-! C115, C21: what the algorithms see of a mapped graph. -/

namespace Verif.Props

open Spec Traversal GraphMap

variable {m k : Nat} {NL EL : Type} [DecidableEq NL] [DecidableEq EL] {g : GraphMap m k NL EL}

omit [DecidableEq NL] [DecidableEq EL] in
/-- **C115, C50.** Searches and components of a mapped graph are those of the frozen graph it was dumped from,
step by step; only a query for an edge from an id beyond the rows, which they never make, is answered
otherwise. -/
theorem c115_mapped_like {h : MmapGraph m k NL EL} {r : StaticGraph m k NL EL} {n : Nat}
    (ha : h.AnswersLike r n) {v : GView m k NL EL} (hv : r.view = .ok v) :
    ∃ u, h.view = .ok u ∧ (∀ start, Traversal.new u start = Traversal.new v start) ∧
      Bfs.next u = Bfs.next v ∧ Dfs.next u = Dfs.next v ∧ ConnComp.new u = ConnComp.new v := by
  have hw := ha.view
  rw [hv] at hw
  refine ⟨_, hw, fun start => ?_, ?_, ?_, ?_⟩
  · cases start <;> rfl
  · rfl
  · rfl
  · rfl

/-- **C115** for the mapped graph: a breadth-first search visits exactly the ids below the number of nodes of
the original graph, in the order of a search of the graph that has these ids as nodes and the edges between
them. -/
theorem c115_mapped_bfs (hg : Reachable g) {r : StaticGraph m k NL EL} (hr : g.intoStatic = .ok r) {c : Nat}
    {h : MmapGraph m k NL EL} (ha : h.AnswersLike r c) :
    ∃ u, h.view = .ok u ∧
      (∀ start, (∀ s, start = some s → s.val < g.nodeCount) → ∃ st l st', Traversal.new u start = .ok st ∧
        Yields (Bfs.next u) st l st' ∧ (g.abs.below g.nodeCount).Sweep (start.getD 0)
          (g.abs.below g.nodeCount).FirstIn l) ∧
      ∀ s : Id m, g.nodeCount ≤ s.val → Traversal.new u (some s) = .error .explicit := by
  obtain ⟨v, hv, h1, h2⟩ := c115_bfs hg hr
  obtain ⟨u, hu, e1, e2, -, -⟩ := c115_mapped_like ha hv
  refine ⟨u, hu, ?_, ?_⟩
  · intro start hs
    rw [e1, e2]
    exact h1 start hs
  · intro s hs
    rw [e1]
    exact h2 s hs

/-- **C115** for depth-first searches of the mapped graph. -/
theorem c115_mapped_dfs (hg : Reachable g) {r : StaticGraph m k NL EL} (hr : g.intoStatic = .ok r) {c : Nat}
    {h : MmapGraph m k NL EL} (ha : h.AnswersLike r c) :
    ∃ u, h.view = .ok u ∧
      (∀ start, (∀ s, start = some s → s.val < g.nodeCount) → ∃ st l st', Traversal.new u start = .ok st ∧
        Yields (Dfs.next u) st l st' ∧ (g.abs.below g.nodeCount).Sweep (start.getD 0)
          (g.abs.below g.nodeCount).LastIn l) ∧
      ∀ s : Id m, g.nodeCount ≤ s.val → Traversal.new u (some s) = .error .explicit := by
  obtain ⟨v, hv, h1, h2⟩ := c115_dfs hg hr
  obtain ⟨u, hu, e1, -, e2, -⟩ := c115_mapped_like ha hv
  refine ⟨u, hu, ?_, ?_⟩
  · intro start hs
    rw [e1, e2]
    exact h1 start hs
  · intro s hs
    rw [e1]
    exact h2 s hs

/-- **C115** for the components of the mapped graph. -/
theorem c115_mapped_components (hg : Reachable g) {r : StaticGraph m k NL EL} (hr : g.intoStatic = .ok r)
    {n : Nat} {h : MmapGraph m k NL EL} (ha : h.AnswersLike r n) :
    ∃ u c d, h.view = .ok u ∧ ConnComp.new g.view = .ok c ∧ ConnComp.new u = .ok d ∧
      c.getCount = d.getCount ∧
      (∀ a b, ∃ c' d' x, c.isConnected a b = .ok (c', x) ∧ d.isConnected a b = .ok (d', x)) ∧
      ∀ n, ∃ c' d' l l', c.getConnectedNodes n = .ok (c', l) ∧ d.getConnectedNodes n = .ok (d', l') ∧
        Option.Rel List.Perm l l' := by
  obtain ⟨v, c, d, hv, h1, h2, h3⟩ := c115_components hg hr
  obtain ⟨u, hu, -, -, -, e⟩ := c115_mapped_like ha hv
  exact ⟨u, c, d, hu, h1, e.trans h2, h3⟩

set_option maxRecDepth 8000 in
/-- `gappy` has nodes 1, 5 and 7 and an edge from 1 to 5; mapped, a search yields 0, 1, 2. -/
example : Reachable gappy ∧ ∃ r u st st', gappy.intoStatic = .ok r ∧ r.asMmap.view = .ok u ∧
    r.asMmap.AnswersLike r 8 ∧
    Traversal.new u none = .ok st ∧ Yields (Bfs.next u) st [0, 1, 2] st' := by
  have hM : gappy.nodeIndices.max? = some 7 := by decide
  obtain ⟨r, hr, ha⟩ := c50_frozen gappy_reachable hM (by decide)
  refine ⟨gappy_reachable, r, ?_⟩
  have hr' := hr
  cases hr
  exact ⟨_, _, _, hr', rfl, ha, rfl, 4, rfl⟩

end Verif.Props
