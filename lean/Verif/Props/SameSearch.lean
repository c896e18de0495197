import Verif.Props.Traversal
import Verif.Proof.SweepUnique

/-! C113: what a search yields depends on the start, the nodes and the edges only. -/

namespace Verif.Props

open Spec Traversal

variable {m k k' : Nat} {NL EL NL' EL' : Type} {g : GView m k NL EL} {h : GView m k' NL' EL'}
  {A : AGraph (Id m) NL EL} {B : AGraph (Id m) NL' EL'}

/-- **C113.** There is at most one list with the properties C66 states for a breadth-first search. -/
theorem c113_bfs_order_unique {s : Id m} {l l' : List (Id m)} (h : A.Sweep s A.FirstIn l)
    (h' : A.Sweep s A.FirstIn l') : l = l' :=
  AGraph.sweep_unique (fun h1 h2 h3 h4 h5 => AGraph.firstIn_unique h1 h2 h3 h4 h5) h h'

/-- **C113.** There is at most one list with the properties C66 states for a depth-first search. -/
theorem c113_dfs_order_unique {s : Id m} {l l' : List (Id m)} (h : A.Sweep s A.LastIn l)
    (h' : A.Sweep s A.LastIn l') : l = l' :=
  AGraph.sweep_unique (fun h1 h2 h3 h4 h5 => AGraph.lastIn_unique h1 h2 h3 h4 h5) h h'

/-- Two graphs behind the traits with the same nodes and edges, as far as `has_node` and `has_edge` tell. -/
def SameNodesAndEdges (g : GView m k NL EL) (h : GView m k' NL' EL') : Prop :=
  (∀ n, g.hasNode n = h.hasNode n) ∧ ∀ s t, g.hasNode s = true → g.hasEdge s t = h.hasEdge s t

theorem SameNodesAndEdges.alike (hs : Shows g A) (hh : Shows h B) (e : SameNodesAndEdges g h) : A.Alike B := by
  have h1 : ∀ n, (A.node n).isSome = (B.node n).isSome := fun n => by rw [← hs.hasNode, ← hh.hasNode, e.1]
  refine ⟨h1, fun s t => ?_⟩
  by_cases hn : (A.node s).isSome = true
  · have := e.2 s t (by rw [hs.hasNode]; exact hn)
    rw [hs.hasEdge s t hn, hh.hasEdge s t (by rw [← h1]; exact hn)] at this
    exact Except.ok.inj this
  · have ha : (A.edge s t).isSome = false := by
      by_contra hc
      exact hn (hs.ends s t (Bool.eq_true_of_not_eq_false hc)).1
    have hb : (B.edge s t).isSome = false := by
      by_contra hc
      exact hn (by rw [h1]; exact (hh.ends s t (Bool.eq_true_of_not_eq_false hc)).1)
    rw [ha, hb]

/-- **C113.** Breadth-first searches of two graphs with the same nodes and edges that begin at the same node
yield the same list. The graphs may be of different implementations, differ in labels, in what was removed
from them and in the order in which they enumerate nodes. -/
theorem c113_bfs (hs : Shows g A) (hh : Shows h B) (e : SameNodesAndEdges g h) {start start' : Option (Id m)}
    {s : Id m} (hb : BeginsAt g A start s) (hb' : BeginsAt h B start' s) :
    ∃ l st st' t t', Traversal.new g start = .ok st ∧ Yields (Bfs.next g) st l st' ∧
      Traversal.new h start' = .ok t ∧ Yields (Bfs.next h) t l t' := by
  have al := e.alike hs hh
  obtain ⟨st, l, st', a1, a2, -, a3⟩ := c66_bfs_order hs hb
  obtain ⟨t, l', t', b1, b2, -, b3⟩ := c66_bfs_order hh hb'
  have a4 := al.sweep a3
  rw [al.firstIn] at a4
  obtain rfl := c113_bfs_order_unique a4 b3
  exact ⟨l, st, st', t, t', a1, a2, b1, b2⟩

/-- **C113** for depth-first searches. -/
theorem c113_dfs (hs : Shows g A) (hh : Shows h B) (e : SameNodesAndEdges g h) {start start' : Option (Id m)}
    {s : Id m} (hb : BeginsAt g A start s) (hb' : BeginsAt h B start' s) :
    ∃ l st st' t t', Traversal.new g start = .ok st ∧ Yields (Dfs.next g) st l st' ∧
      Traversal.new h start' = .ok t ∧ Yields (Dfs.next h) t l t' := by
  have al := e.alike hs hh
  obtain ⟨st, l, st', a1, a2, -, a3⟩ := c66_dfs_order hs hb
  obtain ⟨t, l', t', b1, b2, -, b3⟩ := c66_dfs_order hh hb'
  have a4 := al.sweep a3
  rw [al.lastIn] at a4
  obtain rfl := c113_dfs_order_unique a4 b3
  exact ⟨l, st, st', t, t', a1, a2, b1, b2⟩

/-- The edges of `kite` given in another order, with labels, after a detour over node 9. -/
def kite2 : List (Op 9 3 String String) :=
  [.addNode 9 (some "x"), .addEdge 5 7 (some "e"), .addEdge 1 3 none, .addEdge 3 0 none, .addEdge 2 0 (some "f"),
    .addEdge 9 0 none, .addEdge 1 0 none, .removeNode 9]

set_option maxRecDepth 8000 in
/-- Non-vacuity: a graph with the structure of `kite`, but other labels, another largest id ever seen and
another enumeration order. Both searches from 3 give the same lists. -/
example : ∃ g : GraphMap 9 3 String String, GraphMap.Reachable g ∧ g.maxSeenId = some 9 ∧
    g.nodeIndices ≠ kite.nodeIndices ∧ g.view.getEdgeLabel 5 7 = .ok (some "e") ∧
    SameNodesAndEdges kite.view g.view ∧
    BeginsAt kite.view kite.abs (some 3) 3 ∧ BeginsAt g.view g.abs (some 3) 3 ∧
    (∃ st st', Traversal.new kite.view (some 3) = .ok st ∧ Yields (Bfs.next kite.view) st [3, 0, 1, 2, 5, 7] st') ∧
    (∃ st st', Traversal.new g.view (some 3) = .ok st ∧ Yields (Bfs.next g.view) st [3, 0, 1, 2, 5, 7] st') := by
  obtain ⟨g, h⟩ : ∃ g, (GraphMap.withLabelMap false SetMap.empty SetMap.empty).exec kite2 = .ok g := ⟨_, rfl⟩
  have hr : GraphMap.Reachable g := (GraphMap.exec_run h).reachable List.nodup_nil List.nodup_nil
  refine ⟨g, hr, ?_⟩
  cases h
  refine ⟨by decide, by decide, by decide, ⟨by decide, by decide⟩, ⟨by decide, .inl rfl⟩,
    ⟨by decide, .inl rfl⟩, ⟨_, _, rfl, ⟨9, rfl⟩⟩, ⟨_, _, rfl, ⟨9, rfl⟩⟩⟩

end Verif.Props
