import Verif.Proof.SearchMoment
import Verif.Props.Traversal
import Mathlib.Data.Set.Card

/-! C131: a search between two calls of `next`, and what it reads altogether. -/

namespace Verif.Props

open Spec Traversal

variable {m k : Nat} {NL EL : Type} {g : GView m k NL EL} {A : AGraph (Id m) NL EL}

/-- What a search begun at `s` holds when it has yielded `V`: the nodes waiting are the start, if nothing was
yielded, and the nodes not yielded that some yielded one has an edge to, each once; a node is marked
undiscovered if it was neither yielded nor waits. -/
structure Moment (A : AGraph (Id m) NL EL) (s : Id m) (V : List (Id m)) (st : Traversal m) : Prop where
  once : V.Nodup ∧ st.work.Nodup
  nodes : ∀ n ∈ V, (A.node n).isSome
  waiting : ∀ n, n ∈ st.work ↔ n ∉ V ∧ ((V = [] ∧ n = s) ∨ ∃ u ∈ V, (A.edge u n).isSome)
  marked : ∀ n, (A.node n).isSome → (st.undiscovered.contains n.val = true ↔ n ∉ V ∧ n ∉ st.work)

theorem moment_of (h : SInv A V st)
    (hw : ∀ n, n ∈ st.work ↔ n ∉ V ∧ ((V = [] ∧ n = s) ∨ ∃ u ∈ V, (A.edge u n).isSome)) : Moment A s V st :=
  ⟨⟨(List.nodup_append'.1 h.nodup).1, (List.nodup_append'.1 h.nodup).2.1⟩,
    fun n hn => h.nodes n (List.mem_append_left _ hn), hw,
    fun n hn => (h.bits n hn).trans (by rw [List.mem_append, not_or])⟩

/-- **C131.** A breadth-first search interrupted anywhere. The next call yields a waiting node; if none waits,
the smallest node left; if none is left, `None`, and the state stays. At no time are more nodes yielded and
waiting than the graph has. -/
theorem c131_bfs (hs : Shows g A) {start : Option (Id m)} {s : Id m} (h : BeginsAt g A start s)
    {st0 st : Traversal m} {V : List (Id m)} (hnew : Traversal.new g start = .ok st0)
    (hV : Steps (Bfs.next g) st0 V st) :
    Moment A s V st ∧ V.length + st.work.length ≤ g.nodeCount ∧
    ((∀ n, (A.node n).isSome → n ∈ V) → Bfs.next g st = .ok (none, st)) ∧
    ((∃ n, (A.node n).isSome ∧ n ∉ V) → ∃ x st', Bfs.next g st = .ok (some x, st') ∧
      x ∉ V ∧ (A.node x).isSome ∧ (∀ y ys, st.work = y :: ys → x = y) ∧
      (st.work = [] → ∀ n, (A.node n).isSome → n ∉ V → x ≤ n)) := by
  rw [bfs_next] at hV ⊢
  obtain ⟨h1, h2⟩ := moment pops_front hs h.1 h.2 hnew hV
  obtain ⟨h3, h4⟩ := next_cases pops_front hs h1
  refine ⟨moment_of h1 h2, ?_, h3, fun hex => ?_⟩
  · rw [hs.nodeCount, ← List.length_append]; exact nodes_bound hs h1.nodup h1.nodes
  · obtain ⟨x, st', e1, e2, e3, -, e5⟩ := h4 hex
    refine ⟨x, st', e1, e2, e3, fun y ys hy => ?_, e5⟩
    obtain ⟨x', rest, news, st1, i1, -, i3, -⟩ := next_step pops_front hs h1 (by rw [hy]; exact List.cons_ne_nil _ _)
    rw [e1] at i3; cases i3
    rw [hy] at i1
    exact (Prod.mk.injEq .. ▸ Option.some.inj i1).1.symm

/-- **C131** for the depth-first search, which yields the last of the waiting nodes. -/
theorem c131_dfs (hs : Shows g A) {start : Option (Id m)} {s : Id m} (h : BeginsAt g A start s)
    {st0 st : Traversal m} {V : List (Id m)} (hnew : Traversal.new g start = .ok st0)
    (hV : Steps (Dfs.next g) st0 V st) :
    Moment A s V st ∧ V.length + st.work.length ≤ g.nodeCount ∧
    ((∀ n, (A.node n).isSome → n ∈ V) → Dfs.next g st = .ok (none, st)) ∧
    ((∃ n, (A.node n).isSome ∧ n ∉ V) → ∃ x st', Dfs.next g st = .ok (some x, st') ∧
      x ∉ V ∧ (A.node x).isSome ∧ (∀ ys y, st.work = ys ++ [y] → x = y) ∧
      (st.work = [] → ∀ n, (A.node n).isSome → n ∉ V → x ≤ n)) := by
  rw [dfs_next] at hV ⊢
  obtain ⟨h1, h2⟩ := moment pops_back hs h.1 h.2 hnew hV
  obtain ⟨h3, h4⟩ := next_cases pops_back hs h1
  refine ⟨moment_of h1 h2, ?_, h3, fun hex => ?_⟩
  · rw [hs.nodeCount, ← List.length_append]; exact nodes_bound hs h1.nodup h1.nodes
  · obtain ⟨x, st', e1, e2, e3, -, e5⟩ := h4 hex
    refine ⟨x, st', e1, e2, e3, fun ys y hy => ?_, e5⟩
    obtain ⟨x', rest, news, st1, i1, -, i3, -⟩ := next_step pops_back hs h1 (by rw [hy]; simp)
    rw [e1] at i3; cases i3
    rw [hy] at i1
    simp only [popBack, List.getLast?_append, List.getLast?_singleton, Option.some_or] at i1
    exact (Prod.mk.injEq .. ▸ Option.some.inj i1).1.symm

/-- **C131.** Together the lists of neighbours a search goes through, one for each node it yields, hold each
edge once, both directions of an undirected edge counted. What the restarts cost besides is C147. -/
theorem c131_reads (hs : Shows g A) {start : Option (Id m)} {s : Id m} (h : BeginsAt g A start s)
    {st st' : Traversal m} {l : List (Id m)} (hnew : Traversal.new g start = .ok st)
    (hl : Yields (Bfs.next g) st l st' ∨ Yields (Dfs.next g) st l st') :
    l.length = g.nodeCount ∧ ∃ ns, l.mapM g.neighbors = .ok ns ∧
      ns.flatten.length = {e : Id m × Id m | (A.edge e.1 e.2).isSome}.ncard := by
  have : l.Nodup ∧ ∀ n, n ∈ l ↔ (A.node n).isSome := by
    rcases hl with hl | hl
    · obtain ⟨st1, l1, st2, e1, e2, -, -, e3, e4⟩ := c31_bfs_visits_once hs h
      rw [hnew] at e1; cases e1
      obtain ⟨rfl, -⟩ := e2.unique hl
      exact ⟨e3, e4⟩
    · obtain ⟨st1, l1, st2, e1, e2, -, -, e3, e4, -⟩ := c33_dfs_visits_once hs h
      rw [hnew] at e1; cases e1
      obtain ⟨rfl, -⟩ := e2.unique hl
      exact ⟨e3, e4⟩
  refine ⟨?_, read_count hs this.1 this.2⟩
  rw [hs.nodeCount]
  exact ((List.perm_ext_iff_of_nodup this.1 hs.nodesNodup).2
    (fun n => (this.2 n).trans (hs.memNodes n).symm)).length_eq

/-- Searches of `kite` from 3 after two nodes each. -/
example : Shows kite.view kite.abs ∧ BeginsAt kite.view kite.abs (some 3) 3 ∧
    ∃ st0 sb sd, Traversal.new kite.view (some 3) = .ok st0 ∧
      Steps (Bfs.next kite.view) st0 [3, 0] sb ∧ sb.work = [1, 2] ∧
      Steps (Dfs.next kite.view) st0 [3, 1] sd ∧ sd.work = [0] := by
  refine ⟨reachable_shows kite_reachable, ⟨by decide, .inl rfl⟩, _, _, _, rfl, .cons rfl (.cons rfl (.nil _)), by decide,
    .cons rfl (.cons rfl (.nil _)), by decide⟩

end Verif.Props
