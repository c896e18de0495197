import Verif.Proof.ConnCompGraph
import Verif.Props.Traversal

/-! C35–C38: what `ConnComp` answers, after any sequence of edges, queries and resets. `E` is always the
list of edges processed since the last reset. -/

namespace Verif.Props

open Verif.Spec

variable {m k : Nat} {NL EL : Type}

/-- **C35** Processing an edge never panics. -/
theorem c35_process_total {E : List (Id m × Id m)} {c : ConnComp m} (H : History E c) (x y : Id m) :
    ∃ c', c.processEdge x y = .ok c' := by
  obtain ⟨rep, I⟩ := ConnComp.history_inv H
  obtain ⟨c', h, _⟩ := ConnComp.inv_edge I x y
  exact ⟨c', h⟩

/-- **C35** `is_connected` never panics and is true exactly when both nodes occurred in an edge and are
linked by a path of processed edges, ignoring direction. -/
theorem c35_is_connected {E : List (Id m × Id m)} {c : ConnComp m} (H : History E c) (a b : Id m) :
    ∃ c' r, c.isConnected a b = .ok (c', r) ∧ (r = true ↔ Occurs E a ∧ Occurs E b ∧ Linked E a b) := by
  obtain ⟨rep, I⟩ := ConnComp.history_inv H
  obtain ⟨c', r, h, _, h', _⟩ := ConnComp.isConnected_ok I a b
  exact ⟨c', r, h, h'⟩

/-- **C35** The detection over a graph: connectivity is that of the graph, among the nodes with an edge. -/
theorem c35_graph {g : GView m k NL EL} {A : AGraph (Id m) NL EL} (S : Shows g A) :
    ∃ c, ConnComp.new g = .ok c ∧ ∀ a b, ∃ c' r, c.isConnected a b = .ok (c', r) ∧
      (r = true ↔ A.Touched a ∧ A.Touched b ∧ A.Connected a b) := by
  obtain ⟨c, h, H⟩ := ConnComp.new_history S
  refine ⟨c, h, fun a b => ?_⟩
  obtain ⟨c', r, h1, h2⟩ := c35_is_connected H a b
  refine ⟨c', r, h1, ?_⟩
  rw [h2, ConnComp.occurs_graph S, ConnComp.occurs_graph S, ConnComp.linked_graph S]

/-- **C36** The count is the number of connected components among the nodes that occurred in an edge. -/
theorem c36_count {E : List (Id m × Id m)} {c : ConnComp m} (H : History E c) :
    c.getCount = (components E).ncard := by
  obtain ⟨rep, I⟩ := ConnComp.history_inv H
  exact I.count_components

/-- **C36** `get_connected_nodes` of a node without edge is `None`, otherwise it lists exactly the nodes
connected to it, each once. -/
theorem c36_connected_nodes {E : List (Id m × Id m)} {c : ConnComp m} (H : History E c) (n : Id m) :
    (¬ Occurs E n → c.getConnectedNodes n = .ok (c, none)) ∧
    (Occurs E n → ∃ c' l, c.getConnectedNodes n = .ok (c', some l) ∧ l.Nodup ∧
      ∀ x, x ∈ l ↔ Linked E n x) := by
  obtain ⟨rep, I⟩ := ConnComp.history_inv H
  refine ⟨ConnComp.getConnectedNodes_none I, fun ho => ?_⟩
  obtain ⟨c', h1, _, _, h2, h3⟩ := ConnComp.getConnectedNodes_ok I ho
  exact ⟨c', _, h1, h2, h3⟩

/-- **C36** On a graph: the count is the number of components that contain an edge, so isolated nodes are
not counted. -/
theorem c36_graph {g : GView m k NL EL} {A : AGraph (Id m) NL EL} (S : Shows g A) :
    ∃ c, ConnComp.new g = .ok c ∧
      c.getCount = {C : Set (Id m) | ∃ n, A.Touched n ∧ C = {x | A.Connected n x}}.ncard := by
  obtain ⟨c, h, H⟩ := ConnComp.new_history S
  refine ⟨c, h, ?_⟩
  rw [c36_count H]
  congr 1
  ext C
  unfold components component
  simp only [Set.mem_ofPred_eq, ConnComp.occurs_graph S, ConnComp.linked_graph S]

/-- **C37** `get_root` terminates on every node that occurred in an edge, with a node of its component, and
connected nodes have the same root. -/
theorem c37_root {E : List (Id m × Id m)} {c : ConnComp m} (H : History E c) :
    ∃ rep : Id m → Id m, (∀ n, Occurs E n → ∃ c', c.getRoot n = .ok (c', some (rep n))) ∧
      (∀ n, Linked E n (rep n)) ∧ (∀ a b, rep a = rep b ↔ Linked E a b) := by
  obtain ⟨rep, I⟩ := ConnComp.history_inv H
  refine ⟨rep, fun n ho => ?_, fun n => ?_, I.linked⟩
  · obtain ⟨c', h, _⟩ := ConnComp.getRoot_ok I ho
    exact ⟨c', h⟩
  · obtain ⟨h, F⟩ := I.forest
    exact (I.linked _ _).1 (F.rep_rep n).symm

/-- **C37** `get_root` of a node that never occurred panics. -/
theorem c37_unknown_panics {E : List (Id m × Id m)} {c : ConnComp m} (H : History E c) {n : Id m}
    (ho : ¬ Occurs E n) : c.getRoot n = .error .nodeMissing := by
  obtain ⟨rep, I⟩ := ConnComp.history_inv H
  exact ConnComp.getRoot_missing I ho

/-- **C37** A query is invisible: whatever calls follow, they are answered as if the query had not been
made. -/
theorem c37_query_invisible {E : List (Id m × Id m)} {c c' : ConnComp m} (H : History E c)
    (hq : (∃ n r, c.getRoot n = .ok (c', r)) ∨ (∃ a b r, c.isConnected a b = .ok (c', r)) ∨
      (∃ n r, c.getConnectedNodes n = .ok (c', r))) (calls : List (Call m)) :
    script c' calls = script c calls := by
  obtain ⟨rep, I⟩ := ConnComp.history_inv H
  apply ConnComp.alike_script
  rcases hq with ⟨n, r, h⟩ | ⟨a, b, r, h⟩ | ⟨n, r, h⟩
  · by_cases ho : Occurs E n
    · obtain ⟨d, g, J, hk⟩ := ConnComp.getRoot_ok I ho
      rw [h] at g
      cases g
      exact ⟨_, _, J, I, hk⟩
    · rw [ConnComp.getRoot_missing I ho] at h; cases h
  · obtain ⟨d, s, g, J, _, hk⟩ := ConnComp.isConnected_ok I a b
    rw [h] at g
    cases g
    exact ⟨_, _, J, I, hk⟩
  · by_cases ho : Occurs E n
    · obtain ⟨d, g, J, hk, _⟩ := ConnComp.getConnectedNodes_ok I ho
      rw [h] at g
      cases g
      exact ⟨_, _, J, I, hk⟩
    · rw [ConnComp.getConnectedNodes_none I ho] at h
      cases h
      exact ⟨_, _, I, I, rfl⟩

/-- Two edge lists with the same edges up to orientation (and repetition). -/
def SameEdges (E E' : List (Id m × Id m)) : Prop :=
  ∀ a b, ((a, b) ∈ E ∨ (b, a) ∈ E) ↔ ((a, b) ∈ E' ∨ (b, a) ∈ E')

/-- Reordering edges and turning some of them around gives the same edges. -/
theorem sameEdges_of_perm {E F E' : List (Id m × Id m)} (hp : E.Perm F)
    (ho : List.Forall₂ (fun e f => f = e ∨ f = (e.2, e.1)) F E') : SameEdges E E' := by
  have h1 : ∀ a b, (a, b) ∈ F → (a, b) ∈ E' ∨ (b, a) ∈ E' := by
    clear hp
    induction ho with
    | nil => intro a b h; simp at h
    | cons h _ ih =>
      intro a b hab
      rcases List.mem_cons.1 hab with e | hab
      · subst e
        rcases h with h | h
        · exact .inl (by rw [h]; exact List.mem_cons_self)
        · exact .inr (by rw [h]; exact List.mem_cons_self)
      · rcases ih a b hab with g | g
        · exact .inl (List.mem_cons_of_mem _ g)
        · exact .inr (List.mem_cons_of_mem _ g)
  have h2 : ∀ a b, (a, b) ∈ E' → (a, b) ∈ F ∨ (b, a) ∈ F := by
    clear hp h1
    induction ho with
    | nil => intro a b h; simp at h
    | @cons e f _ _ h _ ih =>
      intro a b hab
      rcases List.mem_cons.1 hab with e' | hab
      · rcases h with h | h
        · exact .inl (by rw [e', h]; exact List.mem_cons_self)
        · refine .inr ?_
          have : e = (b, a) := by
            rw [← e'] at h
            simp only [Prod.mk.injEq] at h
            exact Prod.ext h.2.symm h.1.symm
          rw [this]; exact List.mem_cons_self
      · rcases ih a b hab with g | g
        · exact .inl (List.mem_cons_of_mem _ g)
        · exact .inr (List.mem_cons_of_mem _ g)
  intro a b
  constructor
  · rintro (h | h)
    · exact h1 a b (hp.mem_iff.1 h)
    · exact (h1 b a (hp.mem_iff.1 h)).symm
  · rintro (h | h)
    · exact (h2 a b h).imp hp.mem_iff.2 hp.mem_iff.2
    · exact (h2 b a h).symm.imp hp.mem_iff.2 hp.mem_iff.2

theorem occurs_ext {E E' : List (Id m × Id m)} (h : SameEdges E E') (n : Id m) :
    Occurs E n ↔ Occurs E' n := by
  have key : ∀ {E E' : List (Id m × Id m)}, SameEdges E E' → Occurs E n → Occurs E' n := by
    rintro E E' h ⟨⟨s, t⟩, he, hn⟩
    rcases (h s t).1 (.inl he) with g | g
    · exact ⟨_, g, hn⟩
    · exact ⟨_, g, hn.symm⟩
  exact ⟨key h, key (fun a b => (h a b).symm)⟩

/-- **C38** Connectivity answers and the count do not depend on the order or orientation in which edges
were processed (nor on repetitions, nor on queries and resets in between). -/
theorem c38_order_independent {E E' : List (Id m × Id m)} {c d : ConnComp m} (H : History E c)
    (H' : History E' d) (hE : SameEdges E E') :
    (∀ a b, ∃ c' d' r, c.isConnected a b = .ok (c', r) ∧ d.isConnected a b = .ok (d', r)) ∧
    c.getCount = d.getCount ∧
    (∀ n, ∃ c' d' l l', c.getConnectedNodes n = .ok (c', l) ∧ d.getConnectedNodes n = .ok (d', l') ∧
      Option.Rel List.Perm l l') := by
  have hl : ∀ a b, Linked E a b ↔ Linked E' a b := ConnComp.linked_ext hE
  have ho : ∀ n, Occurs E n ↔ Occurs E' n := occurs_ext hE
  refine ⟨fun a b => ?_, ?_, fun n => ?_⟩
  · obtain ⟨c', r, h1, h2⟩ := c35_is_connected H a b
    obtain ⟨d', s, h3, h4⟩ := c35_is_connected H' a b
    have : s = r := Bool.eq_iff_iff.2 (by rw [h2, h4, hl, ho, ho])
    subst this
    exact ⟨c', d', s, h1, h3⟩
  · rw [c36_count H, c36_count H']
    unfold components component
    simp only [hl, ho]
  · obtain ⟨h1, h2⟩ := c36_connected_nodes H n
    obtain ⟨h3, h4⟩ := c36_connected_nodes H' n
    by_cases hn : Occurs E n
    · obtain ⟨c', l, e1, e2, e3⟩ := h2 hn
      obtain ⟨d', l', e4, e5, e6⟩ := h4 ((ho n).1 hn)
      refine ⟨c', d', some l, some l', e1, e4, .some ?_⟩
      rw [List.perm_ext_iff_of_nodup e2 e5]
      intro x
      rw [e3, e6, hl]
    · exact ⟨c, d, none, none, h1 hn, h3 (fun h => hn ((ho n).2 h)), .none⟩

/-! Concrete cases. -/

/-- Edges 0-1, 2-3, 4-5, 3-1 and a loop 7-7. -/
def pathEdges : List (Id 9 × Id 9) := [(0, 1), (2, 3), (4, 5), (3, 1), (7, 7)]

def pathComp : ConnComp 9 := ⟨[(0, 1), (1, 1), (2, 3), (3, 1), (4, 5), (5, 5), (7, 7)], 3⟩

theorem pathComp_history : History pathEdges pathComp := by
  refine (History.edge (E := [(0, 1), (2, 3), (4, 5), (3, 1)]) (x := 7) (y := 7)
    (c := ⟨[(0, 1), (1, 1), (2, 3), (3, 1), (4, 5), (5, 5)], 2⟩) ?_ (by decide))
  refine (History.edge (E := [(0, 1), (2, 3), (4, 5)]) (x := 3) (y := 1)
    (c := ⟨[(0, 1), (1, 1), (2, 3), (3, 3), (4, 5), (5, 5)], 3⟩) ?_ (by decide))
  refine (History.edge (E := [(0, 1), (2, 3)]) (x := 4) (y := 5)
    (c := ⟨[(0, 1), (1, 1), (2, 3), (3, 3)], 2⟩) ?_ (by decide))
  refine (History.edge (E := [(0, 1)]) (x := 2) (y := 3)
    (c := ⟨[(0, 1), (1, 1)], 1⟩) ?_ (by decide))
  exact History.edge (E := []) (x := 0) (y := 1) History.empty (by decide)

/-- The same edges in another order and orientation: other roots, same answers. -/
def pathEdges' : List (Id 9 × Id 9) := [(7, 7), (1, 3), (5, 4), (2, 3), (1, 0)]

def pathComp' : ConnComp 9 := ⟨[(7, 7), (1, 3), (3, 0), (5, 4), (4, 4), (2, 3), (0, 0)], 3⟩

theorem pathComp'_history : History pathEdges' pathComp' := by
  refine (History.edge (E := [(7, 7), (1, 3), (5, 4), (2, 3)]) (x := 1) (y := 0)
    (c := ⟨[(7, 7), (1, 3), (3, 3), (5, 4), (4, 4), (2, 3)], 3⟩) ?_ (by decide))
  refine (History.edge (E := [(7, 7), (1, 3), (5, 4)]) (x := 2) (y := 3)
    (c := ⟨[(7, 7), (1, 3), (3, 3), (5, 4), (4, 4)], 3⟩) ?_ (by decide))
  refine (History.edge (E := [(7, 7), (1, 3)]) (x := 5) (y := 4)
    (c := ⟨[(7, 7), (1, 3), (3, 3)], 2⟩) ?_ (by decide))
  refine (History.edge (E := [(7, 7)]) (x := 1) (y := 3) (c := ⟨[(7, 7)], 1⟩) ?_ (by decide))
  exact History.edge (E := []) (x := 7) (y := 7) History.empty (by decide)

example : SameEdges pathEdges pathEdges' ∧ (pathComp.getRoot 2).map Prod.snd = .ok (some 1) ∧
    (pathComp'.getRoot 2).map Prod.snd = .ok (some 0) :=
  ⟨by unfold SameEdges; decide, by decide, by decide⟩

/-- A query compresses paths, visibly to `get_parent` only. -/
example : pathComp.getParent 2 = some 3 ∧
    (pathComp.getRoot 2).map (fun r => (r.1.getParent 2, r.2)) = .ok (some 1, some 1) := by decide

/-- A node of each kind: linked, apart, unknown. -/
example : (pathComp.isConnected 0 2).map Prod.snd = .ok true ∧
    (pathComp.isConnected 0 4).map Prod.snd = .ok false ∧
    (pathComp.isConnected 8 8).map Prod.snd = .ok false ∧ pathComp.getCount = 3 ∧
    (pathComp.getConnectedNodes 2).map Prod.snd = .ok (some [0, 1, 2, 3]) ∧
    pathComp.getRoot 8 = .error .nodeMissing ∧
    script pathComp [.root 2, .edge 5 0, .count, .nodes 4, .reset, .count] =
      .ok [.id (some 1), .unit, .nat 2, .list (some [0, 1, 2, 3, 4, 5]), .unit, .nat 0] := by decide

example : ¬ Occurs pathEdges 8 ∧ Occurs pathEdges 2 :=
  ⟨by unfold Occurs; decide, by unfold Occurs; decide⟩

/-- C35 and C36 on a graph. -/
example : Shows kite.view kite.abs ∧ (ConnComp.new kite.view).map ConnComp.getCount = .ok 2 :=
  ⟨reachable_shows kite_reachable, by decide⟩

end Verif.Props
