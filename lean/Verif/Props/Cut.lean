import Verif.Proof.Cut
import Verif.Props.Cycles
import Verif.Props.Shapes

/-! C153: what `remove_node` does to the components. -/

namespace Verif.Props

open Spec GraphMap

variable {m k : Nat} {NL EL : Type} [DecidableEq NL] [DecidableEq EL]

theorem removed_avoids {g g' : GraphMap m k NL EL} (hg : Reachable g) {n : Id m}
    (h : g.apply (.removeNode n) = .ok g') : Cut.Avoids g.abs g'.abs n := by
  intro a b
  rw [Cycles.edge_shape hg h, ← Cycles.decode_edge hg]
  simp only [Spec.step, AGraph.removeNode]
  split
  · rename_i hc
    simp only [Option.isSome_none, Bool.false_eq_true, false_iff, not_and, not_not]
    intro _ ha
    rcases hc with hc | hc
    · exact absurd hc ha
    · exact hc
  · rename_i hc
    rw [not_or] at hc
    simp [hc]

/-- **C153.** After `remove_node` two nodes are connected if a path between them avoids the node, and nodes
that were not connected with it are connected as before. -/
theorem c153_connected {g g' : GraphMap m k NL EL} (hg : Reachable g) {n : Id m}
    (h : g.apply (.removeNode n) = .ok g') (a b : Id m) :
    (g'.abs.Connected a b ↔ Relation.EqvGen (fun s t => (g.abs.edge s t).isSome ∧ s ≠ n ∧ t ≠ n) a b) ∧
    (¬ g.abs.Connected a n → (g'.abs.Connected a b ↔ g.abs.Connected a b)) := by
  have H := removed_avoids hg h
  refine ⟨?_, fun hn => ⟨H.connected, fun h' => H.away h' hn⟩⟩
  constructor
  · exact Relation.EqvGen.mono (fun a b => (H a b).1) _ _
  · exact Relation.EqvGen.mono (fun a b => (H a b).2) _ _

/-- **C153.** The count of components: that of the node is replaced by what is left of it, which falls into
at most as many pieces as the node had neighbours. -/
theorem c153_count {g g' : GraphMap m k NL EL} (hg : Reachable g) {n : Id m}
    (h : g.apply (.removeNode n) = .ok g') :
    ∃ c c' p, ConnComp.new g.view = .ok c ∧ ConnComp.new g'.view = .ok c' ∧
      p = {C : Set (Id m) | ∃ x, g'.abs.Touched x ∧ g.abs.Connected n x ∧ C = {y | g'.abs.Connected x y}}.ncard ∧
      (g.abs.Touched n → c'.getCount + 1 = c.getCount + p) ∧ (¬ g.abs.Touched n → c'.getCount = c.getCount) ∧
      p ≤ {y | (g.abs.edge n y).isSome ∨ (g.abs.edge y n).isSome}.ncard := by
  have H := removed_avoids hg h
  obtain ⟨c, h1, h2⟩ := c36_graph (reachable_shows hg)
  obtain ⟨c', h3, h4⟩ := c36_graph (reachable_shows (.step hg h))
  obtain ⟨k1, k2⟩ := H.count
  refine ⟨c, c', _, h1, h3, rfl, fun hn => ?_, fun hn => ?_, ?_⟩
  · rw [h2, h4]; exact k1 hn
  · rw [h2, h4]; exact k2 hn
  · refine H.pieces_le.trans (Set.ncard_le_ncard (fun y hy => hy.2) (Set.toFinite _))

/-- **C153.** Removing a node with a single neighbour, which has other neighbours, leaves the count and what is
connected among the other nodes. -/
theorem c153_leaf {g g' : GraphMap m k NL EL} (hg : Reachable g) {n v : Id m}
    (h : g.apply (.removeNode n) = .ok g') (hv : ∀ y, (g.abs.edge n y).isSome ∨ (g.abs.edge y n).isSome ↔ y = v)
    {w : Id m} (hw : (g.abs.edge v w).isSome ∨ (g.abs.edge w v).isSome) (hwn : w ≠ n) (hvn : v ≠ n) :
    ∃ c c', ConnComp.new g.view = .ok c ∧ ConnComp.new g'.view = .ok c' ∧ c'.getCount = c.getCount ∧
      ∀ a b, a ≠ n → b ≠ n → (g'.abs.Connected a b ↔ g.abs.Connected a b) := by
  have H := removed_avoids hg h
  have stay : ∀ x, g.abs.Connected n x → x ≠ n → g'.abs.Connected x v := by
    intro x hx hne
    obtain ⟨y, h1, h2, h3⟩ := H.neighbour (.symm _ _ hx) hne
    rw [hv] at h2
    exact h2 ▸ h3
  have hnv : g.abs.Connected n v := by
    rcases (hv v).2 rfl with e | e
    · exact .rel _ _ e
    · exact .symm _ _ (.rel _ _ e)
  have htv : g'.abs.Touched v := by
    rcases hw with e | e
    · exact ⟨w, .inl ((H _ _).2 ⟨e, hvn, hwn⟩)⟩
    · exact ⟨w, .inr ((H _ _).2 ⟨e, hwn, hvn⟩)⟩
  obtain ⟨c, c', p, h1, h2, h3, h4, -, -⟩ := c153_count hg h
  refine ⟨c, c', h1, h2, ?_, fun a b ha hb => ⟨H.connected, fun hab => ?_⟩⟩
  · have : p = 1 := by
      rw [h3, Set.ncard_eq_one]
      refine ⟨{y | g'.abs.Connected v y}, Set.ext fun C => ?_⟩
      rw [Set.mem_singleton_iff]
      constructor
      · rintro ⟨x, hx, hnx, rfl⟩
        exact Cut.class_eq (stay x hnx (H.touched hx).1)
      · rintro rfl
        exact ⟨v, htv, hnv, rfl⟩
    have := h4 (by
      rcases (hv v).2 rfl with e | e
      · exact ⟨v, .inl e⟩
      · exact ⟨v, .inr e⟩)
    omega
  · by_cases hn : g.abs.Connected a n
    · have ha' := stay a (.symm _ _ hn) ha
      have hb' := stay b (.trans _ _ _ (.symm _ _ hn) hab) hb
      exact .trans _ _ _ ha' (.symm _ _ hb')
    · exact H.away hab hn

/-- `kite` is the triangle 0-1-3 with 2 at 0, and 5-7. Taking 2 away leaves both components, taking 0 away leaves
1-3 and 5-7, taking 5 away leaves one; on the path 0-1-2-3-4 taking 2 away leaves two. -/
example : Reachable kite ∧
    (do let g ← kite.apply (.removeNode 2)
        return (← ConnComp.new g.view).getCount) = .ok 2 ∧
    (do let g ← kite.apply (.removeNode 0)
        return (← ConnComp.new g.view).getCount) = .ok 2 ∧
    (do let g ← kite.apply (.removeNode 5)
        return (← ConnComp.new g.view).getCount) = .ok 1 ∧
    (do let g ← (GraphMap.new false : GraphMap 9 3 String String).exec (pathCalls 4 (fun _ => none))
        let g ← g.apply (.removeNode 2)
        return (← ConnComp.new g.view).getCount) = .ok 2 :=
  ⟨kite_reachable, by decide, by decide, by decide, by decide⟩

/-- The hypotheses of `c153_leaf` for node 2 of `kite`. -/
example : (∀ y, (kite.abs.edge 2 y).isSome ∨ (kite.abs.edge y 2).isSome ↔ y = 0) ∧
    ((kite.abs.edge 0 1).isSome ∨ (kite.abs.edge 1 0).isSome) ∧ (kite.apply (.removeNode 2)).toBool = true := by
  simp only [abs_edge_isSome kite_reachable.inv]
  decide

end Verif.Props
