import Verif.Props.Equality

/-! What `equal`, `==` and `Hash` decide, with no assumption on counters: C84. -/

namespace Verif.Props

open Verif Verif.GraphMap Verif.Spec

variable {m k k' : Nat} {NL EL : Type} [DecidableEq NL] [DecidableEq EL]

/-- **C84.** `equal` on any two graphs that present labelled graphs, whatever their counters say: it
does not panic and is true exactly when directedness and both counters agree and the first graph is a
labelled subgraph of the second. -/
theorem c84_equal_exact {g : GView m k NL EL} {h : GView m k' NL EL} {A B : AGraph (Id m) NL EL}
    (hg : Shows g A) (hh : Shows h B) :
    ∃ b, g.equal h = .ok b ∧ (b = true ↔ g.directed = h.directed ∧ g.nodeCount = h.nodeCount ∧
      g.edgeCount = h.edgeCount ∧ A.Sub B) := by
  unfold GView.equal
  by_cases hc : g.directed = h.directed ∧ g.nodeCount = h.nodeCount ∧ g.edgeCount = h.edgeCount
  · obtain ⟨hd, hn, he⟩ := hc
    obtain ⟨b, h1, h2⟩ := GView.contained_ok hg hh hd
    exact ⟨b, by simp [hd, hn, he, h1], by rw [h2]; simp [hd, hn, he]⟩
  · refine ⟨false, ?_, ?_⟩
    · rw [if_pos]
      · rfl
      · simp only [Bool.or_eq_true, bne_iff_ne, ne_eq]
        by_contra hcon
        simp only [not_or, not_not] at hcon
        exact hc ⟨hcon.1.1, hcon.1.2, hcon.2⟩
    · simp only [Bool.false_eq_true, false_iff]
      rintro ⟨hd, hn, he, -⟩
      exact hc ⟨hd, hn, he⟩

/-- **C84.** When `equal` answers true, the graphs are the same exactly if they list equally many
edges. -/
theorem c84_equal_right_iff {g : GView m k NL EL} {h : GView m k' NL EL} {A B : AGraph (Id m) NL EL}
    (hg : Shows g A) (hh : Shows h B) (heq : g.equal h = .ok true) :
    SameGraph g h ↔ g.edgeIndices.length = h.edgeIndices.length := by
  obtain ⟨b, h1, h2⟩ := c84_equal_exact hg hh
  rw [heq] at h1
  cases h1
  obtain ⟨hd, hn, -, hs⟩ := h2.1 rfl
  rw [sameGraph_iff hg hh]
  constructor
  · rintro ⟨-, rfl⟩
    rw [shows_edgeNumber hg, shows_edgeNumber hh, hd]
  · intro hlen
    refine ⟨hd, sub_eq hs hg.sym (fun e => hh.sym (hd ▸ e)) ?_ ?_⟩
    · rw [← shows_nodeNumber hg, ← shows_nodeNumber hh, hn]
    · rw [← shows_edgeNumber hg, hd, ← shows_edgeNumber hh, hlen]

omit [DecidableEq NL] [DecidableEq EL] in
/-- **C84.** The data fed to the hasher identify the graph: two graphs of one directedness feed the
same data exactly when they are the same labelled graph. -/
theorem c84_hash_data_iff {g : GView m k NL EL} {h : GView m k' NL EL} {A B : AGraph (Id m) NL EL}
    (hg : Shows g A) (hh : Shows h B) (hd : g.directed = h.directed) :
    g.hashData = h.hashData ↔ SameGraph g h := by
  refine ⟨fun heq => ?_, fun hs => (c19_same_graph_same_hash hg hh hs).2.1⟩
  rw [GView.hashData_ok hg, GView.hashData_ok hh] at heq
  simp only [Except.ok.injEq, Prod.mk.injEq] at heq
  obtain ⟨h1, h2, h3, h4⟩ := heq
  have hmemN : ∀ n, n ∈ g.nodeIndices ↔ n ∈ h.nodeIndices := by
    intro n
    rw [← (List.mergeSort_perm g.nodeIndices (fun a b => decide (a ≤ b))).mem_iff, h1,
      (List.mergeSort_perm h.nodeIndices _).mem_iff]
  have hmemE : ∀ e, e ∈ g.edgeIndices ↔ e ∈ h.edgeIndices := by
    intro e
    rw [← (List.mergeSort_perm g.edgeIndices GView.pairLe).mem_iff, h3,
      (List.mergeSort_perm h.edgeIndices _).mem_iff]
  have hnode : ∀ n, A.node n = B.node n := by
    intro n
    by_cases hn : n ∈ g.nodeIndices
    · have hA := (hg.memNodes n).1 hn
      have hB := (hh.memNodes n).1 ((hmemN n).1 hn)
      rw [← h1] at h2
      have hj := List.map_inj_left.1 h2 n ((List.mergeSort_perm _ _).mem_iff.2 hn)
      cases ha : A.node n with
      | none => rw [ha] at hA; cases hA
      | some a =>
        cases hb : B.node n with
        | none => rw [hb] at hB; cases hB
        | some b => rw [ha, hb] at hj; simpa using hj
    · have hA : A.node n = none := by
        rw [hg.memNodes] at hn; simpa using hn
      have hB : B.node n = none := by
        rw [hmemN, hh.memNodes] at hn; simpa using hn
      rw [hA, hB]
  have hup : ∀ s t, (g.directed = true ∨ s ≤ t) → A.edge s t = B.edge s t := by
    intro s t hst
    by_cases he : (s, t) ∈ g.edgeIndices
    · have hA := ((hg.memEdges s t).1 he).1
      have hB := ((hh.memEdges s t).1 ((hmemE _).1 he)).1
      rw [← h3] at h4
      have hj := List.map_inj_left.1 h4 (s, t) ((List.mergeSort_perm _ _).mem_iff.2 he)
      cases ha : A.edge s t with
      | none => rw [ha] at hA; cases hA
      | some a =>
        cases hb : B.edge s t with
        | none => rw [hb] at hB; cases hB
        | some b => simp only [ha, hb] at hj; simpa using hj
    · have hA : A.edge s t = none := by
        by_contra hne
        exact he ((hg.memEdges s t).2 ⟨Option.isSome_iff_ne_none.2 hne, hst⟩)
      have hB : B.edge s t = none := by
        by_contra hne
        exact he ((hmemE _).2 ((hh.memEdges s t).2 ⟨Option.isSome_iff_ne_none.2 hne, hd ▸ hst⟩))
      rw [hA, hB]
  rw [sameGraph_iff hg hh]
  refine ⟨hd, AGraph_ext hnode ?_⟩
  intro s t
  by_cases hst : g.directed = true ∨ s ≤ t
  · exact hup s t hst
  · rw [not_or] at hst
    have hdf : g.directed = false := by simpa using hst.1
    rw [hg.sym hdf s t, hh.sym (hd ▸ hdf) s t]
    exact hup t s (Or.inr (le_of_lt (not_le.1 hst.2)))

omit [DecidableEq NL] [DecidableEq EL] in
/-- **C84.** The data a boxed graph feeds to the hasher identify graph and directedness. -/
theorem c84_boxed_hash_data_iff {g : GView m k NL EL} {h : GView m k' NL EL}
    {A B : AGraph (Id m) NL EL} (hg : Shows g A) (hh : Shows h B) :
    g.boxHashData = h.boxHashData ↔ SameGraph g h := by
  refine ⟨fun heq => ?_, fun hs => (c19_same_graph_same_hash hg hh hs).2.2⟩
  have hd : g.directed = h.directed := by
    unfold GView.boxHashData at heq
    rw [GView.hashData_ok hg, GView.hashData_ok hh] at heq
    simp only [bind_ok, pure_ok, Except.ok.injEq, Prod.mk.injEq] at heq
    exact heq.1
  exact (c84_hash_data_iff hg hh hd).1 (box_hash hg hh heq)

/-- **C84.** Boxed graphs reported equal hash alike exactly if they list equally many edges. -/
theorem c84_boxed_hash_alike_iff {g : GView m k NL EL} {h : GView m k' NL EL}
    {A B : AGraph (Id m) NL EL} (hg : Shows g A) (hh : Shows h B) (heq : g.equal h = .ok true) :
    g.boxHashData = h.boxHashData ↔ g.edgeIndices.length = h.edgeIndices.length :=
  (c84_boxed_hash_data_iff hg hh).trans (c84_equal_right_iff hg hh heq)

/-- **C84.** Typed graphs `g == h` hash alike exactly if also `h == g`. -/
theorem c84_typed_hash_alike_iff {g h : GView m k NL EL} {A B : AGraph (Id m) NL EL} (hg : Shows g A)
    (hh : Shows h B) (hd : g.directed = h.directed) (hn : g.nodeCount < 2 ^ 64 ∧ h.nodeCount < 2 ^ 64)
    (he : g.edgeCount < 2 ^ 64 ∧ h.edgeCount < 2 ^ 64) (heq : g.typedEq h = .ok true) :
    g.hashData = h.hashData ↔ h.typedEq g = .ok true := by
  obtain ⟨b, h1, h2⟩ := c61_eq_exact hg hh hd hn.1 he.1
  obtain ⟨c, h3, h4⟩ := c61_eq_exact hh hg hd.symm hn.2 he.2
  obtain rfl : b = true := Except.ok.inj (h1.symm.trans heq)
  obtain ⟨s1, s2, s3⟩ := h2.1 rfl
  rw [c84_hash_data_iff hg hh hd, h3]
  constructor
  · intro h5
    obtain ⟨-, rfl⟩ := (sameGraph_iff hg hh).1 h5
    rw [h4.2 ⟨by omega, by omega, s3⟩]
  · intro h5
    obtain ⟨-, -, s4⟩ := h4.1 (Except.ok.inj h5)
    refine (sameGraph_iff hg hh).2 ⟨hd, AGraph_ext (fun n => ?_) (fun s t => ?_)⟩
    · exact Option.ext (fun l => ⟨s3.1 n l, s4.1 n l⟩)
    · exact Option.ext (fun l => ⟨s3.2 s t l, s4.2 s t l⟩)

/-- Non-vacuity: a graph with an inexact counter, reported equal to a larger graph. -/
example : ∃ g h : GraphMap 9 3 String String, Reachable g ∧ Reachable h ∧
    g.view.equal h.view = .ok true ∧ g.edgeCount ≠ g.edgeIndices.length ∧
    g.edgeIndices.length ≠ h.edgeIndices.length := by
  refine ⟨_, _, smallGraph_reachable (d := true) (es := [(1, 2, none), (1, 2, none)]) rfl,
    smallGraph_reachable (d := true) (es := [(1, 2, none), (2, 3, none)]) rfl, by decide, by decide,
    by decide⟩

end Verif.Props
