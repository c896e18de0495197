import Verif.Proof.ConnSubgraph
import Verif.Props.ConnComp
import Verif.Props.SetOps

/-! C39: the subgraphs of the connected components. -/

namespace Verif.Props

open Spec

variable {m k : Nat} {NL EL : Type} [DecidableEq NL] [DecidableEq EL]

/-- **C39** For a graph without isolated nodes: one graph per root, which shows exactly the component of
that root with all its labels and has an exact `edge_count`; the roots lie in different components and
every node is connected to one of them. -/
theorem c39_components {g : GView m k NL EL} {A : AGraph (Id m) NL EL} (S : Shows g A)
    (hiso : ∀ n, (A.node n).isSome → A.Touched n) :
    ∃ s, ConnSubgraph.new g = .ok s ∧
      List.Forall₂ (fun r sub => (A.node r).isSome ∧ sub.directed = g.directed ∧ GraphMap.Reachable sub ∧
        Shows sub.view (A.restrict (fun n => A.Connected r n)) ∧ sub.edgeCount = sub.edgeIndices.length)
        s.roots s.subgraphs ∧
      s.roots.Pairwise (fun r r' => ¬ A.Connected r r') ∧
      ∀ n, (A.node n).isSome → ∃ r ∈ s.roots, A.Connected r n := by
  obtain ⟨s, rep, h1, I, H⟩ := ConnSubgraph.new_sorted S hiso
  obtain ⟨h, F⟩ := I.forest
  have hrep : ∀ a b, rep a = rep b ↔ A.Connected a b := by
    intro a b; rw [I.linked, ConnComp.linked_graph S]
  have hroot : ∀ r ∈ s.roots, rep r = r ∧ (A.node r).isSome := by
    intro r hr
    obtain ⟨p, hp, he⟩ := (H.roots r).1 hr
    have key : ∀ n, (A.node n).isSome → rep n = r → rep r = r ∧ (A.node r).isSome := by
      intro n hn e
      subst e
      have ht := (ConnComp.occurs_graph S n).2 (hiso n hn)
      have h1 := F.rep_root ((I.keys n).2 ht)
      have h2 := (ConnComp.occurs_graph S _).1 ((I.keys (rep n)).1 (by rw [h1]; rfl))
      refine ⟨F.rep_rep n, ?_⟩
      obtain ⟨t, ht | ht⟩ := h2
      · exact (S.ends _ _ ht).1
      · exact (S.ends _ _ ht).2
    unfold ConnSubgraph.calls at hp
    rcases List.mem_append.1 hp with hp | hp
    · obtain ⟨n, hn, rfl⟩ := List.mem_map.1 hp
      exact key n ((S.memNodes n).1 hn) he
    · obtain ⟨⟨a, b⟩, hn, rfl⟩ := List.mem_map.1 hp
      exact key a (S.ends a b ((S.memEdges a b).1 hn).1).1 he
  refine ⟨s, h1, ?_, ?_, ?_⟩
  · have hsub := H.subs
    revert hroot hsub
    generalize s.roots = rs
    generalize s.subgraphs = gs
    intro hroot hsub
    induction hsub with
    | nil => exact .nil
    | cons hex _ ih =>
      refine .cons ?_ (ih (fun r hr => hroot r (by simp [hr])))
      obtain ⟨a, b⟩ := hroot _ (List.mem_cons_self ..)
      exact ⟨b, ConnSubgraph.sub_shows S hrep a hex⟩
  · refine List.Pairwise.imp_of_mem ?_ H.nodup
    intro a b ha hb hne hc
    apply hne
    rw [← (hroot a ha).1, ← (hroot b hb).1]
    exact (hrep a b).2 hc
  · intro n hn
    have hr : rep n ∈ s.roots := by
      rw [H.roots]
      refine ⟨(rep n, Op.addNode n (A.node n).join), ?_, rfl⟩
      unfold ConnSubgraph.calls
      exact List.mem_append_left _ (List.mem_map.2 ⟨n, (S.memNodes n).2 hn, rfl⟩)
    exact ⟨rep n, hr, (hrep _ _).1 (hroot _ hr).1⟩

omit [DecidableEq NL] [DecidableEq EL] in
theorem connected_restrict {A : AGraph (Id m) NL EL} {r : Id m} : ∀ {a b : Id m}, A.Connected a b →
    A.Connected r a → (A.restrict (fun n => A.Connected r n)).Connected a b := by
  intro a b h
  induction h with
  | rel a b h =>
    intro ha
    apply Relation.EqvGen.rel
    rw [restrict_edge ⟨ha, ha.trans _ _ _ (.rel _ _ h)⟩]
    exact h
  | refl a => intro _; exact .refl _
  | symm a b h ih => intro hb; exact (ih (hb.trans _ _ _ (h.symm _ _))).symm _ _
  | trans a b c h1 h2 ih1 ih2 => intro ha; exact (ih1 ha).trans _ _ _ (ih2 (ha.trans _ _ _ h1))

/-- **C39** The partition: each subgraph is connected, no two share a node, and every node and edge of the
input is found with its label in exactly one of them, which has nothing else. -/
theorem c39_partition {g : GView m k NL EL} {A : AGraph (Id m) NL EL} (S : Shows g A)
    (hiso : ∀ n, (A.node n).isSome → A.Touched n) :
    ∃ s Bs, ConnSubgraph.new g = .ok s ∧
      List.Forall₂ (fun (sub : GraphMap m k NL EL) B => Shows sub.view B ∧ sub.directed = g.directed) s.subgraphs Bs ∧
      (∀ B ∈ Bs, (∃ n, (B.node n).isSome) ∧
        ∀ a b, (B.node a).isSome → (B.node b).isSome → B.Connected a b) ∧
      Bs.Pairwise (fun B B' => ∀ n, ¬ ((B.node n).isSome ∧ (B'.node n).isSome)) ∧
      (∀ n l, A.node n = some l ↔ ∃ B ∈ Bs, B.node n = some l) ∧
      (∀ a b l, A.edge a b = some l ↔ ∃ B ∈ Bs, B.edge a b = some l) := by
  obtain ⟨s, h1, h2, h3, h4⟩ := c39_components S hiso
  have hr : ∀ r ∈ s.roots, (A.node r).isSome := by
    intro r hr
    obtain ⟨i, hi, e⟩ := List.getElem_of_mem hr
    obtain ⟨_, _, h⟩ := ConnSubgraph.forall₂_getElem h2 (i := i) (x := r) (by rw [List.getElem?_eq_getElem hi, e])
    exact h.1
  refine ⟨s, s.roots.map (fun r => A.restrict (fun n => A.Connected r n)), h1, ?_, ?_, ?_, ?_, ?_⟩
  · rw [List.forall₂_map_right_iff]
    exact List.Forall₂.flip (h2.imp (fun _ _ h => ⟨h.2.2.2.1, h.2.1⟩))
  · intro B hB
    obtain ⟨r, hrr, rfl⟩ := List.mem_map.1 hB
    refine ⟨⟨r, ?_⟩, ?_⟩
    · rw [restrict_node (P := fun n => A.Connected r n) (Relation.EqvGen.refl r)]; exact hr r hrr
    · have hin : ∀ a, ((A.restrict (fun n => A.Connected r n)).node a).isSome → A.Connected r a := by
        intro a h
        by_contra hc
        rw [restrict_node_none hc] at h; cases h
      intro a b ha hb
      exact connected_restrict (((hin a ha).symm _ _).trans _ _ _ (hin b hb)) (hin a ha)
  · rw [List.pairwise_map]
    refine h3.imp ?_
    rintro r r' hne n ⟨ha, hb⟩
    by_cases hc : A.Connected r n
    · by_cases hc' : A.Connected r' n
      · exact hne (hc.trans _ _ _ (hc'.symm _ _))
      · rw [restrict_node_none hc'] at hb; cases hb
    · rw [restrict_node_none hc] at ha; cases ha
  · intro n l
    constructor
    · intro h
      obtain ⟨r, hrr, hc⟩ := h4 n (by rw [h]; rfl)
      exact ⟨_, List.mem_map.2 ⟨r, hrr, rfl⟩, by rw [restrict_node hc]; exact h⟩
    · rintro ⟨B, hB, h⟩
      obtain ⟨r, hrr, rfl⟩ := List.mem_map.1 hB
      by_cases hc : A.Connected r n
      · rw [restrict_node hc] at h; exact h
      · rw [restrict_node_none hc] at h; cases h
  · intro a b l
    constructor
    · intro h
      have he : (A.edge a b).isSome := by rw [h]; rfl
      obtain ⟨r, hrr, hc⟩ := h4 a (S.ends a b he).1
      exact ⟨_, List.mem_map.2 ⟨r, hrr, rfl⟩, by
        rw [restrict_edge ⟨hc, hc.trans _ _ _ (.rel _ _ he)⟩]; exact h⟩
    · rintro ⟨B, hB, h⟩
      obtain ⟨r, hrr, rfl⟩ := List.mem_map.1 hB
      by_cases hc : A.Connected r a ∧ A.Connected r b
      · rw [restrict_edge hc] at h; exact h
      · rw [restrict_edge_none hc] at h; cases h

/-- **C39** The excluded case: an isolated node makes the call panic. -/
theorem c39_isolated_panics {g : GView m k NL EL} {A : AGraph (Id m) NL EL} (S : Shows g A) {n : Id m}
    (hn : (A.node n).isSome) (hiso : ¬ A.Touched n) : ConnSubgraph.new g = .error .nodeMissing :=
  ConnSubgraph.new_isolated S hn hiso

/-- Two components: 1 → 0 and 5 → 4, with labels. -/
def twoParts : GraphMap 9 3 String String :=
  ⟨true, [(0, ⟨0, some 0, [], [1]⟩), (1, ⟨1, none, [(0, some 0)], []⟩), (5, ⟨5, none, [(4, none)], []⟩),
    (4, ⟨4, none, [], [5]⟩)], 2, ⟨["a"]⟩, ⟨["e"]⟩, some 5⟩

theorem twoParts_reachable : GraphMap.Reachable twoParts :=
  (GraphMap.exec_run (ops := [.addNode 0 (some "a"), .addEdge 1 0 (some "e"), .addEdge 5 4 none])
    (g0 := GraphMap.withLabelMap true SetMap.empty SetMap.empty) (by decide)).reachable
    List.nodup_nil List.nodup_nil

/-- The hypotheses are met by a graph with two components, and the call gives two subgraphs. -/
example : Shows twoParts.view twoParts.abs ∧
    (∀ n, (twoParts.abs.node n).isSome → twoParts.abs.Touched n) ∧
    (ConnSubgraph.new twoParts.view).map (fun s => (s.roots, s.subgraphs.map GraphMap.nodeIndices)) =
      .ok ([0, 4], [[0, 1], [5, 4]]) := by
  refine ⟨reachable_shows twoParts_reachable, ?_, by decide⟩
  unfold AGraph.Touched
  decide

/-- An isolated node (here the whole graph is one node) meets the hypotheses of the panic case. -/
example : Shows (tagged 1 "a").view (tagged 1 "a").abs ∧ ((tagged 1 "a").abs.node 1).isSome ∧
    ¬ (tagged 1 "a").abs.Touched 1 := by
  refine ⟨reachable_shows (tagged_reachable 1 "a"), by decide, ?_⟩
  unfold AGraph.Touched
  decide

end Verif.Props
