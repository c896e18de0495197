import Verif.Proof.ConnSubgraphRuns
import Verif.Props.ConnSubgraph

/-! Property theorems about `ConnSubgraph` fed several graphs: C126. -/

namespace Verif.Props

open Spec GraphMap

variable {m k : Nat} {NL EL : Type} [DecidableEq NL] [DecidableEq EL]

/-! ### C126 -/

/-- `ConnSubgraph::empty` for one graph, then `run_subgraph_enumeration` for others. -/
def enumerate (g₀ : GView m k NL EL) (gs : List (GView m k NL EL)) : Res (ConnSubgraph m k NL EL) := do
  let s ← ConnSubgraph.empty g₀
  gs.foldlM (fun s g => s.runEnumeration g) s

open Classical in
/-- What the graph of the root `r` is told: the nodes, and the edges by their start, that lie in the
component of `r` in the first graph. -/
noncomputable def told (A₀ : AGraph (Id m) NL EL) (r : Id m)
    (gs : List (GView m k NL EL × AGraph (Id m) NL EL)) : List (Op m k NL EL) :=
  gs.flatMap (fun p =>
    (p.1.nodeIndices.filter (fun n => decide (A₀.Connected r n))).map
      (fun n => Op.addNode n (p.2.node n).join) ++
    (p.1.edgeIndices.filter (fun e => decide (A₀.Connected r e.1))).map
      (fun e => Op.addEdge e.1 e.2 (p.2.edge e.1 e.2).join))

theorem told_eq {A₀ : AGraph (Id m) NL EL} {rep : Id m → Id m}
    (hrep : ∀ a b, rep a = rep b ↔ A₀.Connected a b) {r : Id m} (hr : rep r = r)
    (gs : List (GView m k NL EL × AGraph (Id m) NL EL)) :
    ((gs.flatMap (fun p => ConnSubgraph.calls p.2 p.1 rep)).filter (fun p => decide (p.1 = r))).map Prod.snd =
      told A₀ r gs := by
  have hP : ∀ n, rep n = r ↔ A₀.Connected r n := by
    intro n
    rw [← hrep r n, hr]
    exact eq_comm
  unfold told
  rw [List.filter_flatMap, List.map_flatMap]
  congr 1
  funext p
  rw [ConnSubgraph.calls_filter]
  congr 2
  · exact List.filter_congr (fun n _ => decide_eq_decide.2 (hP n))
  · exact List.filter_congr (fun e _ => decide_eq_decide.2 (hP e.1))

/-- **C126.** An enumerator made for one graph and run over others whose nodes all have an edge in the first:
one graph per component of the first graph that is met, which is built from the nodes of that component and
the edges that start in it. -/
theorem c126_runs {g₀ : GView m k NL EL} {A₀ : AGraph (Id m) NL EL} (S₀ : Shows g₀ A₀) {d : Bool}
    (gs : List (GView m k NL EL × AGraph (Id m) NL EL))
    (hg : ∀ p ∈ gs, Shows p.1 p.2 ∧ p.1.directed = d)
    (ht : ∀ p ∈ gs, ∀ n, (p.2.node n).isSome → A₀.Touched n) :
    ∃ s, enumerate g₀ (gs.map Prod.fst) = .ok s ∧
      List.Forall₂ (fun r sub => (GraphMap.new d : GraphMap m k NL EL).exec (told A₀ r gs) = .ok sub)
        s.roots s.subgraphs ∧
      s.roots.Pairwise (fun r r' => ¬ A₀.Connected r r') ∧
      ∀ n, (∃ r ∈ s.roots, A₀.Connected r n) ↔
        ∃ p ∈ gs, ∃ x, (p.2.node x).isSome ∧ A₀.Connected x n := by
  obtain ⟨s0, rep, h0, I0, H0⟩ := ConnSubgraph.empty_sorted S₀ d
  obtain ⟨s, h1, I, H⟩ := ConnSubgraph.runs_sorted (E := g₀.edgeIndices) (rep := rep) (d := d) gs
    (fun p hp => ⟨(hg p hp).1, (hg p hp).2, fun n hn => (ConnComp.occurs_graph S₀ n).2 (ht p hp n hn)⟩)
    [] s0 H0 I0
  rw [List.nil_append] at H
  obtain ⟨h, F⟩ := I.forest
  have hrep : ∀ a b, rep a = rep b ↔ A₀.Connected a b := by
    intro a b; rw [I.linked, ConnComp.linked_graph S₀]
  have hcalls : ∀ r, (∃ q ∈ gs.flatMap (fun p => ConnSubgraph.calls p.2 p.1 rep), q.1 = r) ↔
      ∃ p ∈ gs, ∃ x, (p.2.node x).isSome ∧ rep x = r := by
    intro r
    constructor
    · rintro ⟨q, hq, rfl⟩
      obtain ⟨p, hp, hq⟩ := List.mem_flatMap.1 hq
      refine ⟨p, hp, ?_⟩
      have Sp := (hg p hp).1
      rcases List.mem_append.1 hq with hq | hq <;> rw [List.mem_map] at hq <;> obtain ⟨y, hy, rfl⟩ := hq
      · exact ⟨y, (Sp.memNodes y).1 hy, rfl⟩
      · exact ⟨y.1, (Sp.ends _ _ ((Sp.memEdges y.1 y.2).1 hy).1).1, rfl⟩
    · rintro ⟨p, hp, x, hx, rfl⟩
      refine ⟨(rep x, Op.addNode x (p.2.node x).join), ?_, rfl⟩
      rw [List.mem_flatMap]
      exact ⟨p, hp, List.mem_append_left _ (List.mem_map.2 ⟨x, ((hg p hp).1.memNodes x).2 hx, rfl⟩)⟩
  have hroot : ∀ r ∈ s.roots, rep r = r := by
    intro r hr
    obtain ⟨p, hp, x, -, rfl⟩ := (hcalls r).1 ((H.roots r).1 hr)
    exact F.rep_rep x
  refine ⟨s, ?_, ?_, ?_, ?_⟩
  · unfold enumerate
    rw [h0, bind_ok, h1]
  · have := H.subs
    revert this hroot
    generalize s.roots = rs
    generalize s.subgraphs = ss
    intro hroot hf
    induction hf with
    | nil => exact .nil
    | cons h _ ih =>
      refine .cons ?_ (ih (fun a ha => hroot a (by simp [ha])))
      rw [← told_eq hrep (hroot _ (by simp))]
      exact h
  · refine List.Pairwise.imp_of_mem ?_ H.nodup
    intro a b ha hb hab hc
    exact hab (by rw [← hroot a ha, ← hroot b hb]; exact (hrep a b).2 hc)
  · intro n
    constructor
    · rintro ⟨r, hr, hc⟩
      obtain ⟨p, hp, x, hx, e⟩ := (hcalls r).1 ((H.roots r).1 hr)
      refine ⟨p, hp, x, hx, (hrep x n).1 ?_⟩
      rw [e, ← hroot r hr]
      exact (hrep r n).2 hc
    · rintro ⟨p, hp, x, hx, hc⟩
      refine ⟨rep x, (H.roots _).2 ((hcalls _).2 ⟨p, hp, x, hx, rfl⟩), (hrep _ n).1 ?_⟩
      rw [F.rep_rep]
      exact (hrep x n).2 hc

/-- **C126.** A node that has no edge in the first graph makes the run panic, also one that is not in the
first graph. -/
theorem c126_panics {g₀ : GView m k NL EL} {A₀ : AGraph (Id m) NL EL} (S₀ : Shows g₀ A₀) {d : Bool}
    (gs : List (GView m k NL EL × AGraph (Id m) NL EL))
    (hg : ∀ p ∈ gs, Shows p.1 p.2 ∧ p.1.directed = d)
    {q : GView m k NL EL × AGraph (Id m) NL EL} (hq : q ∈ gs) {n : Id m} (hn : (q.2.node n).isSome)
    (ht : ¬ A₀.Touched n) : enumerate g₀ (gs.map Prod.fst) = .error .nodeMissing := by
  obtain ⟨s0, rep, h0, I0, H0⟩ := ConnSubgraph.empty_sorted S₀ d
  unfold enumerate
  rw [h0, bind_ok]
  clear h0
  generalize ([] : List (Id m × Op m k NL EL)) = P at H0
  induction gs generalizing s0 P with
  | nil => simp at hq
  | cons p gs ih =>
    obtain ⟨Sp, hd⟩ := hg p (by simp)
    subst hd
    rw [List.map_cons, List.foldlM_cons]
    by_cases hall : ∀ x, (p.2.node x).isSome → A₀.Touched x
    · obtain ⟨s1, e1, I1, S1⟩ := ConnSubgraph.run_sorted Sp
        (fun x hx => (ConnComp.occurs_graph S₀ x).2 (hall x hx)) H0 I0
      rw [e1, bind_ok]
      refine ih (fun y hy => hg y (by simp [hy])) ?_ s1 I1 _ S1
      rcases List.mem_cons.1 hq with e | e
      · subst e
        exact absurd (hall n hn) ht
      · exact e
    · push Not at hall
      obtain ⟨x, hx, hxt⟩ := hall
      rw [ConnSubgraph.run_missing Sp hx (fun h => hxt ((ConnComp.occurs_graph S₀ x).1 h)) H0 I0]
      rfl

/-- **C126.** Running over the same graph again and again changes neither the graphs nor their labels, but
every run counts every edge once more. -/
theorem c126_again {g : GView m k NL EL} {A : AGraph (Id m) NL EL} (S : Shows g A)
    (hiso : ∀ n, (A.node n).isSome → A.Touched n) (j : Nat) :
    ∃ s, enumerate g (List.replicate (j + 1) g) = .ok s ∧
      List.Forall₂ (fun r sub => sub.directed = g.directed ∧ GraphMap.Reachable sub ∧
        Shows sub.view (A.restrict (fun n => A.Connected r n)) ∧
        sub.edgeCount = (j + 1) * sub.edgeIndices.length) s.roots s.subgraphs ∧
      s.roots.Pairwise (fun r r' => ¬ A.Connected r r') ∧
      ∀ n, (A.node n).isSome → ∃ r ∈ s.roots, A.Connected r n := by
  obtain ⟨s0, rep, h0, I0, H0⟩ := ConnSubgraph.empty_sorted S g.directed
  obtain ⟨s, h1, I, H⟩ := ConnSubgraph.runs_sorted (E := g.edgeIndices) (rep := rep) (d := g.directed)
    (List.replicate (j + 1) (g, A))
    (fun p hp => by
      rw [List.eq_of_mem_replicate hp]
      exact ⟨S, rfl, fun n hn => (ConnComp.occurs_graph S n).2 (hiso n hn)⟩)
    [] s0 H0 I0
  rw [List.nil_append, List.flatMap, List.map_replicate] at H
  rw [List.map_replicate] at h1
  obtain ⟨h, F⟩ := I.forest
  have hrep : ∀ a b, rep a = rep b ↔ A.Connected a b := by
    intro a b; rw [I.linked, ConnComp.linked_graph S]
  have hrr : ∀ r ∈ s.roots, ∃ x, rep x = r := by
    intro r hr
    obtain ⟨q, hq, rfl⟩ := (H.roots r).1 hr
    obtain ⟨l, hl, hq⟩ := List.mem_flatten.1 hq
    rw [List.eq_of_mem_replicate hl] at hq
    rcases List.mem_append.1 hq with hq | hq <;> rw [List.mem_map] at hq <;> obtain ⟨y, -, rfl⟩ := hq <;>
      exact ⟨_, rfl⟩
  have hroot : ∀ r ∈ s.roots, rep r = r := by
    intro r hr
    obtain ⟨x, rfl⟩ := hrr r hr
    exact F.rep_rep x
  refine ⟨s, ?_, ?_, ?_, ?_⟩
  · unfold enumerate
    rw [h0, bind_ok, h1]
  · have := H.subs
    revert this hroot
    generalize s.roots = rs
    generalize s.subgraphs = ss
    intro hroot hf
    induction hf with
    | nil => exact .nil
    | cons h _ ih =>
      exact .cons (ConnSubgraph.sub_shows_again S hrep (hroot _ (by simp)) j h)
        (ih (fun a ha => hroot a (by simp [ha])))
  · refine List.Pairwise.imp_of_mem ?_ H.nodup
    intro a b ha hb hab hc
    exact hab (by rw [← hroot a ha, ← hroot b hb]; exact (hrep a b).2 hc)
  · intro n hn
    refine ⟨rep n, (H.roots _).2 ⟨(rep n, Op.addNode n (A.node n).join), ?_, rfl⟩, (hrep _ n).1 (F.rep_rep n)⟩
    rw [List.replicate_succ, List.flatten_cons]
    exact List.mem_append_left _ (List.mem_append_left _ (List.mem_map.2 ⟨n, (S.memNodes n).2 hn, rfl⟩))

/-- One edge between the two parts of `twoParts`: 0 → 5. -/
def bridge : GraphMap 9 3 String String :=
  ⟨true, [(0, ⟨0, none, [(5, none)], []⟩), (5, ⟨5, some 0, [], [0]⟩)], 1, ⟨["b"]⟩, ⟨[]⟩, some 5⟩

theorem bridge_reachable : GraphMap.Reachable bridge :=
  (GraphMap.exec_run (ops := [.addNode 0 none, .addNode 5 (some "b"), .addEdge 0 5 none])
    (g0 := GraphMap.withLabelMap true SetMap.empty SetMap.empty) (by decide)).reachable
    List.nodup_nil List.nodup_nil

/-- **C126.** The graphs need not be parts of anything: an edge between two components goes to the graph of its
start, which then has the end without its label while the other graph has it with the label. -/
theorem c126_crossing :
    (enumerate twoParts.view [twoParts.view, bridge.view]).map (fun s =>
      (s.subgraphs.map GraphMap.nodeIndices, s.subgraphs.map (fun g => g.hasEdge 0 5),
        s.subgraphs.map (fun g => g.getNodeLabel 5))) =
      .ok ([[0, 1, 5], [5, 4]], [true, false], [none, some "b"]) := by decide

/-- The hypotheses of `c126_runs` are met by these two graphs, those of `c126_panics` by the second graph
as the first. -/
example : Shows twoParts.view twoParts.abs ∧ Shows bridge.view bridge.abs ∧
    twoParts.view.directed = bridge.view.directed ∧
    (∀ n, (twoParts.abs.node n).isSome → twoParts.abs.Touched n) ∧
    (∀ n, (bridge.abs.node n).isSome → twoParts.abs.Touched n) ∧
    (twoParts.abs.node 1).isSome ∧ ¬ bridge.abs.Touched 1 := by
  refine ⟨reachable_shows twoParts_reachable, reachable_shows bridge_reachable, rfl, ?_⟩
  unfold AGraph.Touched
  decide

end Verif.Props
