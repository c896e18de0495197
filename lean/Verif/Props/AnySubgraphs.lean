import Verif.Proof.AnySubgraphs
import Verif.Props.ConnSubgraph
import Verif.Props.AnyComp

/-! Property theorems about `ConnSubgraph` of anything behind the traits, and the order of its parts: C171. -/

namespace Verif.Props

open Spec GraphMap

variable {m k : Nat} {NL EL : Type} [DecidableEq NL] [DecidableEq EL]

/-! ### C171 -/

open Classical in
/-- **C171.** Whatever implements the trait: the first panic of the calls in `partCalls` is the panic of `new`. Without
one there is a graph for each component of the pairs that `edges` lists, in the order in which `node_indices` and then
`edges` first mention the components, and it is what the calls for that component make of an empty graph. -/
theorem c171_any (g : GView m k NL EL) :
    (∀ p, firstPanic (partCalls g) = some p → ConnSubgraph.new g = .error p) ∧
    (firstPanic (partCalls g) = none → ∃ s, ConnSubgraph.new g = .ok s ∧
      List.Forall₂ (fun r sub => (GraphMap.new g.directed : GraphMap m k NL EL).exec
          (((answersOf (partCalls g)).filter (fun p => Linked (joinedBy g) r p.1)).map Prod.snd) = .ok sub)
        (heads (Linked (joinedBy g)) ((answersOf (partCalls g)).map Prod.fst)) s.subgraphs) := by
  obtain ⟨h1, h2⟩ := ConnSubgraph.new_parts g
  refine ⟨h1, fun h => ?_⟩
  obtain ⟨s, rep, hs, P⟩ := h2 h
  refine ⟨s, hs, ?_⟩
  have := P.sorted.subs
  rw [P.order, List.forall₂_map_left_iff, heads_congr P.inv.linked] at this
  refine this.imp (fun r sub hr => ?_)
  rw [← hr, List.filter_map, List.map_map]
  congr 1
  refine congrArg (List.map Prod.snd) (List.filter_congr (fun p _ => ?_))
  rw [Function.comp, decide_eq_decide, ← P.inv.linked]
  exact eq_comm

omit [DecidableEq NL] [DecidableEq EL] in
theorem firsts_of {X : Type} (l : List X) (f : X → Res (Id m × Op m k NL EL)) (node : X → Id m)
    (hf : ∀ x r, f x = .ok r → r.1 = node x) (h : firstPanic (l.map f) = none) :
    (answersOf (l.map f)).map Prod.fst = l.map node := by
  induction l with
  | nil => rfl
  | cons x l ih =>
    simp only [List.map_cons] at h ⊢
    cases hx : f x with
    | error p => rw [hx] at h; cases h
    | ok r =>
      rw [hx] at h
      simp only [answersOf, List.map_cons, hf x r hx, ih h]

omit [DecidableEq NL] [DecidableEq EL] in
theorem mentioned (g : GView m k NL EL) (h : firstPanic (partCalls g) = none) :
    (answersOf (partCalls g)).map Prod.fst = g.nodeIndices ++ g.edges.map (·.src) := by
  classical
  unfold partCalls at *
  have ha := h
  rw [firstPanic_append] at ha
  have h1 : firstPanic (partNodes g) = none := by
    cases hp : firstPanic (partNodes g) with
    | none => rfl
    | some p => rw [hp] at ha; cases ha
  have h2 : firstPanic (partEdges g) = none := by rw [h1] at ha; exact ha
  rw [answersOf_append, List.map_append]
  congr 1
  · refine (firsts_of g.nodeIndices _ (fun n => n) ?_ h1).trans (List.map_id _)
    intro n r hr
    split_ifs at hr
    cases hl : g.getNodeLabel n <;> rw [hl] at hr <;> cases hr
    rfl
  · refine firsts_of g.edges _ (fun e => e.src) ?_ h2
    intro e r hr
    cases hl : g.getEdgeLabel e.src e.dst <;> rw [hl] at hr <;> cases hr
    rfl

/-- **C171.** The order of the parts of a graph (C39): they come as `node_indices` first lists a node of each. -/
theorem c171_order {g : GView m k NL EL} {A : AGraph (Id m) NL EL} (S : Shows g A)
    (hiso : ∀ n, (A.node n).isSome → A.Touched n) :
    ∃ s, ConnSubgraph.new g = .ok s ∧
      List.Forall₂ (fun r sub => sub.directed = g.directed ∧
        Shows sub.view (A.restrict (fun n => A.Connected r n)) ∧ sub.edgeCount = sub.edgeIndices.length)
        (heads A.Connected g.nodeIndices) s.subgraphs := by
  obtain ⟨s, h1, h2, -, -⟩ := c39_components S hiso
  refine ⟨s, h1, ?_⟩
  obtain ⟨a1, a2⟩ := ConnSubgraph.new_parts g
  cases hp : firstPanic (partCalls g) with
  | some p => rw [a1 p hp] at h1; cases h1
  | none =>
    obtain ⟨s', rep, e, P⟩ := a2 hp
    rw [h1] at e
    cases e
    obtain ⟨h, F⟩ := P.inv.forest
    have hj : joinedBy g = g.edgeIndices := S.edgesEnds
    have hrep : ∀ a b, rep a = rep b ↔ A.Connected a b := by
      intro a b
      rw [P.inv.linked, hj, ConnComp.linked_graph S]
    rw [P.order, mentioned g hp, List.forall₂_map_left_iff, heads_congr hrep, heads_covered] at h2
    · refine h2.imp (fun r sub hr => ⟨hr.2.1, ?_, hr.2.2.2.2⟩)
      have hpred : (fun n => A.Connected (rep r) n) = fun n => A.Connected r n := by
        funext n
        rw [← hrep, ← hrep, F.rep_rep]
      rw [← hpred]
      exact hr.2.2.2.1
    · intro x hx
      obtain ⟨e, he, rfl⟩ := List.mem_map.1 hx
      have hm : (e.src, e.dst) ∈ g.edgeIndices := by
        rw [← S.edgesEnds, List.mem_map]; exact ⟨e, he, rfl⟩
      exact ⟨e.src, (S.memNodes _).2 (S.ends _ _ ((S.memEdges _ _).1 hm).1).1, .refl _⟩

/-- **C171.** What that order is: the listed nodes that are not connected to an earlier one; no two of them are
connected, and every node is connected to one. -/
theorem c171_heads {g : GView m k NL EL} {A : AGraph (Id m) NL EL} (S : Shows g A) :
    (heads A.Connected g.nodeIndices).Sublist g.nodeIndices ∧
    (heads A.Connected g.nodeIndices).Pairwise (fun a b => ¬ A.Connected a b) ∧
    (∀ n, (A.node n).isSome → ∃ r ∈ heads A.Connected g.nodeIndices, A.Connected r n) ∧
    (g.nodeIndices.Pairwise (· < ·) → (heads A.Connected g.nodeIndices).Pairwise (· < ·) ∧
      ∀ r, r ∈ heads A.Connected g.nodeIndices ↔
        (A.node r).isSome ∧ ∀ n, (A.node n).isSome → A.Connected n r → r ≤ n) := by
  refine ⟨heads_sublist _, heads_pairwise _, fun n hn => ?_, fun hl => ⟨hl.sublist (heads_sublist _), fun r => ?_⟩⟩
  · exact heads_covers (fun x => .refl x) (fun x y z => .trans x y z) ((S.memNodes n).2 hn)
  · rw [heads_least (fun x => .refl x) (fun x y => .symm x y) hl, S.memNodes]
    simp only [S.memNodes]

/-- **C171.** `node_indices` of a frozen graph ascends, so its parts come by their smallest ids. -/
theorem c171_frozen {g : StaticGraph m k NL EL} {v : GView m k NL EL} (hv : g.view = .ok v)
    (hm : g.numNodes ≤ m + 1) : v.nodeIndices.Pairwise (· < ·) := by
  have e : v.nodeIndices = (List.range g.numNodes).map Id.new := by
    unfold StaticGraph.view at hv
    obtain ⟨_, -, hv⟩ := bind_eq_ok hv
    obtain ⟨_, -, hv⟩ := bind_eq_ok hv
    cases hv
    rfl
  rw [e, List.pairwise_map]
  refine List.Pairwise.imp_of_mem (fun {a b} ha hb h => ?_) List.pairwise_lt_range
  rw [List.mem_range] at ha hb
  rw [Fin.lt_def]
  show a % (m + 1) < b % (m + 1)
  rw [Nat.mod_eq_of_lt (by omega), Nat.mod_eq_of_lt (by omega)]
  exact h

/-- **C171.** A frozen graph with too few labels or an edge in one direction only: node 2 has a neighbour, but no edge
is listed for it. -/
theorem c171_lopsided : ∃ v, lopsided.view = .ok v ∧ lopsided.edgeVec.neighbors 2 = .ok [0] ∧
    ConnSubgraph.new v = .error .nodeMissing := ⟨_, rfl, by decide, by rfl⟩

/-- **C171.** The parts of `twoParts` come in the order of its hash map, so in another order if that is laid out
otherwise. -/
theorem c171_parts :
    (ConnSubgraph.new twoParts.view).map (fun s => s.subgraphs.map GraphMap.nodeIndices) = .ok [[0, 1], [5, 4]] ∧
    (ConnSubgraph.new { twoParts.view with nodeIndices := [4, 1, 5, 0] }).map
      (fun s => s.subgraphs.map GraphMap.nodeIndices) = .ok [[4, 5], [1, 0]] := by decide

example : Shows twoParts.view twoParts.abs ∧ ∀ n, (twoParts.abs.node n).isSome → twoParts.abs.Touched n := by
  refine ⟨reachable_shows twoParts_reachable, ?_⟩
  unfold AGraph.Touched
  decide

end Verif.Props
