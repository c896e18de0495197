import Verif.Proof.Labels
import Verif.Props.GraphHistory

/-! Property theorems on labels without the capacity and label-only assumptions: C82, C83. -/

namespace Verif.Props

open Verif Verif.GraphMap Verif.Spec

variable {m k : Nat} {NL EL : Type} [DecidableEq NL] [DecidableEq EL]

/-- **C82.** The label tables after any history. -/
theorem c82_tables {d : Bool} {nl : SetMap NL} {el : SetMap EL} (hn : nl.labels.Nodup)
    (he : el.labels.Nodup) {ops : List (Op m k NL EL)} {g : GraphMap m k NL EL}
    (h : Run (withLabelMap d nl el) ops g) :
    g.nodeLabels.items = (Tabled.run d nl.items el.items ops : Tabled m k NL EL).nodes ∧
    g.edgeLabels.items = (Tabled.run d nl.items el.items ops : Tabled m k NL EL).edges :=
  ⟨congrArg Tabled.nodes (run_tabled hn he h), congrArg Tabled.edges (run_tabled hn he h)⟩

/-- **C82.** The stored label id and the reported label of every node after any history: also after
raw label-id writes, also past the capacity of the label-id type. -/
theorem c82_nodes {d : Bool} {nl : SetMap NL} {el : SetMap EL} (hn : nl.labels.Nodup)
    (he : el.labels.Nodup) {ops : List (Op m k NL EL)} {g : GraphMap m k NL EL}
    (h : Run (withLabelMap d nl el) ops g) (n : Id m) :
    (g.getNode n).map (·.label) = (Tabled.run d nl.items el.items ops : Tabled m k NL EL).graph.node n ∧
    g.getNodeLabel n = (Tabled.run d nl.items el.items ops : Tabled m k NL EL).nodeLabel n := by
  have ht := run_tabled hn he h
  refine ⟨congrArg (fun T => T.graph.node n) ht, ?_⟩
  show _ = (Tabled.run d nl.labels el.labels ops : Tabled m k NL EL).nodeLabel n
  rw [← ht, getNodeLabel_eq]
  unfold Tabled.nodeLabel decode
  show _ = (g.labE n).join.bind _
  cases h0 : g.labE n with
  | none => simp [h0]
  | some o => cases o <;> simp [h0, tabled, SetMap.getItem]

/-- **C82.** The stored label id and the reported label of every ordered pair after any history. -/
theorem c82_edges {d : Bool} {nl : SetMap NL} {el : SetMap EL} (hn : nl.labels.Nodup)
    (he : el.labels.Nodup) {ops : List (Op m k NL EL)} {g : GraphMap m k NL EL}
    (h : Run (withLabelMap d nl el) ops g) (s t : Id m) :
    g.getEdge s t = .ok (((Tabled.run d nl.items el.items ops : Tabled m k NL EL).graph.edge s t).map
      (fun o => { src := s, dst := t, label := o })) ∧
    g.getEdgeLabel s t = .ok ((Tabled.run d nl.items el.items ops : Tabled m k NL EL).edgeLabel s t) := by
  have ht := run_tabled hn he h
  show _ = Except.ok (((Tabled.run d nl.labels el.labels ops : Tabled m k NL EL).graph.edge s t).map _) ∧
    _ = Except.ok ((Tabled.run d nl.labels el.labels ops : Tabled m k NL EL).edgeLabel s t)
  rw [← ht]
  refine ⟨?_, ?_⟩
  · rw [getEdge_eq_outE]
    show _ = Except.ok ((g.outE s t).map _)
    cases g.outE s t <;> rfl
  · rw [getEdgeLabel_eq]
    unfold Tabled.edgeLabel decode
    show _ = Except.ok ((g.outE s t).join.bind _)
    cases h0 : g.outE s t with
    | none => simp [h0]
    | some o => cases o <;> simp [h0, tabled, SetMap.getItem]

/-- A history with raw label-id writes and more labels than a two-valued label id can number. -/
def crowded : List (Op 9 1 String String) :=
  [.addNode 1 (some "a"), .addNode 2 (some "b"), .addNode 3 (some "c"), .addEdge 1 2 (some "x"),
   .setEdgeLabelId 2 1 (some 1), .addEdgeLabel (some "y"), .setNodeLabelId 2 none]

example : ∃ g : GraphMap 9 1 String String,
    Run (withLabelMap false SetMap.empty SetMap.empty) crowded g ∧
    g.getNodeLabel 3 = some "a" ∧ g.getNodeLabel 2 = none ∧ g.getEdgeLabel 1 2 = .ok (some "x") ∧
    g.getEdgeLabel 2 1 = .ok (some "y") ∧
    (Tabled.run false [] [] crowded).nodeLabel 3 = some "a" ∧
    (Tabled.run false [] [] crowded).edgeLabel 2 1 = some "y" :=
  ⟨_, exec_run (by rfl), by decide, by decide, by decide, by decide, by decide, by decide⟩

/-- The place where a label is looked up when identifiers wrap around. -/
theorem bind_idIn {X : Type} [DecidableEq X] (U : List X) (o : Option (Option X)) :
    ((o.map (Option.map (idIn (k := k) U))).join.bind (fun i => U[i.val]?)) =
      o.join.bind (fun x => U[U.idxOf x % (k + 1)]?) := by
  cases o with
  | none => rfl
  | some o => cases o <;> simp [idIn]

/-- **C83.** With labels only, at any number of labels: a node reports the label found, in the final
table, at the position of its own label modulo the number of label ids. -/
theorem c83_node_label {d : Bool} {nl : SetMap NL} {el : SetMap EL} (hn : nl.labels.Nodup)
    (he : el.labels.Nodup) {ops : List (Op m k NL EL)} {g : GraphMap m k NL EL}
    (h : Run (withLabelMap d nl el) ops g) (hl : ∀ op ∈ ops, labelOnly op = true) (n : Id m) :
    g.getNodeLabel n = ((Spec.run d ops).node n).join.bind
      (fun x => g.nodeLabels.items[g.nodeLabels.items.idxOf x % (k + 1)]?) := by
  rw [(c82_nodes hn he h n).2, (c82_tables hn he h).1]
  obtain ⟨-, hw⟩ := run_wrapped d nl.items el.items ops hl
  unfold Tabled.nodeLabel
  rw [hw]
  exact bind_idIn _ _

/-- **C83.** The same for edges. -/
theorem c83_edge_label {d : Bool} {nl : SetMap NL} {el : SetMap EL} (hn : nl.labels.Nodup)
    (he : el.labels.Nodup) {ops : List (Op m k NL EL)} {g : GraphMap m k NL EL}
    (h : Run (withLabelMap d nl el) ops g) (hl : ∀ op ∈ ops, labelOnly op = true) (s t : Id m) :
    g.getEdgeLabel s t = .ok (((Spec.run d ops).edge s t).join.bind
      (fun x => g.edgeLabels.items[g.edgeLabels.items.idxOf x % (k + 1)]?)) := by
  rw [(c82_edges hn he h s t).2, (c82_tables hn he h).2]
  obtain ⟨-, hw⟩ := run_wrapped d nl.items el.items ops hl
  unfold Tabled.edgeLabel
  rw [hw]
  exact congrArg _ (bind_idIn _ _)

omit [DecidableEq EL] in
theorem wrapped_eq_iff {U : List NL} (hU : U.Nodup) {x : NL} (hx : x ∈ U) :
    U[U.idxOf x % (k + 1)]? = some x ↔ U.idxOf x ≤ k := by
  have hlt := List.idxOf_lt_length_of_mem hx
  constructor
  · intro h
    by_contra hgt
    have hm : U.idxOf x % (k + 1) < U.length :=
      lt_of_le_of_lt (Nat.mod_le _ _) hlt
    rw [List.getElem?_eq_getElem hm, Option.some.injEq] at h
    have h2 : U[U.idxOf x]'hlt = x := List.getElem_idxOf hlt
    have := (hU.getElem_inj_iff (hi := hm) (hj := hlt)).1 (h.trans h2.symm)
    have := Nat.mod_lt (U.idxOf x) (show 0 < k + 1 by omega)
    omega
  · intro h
    rw [Nat.mod_eq_of_lt (by omega), List.getElem?_eq_getElem hlt, List.getElem_idxOf hlt]

/-- **C83.** Exactly which nodes report their own label: those without a label and those whose label
is among the first `k + 1` of the table. -/
theorem c83_node_label_right_iff {d : Bool} {nl : SetMap NL} {el : SetMap EL} (hn : nl.labels.Nodup)
    (he : el.labels.Nodup) {ops : List (Op m k NL EL)} {g : GraphMap m k NL EL}
    (h : Run (withLabelMap d nl el) ops g) (hl : ∀ op ∈ ops, labelOnly op = true) (n : Id m) :
    g.getNodeLabel n = ((Spec.run d ops).node n).join ↔
      ∀ x, (Spec.run d ops).node n = some (some x) → g.nodeLabels.items.idxOf x ≤ k := by
  rw [c83_node_label hn he h hl]
  have hi := inv_run (inv_withLabelMap d nl el hn he) h
  have hin := (run_wrapped d nl.items el.items ops hl).1.1 n
  rw [← (c82_tables hn he h).1] at hin
  cases h0 : (Spec.run d ops).node n with
  | none => simp
  | some o =>
    cases o with
    | none => simp
    | some x =>
      simp only [Option.join_some, Option.bind_some, Option.some.injEq, forall_eq']
      exact wrapped_eq_iff hi.nlNodup (hin x h0)

/-- **C83.** The same for edges. -/
theorem c83_edge_label_right_iff {d : Bool} {nl : SetMap NL} {el : SetMap EL} (hn : nl.labels.Nodup)
    (he : el.labels.Nodup) {ops : List (Op m k NL EL)} {g : GraphMap m k NL EL}
    (h : Run (withLabelMap d nl el) ops g) (hl : ∀ op ∈ ops, labelOnly op = true) (s t : Id m) :
    g.getEdgeLabel s t = .ok ((Spec.run d ops).edge s t).join ↔
      ∀ x, (Spec.run d ops).edge s t = some (some x) → g.edgeLabels.items.idxOf x ≤ k := by
  rw [c83_edge_label hn he h hl]
  have hi := inv_run (inv_withLabelMap d nl el hn he) h
  have hin := (run_wrapped d nl.items el.items ops hl).1.2 s t
  rw [← (c82_tables hn he h).2] at hin
  cases h0 : (Spec.run d ops).edge s t with
  | none => simp
  | some o =>
    cases o with
    | none => simp
    | some x =>
      simp only [Option.join_some, Option.bind_some, Option.some.injEq, Except.ok.injEq, forall_eq']
      exact wrapped_eq_iff hi.elNodup (hin x h0)

/-- **C83.** Labels of an undirected graph are symmetric after every label-only history, at any number
of labels. -/
theorem c83_labels_symmetric {nl : SetMap NL} {el : SetMap EL} (hn : nl.labels.Nodup)
    (he : el.labels.Nodup) {ops : List (Op m k NL EL)} {g : GraphMap m k NL EL}
    (h : Run (withLabelMap false nl el) ops g) (hl : ∀ op ∈ ops, labelOnly op = true) (s t : Id m) :
    g.getEdgeLabel s t = g.getEdgeLabel t s := by
  rw [c83_edge_label hn he h hl, c83_edge_label hn he h hl, spec_symmetric]

example : ∃ g : GraphMap 9 1 String String,
    Run (withLabelMap false SetMap.empty SetMap.empty)
      [.addNode 1 (some "a"), .addNode 2 (some "b"), .addNode 3 (some "c"), .addNode 4 (some "b")] g ∧
    (∀ op ∈ ([.addNode 1 (some "a"), .addNode 2 (some "b"), .addNode 3 (some "c"),
      .addNode 4 (some "b")] : List (Op 9 1 String String)), labelOnly op = true) ∧
    g.nodeLabels.items.idxOf "c" = 2 ∧ g.getNodeLabel 3 = some "a" ∧ g.getNodeLabel 4 = some "b" :=
  ⟨_, exec_run (by rfl), by decide, by decide, by decide, by decide⟩

end Verif.Props
