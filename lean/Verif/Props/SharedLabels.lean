import Verif.Proof.GraphRefine
import Verif.Proof.History
import Verif.Props.GraphState
import Verif.Props.Traversal

/-! C149: graphs made with the label tables of another one (`with_label_map`). -/

namespace Verif.Props

open Spec GraphMap

variable {m k : Nat} {NL EL : Type}

theorem table_id {L : Type} {t u v : List L} (hu : u.Nodup) (hv : v.Nodup) (pu : t <+: u) (pv : t <+: v) {x : L}
    (hx : x ∈ t) {i j : Nat} (hi : u[i]? = some x) (hj : v[j]? = some x) : i = j ∧ t[i]? = some x := by
  obtain ⟨n, hn⟩ := List.mem_iff_getElem?.1 hx
  have hlt := (List.getElem?_eq_some_iff.1 hn).1
  have key : ∀ {w : List L} {i : Nat}, w.Nodup → t <+: w → w[i]? = some x → i = n := by
    rintro w i hw ⟨r, rfl⟩ hi
    have hn' : (t ++ r)[n]? = some x := by rw [List.getElem?_append_left hlt, hn]
    exact (List.getElem?_inj (List.getElem?_eq_some_iff.1 hi).1 hw).1 (hi.trans hn'.symm)
  rw [key hu pu hi, key hv pv hj]
  exact ⟨rfl, hn⟩

theorem node_label_id {g : GraphMap m k NL EL} {a : Id m} {x : NL} (h : g.getNodeLabel a = some x) :
    ∃ nd lid, g.getNode a = some nd ∧ nd.label = some lid ∧ g.nodeLabels.labels[lid.val]? = some x := by
  unfold getNodeLabel at h
  cases hn : g.getNode a with
  | none => rw [hn] at h; cases h
  | some nd =>
    rw [hn] at h
    cases hl : nd.label with
    | none => simp [hl] at h
    | some lid =>
      simp only [Option.bind_some, hl] at h
      exact ⟨nd, lid, rfl, hl, h⟩

theorem edge_label_id {g : GraphMap m k NL EL} {a b : Id m} {x : EL} (h : g.getEdgeLabel a b = .ok (some x)) :
    ∃ e lid, g.getEdge a b = .ok (some e) ∧ e.label = some lid ∧ g.edgeLabels.labels[lid.val]? = some x := by
  unfold getEdgeLabel at h
  obtain ⟨e, h1, h2⟩ := bind_eq_ok h
  cases e with
  | none => cases h2
  | some e =>
    cases hl : e.label with
    | none => simp only [Option.bind_some, hl] at h2; cases h2
    | some lid =>
      simp only [Option.bind_some, hl] at h2
      exact ⟨e, lid, h1, hl, Except.ok.inj h2⟩

variable [DecidableEq NL] [DecidableEq EL]

theorem run_tables {g g' : GraphMap m k NL EL} (hg : g.Inv) {ops : List (Op m k NL EL)} (h : Run g ops g') :
    g'.Inv ∧ g.nodeLabels.labels <+: g'.nodeLabels.labels ∧ g.edgeLabels.labels <+: g'.edgeLabels.labels := by
  induction h with
  | nil => exact ⟨hg, List.prefix_rfl, List.prefix_rfl⟩
  | step _ h ih =>
    have R := refines_apply ih.1 h
    exact ⟨inv_apply ih.1 h, ih.2.1.trans R.nl, ih.2.2.trans R.el⟩
  | rehash _ hp ih => exact ⟨inv_rehash ih.1 hp, ih.2.1, ih.2.2⟩

/-- **C149.** A graph made with the label tables of `g` by `with_label_map`, and `g` itself, both changed afterwards in
any way: a label of the tables then copied has the same id at all nodes of both, its place in the tables, in whichever
order nodes and labels were added. -/
theorem c149_node_ids {g g' p : GraphMap m k NL EL} (hg : Reachable g) {ops ops' : List (Op m k NL EL)} {d : Bool}
    (h : Run g ops g') (hp : Run (withLabelMap d g.nodeLabels g.edgeLabels) ops' p) {x : NL}
    (hx : x ∈ g.nodeLabels.items) {a b : Id m} (ha : g'.getNodeLabel a = some x) (hb : p.getNodeLabel b = some x) :
    ∃ na nb lid, g'.getNode a = some na ∧ p.getNode b = some nb ∧ na.label = some lid ∧ nb.label = some lid ∧
      g.nodeLabels.findIndex x = some lid.val := by
  obtain ⟨i1, p1, -⟩ := run_tables hg.inv h
  obtain ⟨i2, p2, -⟩ := run_tables (inv_withLabelMap d _ _ hg.inv.nlNodup hg.inv.elNodup) hp
  obtain ⟨na, la, a1, a2, a3⟩ := node_label_id ha
  obtain ⟨nb, lb, b1, b2, b3⟩ := node_label_id hb
  obtain ⟨e1, e2⟩ := table_id i1.nlNodup i2.nlNodup p1 p2 hx a3 b3
  obtain rfl := Fin.ext e1
  exact ⟨na, nb, la, a1, b1, a2, b2, (SetMap.findIndex_iff hg.inv.nlNodup x _).2 e2⟩

/-- **C149** for the labels of edges. -/
theorem c149_edge_ids {g g' p : GraphMap m k NL EL} (hg : Reachable g) {ops ops' : List (Op m k NL EL)} {d : Bool}
    (h : Run g ops g') (hp : Run (withLabelMap d g.nodeLabels g.edgeLabels) ops' p) {x : EL}
    (hx : x ∈ g.edgeLabels.items) {s t u v : Id m} (ha : g'.getEdgeLabel s t = .ok (some x))
    (hb : p.getEdgeLabel u v = .ok (some x)) :
    ∃ e f lid, g'.getEdge s t = .ok (some e) ∧ p.getEdge u v = .ok (some f) ∧ e.label = some lid ∧
      f.label = some lid ∧ g.edgeLabels.findIndex x = some lid.val := by
  obtain ⟨i1, -, p1⟩ := run_tables hg.inv h
  obtain ⟨i2, -, p2⟩ := run_tables (inv_withLabelMap d _ _ hg.inv.nlNodup hg.inv.elNodup) hp
  obtain ⟨na, la, a1, a2, a3⟩ := edge_label_id ha
  obtain ⟨nb, lb, b1, b2, b3⟩ := edge_label_id hb
  obtain ⟨e1, e2⟩ := table_id i1.elNodup i2.elNodup p1 p2 hx a3 b3
  obtain rfl := Fin.ext e1
  exact ⟨na, nb, la, a1, b1, a2, b2, (SetMap.findIndex_iff hg.inv.elNodup x _).2 e2⟩

/-- **C149.** The other way round: a label id below the size of the tables copied names the same label in both
graphs. -/
theorem c149_labels {g g' p : GraphMap m k NL EL} (hg : Reachable g) {ops ops' : List (Op m k NL EL)} {d : Bool}
    (h : Run g ops g') (hp : Run (withLabelMap d g.nodeLabels g.edgeLabels) ops' p) {a b : Id m} {na nb : NodeMap m k}
    (ha : g'.getNode a = some na) (hb : p.getNode b = some nb) {lid : Id k} (hla : na.label = some lid)
    (hlb : nb.label = some lid) (hlt : lid.val < g.nodeLabels.len) :
    ∃ x, g'.getNodeLabel a = some x ∧ p.getNodeLabel b = some x ∧ g.nodeLabels.getItem lid.val = some x := by
  obtain ⟨-, ⟨r1, p1⟩, -⟩ := run_tables hg.inv h
  obtain ⟨-, ⟨r2, p2⟩, -⟩ := run_tables (inv_withLabelMap d _ _ hg.inv.nlNodup hg.inv.elNodup) hp
  have hx : g.nodeLabels.labels[lid.val]? = some g.nodeLabels.labels[lid.val] := List.getElem?_eq_getElem hlt
  refine ⟨_, ?_, ?_, hx⟩
  · simp only [getNodeLabel, ha, Option.bind_some, hla, SetMap.getItem]
    rw [← p1, List.getElem?_append_left hlt, hx]
  · simp only [getNodeLabel, hb, Option.bind_some, hlb, SetMap.getItem]
    have p2' : g.nodeLabels.labels ++ r2 = p.nodeLabels.labels := p2
    rw [← p2', List.getElem?_append_left hlt, hx]

/-- **C149** for label ids of edges. -/
theorem c149_edge_labels {g g' p : GraphMap m k NL EL} (hg : Reachable g) {ops ops' : List (Op m k NL EL)} {d : Bool}
    (h : Run g ops g') (hp : Run (withLabelMap d g.nodeLabels g.edgeLabels) ops' p) {s t u v : Id m} {e f : Edge m k}
    (ha : g'.getEdge s t = .ok (some e)) (hb : p.getEdge u v = .ok (some f)) {lid : Id k} (hla : e.label = some lid)
    (hlb : f.label = some lid) (hlt : lid.val < g.edgeLabels.len) :
    ∃ x, g'.getEdgeLabel s t = .ok (some x) ∧ p.getEdgeLabel u v = .ok (some x) ∧
      g.edgeLabels.getItem lid.val = some x := by
  obtain ⟨-, -, ⟨r1, p1⟩⟩ := run_tables hg.inv h
  obtain ⟨-, -, ⟨r2, p2⟩⟩ := run_tables (inv_withLabelMap d _ _ hg.inv.nlNodup hg.inv.elNodup) hp
  have hx : g.edgeLabels.labels[lid.val]? = some g.edgeLabels.labels[lid.val] := List.getElem?_eq_getElem hlt
  refine ⟨_, ?_, ?_, hx⟩
  · simp only [getEdgeLabel, ha, bind_ok, Option.bind_some, hla, SetMap.getItem]
    rw [← p1, List.getElem?_append_left hlt, hx]
    rfl
  · simp only [getEdgeLabel, hb, bind_ok, Option.bind_some, hlb, SetMap.getItem]
    have p2' : g.edgeLabels.labels ++ r2 = p.edgeLabels.labels := p2
    rw [← p2', List.getElem?_append_left hlt, hx]
    rfl

/-- The example in the documentation of `with_label_map` (graph.rs:193-211): nodes labelled in the other order. -/
def labelled : GraphMap 9 3 String String :=
  ⟨false, [(0, ⟨0, some 0, [(1, none)], []⟩), (1, ⟨1, some 1, [(0, none)], []⟩)], 1, ⟨["a", "b"]⟩, ⟨[]⟩, some 1⟩

/-- Made with the tables of `labelled`; "c" comes in after that. -/
def labelledAgain : GraphMap 9 3 String String :=
  ⟨false, [(1, ⟨1, some 1, [(0, none)], []⟩), (0, ⟨0, some 0, [(1, none)], []⟩), (2, ⟨2, some 2, [], []⟩)], 1,
    ⟨["a", "b", "c"]⟩, ⟨[]⟩, some 2⟩

example : Reachable labelled ∧
    Run (withLabelMap false labelled.nodeLabels labelled.edgeLabels)
      [.addNode 1 (some "b"), .addNode 0 (some "a"), .addEdge 0 1 none, .addNode 2 (some "c")] labelledAgain ∧
    "b" ∈ labelled.nodeLabels.items ∧ labelled.getNodeLabel 1 = some "b" ∧ labelledAgain.getNodeLabel 1 = some "b" :=
  ⟨(exec_run (ops := [.addNode 0 (some "a"), .addNode 1 (some "b"), .addEdge 0 1 none])
    (g0 := withLabelMap false SetMap.empty SetMap.empty) (by decide)).reachable List.nodup_nil List.nodup_nil,
    exec_run (by decide), by decide, by decide, by decide⟩

example : ∃ g g' p : GraphMap 9 3 String String, Reachable g ∧ Run g [.removeEdge 0 1, .addEdge 2 0 (some "r")] g' ∧
    Run (withLabelMap true g.nodeLabels g.edgeLabels) [.addEdge 5 4 (some "r"), .addEdge 4 5 (some "q")] p ∧
    "r" ∈ g.edgeLabels.items ∧ g'.getEdgeLabel 2 0 = .ok (some "r") ∧ p.getEdgeLabel 5 4 = .ok (some "r") ∧
    g'.getEdge 2 0 = .ok (some ⟨2, 0, some 1⟩) ∧ p.getEdge 5 4 = .ok (some ⟨5, 4, some 1⟩) ∧ 1 < g.edgeLabels.len :=
  ⟨_, _, _, (exec_run (ops := [.addEdge 0 1 (some "q"), .addEdge 1 2 (some "r")])
    (g0 := withLabelMap true SetMap.empty SetMap.empty) rfl).reachable List.nodup_nil List.nodup_nil,
    exec_run rfl, exec_run rfl, by decide, by decide, by decide, by decide, by decide, by decide⟩

/-- **C149.** It is necessary that the label was in the tables when they were copied: a label each graph gets later may
have other ids, and the same id may stand for other labels. -/
theorem c149_later : ∃ g g' p : GraphMap 9 3 String String, Reachable g ∧
    Run g [.addNode 2 (some "d"), .addNode 3 (some "c")] g' ∧
    Run (withLabelMap false g.nodeLabels g.edgeLabels) [.addNode 2 (some "c")] p ∧
    g'.getNodeLabel 3 = some "c" ∧ p.getNodeLabel 2 = some "c" ∧ g'.getNodeLabel 2 = some "d" ∧
    (g'.getNode 3).map (·.label) = some (some 3) ∧ (p.getNode 2).map (·.label) = some (some 2) ∧
    (g'.getNode 2).map (·.label) = some (some 2) :=
  ⟨labelled, _, _, (exec_run (ops := [.addNode 0 (some "a"), .addNode 1 (some "b"), .addEdge 0 1 none])
    (g0 := withLabelMap false SetMap.empty SetMap.empty) (by decide)).reachable List.nodup_nil List.nodup_nil,
    exec_run rfl, exec_run rfl, by decide, by decide, by decide, by decide, by decide, by decide⟩

end Verif.Props
