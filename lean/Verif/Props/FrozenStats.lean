import Verif.Props.Lists
import Verif.Props.Relabel

/-! C102 for frozen graphs whatever their ids. -/

namespace Verif.Props

open GraphMap Spec Programs

section Counters

variable {m k : Nat} {NL EL : Type} [DecidableEq NL] [DecidableEq EL]

omit [DecidableEq EL] in
/-- **C21.** The node label counter of a graph that may list fewer nodes than its edges have ends. -/
theorem c21_listed_node_labels {g : GView m k NL EL} {A : AGraph (Id m) NL EL} (hg : Lists g A) :
    ∃ c, g.nodeLabelCounter = .ok c ∧ (AL.keys c).Nodup ∧ ∀ x v, AL.get c x = some v ↔
      0 < v ∧ v = (g.nodeIndices.filter
        (fun n => decide ((g.getNodeLabel n).toOption = some (some x)))).length := by
  unfold GView.nodeLabelCounter
  have hl : ∀ n ∈ g.nodeIndices, g.getNodeLabel n = .ok (A.node n).join := by
    intro n hn
    obtain ⟨l, hl⟩ := Option.isSome_iff_exists.1 ((hg.memNodes n).1 hn)
    rw [hg.nodeLabel n l hl, hl]; rfl
  rw [mapM_ok _ _ _ hl, bind_ok]
  refine ⟨_, rfl, counterOf_keys_nodup _, ?_⟩
  intro x v
  rw [List.filterMap_map, counter_spec]
  have : (g.nodeIndices.filter (fun n => decide ((id ∘ fun n => (A.node n).join) n = some x))) =
      (g.nodeIndices.filter (fun n => decide ((g.getNodeLabel n).toOption = some (some x)))) := by
    apply List.filter_congr
    intro n hn
    simp [hl n hn, Except.toOption]
  rw [this]

omit [DecidableEq NL] in
/-- **C21.** The edge label counter of such a graph. -/
theorem c21_listed_edge_labels {g : GView m k NL EL} {A : AGraph (Id m) NL EL} (hg : Lists g A) :
    ∃ c, g.edgeLabelCounter = .ok c ∧ (AL.keys c).Nodup ∧ ∀ x v, AL.get c x = some v ↔
      0 < v ∧ v = (g.edgeIndices.filter
        (fun e => decide ((g.getEdgeLabel e.1 e.2).toOption = some (some x)))).length := by
  unfold GView.edgeLabelCounter
  have hl : ∀ e ∈ g.edgeIndices, g.getEdgeLabel e.1 e.2 = .ok (A.edge e.1 e.2).join := by
    intro e he
    obtain ⟨h1, h2⟩ := (hg.memEdges e.1 e.2).1 he
    obtain ⟨l, hl⟩ := Option.isSome_iff_exists.1 h1
    rw [hg.edgeLabel _ _ l hl h2, hl]; rfl
  rw [mapM_ok _ _ _ hl, bind_ok]
  refine ⟨_, rfl, counterOf_keys_nodup _, ?_⟩
  intro x v
  rw [List.filterMap_map, counter_spec]
  have : (g.edgeIndices.filter (fun e => decide ((id ∘ fun (e : Id m × Id m) =>
      (A.edge e.1 e.2).join) e = some x))) =
      (g.edgeIndices.filter
        (fun e => decide ((g.getEdgeLabel e.1 e.2).toOption = some (some x)))) := by
    apply List.filter_congr
    intro e he
    simp [hl e he, Except.toOption]
  rw [this]

variable {g : GraphMap m k NL EL}

/-- An id that is no node but below the number of nodes has degree 0 in the frozen graph. -/
theorem frozen_unused (hg : Reachable g) {r : StaticGraph m k NL EL} (hr : g.intoStatic = .ok r) {v}
    (hv : r.view = .ok v) (n : Id m) (hn : n.val < g.nodeCount) (hno : g.hasNode n = false) :
    v.degree n = .ok 0 := by
  obtain ⟨h0, h1⟩ := (c26_into_static_succeeds_iff hg).1 ⟨r, hr⟩
  obtain ⟨M, hmax, hlt⟩ := exists_max h0 h1
  obtain ⟨r', hr', hf⟩ := intoStatic_ok hg.inv.toNWF hmax hlt
  rw [hr] at hr'
  obtain rfl := Except.ok.inj hr'
  have hM := (max_spec hmax).2
  have hcount := nodeCount_le hg.inv.toNWF hM
  obtain ⟨v', hv', e1, e2, e3, e4, e5, e6, e7, e8, e9, e10, e11, e12, e13, e14, e15, e16⟩ :=
    StaticGraph.view_ok hf.out (by simp; omega)
  obtain rfl := Except.ok.inj (hv.symm.trans hv')
  have hget : g.getNode n = none := by
    cases hq : g.getNode n with
    | none => rfl
    | some nd => rw [(hasNode_iff g n).2 ⟨nd, hq⟩] at hno; cases hno
  have hlt : n.val < (g.rows (M.val + 1)).length := by simp; omega
  have he : (g.rows (M.val + 1))[n.val].map Prod.fst = [] := by
    rw [rows_getElem, rowOf_fst, hget]; rfl
  rw [e12]
  unfold StaticGraph.degree
  rw [EdgeVec.degree_eq hf.out n hlt]
  have := congrArg List.length he
  simpa using this

end Counters

variable {m k : Nat}

/-- **C102.** What `stats` gives for any frozen graph, gaps in the ids or not: the largest degree among the
nodes with ids below the number of nodes, 0 if there is none; for every label, the number of those nodes
that carry it; and the number of edges of the whole graph that do. -/
theorem c102_frozen {g : GraphMap m k (Id m) (Id m)} (hg : Reachable g) {r : Plain m k}
    (hr : g.intoStatic = .ok r) (hnl : g.nodeLabels.len ≤ k) (hel : g.edgeLabels.len ≤ k) :
    ∃ d a b, stats r = .ok (d, a, b) ∧
      (d = 0 ∨ ∃ n, n.val < g.nodeCount ∧ g.hasNode n = true ∧ g.degree n = .ok d) ∧
      (∀ n d', n.val < g.nodeCount → g.hasNode n = true → g.degree n = .ok d' → d' ≤ d) ∧
      (AL.keys a).Nodup ∧ (∀ x c, AL.get a x = some c ↔ 0 < c ∧
        c = (g.nodeIndices.filter (fun n => decide (n.val < g.nodeCount ∧ g.getNodeLabel n = some x))).length) ∧
      (AL.keys b).Nodup ∧ (∀ x c, AL.get b x = some c ↔ 0 < c ∧
        c = (g.edgeIndices.filter (fun e => decide ((g.getEdgeLabel e.1 e.2).toOption = some (some x)))).length) := by
  obtain ⟨h0, h1⟩ := (c26_into_static_succeeds_iff hg).1 ⟨r, hr⟩
  obtain ⟨r', gv, hr', hv, e1, e2, e3, e4, e5, e6, e7, e8, e9, e10, e11⟩ := c25_sparse hg h0 h1 hnl hel
  obtain rfl := Except.ok.inj (hr.symm.trans hr')
  obtain ⟨gv', hv', -, hL⟩ := c128_frozen hg hr hnl hel
  obtain rfl := Except.ok.inj (hv.symm.trans hv')
  obtain ⟨hpos, hm, -⟩ := frozen_asks hg hr
  obtain ⟨a, ha, ha1, ha2⟩ := c21_listed_node_labels hL
  obtain ⟨b, hb, hb1, hb2⟩ := c21_listed_edge_labels hL
  have S := reachable_shows hg
  have hmem : ∀ n, n ∈ gv.nodeIndices ↔ n.val < g.nodeCount := by
    intro n
    rw [hL.memNodes]
    simp only [AGraph.renumbered]
    split <;> simp_all
  have hdeg : ∀ n, g.hasNode n = true → ∃ x, g.degree n = .ok x := by
    intro n hn
    obtain ⟨l, -, -, -, hl⟩ := c09_neighbors hg n hn
    exact ⟨_, hl⟩
  have hdv : ∀ n, n.val < g.nodeCount → ∃ x, gv.degree n = .ok x ∧
      (x = 0 ∨ (g.hasNode n = true ∧ g.degree n = .ok x)) := by
    intro n hn
    cases hq : g.hasNode n with
    | false => exact ⟨0, frozen_unused hg hr hv n hn hq, .inl rfl⟩
    | true =>
      obtain ⟨x, hx⟩ := hdeg n hq
      exact ⟨x, (e7 n hq).2.trans hx, .inr ⟨rfl, hx⟩⟩
  obtain ⟨ds, hds⟩ := mapM_total (f := gv.degree) (l := gv.nodeIndices) (fun n hn => by
    obtain ⟨x, hx, -⟩ := hdv n ((hmem n).1 hn)
    exact ⟨x, hx⟩)
  have hF := mapM_eq_ok hds
  have hne : ds ≠ [] := by
    rintro rfl
    have h2 := hF.length_eq
    rw [e10] at h2
    simp at h2
    omega
  obtain ⟨d, hdmax⟩ : ∃ d, ds.max? = some d := by
    cases hq : ds.max? with
    | none => exact absurd (List.max?_eq_none_iff.1 hq) hne
    | some d => exact ⟨d, rfl⟩
  obtain ⟨hdm, hdle⟩ := List.max?_eq_some_iff.1 hdmax
  refine ⟨d, a, b, ?_, ?_, ?_, ha1, ?_, hb1, ?_⟩
  · simp only [stats, hv, bind_ok, hds, hdmax, unwrap, pure_ok, ha, hb]
  · obtain ⟨i, hi, hid⟩ := List.getElem_of_mem hdm
    have hi' : i < gv.nodeIndices.length := by rw [hF.length_eq]; exact hi
    have := List.forall₂_iff_get.1 hF |>.2 i hi' hi
    simp only [List.get_eq_getElem, hid] at this
    have hn := (hmem _).1 (List.getElem_mem hi')
    obtain ⟨x, hx, hx'⟩ := hdv _ hn
    rw [this] at hx
    obtain rfl := Except.ok.inj hx
    rcases hx' with h | ⟨h, h'⟩
    · exact .inl h
    · exact .inr ⟨_, hn, h, h'⟩
  · intro n d' hlt hn hd'
    obtain ⟨i, hi, rfl⟩ := List.getElem_of_mem ((hmem n).2 hlt)
    have hi' : i < ds.length := by rw [← hF.length_eq]; exact hi
    have := List.forall₂_iff_get.1 hF |>.2 i hi hi'
    simp only [List.get_eq_getElem] at this
    rw [(e7 _ hn).2, hd'] at this
    cases this
    exact hdle _ (List.getElem_mem hi')
  · intro x c
    rw [ha2]
    have : (gv.nodeIndices.filter (fun n => decide ((gv.getNodeLabel n).toOption = some (some x)))).Perm
        (g.nodeIndices.filter (fun n => decide (n.val < g.nodeCount ∧ g.getNodeLabel n = some x))) := by
      rw [List.perm_ext_iff_of_nodup]
      · intro n
        rw [List.mem_filter, List.mem_filter, hmem, e11]
        have hN : n ∈ g.nodeIndices ↔ g.hasNode n = true := (S.memNodes n).trans (by rw [← S.hasNode n]; rfl)
        constructor
        · rintro ⟨h, h'⟩
          rw [if_pos h] at h'
          have h' : g.getNodeLabel n = some x := by simpa [Except.toOption] using h'
          refine ⟨hN.2 ?_, by simp [h, h']⟩
          cases hq : g.getNode n with
          | none => unfold GraphMap.getNodeLabel at h'; simp [hq] at h'
          | some nd => exact (hasNode_iff g n).2 ⟨nd, hq⟩
        · rintro ⟨h, h'⟩
          obtain ⟨h2, h3⟩ := of_decide_eq_true h'
          rw [if_pos h2]
          exact ⟨h2, by simp [h3, Except.toOption]⟩
      · apply List.Nodup.filter
        rw [e10]
        apply List.Nodup.map_on _ List.nodup_range
        intro i hi j hj h
        have h := congrArg Fin.val h
        rw [List.mem_range] at hi hj
        rwa [EdgeIter.Id_new_val (by omega), EdgeIter.Id_new_val (by omega)] at h
      · exact List.Nodup.filter _ S.nodesNodup
    rw [this.length_eq]
  · intro x c
    rw [hb2]
    have : (gv.edgeIndices.filter (fun e => decide ((gv.getEdgeLabel e.1 e.2).toOption = some (some x)))).length =
        (g.edgeIndices.filter (fun e => decide ((g.getEdgeLabel e.1 e.2).toOption = some (some x)))).length := by
      rw [(e6.filter _).length_eq]
      congr 1
      apply List.filter_congr
      intro n _
      rw [e5]
    rw [this]

set_option maxRecDepth 8000 in
/-- Nodes 1, 5, 6: only id 1 lies below the number of nodes. The degrees are 1, 2, 1, the labels 7, 3, 7;
`stats` sees degree 1, one node with label 7, and both edges. -/
example : ∃ g, (GraphMap.withLabelMap false SetMap.empty SetMap.empty : GraphMap 255 255 (Id 255) (Id 255)).exec
      [.addNode 1 (some 7), .addNode 5 (some 3), .addNode 6 (some 7), .addEdge 1 5 (some 9),
        .addEdge 5 6 (some 9)] = .ok g ∧ Reachable g ∧ g.nodeCount = 3 ∧ g.degree 5 = .ok 2 ∧
      ∃ r, g.intoStatic = .ok r ∧ stats r = .ok (1, [(7, 1)], [(9, 2)]) := by
  obtain ⟨g, h⟩ : ∃ g, (GraphMap.withLabelMap false SetMap.empty SetMap.empty :
      GraphMap 255 255 (Id 255) (Id 255)).exec [.addNode 1 (some 7), .addNode 5 (some 3), .addNode 6 (some 7),
        .addEdge 1 5 (some 9), .addEdge 5 6 (some 9)] = .ok g := ⟨_, rfl⟩
  refine ⟨g, h, (exec_run h).reachable List.nodup_nil List.nodup_nil, ?_⟩
  cases h
  exact ⟨by decide, by decide, _, rfl, by decide⟩

end Verif.Props
