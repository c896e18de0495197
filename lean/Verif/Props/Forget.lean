import Verif.Spec.Forget
import Verif.Props.Melt
import Verif.Props.Static

/-! Property theorems about what freezing forgets: C161. -/

namespace Verif.Props

open Verif.GraphMap Verif.Spec

variable {m k : Nat} {NL EL : Type} [DecidableEq NL] [DecidableEq EL]

omit [DecidableEq NL] [DecidableEq EL] in
theorem told_iff (a b : Option (Id k)) :
    toldId a = toldId b ↔ a.getD Id.maxValue = b.getD Id.maxValue := by
  unfold toldId
  cases a <;> cases b <;> simp <;> grind

theorem offsets_shape {X Y : Type} (f : X → Y) (rows : List (List X)) :
    offsetsOf (rows.map (List.map f)) = offsetsOf rows := by
  unfold offsetsOf
  rw [List.length_map]
  apply List.map_congr_left
  intro i _
  rw [← List.map_take, ← List.map_flatten, List.length_map]

theorem encodes_shape {ev ev' : EdgeVec m k} {rows rows' : List (List (Id m × Id k))}
    (h : Encodes ev rows false) (h' : Encodes ev' rows' false)
    (he : rows.map (List.map Prod.fst) = rows'.map (List.map Prod.fst)) : ev = ev' := by
  obtain ⟨o, e, l⟩ := ev
  obtain ⟨o', e', l'⟩ := ev'
  obtain ⟨a1, a2, a3, -⟩ := h
  obtain ⟨b1, b2, b3, -⟩ := h'
  simp only at a1 a2 a3 b1 b2 b3
  have h1 : offsetsOf rows = offsetsOf rows' := by
    rw [← offsets_shape Prod.fst rows, he, offsets_shape Prod.fst rows']
  have h2 : rows.flatten.map Prod.fst = rows'.flatten.map Prod.fst := by
    rw [List.map_flatten, List.map_flatten, he]
  rw [a1, a2, a3, b1, b2, b3, h1, h2]
  rfl

omit [DecidableEq NL] [DecidableEq EL] in
/-- A row is its entries with their label ids. -/
theorem row_rebuild {g : GraphMap m k NL EL} (hg : g.NWF) (n : Id m) : g.rowOf n.val =
    ((g.rowOf n.val).map Prod.fst).map (fun t => (t, ((g.outE n t).map (fun x => x.getD Id.maxValue)).getD Id.maxValue)) := by
  rw [List.map_map]
  conv_lhs => rw [← List.map_id (g.rowOf n.val)]
  apply List.map_congr_left
  rintro ⟨t, l⟩ hp
  have := (mem_rowOf hg n t l).1 hp
  simp only [Function.comp_apply, this, id, Option.getD_some]

omit [DecidableEq NL] [DecidableEq EL] in
theorem frozen_ext {g h : GraphMap m k NL EL} (hg : g.Inv) (hh : h.Inv) {M : Id m} (hlt : M.val < m)
    {r r' : StaticGraph m k NL EL} (hr : FrozenAs g M r) (hr' : FrozenAs h M r')
    (hd : g.directed = h.directed) (hn : g.nodeCount = h.nodeCount) (he : g.edgeCount = h.edgeCount)
    (hnl : g.nodeLabels = h.nodeLabels) (hel : g.edgeLabels = h.edgeLabels)
    (harc : ∀ s t, (g.outE s t).isSome = (h.outE s t).isSome)
    (hnid : g.nodeLabels.items ≠ [] → ∀ n, ((g.getNode n).bind (·.label)).getD Id.maxValue =
      ((h.getNode n).bind (·.label)).getD Id.maxValue)
    (heid : g.edgeLabels.items ≠ [] → ∀ s t, (g.outE s t).map (fun x => x.getD Id.maxValue) =
      (h.outE s t).map (fun x => x.getD Id.maxValue)) : r = r' := by
  have hhead : ∀ {X : Type} (l : List X), l.head?.isSome = !decide (l = []) := by
    intro X l; cases l <;> simp
  have hfst : ∀ n : Id m, (g.rowOf n.val).map Prod.fst = (h.rowOf n.val).map Prod.fst := by
    intro n
    refine sorted_ext ?_ ?_ fun t => ?_
    · exact rows_sorted hg.toNWF (n.val + 1) _ (List.mem_map.2 ⟨n.val, by simp, rfl⟩)
    · exact rows_sorted hh.toNWF (n.val + 1) _ (List.mem_map.2 ⟨n.val, by simp, rfl⟩)
    · rw [outE_rows, outE_rows, harc]
  have hcast : ∀ i, i < M.val + 1 → ∃ n : Id m, n.val = i := fun i hi => ⟨⟨i, by omega⟩, rfl⟩
  have hshape : (g.rows (M.val + 1)).map (List.map Prod.fst) = (h.rows (M.val + 1)).map (List.map Prod.fst) := by
    unfold GraphMap.rows
    rw [List.map_map, List.map_map]
    apply List.map_congr_left
    intro i hi
    obtain ⟨n, rfl⟩ := hcast i (by simpa using hi)
    exact hfst n
  have hEL : h.view.hasEdgeLabels = g.view.hasEdgeLabels := by
    show h.edgeLabels.items.head?.isSome = g.edgeLabels.items.head?.isSome
    rw [hel]
  have hNL : h.view.hasNodeLabels = g.view.hasNodeLabels := by
    show h.nodeLabels.items.head?.isSome = g.nodeLabels.items.head?.isSome
    rw [hnl]
  have e4 : r.edgeVec = r'.edgeVec := by
    have h1 := hr.out
    have h2 := hr'.out
    rw [hEL] at h2
    cases hb : g.view.hasEdgeLabels with
    | false =>
      rw [hb] at h1 h2
      exact encodes_shape h1 h2 hshape
    | true =>
      have hne : g.edgeLabels.items ≠ [] := by
        intro hcon
        have : g.edgeLabels.items.head?.isSome = true := hb
        rw [hcon] at this; cases this
      have : g.rows (M.val + 1) = h.rows (M.val + 1) := by
        unfold GraphMap.rows
        apply List.map_congr_left
        intro i hi
        obtain ⟨n, rfl⟩ := hcast i (by simpa using hi)
        rw [row_rebuild hg.toNWF, row_rebuild hh.toNWF, hfst n]
        apply List.map_congr_left
        intro t _
        rw [heid hne]
      rw [this] at h1
      exact encodes_ext h1 h2
  have e5 : r.inEdgeVec = r'.inEdgeVec := by
    cases hdir : g.directed with
    | false => rw [hr.noIn hdir, hr'.noIn (hd ▸ hdir)]
    | true =>
      obtain ⟨iv, h1, h2⟩ := hr.inn hdir
      obtain ⟨iv', h3, h4⟩ := hr'.inn (hd ▸ hdir)
      rw [h1, h3]
      congr 1
      refine encodes_shape h2 h4 ?_
      unfold GraphMap.inRows
      rw [List.map_map, List.map_map]
      apply List.map_congr_left
      intro i hi
      obtain ⟨n, rfl⟩ := hcast i (by simpa using hi)
      refine sorted_ext ?_ ?_ fun t => ?_
      · exact inRows_sorted hg.toNWF (n.val + 1) _ (List.mem_map.2 ⟨n.val, by simp, rfl⟩)
      · exact inRows_sorted hh.toNWF (n.val + 1) _ (List.mem_map.2 ⟨n.val, by simp, rfl⟩)
      · have key : ∀ {g : GraphMap m k NL EL}, g.Inv → g.directed = true →
            (t ∈ (g.inRowOf n.val).map Prod.fst ↔ (g.outE t n).isSome) := by
          intro g hg hdir
          rw [← hg.inSpec hdir, inRowOf_fst]
          unfold inE
          cases hx : g.getNode n with
          | none => simp
          | some nd => simp [NodeMap.inNeighborIds]
        rw [Function.comp_apply, Function.comp_apply, key hg hdir, key hh (hd ▸ hdir), harc]
  have e6 : r.labels = r'.labels := by
    rw [hr.labels, hr'.labels, hNL]
    cases hb : g.view.hasNodeLabels with
    | false => rfl
    | true =>
      have hne : g.nodeLabels.items ≠ [] := by
        intro hcon
        have : g.nodeLabels.items.head?.isSome = true := hb
        rw [hcon] at this; cases this
      simp only [if_true]
      congr 1
      apply List.map_congr_left
      intro i _
      exact hnid hne _
  have f1 := hr.directed
  have f2 := hr.numNodes
  have f3 := hr.numEdges
  have f4 := hr.nodeLabels
  have f5 := hr.edgeLabels
  have g1 := hr'.directed
  have g2 := hr'.numNodes
  have g3 := hr'.numEdges
  have g4 := hr'.nodeLabels
  have g5 := hr'.edgeLabels
  obtain ⟨a1, a2, a3, a4, a5, a6, a7, a8⟩ := r
  obtain ⟨b1, b2, b3, b4, b5, b6, b7, b8⟩ := r'
  simp only [StaticGraph.mk.injEq]
  simp only at f1 f2 f3 f4 f5 g1 g2 g3 g4 g5 e4 e5 e6
  exact ⟨by rw [f1, g1, hd], by rw [f2, g2, hn], by rw [f3, g3, he], e4, e5, e6, by rw [f4, g4, hnl], by rw [f5, g5, hel]⟩

omit [DecidableEq NL] [DecidableEq EL] in
theorem frozen_top {g : GraphMap m k NL EL} {M : Id m} (hM : g.nodeIndices.max? = some M) (n : Id m) :
    (g.hasNode n = true ∧ ∀ x, g.hasNode x = true → x ≤ n) ↔ n = M := by
  obtain ⟨h1, h2⟩ := max_spec hM
  constructor
  · rintro ⟨a, b⟩; exact le_antisymm (h2 n a) (b M h1)
  · rintro rfl; exact ⟨h1, h2⟩

/-- **C161.** Two graphs made by calls have the same frozen form exactly if they agree in directedness, counts, label
tables, largest node id and edges, and, where there is a table, in the label ids (an id of no node counting as
unlabelled). -/
theorem c161_forgets {g h : GraphMap m k NL EL} (hg : Reachable g) (hh : Reachable h)
    {r r' : StaticGraph m k NL EL} (hr : g.intoStatic = .ok r) (hr' : h.intoStatic = .ok r') :
    r = r' ↔ FreezesLike g h := by
  obtain ⟨a0, a1⟩ := (c26_into_static_succeeds_iff hg).1 ⟨r, hr⟩
  obtain ⟨b0, b1⟩ := (c26_into_static_succeeds_iff hh).1 ⟨r', hr'⟩
  obtain ⟨M, hM, hlt⟩ := exists_max a0 a1
  obtain ⟨N, hN, hlt'⟩ := exists_max b0 b1
  obtain ⟨x, hx, hf⟩ := intoStatic_ok hg.inv.toNWF hM hlt
  rw [hr] at hx; cases hx
  obtain ⟨x, hx, hf'⟩ := intoStatic_ok hh.inv.toNWF hN hlt'
  rw [hr'] at hx; cases hx
  have hhead : ∀ {X : Type} {l : List X}, l ≠ [] → l.head?.isSome = true := by
    intro X l; cases l <;> simp
  constructor
  · rintro rfl
    have hMN : M = N := by
      have h1 := congrArg List.length hf.out.offsets
      have h2 := congrArg List.length hf'.out.offsets
      rw [offsetsOf_length, rows_length] at h1 h2
      exact Fin.ext (by omega)
    subst hMN
    have hnt : g.nodeLabels = h.nodeLabels := hf.nodeLabels.symm.trans hf'.nodeLabels
    have het : g.edgeLabels = h.edgeLabels := hf.edgeLabels.symm.trans hf'.edgeLabels
    refine ⟨hf.directed.symm.trans hf'.directed, hf.numNodes.symm.trans hf'.numNodes,
      hf.numEdges.symm.trans hf'.numEdges, hnt, het, fun n => by rw [frozen_top hM, frozen_top hN], ?_, ?_, ?_⟩
    · intro s t
      have h1 := frozen_hasEdge hg.inv (max_spec hM).2 hf s t
      rw [frozen_hasEdge hh.inv (max_spec hN).2 hf' s t] at h1
      exact (Except.ok.inj h1).symm
    · intro hne n
      rw [told_iff]
      have h1 := hf.labels
      rw [hf'.labels, show g.view.hasNodeLabels = true from hhead hne,
        show h.view.hasNodeLabels = true from hhead (l := h.nodeLabels.items) (hnt ▸ hne)] at h1
      simp only [if_true, Option.some.injEq] at h1
      by_cases hn : n.val < M.val + 1
      · have h2 := congrArg (fun l => l[n.val]?) h1
        simp only [List.getElem?_map, List.getElem?_range hn, Option.map_some, Option.some.injEq] at h2
        unfold lidOf at h2
        rw [Id_new_self] at h2
        exact h2.symm
      · have key : ∀ {g : GraphMap m k NL EL}, g.nodeIndices.max? = some M → g.getNode n = none := by
          intro g hM
          cases hx : g.getNode n with
          | none => rfl
          | some nd =>
            have := (max_spec hM).2 n ((hasNode_iff _ _).2 ⟨nd, hx⟩)
            rw [Fin.le_def] at this
            omega
        rw [key hM, key hN]
    · intro hne s t e e' he he'
      rw [told_iff]
      have h1 := frozen_getEdge hg.inv (max_spec hM).2 hf s t
      rw [frozen_getEdge hh.inv (max_spec hN).2 hf' s t] at h1
      rw [getEdge_eq_outE] at he he'
      obtain ⟨y, hy, rfl⟩ := Option.map_eq_some_iff.1 (Except.ok.inj he)
      obtain ⟨z, hz, rfl⟩ := Option.map_eq_some_iff.1 (Except.ok.inj he')
      rw [hy, hz, show g.view.hasEdgeLabels = true from hhead hne,
        show h.view.hasEdgeLabels = true from hhead (l := h.edgeLabels.items) (het ▸ hne)] at h1
      simp only [Except.ok.injEq, Option.map_some, Option.some.injEq, Edge.mk.injEq, true_and, keep, if_true] at h1
      have h2 := congrArg (fun o => Option.getD o Id.maxValue) h1
      simp only [staticLabel_getD] at h2
      exact h2.symm
  · intro hl
    have hMN : M = N := (frozen_top hN M).1 ((hl.top M).1 ((frozen_top hM M).2 rfl))
    subst hMN
    have harc : ∀ s t, (g.outE s t).isSome = (h.outE s t).isSome := by
      intro s t
      have := hl.arcs s t
      rw [Bool.eq_iff_iff, hasEdge_eq_outE, hasEdge_eq_outE] at this
      rw [Bool.eq_iff_iff]; exact this
    refine frozen_ext hg.inv hh.inv hlt hf hf' hl.directed hl.nodes hl.edges hl.nodeTable hl.edgeTable harc
      (fun hne n => (told_iff _ _).1 (hl.nodeIds hne n)) fun hne s t => ?_
    cases hy : g.outE s t with
    | none =>
      have := harc s t
      rw [hy] at this
      cases hz : h.outE s t with
      | none => rfl
      | some z => rw [hz] at this; cases this
    | some y =>
      have := harc s t
      rw [hy] at this
      cases hz : h.outE s t with
      | none => rw [hz] at this; cases this
      | some z =>
        have := hl.edgeIds hne s t ⟨s, t, y⟩ ⟨s, t, z⟩ (by rw [getEdge_eq_outE, hy]; rfl)
          (by rw [getEdge_eq_outE, hz]; rfl)
        simp only [Option.map_some]
        rw [(told_iff _ _).1 this]

/-- **C161.** So of graphs whose ids are `0..n-1`, with the largest label id left free, nothing is lost: those with the
same frozen form answer all calls alike. -/
theorem c161_keeps {g h : GraphMap m k NL EL} (hg : Reachable g) (hh : Reachable h)
    {r : StaticGraph m k NL EL} (hr : g.intoStatic = .ok r) (hr' : h.intoStatic = .ok r)
    (hd : ∀ n : Id m, g.hasNode n = true ↔ n.val < g.nodeCount)
    (hd' : ∀ n : Id m, h.hasNode n = true ↔ n.val < h.nodeCount)
    (hnl : g.nodeLabels.len ≤ k) (hel : g.edgeLabels.len ≤ k) :
    g.isDirected = h.isDirected ∧ g.nodeCount = h.nodeCount ∧ g.edgeCount = h.edgeCount ∧
      (∀ n, g.hasNode n = h.hasNode n) ∧ (∀ n, g.getNodeLabel n = h.getNodeLabel n) ∧
      (∀ s t, g.hasEdge s t = h.hasEdge s t) ∧ (∀ s t, g.getEdgeLabel s t = h.getEdgeLabel s t) ∧
      ∀ n, g.hasNode n = true → g.neighbors n = h.neighbors n := by
  have hl := (c161_forgets hg hh hr hr').1 rfl
  have key : ∀ {g : GraphMap m k NL EL}, Reachable g → g.intoStatic = .ok r →
      (∀ n : Id m, g.hasNode n = true ↔ n.val < g.nodeCount) → g.nodeCount ≠ 0 ∧ g.nodeCount ≤ m := by
    intro g hg hr hd
    obtain ⟨h0, h1⟩ := (c26_into_static_succeeds_iff hg).1 ⟨r, hr⟩
    refine ⟨h0, ?_⟩
    rw [← Bool.not_eq_true, hd] at h1
    have : (Id.maxValue : Id m).val = m := rfl
    omega
  obtain ⟨h0, h1⟩ := key hg hr hd
  obtain ⟨h0', h1'⟩ := key hh hr' hd'
  obtain ⟨x, v, hx, hv, a1, a2, a3, a4, a5, a6, a7, a8, a9, a10, -⟩ := c24_into_static_keeps_graph hg h0 hd h1 hnl hel
  rw [hr] at hx; cases hx
  obtain ⟨x, v', hx, hv', b1, b2, b3, b4, b5, b6, b7, b8, b9, b10, -⟩ :=
    c24_into_static_keeps_graph hh h0' hd' h1' (hl.nodeTable ▸ hnl) (hl.edgeTable ▸ hel)
  rw [hr'] at hx; cases hx
  rw [hv] at hv'; cases hv'
  refine ⟨a1.symm.trans b1, a2.symm.trans b2, a3.symm.trans b3, fun n => (a4 n).symm.trans (b4 n),
    fun n => Except.ok.inj ((a6 n).symm.trans (b6 n)), fun s t => Except.ok.inj ((a7 s t).symm.trans (b7 s t)),
    fun s t => (a9 s t).symm.trans (b9 s t), fun n hn => ?_⟩
  exact (a10 n hn).1.symm.trans (b10 n (by rw [← b4, a4]; exact hn)).1

/-- The nodes `x` and `y`, added in this order. -/
def pairOf (x y : Id 9) : GraphMap 9 3 String String :=
  ⟨true, [(x, ⟨x, none, [], []⟩), (y, ⟨y, none, [], []⟩)], 0, ⟨[]⟩, ⟨[]⟩, some (max x y)⟩

theorem pairOf_reachable : Reachable (pairOf 0 2) ∧ Reachable (pairOf 1 2) ∧ Reachable (pairOf 0 1) ∧
    Reachable (pairOf 1 0) := by
  refine ⟨?_, ?_, ?_, ?_⟩
  · exact (exec_run (ops := [.addNode 0 none, .addNode 2 none])
      (g0 := withLabelMap true SetMap.empty SetMap.empty) (by decide)).reachable List.nodup_nil List.nodup_nil
  · exact (exec_run (ops := [.addNode 1 none, .addNode 2 none])
      (g0 := withLabelMap true SetMap.empty SetMap.empty) (by decide)).reachable List.nodup_nil List.nodup_nil
  · exact (exec_run (ops := [.addNode 0 none, .addNode 1 none])
      (g0 := withLabelMap true SetMap.empty SetMap.empty) (by decide)).reachable List.nodup_nil List.nodup_nil
  · exact (exec_run (ops := [.addNode 1 none, .addNode 0 none])
      (g0 := withLabelMap true SetMap.empty SetMap.empty) (by decide)).reachable List.nodup_nil List.nodup_nil

/-- Non-vacuity of `c161_keeps`: two graphs that are not the same in memory. -/
example : pairOf 0 1 ≠ pairOf 1 0 ∧ (∀ n : Id 9, (pairOf 1 0).hasNode n = true ↔ n.val < (pairOf 1 0).nodeCount) ∧
    ∃ r, (pairOf 0 1).intoStatic = .ok r ∧ (pairOf 1 0).intoStatic = .ok r :=
  ⟨by decide, by decide, _, rfl, rfl⟩

/-- **C161.** With gaps in the ids: the graphs on `0, 2` and on `1, 2` are different, and have the same frozen form. -/
theorem c161_gap : Reachable (pairOf 0 2) ∧ Reachable (pairOf 1 2) ∧ (pairOf 0 2).hasNode 0 = true ∧
    (pairOf 1 2).hasNode 0 = false ∧
    ∃ r, (pairOf 0 2).intoStatic = .ok r ∧ (pairOf 1 2).intoStatic = .ok r :=
  ⟨pairOf_reachable.1, pairOf_reachable.2.1, by decide, by decide, _, rfl, rfl⟩

end Verif.Props
