import Verif.Proof.Lists
import Verif.Props.FrozenSearch
import Verif.Props.Mmap
import Verif.Props.Csv
import Verif.Props.SetOps

/-! C128: copying, merging, subtracting and writing frozen graphs whose ids have gaps. -/

namespace Verif.Props

open GraphMap Spec Csv

variable {m k : Nat} {NL EL : Type} [DecidableEq NL] [DecidableEq EL]

/-- **C128.** A frozen graph lists the ids below the number of nodes, with the labels of the nodes of these
ids, and all edges of the graph it was made from; edges may have ends that are not listed. -/
theorem c128_frozen {g : GraphMap m k NL EL} (hg : Reachable g) {r : StaticGraph m k NL EL}
    (hr : g.intoStatic = .ok r) (hnl : g.nodeLabels.len ≤ k) (hel : g.edgeLabels.len ≤ k) :
    ∃ v, r.view = .ok v ∧ v.directed = g.directed ∧ Lists v (g.abs.renumbered g.nodeCount) := by
  obtain ⟨h0, h1⟩ := (c26_into_static_succeeds_iff hg).1 ⟨r, hr⟩
  obtain ⟨r', v, e1, e2, e3, e4, e5, e6, e7, e8, e9, e10, e11, e12, e13⟩ := c25_sparse hg h0 h1 hnl hel
  obtain rfl := Except.ok.inj (hr.symm.trans e1)
  have S := reachable_shows hg
  have hd : v.directed = g.view.directed := e3
  obtain ⟨-, hm, -⟩ := frozen_asks hg hr
  refine ⟨v, e2, e3, ⟨fun h => S.sym (by rw [← hd]; exact h), fun n => ?_, ?_, fun s t => ?_⟩, fun n l h => ?_,
    fun s t l h hst => ?_⟩
  · rw [e12, List.mem_map]
    simp only [AGraph.renumbered]
    constructor
    · rintro ⟨i, hi, rfl⟩
      rw [List.mem_range] at hi
      have : (Id.new i : Id m).val = i := Nat.mod_eq_of_lt (by omega)
      rw [if_pos (by omega)]
      rfl
    · intro h
      by_cases hn : n.val < g.nodeCount
      · exact ⟨n.val, List.mem_range.2 hn, Fin.ext (Nat.mod_eq_of_lt n.isLt)⟩
      · rw [if_neg hn] at h; cases h
  · exact e8.nodup_iff.2 S.edgesNodup
  · rw [e8.mem_iff, hd]
    exact S.memEdges s t
  · simp only [AGraph.renumbered] at h
    rw [e13]
    split at h
    · rename_i hn
      rw [if_pos hn]
      cases h
      cases ha : g.abs.node n with
      | some l =>
        have : .ok (g.getNodeLabel n) = Except.ok (ε := Panic) l := by
          rw [← view_getNodeLabel]; exact S.nodeLabel n l ha
        exact this
      | none =>
        have hno : g.hasNode n = false := by
          have := S.hasNode n
          rw [ha] at this
          exact this
        have : g.getNode n = none := by
          cases hq : g.getNode n with
          | none => rfl
          | some nd => rw [(hasNode_iff g n).2 ⟨nd, hq⟩] at hno; cases hno
        unfold GraphMap.getNodeLabel
        rw [this]
        rfl
    · cases h
  · rw [e7, ← view_getEdgeLabel]
    exact S.edgeLabel s t l h (by rw [← hd]; exact hst)

/-- **C128.** So does the graph mapped from its dump. -/
theorem c128_mapped {g : GraphMap m k NL EL} (hg : Reachable g) {r : StaticGraph m k NL EL}
    (hr : g.intoStatic = .ok r) (hnl : g.nodeLabels.len ≤ k) (hel : g.edgeLabels.len ≤ k)
    {M : Id m} (hM : g.nodeIndices.max? = some M) {h : MmapGraph m k NL EL} (ha : h.AnswersLike r (M.val + 1)) :
    ∃ w, h.view = .ok w ∧ w.directed = g.directed ∧ Lists w (g.abs.renumbered g.nodeCount) := by
  obtain ⟨v, h1, h2, L⟩ := c128_frozen hg hr hnl hel
  have hw := ha.view
  rw [h1] at hw
  refine ⟨_, hw, h2, ⟨L.sym, L.memNodes, L.edgesNodup, L.memEdges⟩, L.nodeLabel, fun s t l he hst => ?_⟩
  have := L.edgeLabel s t l he hst
  have hs : (g.abs.edge s t).isSome := by
    have : g.abs.edge s t = some l := he
    rw [this]; rfl
  have hn := (max_spec hM).2 s (by
    have S := reachable_shows hg
    have := S.hasNode s
    rw [(S.ends s t hs).1] at this
    exact this)
  have hlt : s.val < M.val + 1 := Nat.lt_succ_of_le hn
  rw [← this]
  unfold GView.getEdgeLabel
  simp only [if_pos hlt]

/-- **C128.** The union of two graphs of the same directedness has what either lists, the labels of the
second where it lists the element, and the unlisted ends of edges as unlabelled nodes. -/
theorem c128_union {g0 g1 : GView m k NL EL} {A B : AGraph (Id m) NL EL} (S0 : Lists g0 A)
    (S1 : Lists g1 B) (hd : g0.directed = g1.directed)
    {nl : List NL} {el : List EL} (hnl : nl.length ≤ k + 1) (hel : el.length ≤ k + 1)
    (h1 : ∀ n x, A.node n = some (some x) ∨ B.node n = some (some x) → x ∈ nl)
    (h2 : ∀ s t x, A.edge s t = some (some x) ∨ B.edge s t = some (some x) → x ∈ el) :
    ∃ g, graphUnion g0 g1 = .ok g ∧ g.directed = g0.directed ∧ Reachable g ∧
      Shows g.view (A.union B).closed ∧ g.edgeCount = g0.edgeIndices.length + g1.edgeIndices.length :=
  graphUnion_lists S0 S1 hd hnl hel h1 h2

/-- **C128.** The clone has what the original lists, and the unlisted ends of edges as unlabelled nodes; its
`edge_count` is exact. -/
theorem c128_clone {g : GView m k NL EL} {A : AGraph (Id m) NL EL} (S : Lists g A) :
    ∃ c, cloneBox g = .ok c ∧ c.directed = g.directed ∧ Reachable c ∧ Shows c.view A.closed ∧
      c.edgeCount = c.edgeIndices.length := by
  obtain ⟨⟨nl, hnl, h1⟩, el, hel, h2⟩ := lists_fits S
  have hE : Lists (new g.directed : GraphMap m k NL EL).view AGraph.empty := by
    have hn : (new g.directed : GraphMap m k NL EL).view.edgeIndices = [] := by
      show (if _ then _ else _ : List _) = []
      split <;> rfl
    refine ⟨⟨fun _ _ _ => rfl, fun n => ?_, by rw [hn]; exact List.nodup_nil, fun s t => ?_⟩,
      (fun n l h => by cases h), (fun s t l h => by cases h)⟩
    · exact ⟨(fun h => by cases h), (fun h => by cases h)⟩
    · rw [hn]
      exact ⟨(fun h => by cases h), (fun h => by cases h.1)⟩
  obtain ⟨c, a1, a2, a3, a4, a5⟩ := graphUnion_lists S hE rfl hnl hel
    (by
      rintro n x (h | h)
      · exact h1 n x h
      · cases h)
    (by
      rintro s t x (h | h)
      · exact h2 s t x h
      · cases h)
  have hu : A.union AGraph.empty = A := rfl
  rw [hu] at a4
  refine ⟨c, a1, a2, a3, a4, ?_⟩
  have h0 : (new g.directed : GraphMap m k NL EL).view.edgeIndices.length = 0 := by
    show (if _ then _ else _ : List _).length = 0
    split <;> rfl
  rw [a5, h0, Nat.add_zero]
  exact (lists_edges_length S a4.lists a2 rfl).symm

/-- **C128.** The difference of two graphs of the same directedness has the nodes listed or touched by an
edge in the first and not listed in the second, and their edges that are not edges of the second; it panics
exactly when a node listed in the second has a self loop in the first. -/
theorem c128_minus {g0 g1 : GView m k NL EL} {A B : AGraph (Id m) NL EL} (S0 : Lists g0 A)
    (S1 : Lists g1 B) (hd : g0.directed = g1.directed) :
    (A.SharedLoop B → graphMinus g0 g1 = .error .unwrapNone) ∧
    (¬ A.SharedLoop B → ∃ g, graphMinus g0 g1 = .ok g ∧ g.directed = g0.directed ∧ Reachable g ∧
      Shows g.view (A.closed.without B) ∧ g.edgeCount = g.edgeIndices.length) := by
  obtain ⟨g, c1, c2, c3, c4⟩ := copy_lists S0
  have hrun : graphMinus g0 g1 = (do let g ← removeNodesOf g1 g; removeEdgesOf g1 g) := by
    have e := c1
    unfold graphMinus
    rw [← bind_assoc, e]
    rfl
  constructor
  · rintro ⟨n, h1, h2⟩
    rw [hrun]
    unfold removeNodesOf
    rw [removeNodes_loop g1.nodeIndices A.closed g c3 ⟨n, (S1.memNodes n).2 h1, h2⟩]
    rfl
  · intro hno
    obtain ⟨g', d1, d2, d3, d4⟩ := removeNodes_ok g1.nodeIndices A.closed g c2 c3 c4 (by
      intro n hn
      by_contra hcon
      exact hno ⟨n, (S1.memNodes n).1 hn, Option.isSome_iff_ne_none.2 hcon⟩)
    obtain ⟨g2, b1, b2, b3, b4⟩ := removeEdges_ok g1.edgeIndices _ g' d2 d3 d4
    have hP : (⟨(A.closed.restrict (fun n => n ∉ g1.nodeIndices)).node, fun a b =>
        if (a, b) ∈ g1.edgeIndices ∨ (g0.directed = false ∧ (b, a) ∈ g1.edgeIndices) then none
        else (A.closed.restrict (fun n => n ∉ g1.nodeIndices)).edge a b⟩ : AGraph (Id m) NL EL) =
        A.closed.without B := by
      apply AGraph_ext
      · intro n
        simp only [AGraph.restrict, AGraph.without, S1.memNodes]
        by_cases h : (B.node n).isSome = true <;> simp [h]
      · intro s t
        simp only [AGraph.restrict, AGraph.without, S1.memNodes]
        rw [hd]
        simp only [lists_edge_mem S1.toListing]
        by_cases h1 : (B.node s).isSome = true <;> by_cases h2 : (B.node t).isSome = true <;>
          by_cases h3 : (B.edge s t).isSome = true <;> simp [h1, h2, h3]
    rw [hP] at b3
    refine ⟨g2, ?_, b3.dir, b2, ?_, ?_⟩
    · rw [hrun]
      unfold removeNodesOf
      rw [d1, bind_ok]
      exact b1
    · apply b3.shows
      intro hf s t
      simp only [AGraph.without, AGraph.closed, S0.sym hf s t, S1.sym (hd ▸ hf) s t]
      by_cases h1 : (B.node s).isSome = true <;> by_cases h2 : (B.node t).isSome = true <;> simp [h1, h2]
    · show g2.numEdges = _
      rw [b4, edgeIndices_length b3.inv.toNWF]

/-- **C128.** Written as CSV files and read back, the graph has what was listed, and the unlisted ends of
edges as unlabelled nodes; labels with an empty field are lost. -/
theorem c128_csv {g : GView m k NL EL} {A : AGraph (Id m) NL EL} (S : Lists g A) {c : Settings}
    (hs : SeparatorOk c.separator) (hh : c.hasHeaders = true)
    {xf : Field (Id m)} {nf : Field NL} {ef : Field EL}
    (hx : ∀ n, (A.closed.node n).isSome = true → xf.parse (xf.shown n) = some n)
    (hn : ∀ n x, A.node n = some (some x) → nf.shown x ≠ [] → nf.parse (nf.shown x) = some x)
    (he : ∀ s t x, A.edge s t = some (some x) → ef.shown x ≠ [] → ef.parse (ef.shown x) = some x) :
    ∃ (nb eb : List Byte) (g' : GraphMap m k NL EL), Csv.write c.separator xf nf ef g = .ok (nb, eb) ∧
      Csv.read c xf nf ef (some nb) eb (new g.directed) = .ok g' ∧ Reachable g' ∧
      g'.directed = g.directed ∧ Shows g'.view (A.dropEmpty nf ef).closed ∧
      g'.edgeCount = g.edgeIndices.length :=
  roundTrip_lists S hs hh hx hn he

/-- **C128.** In terms of the graph that was frozen: its edges survive freezing and copying, with their
labels, and so do its nodes that have an id below the number of nodes or an edge; labels survive exactly at
the former; every id below the number of nodes becomes a node. -/
theorem c128_frozen_clone {g : GraphMap m k NL EL} (hg : Reachable g) {r : StaticGraph m k NL EL}
    (hr : g.intoStatic = .ok r) (hnl : g.nodeLabels.len ≤ k) (hel : g.edgeLabels.len ≤ k) :
    ∃ v c, r.view = .ok v ∧ cloneBox v = .ok c ∧ Reachable c ∧ c.directed = g.directed ∧
      (∀ n, c.hasNode n = true ↔ n.val < g.nodeCount ∨ g.abs.Touched n) ∧
      (∀ n, c.getNodeLabel n = if n.val < g.nodeCount then g.getNodeLabel n else none) ∧
      (∀ s t, c.hasEdge s t = g.hasEdge s t) ∧
      (∀ s t, g.hasEdge s t = true → g.directed = true ∨ s ≤ t → c.getEdgeLabel s t = g.getEdgeLabel s t) := by
  obtain ⟨v, h1, h2, L⟩ := c128_frozen hg hr hnl hel
  obtain ⟨c, a1, a2, a3, a4, a5⟩ := c128_clone L
  have S := reachable_shows hg
  have key : ∀ (c : GraphMap m k NL EL) (A : AGraph (Id m) NL EL), Shows c.view A →
      ∀ n, c.getNodeLabel n = (A.node n).join := by
    intro c A T n
    cases ha : A.node n with
    | some l =>
      have : .ok (c.getNodeLabel n) = Except.ok (ε := Panic) l := by
        rw [← view_getNodeLabel]; exact T.nodeLabel n l ha
      exact Except.ok.inj this
    | none =>
      have hno : c.hasNode n = false := by
        have := T.hasNode n
        rw [ha] at this
        exact this
      have : c.getNode n = none := by
        cases hq : c.getNode n with
        | none => rfl
        | some nd => rw [(hasNode_iff c n).2 ⟨nd, hq⟩] at hno; cases hno
      unfold GraphMap.getNodeLabel
      rw [this]
      rfl
  have hedge : ∀ (c : GraphMap m k NL EL) (A : AGraph (Id m) NL EL), Shows c.view A →
      ∀ s t, c.hasEdge s t = (A.edge s t).isSome := by
    intro c A T s t
    cases hs : (A.node s).isSome with
    | true => exact Except.ok.inj (T.hasEdge s t hs)
    | false =>
      have hno : c.hasNode s = false := by
        have := T.hasNode s
        rw [hs] at this
        exact this
      have h3 : (A.edge s t).isSome = false := by
        cases hq : (A.edge s t).isSome with
        | false => rfl
        | true => rw [(T.ends s t hq).1] at hs; cases hs
      rw [h3]
      cases hq : c.hasEdge s t with
      | false => rfl
      | true =>
        rw [hasEdge_eq_outE] at hq
        rw [outE_hasNode hq] at hno
        cases hno
  have low : ∀ n : Id m, n.val < g.nodeCount →
      (g.abs.renumbered g.nodeCount).closed.node n = some (g.abs.node n).join := by
    intro n h
    have e : (g.abs.renumbered g.nodeCount).node n = some (g.abs.node n).join := if_pos h
    simp only [AGraph.closed, e]
  have high : ∀ n : Id m, ¬ n.val < g.nodeCount → (g.abs.Touched n →
      (g.abs.renumbered g.nodeCount).closed.node n = some none) ∧ (¬ g.abs.Touched n →
      (g.abs.renumbered g.nodeCount).closed.node n = none) := by
    intro n h
    have e : (g.abs.renumbered g.nodeCount).node n = none := if_neg h
    simp only [AGraph.closed, e]
    exact ⟨fun ht => if_pos ht, fun ht => if_neg ht⟩
  refine ⟨v, c, h1, a1, a3, a2.trans h2, fun n => ?_, fun n => ?_, fun s t => ?_, fun s t hst hd => ?_⟩
  · have hq : c.hasNode n = ((g.abs.renumbered g.nodeCount).closed.node n).isSome := a4.hasNode n
    rw [hq]
    by_cases h : n.val < g.nodeCount
    · simp [h, low n h]
    · by_cases h' : g.abs.Touched n
      · simp [(high n h).1 h', h']
      · simp [(high n h).2 h', h, h']
  · rw [key c _ a4, key g _ S]
    by_cases h : n.val < g.nodeCount
    · rw [low n h, if_pos h]; rfl
    · rw [if_neg h]
      by_cases h' : g.abs.Touched n
      · rw [(high n h).1 h']; rfl
      · rw [(high n h).2 h']; rfl
  · rw [hedge c _ a4, hedge g _ S]
    rfl
  · rw [hedge g _ S] at hst
    obtain ⟨l, hl⟩ := Option.isSome_iff_exists.1 hst
    rw [← view_getEdgeLabel, ← view_getEdgeLabel]
    have e1 : c.view.getEdgeLabel s t = .ok l := a4.edgeLabel s t l hl (by
      have : c.view.directed = g.directed := a2.trans h2
      rw [this]; exact hd)
    have e2 : g.view.getEdgeLabel s t = .ok l := S.edgeLabel s t l hl hd
    rw [e1, e2]

/-- Nodes 1, 5 and 7, all labelled, and an edge between the first two. -/
def gappy : GraphMap 9 3 String String :=
  ⟨false, [(1, ⟨1, some 0, [(5, some 0)], []⟩), (5, ⟨5, some 1, [(1, some 0)], []⟩),
    (7, ⟨7, some 2, [], []⟩)], 1, ⟨["a", "b", "c"]⟩, ⟨["x"]⟩, some 7⟩

theorem gappy_reachable : Reachable gappy :=
  (exec_run (ops := [.addNode 1 (some "a"), .addNode 5 (some "b"), .addNode 7 (some "c"),
      .addEdge 1 5 (some "x")])
    (g0 := withLabelMap false SetMap.empty SetMap.empty) (by decide)).reachable List.nodup_nil List.nodup_nil

set_option maxRecDepth 8000 in
/-- Frozen and copied it has nodes 0, 1, 2 and 5, of which only 1 is labelled. -/
example : Reachable gappy ∧ gappy.nodeLabels.len ≤ 3 ∧ gappy.edgeLabels.len ≤ 3 ∧
    ∃ r v c, gappy.intoStatic = .ok r ∧ r.view = .ok v ∧ cloneBox v = .ok c ∧ c.nodeIndices = [0, 1, 2, 5] ∧
      c.getNodeLabel 1 = some "a" ∧ c.getNodeLabel 5 = none ∧ c.hasNode 7 = false ∧ c.hasNode 0 = true ∧
      c.getEdgeLabel 1 5 = .ok (some "x") := by
  refine ⟨gappy_reachable, by decide, by decide, ?_⟩
  obtain ⟨r, hr⟩ : ∃ r, gappy.intoStatic = .ok r := ⟨_, rfl⟩
  obtain ⟨v, hv⟩ : ∃ v, r.view = .ok v := by cases hr; exact ⟨_, rfl⟩
  obtain ⟨c, hc⟩ : ∃ c, cloneBox v = .ok c := by cases hr; cases hv; exact ⟨_, rfl⟩
  refine ⟨r, v, c, hr, hv, hc, ?_⟩
  cases hr
  cases hv
  cases hc
  decide

set_option maxRecDepth 8000 in
/-- Subtracted from itself after freezing, what is left are the nodes the frozen graph does not list, without
the edge. -/
example : (∃ r v g, gappy.intoStatic = .ok r ∧ r.view = .ok v ∧ graphMinus gappy.view v = .ok g ∧
    g.nodeIndices = [5, 7] ∧ g.edgeCount = 0) := by
  obtain ⟨r, hr⟩ : ∃ r, gappy.intoStatic = .ok r := ⟨_, rfl⟩
  obtain ⟨v, hv⟩ : ∃ v, r.view = .ok v := by cases hr; exact ⟨_, rfl⟩
  obtain ⟨c, hc⟩ : ∃ c, graphMinus gappy.view v = .ok c := by cases hr; cases hv; exact ⟨_, rfl⟩
  refine ⟨r, v, c, hr, hv, hc, ?_⟩
  cases hr
  cases hv
  cases hc
  decide

end Verif.Props
