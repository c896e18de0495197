import Verif.Props.ToolChain
import Verif.Props.StatsFiles

/-! C198: from CSV files to the figures of `stats`, by `csv_to_static` and `stats`. -/

namespace Verif.Props

open GraphMap Spec Programs

variable {m k wd v : Nat} {NL EL : Type} [DecidableEq NL] [DecidableEq EL]

/-- A frozen graph taken for undirected, with any label types, lists edges of the graph that do not go from a
larger to a smaller id. -/
theorem unoriented_any {g : GraphMap m k NL EL} (hg : Reachable g) {r : StaticGraph m k NL EL}
    (hr : g.intoStatic = .ok r) {vw} (hv : r.view = .ok vw) :
    ∃ es eds, ({ r with directed := false } : StaticGraph m k NL EL).view =
        .ok { vw with directed := false, edgeIndices := es, edges := eds } ∧
      ∀ s t, (s, t) ∈ es → (g.abs.edge s t).isSome = true ∧ s ≤ t := by
  obtain ⟨h0, h1⟩ := (c26_into_static_succeeds_iff hg).1 ⟨r, hr⟩
  obtain ⟨M, hmax, hlt⟩ := exists_max h0 h1
  obtain ⟨r', hr', hf⟩ := intoStatic_ok hg.inv.toNWF hmax hlt
  obtain rfl := Except.ok.inj (hr.symm.trans hr')
  have hM := (max_spec hmax).2
  obtain ⟨u, hu, -⟩ := StaticGraph.view_ok (g := { r with directed := false }) hf.out (by simp; omega)
  have hu' := hu
  unfold StaticGraph.view at hu hv
  obtain ⟨es, a1, hu⟩ := bind_eq_ok hu
  obtain ⟨eds, a2, hu⟩ := bind_eq_ok hu
  obtain ⟨es0, b1, hv⟩ := bind_eq_ok hv
  obtain ⟨eds0, b2, hv⟩ := bind_eq_ok hv
  cases hv
  refine ⟨es, eds, hu'.trans (congrArg _ (Except.ok.inj hu).symm), ?_⟩
  have a3 : ({ r with directed := false } : StaticGraph m k NL EL).edgeIndices =
      .ok ((pairsOf false (g.rows (M.val + 1))).map EdgeIter.toEdge) :=
    Verif.edgeIndices_eq hf.out (by simp; omega) false
  rw [a1] at a3
  obtain rfl := Except.ok.inj a3
  intro s t
  rw [mem_edgeList _ _ (by simp; omega)]
  simp only [rows_length, rows_getElem, outE_rows, Bool.false_eq_true, false_or]
  rintro ⟨⟨_, h⟩, h2⟩
  refine ⟨?_, h2⟩
  have S := reachable_shows hg
  have hn := outE_hasNode h
  have := S.hasEdge s t (by rw [← S.hasNode]; exact hn)
  have e : g.hasEdge s t = (g.abs.edge s t).isSome := Except.ok.inj this
  rw [← e, hasEdge_eq_outE]
  exact h

theorem counterOf_nones {X : Type} [DecidableEq X] {α : Type} (l : List α) :
    counterOf ((l.map (fun _ => (none : Option X))).filterMap id) = [] := by
  have : (l.map (fun _ => (none : Option X))).filterMap id = [] := by
    rw [List.filterMap_map]; simp
  rw [this]; rfl

/-- The figures for a frozen graph whose ids have no gaps, taken for undirected and with its label tables
emptied: the largest degree and no labels. -/
theorem bare_stats {g : GraphMap m k NL EL} (hg : Reachable g) (h0 : g.nodeCount ≠ 0)
    (hd : ∀ n : Id m, g.hasNode n = true ↔ n.val < g.nodeCount) (h1 : g.nodeCount ≤ m)
    (hnl : g.nodeLabels.len ≤ k) (hel : g.edgeLabels.len ≤ k) :
    ∃ (r : StaticGraph m k NL EL) (d : Nat), g.intoStatic = .ok r ∧
      stats (⟨false, r.numNodes, r.numEdges, r.edgeVec, r.inEdgeVec, r.labels, .empty, .empty⟩ : Plain m k) =
        .ok (d, [], []) ∧
      (∃ n, g.hasNode n = true ∧ g.degree n = .ok d) ∧ ∀ n d', g.hasNode n = true → g.degree n = .ok d' → d' ≤ d := by
  obtain ⟨r, vw, hr, hv, S⟩ := c24_shows hg h0 hd h1 hnl hel
  have G := reachable_shows hg
  obtain ⟨es, eds, hu, hes⟩ := unoriented_any hg hr hv
  have hq := retyped_view (NL' := Id m) (EL' := Id m) hu
  have hmem : ∀ n, n ∈ vw.nodeIndices ↔ g.hasNode n = true := fun n => by
    rw [S.memNodes, ← G.hasNode]; rfl
  have hdeg : ∀ n ∈ vw.nodeIndices, ∃ x, vw.degree n = .ok x ∧ g.degree n = .ok x := by
    intro n hn
    have hs := (S.memNodes n).1 hn
    obtain ⟨l, -, a2, a3, a4⟩ := S.neighbors n hs
    obtain ⟨l', -, b2, b3, b4⟩ := G.neighbors n hs
    have : l = l' := by
      refine List.Perm.eq_of_pairwise (le := (· < ·)) (fun a b _ _ x y => absurd x (lt_asymm y)) a2 b2 ?_
      rw [List.perm_ext_iff_of_nodup (a2.imp ne_of_lt) (b2.imp ne_of_lt)]
      intro t; rw [a3, b3]
    subst this
    exact ⟨_, a4, b4⟩
  obtain ⟨ds, hds⟩ := mapM_total (f := vw.degree) (l := vw.nodeIndices) (fun n hn => by
    obtain ⟨x, hx, -⟩ := hdeg n hn
    exact ⟨x, hx⟩)
  have hF := mapM_eq_ok hds
  have hne : ds ≠ [] := by
    rintro rfl
    have h2 := hF.length_eq
    have : (Id.new 0 : Id m) ∈ vw.nodeIndices := by
      rw [hmem, hd, EdgeIter.Id_new_val (Nat.zero_le _)]; omega
    rw [List.length_eq_zero_iff.1 h2] at this
    cases this
  obtain ⟨d, hdmax⟩ : ∃ d, ds.max? = some d := by
    cases hq : ds.max? with
    | none => exact absurd (List.max?_eq_none_iff.1 hq) hne
    | some d => exact ⟨d, rfl⟩
  obtain ⟨hdm, hdle⟩ := List.max?_eq_some_iff.1 hdmax
  refine ⟨r, d, hr, ?_, ?_, ?_⟩
  · unfold stats
    rw [hq, bind_ok]
    simp only [hds, bind_ok, hdmax, unwrap, pure_ok]
    unfold GView.nodeLabelCounter GView.edgeLabelCounter
    rw [mapM_ok _ (fun _ => none) vw.nodeIndices ?_, mapM_ok _ (fun _ => none) es ?_]
    · simp only [bind_ok, pure_ok, counterOf_nones]
    · rintro ⟨s, t⟩ he
      obtain ⟨c1, c2⟩ := hes s t he
      obtain ⟨l, hl⟩ := Option.isSome_iff_exists.1 c1
      have := S.edgeLabel s t l hl (.inr c2)
      unfold GView.getEdgeLabel at this ⊢
      obtain ⟨x, hx, -⟩ := bind_eq_ok this
      show (vw.edgeLid s t >>= _) = _
      rw [hx, bind_ok]
      cases x <;> rfl
    · intro n hn
      obtain ⟨l, hl⟩ := Option.isSome_iff_exists.1 ((S.memNodes n).1 hn)
      have := S.nodeLabel n l hl
      unfold GView.getNodeLabel at this ⊢
      obtain ⟨x, hx, -⟩ := bind_eq_ok this
      show (vw.nodeLid n >>= _) = _
      rw [hx, bind_ok]
      cases x <;> rfl
  · obtain ⟨i, hi, hid⟩ := List.getElem_of_mem hdm
    have hi' : i < vw.nodeIndices.length := by rw [hF.length_eq]; exact hi
    have := (List.forall₂_iff_get.1 hF).2 i hi' hi
    have hin := List.getElem_mem hi'
    obtain ⟨x, x1, x2⟩ := hdeg _ hin
    refine ⟨_, (hmem _).1 hin, ?_⟩
    rw [x2, ← hid]
    exact x1.symm.trans this
  · intro n d' hn hd'
    obtain ⟨i, hi, hid⟩ := List.getElem_of_mem ((hmem n).2 hn)
    have hi' : i < ds.length := by rw [← hF.length_eq]; exact hi
    have := (List.forall₂_iff_get.1 hF).2 i hi hi'
    obtain ⟨x, x1, x2⟩ := hdeg n ((hmem n).2 hn)
    rw [x2] at hd'
    cases hd'
    simp only [List.get_eq_getElem, hid] at this
    rw [x1] at this
    rw [Except.ok.inj this]
    exact hdle _ (List.getElem_mem hi')

/-- A renaming of the nodes keeps degrees. -/
theorem carries_degree {f : Id m → Id m} {g h : GraphMap m k NL EL} (hg : Reachable g) (hh : Reachable h)
    (c : Carries f g h) (n : Id m) (hn : g.hasNode n = true) : h.degree (f n) = g.degree n := by
  obtain ⟨l, -, a2, a3, a4⟩ := c09_neighbors hg n hn
  obtain ⟨l', -, b2, b3, b4⟩ := c09_neighbors hh (f n) (c.1.mapsTo hn)
  rw [a4, b4]
  have hin : ∀ t ∈ l, g.hasNode t = true := fun t ht => (c10_no_dangling hg n t ((a3 t).1 ht)).2
  have : l'.Perm (l.map f) := by
    rw [List.perm_ext_iff_of_nodup (b2.imp ne_of_lt)
      ((List.nodup_map_iff_inj_on (a2.imp ne_of_lt)).2 fun x hx y hy e => c.1.injOn (hin x hx) (hin y hy) e)]
    intro t
    rw [b3, List.mem_map]
    constructor
    · intro e
      obtain ⟨s, hs, rfl⟩ := c.1.surjOn (c10_no_dangling hh _ _ e).2
      exact ⟨s, (a3 s).2 (by rw [← (c.2.2 n s hn hs).1]; exact e), rfl⟩
    · rintro ⟨s, hs, rfl⟩
      rw [(c.2.2 n s hn (hin s hs)).1]
      exact (a3 s).1 hs
  rw [this.length_eq, List.length_map]

/-- **C198.** CSV files that are read as a graph `g` with a node and without labels; ids `0..n-1` or the flag
`--reorder_nodes`; room on the disk for the file. `csv_to_static` ends well, and `stats` on the file it leaves
gives the largest degree in `g` and no labels, for a directed graph too. -/
theorem c198_chain {a : CsvArgs} {w : World} {g : GraphMap m k (List Byte) (List Byte)}
    (hr : Reads a w g) (mcN mcE : List (Id k × Nat)) (hw : m + 1 = 256 ^ wd)
    (hv : k + 1 = 256 ^ v) (h64 : m + 1 < 2 ^ 64) (h0 : g.nodeCount ≠ 0) (h1 : g.nodeCount ≤ m)
    (hd : "--reorder_nodes" ∈ a.flags ∨ ∀ n, g.hasNode n = true ↔ n.val < g.nodeCount)
    (hnl : g.nodeLabels.items = []) (hel : g.edgeLabels.items = []) (hec : g.edgeCount < 2 ^ 63) :
    ∃ (r : StaticGraph m k (List Byte) (List Byte)) (d : Nat), csvToStaticGraph (m := m) a mcN mcE w = .ok r ∧
      (∃ n, g.hasNode n = true ∧ g.degree n = .ok d) ∧
      (∀ n d', g.hasNode n = true → g.degree n = .ok d' → d' ≤ d) ∧
      ∀ room, 1 + ((Codec.staticGraph wd v Programs.text Programs.text (a.flags.contains "--directed")).bytes r).length
        ≤ room → ∃ w1, csvToStatic m wd v a mcN mcE { w with room := room } = (.ok (), w1) ∧
          statsOf m k wd v w1 (a.outFile.getD "graph.static") = .ok (d, [], []) := by
  obtain ⟨hg, hdir, f, h, e1, e2, e3, e4, e5, e6, e7, e8, e9, e10⟩ := csvToStaticGraph_eq hr mcN mcE
  have hdense : ∀ i, h.hasNode i = true ↔ i.val < h.nodeCount := by
    rw [e3]
    by_cases hf : "--reorder_nodes" ∈ a.flags
    · exact e8 (by simpa using hf)
    · rw [(e9 (by simpa using hf)).1]
      exact hd.resolve_left hf
  have hmax : h.hasNode Id.maxValue = false := by
    rw [← Bool.not_eq_true, hdense]
    show ¬ m < _
    omega
  obtain ⟨M, hM, hlt⟩ := exists_max (g := h) (by rw [e3]; exact h0) hmax
  have hnl0 : h.nodeLabels.len = 0 := by rw [e6]; exact congrArg List.length hnl
  have hel0 : h.edgeLabels.len = 0 := by rw [e7]; exact congrArg List.length hel
  obtain ⟨r, q1, hfz⟩ := intoStatic_ok e1.inv.toNWF hM hlt
  obtain ⟨r', d, r1, hst, ⟨n0, hn0, hd0⟩, hle⟩ := bare_stats e1 (by rw [e3]; exact h0) hdense
    (by rw [e3]; exact h1) (by omega) (by omega)
  rw [q1] at r1; cases r1
  have hdir' : h.directed = a.flags.contains "--directed" := by
    have : h.isDirected = a.flags.contains "--directed" := by rw [e2, hdir]
    exact this
  have hlen : r.edgeVec.edges.length < 2 ^ 64 := by
    rw [hfz.out.edges, List.length_map]
    have := rows_flatten_le e1.inv (j := M.val + 1) (by omega)
    omega
  have hlenIn : ∀ e, r.inEdgeVec = some e → e.edges.length < 2 ^ 64 := by
    intro e he
    cases hdd : h.directed with
    | false => rw [hfz.noIn hdd] at he; cases he
    | true =>
      obtain ⟨iv, i1, i2⟩ := hfz.inn hdd
      rw [i1] at he
      cases he
      rw [i2.edges, List.length_map]
      have := inRows_flatten_le e1.inv hdd (j := M.val + 1) (by omega)
      omega
  rw [← hdir']
  refine ⟨r, d, by rw [← q1, ← e10], ?_, ?_, fun room hroom => ?_⟩
  · obtain ⟨n, hn, rfl⟩ := e5.1.surjOn hn0
    exact ⟨n, hn, by rw [← carries_degree hg e1 e5 n hn]; exact hd0⟩
  · intro n d' hn hd'
    exact hle (f n) d' (e5.1.mapsTo hn) (by rw [carries_degree hg e1 e5 n hn]; exact hd')
  have hgraph : csvToStaticGraph (m := m) a mcN mcE { w with room := room } = .ok r := by
    rw [← q1, ← e10]
    rfl
  obtain ⟨ok, x1, x2⟩ := World.export_eq (Codec.staticGraph wd v Programs.text Programs.text h.directed) r
    (a.outFile.getD "graph.static") { w with room := room }
  have x2 := x2 (by show _ ≤ room - 1; omega)
  subst x2
  rw [if_neg (by show room ≠ 0; omega)] at x1
  generalize hx : ({ w with room := room } : World).put (a.outFile.getD "graph.static") _ = x at x1
  have hfile : x.files (a.outFile.getD "graph.static") =
      some ((Codec.staticGraph wd v Programs.text Programs.text h.directed).bytes r) := by
    rw [← hx]
    show (if _ then _ else _) = _
    rw [if_pos rfl, List.take_of_length_le (by show _ ≤ room - 1; omega)]
  have hread := c108_unlabelled (wd := wd) (v := v) (.ident (m := m) wd) (.ident (m := m) wd) hw hv
    (by rw [hfz.numNodes, e3]; omega) (by rw [hfz.numEdges, e4]; omega)
    (sizedVec_of_encodes hfz.out (by rw [rows_length]; omega)
      (by rw [hfz.out.edges, List.length_map] at hlen; exact hlen))
    (by
      intro e hein
      cases hdd : h.directed with
      | false => rw [hfz.noIn hdd] at hein; cases hein
      | true =>
        obtain ⟨iv, h3, h4⟩ := hfz.inn hdd
        have := hlenIn _ h3
        rw [h3] at hein
        cases hein
        exact sizedVec_of_encodes h4 (by simp [inRows]; omega)
          (by rw [h4.edges, List.length_map] at this; exact this))
    (by
      intro l hl
      rw [hfz.labels] at hl
      split at hl
      · cases hl; simp; omega
      · cases hl) h.directed false hfile (by rw [hfz.nodeLabels, e6]; exact hnl)
    (by rw [hfz.edgeLabels, e7]; exact hel)
  refine ⟨x, ?_, ?_⟩
  · unfold csvToStatic exported
    rw [hgraph, on_directed, ← hdir']
    simp only [x1, if_true]
  · unfold statsOf load
    rw [hread]
    exact hst

set_option maxRecDepth 8000 in
/-- Non-vacuity: two edges from one node, without and with a direction. -/
example (dir : Bool) : ∃ need : Nat, ∀ room, need ≤ room → ∃ w1,
    csvToStatic (k := 255) 255 1 1
      ⟨none, "e", none, none, if dir then ["--reorder_nodes", "--directed"] else ["--reorder_nodes"]⟩ [] []
      { bareDisk with room := room } = (.ok (), w1) ∧
    statsOf 255 255 1 1 w1 "graph.static" = .ok (2, [], []) := by
  obtain ⟨g, hr, h1, h2, h3, h4, h5, h6, h7⟩ : ∃ g : GraphMap 255 255 (List Byte) (List Byte),
      Reads ⟨none, "e", none, none, if dir then ["--reorder_nodes", "--directed"] else ["--reorder_nodes"]⟩
        bareDisk g ∧ g.nodeCount = 3 ∧ g.nodeLabels.items = [] ∧ g.edgeLabels.items = [] ∧ g.edgeCount = 2 ∧
        g.hasNode 9 = true ∧ g.degree 9 = .ok 2 ∧
        ∀ n ∈ g.nodeIndices, (g.degree n).toOption.getD 9 ≤ 2 := by
    cases dir <;> refine ⟨_, rfl, ?_, ?_, ?_, ?_, ?_, ?_, ?_⟩ <;> decide
  obtain ⟨r, d, -, ⟨n, hn, hd⟩, hle, h⟩ := c198_chain (wd := 1) (v := 1) hr [] [] (by decide) (by decide)
    (by decide) (by omega) (by omega) (.inl (by cases dir <;> decide)) h2 h3 (by omega)
  have a := hle 9 2 h5 h6
  have b := h7 n ((mem_nodeIndices g n).2 hn)
  rw [hd] at b
  obtain rfl : d = 2 := Nat.le_antisymm b a
  exact ⟨_, h⟩

end Verif.Props
