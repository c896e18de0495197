import Verif.Props.SameSearch
import Verif.Props.Equality2
import Verif.Props.ConnComp
import Verif.Props.Mmap
import Verif.Props.Csv

/-! C114: a graph, its frozen form and that form dumped and loaded again are interchangeable. -/

namespace Verif.Props

open Spec Traversal GraphMap

variable {m k k' : Nat} {NL EL : Type} [DecidableEq NL] [DecidableEq EL]

/-- The algorithms of the library cannot tell the two graphs apart. -/
structure Interchangeable (g : GView m k NL EL) (h : GView m k' NL EL) : Prop where
  /-- `equal` says yes, both ways. -/
  equal : g.equal h = .ok true ∧ h.equal g = .ok true
  /-- Both feed the same data to a hasher. -/
  hash : g.hashData = h.hashData ∧ g.boxHashData = h.boxHashData
  /-- Searches from any node yield the same list. -/
  bfs : ∀ s, g.hasNode s = true → ∃ l st st' t t',
    Traversal.new g (some s) = .ok st ∧ Yields (Bfs.next g) st l st' ∧
    Traversal.new h (some s) = .ok t ∧ Yields (Bfs.next h) t l t'
  dfs : ∀ s, g.hasNode s = true → ∃ l st st' t t',
    Traversal.new g (some s) = .ok st ∧ Yields (Dfs.next g) st l st' ∧
    Traversal.new h (some s) = .ok t ∧ Yields (Dfs.next h) t l t'
  /-- Connectivity answers and component counts are the same. -/
  components : ∃ c d, ConnComp.new g = .ok c ∧ ConnComp.new h = .ok d ∧ c.getCount = d.getCount ∧
    ∀ a b, ∃ c' d' r, c.isConnected a b = .ok (c', r) ∧ d.isConnected a b = .ok (d', r)

/-- **C114.** Graphs with the same labelled nodes and edges, directedness and `edge_count` are interchangeable,
whatever implementation and label numbering they have. -/
theorem c114_interchangeable {g : GView m k NL EL} {h : GView m k' NL EL} {A : AGraph (Id m) NL EL}
    (hg : Shows g A) (hh : Shows h A) (hd : g.directed = h.directed) (he : g.edgeCount = h.edgeCount) :
    Interchangeable g h := by
  have hnc : g.nodeCount = h.nodeCount := by
    rw [hg.nodeCount, hh.nodeCount]
    exact ((List.perm_ext_iff_of_nodup hg.nodesNodup hh.nodesNodup).2
      (fun n => (hg.memNodes n).trans (hh.memNodes n).symm)).length_eq
  have hsub : A.Sub A := ⟨fun _ _ h => h, fun _ _ _ h => h⟩
  have hsame : SameGraph g h := (sameGraph_iff hg hh).2 ⟨hd, rfl⟩
  have hstr : SameNodesAndEdges g h := ⟨hsame.2.1, hsame.2.2.2.1⟩
  have hat : ∀ s, g.hasNode s = true → BeginsAt g A (some s) s ∧ BeginsAt h A (some s) s := by
    intro s hn
    rw [hg.hasNode] at hn
    exact ⟨⟨hn, .inl rfl⟩, ⟨hn, .inl rfl⟩⟩
  refine ⟨?_, ?_, fun s hn => c113_bfs hg hh hstr (hat s hn).1 (hat s hn).2,
    fun s hn => c113_dfs hg hh hstr (hat s hn).1 (hat s hn).2, ?_⟩
  · obtain ⟨b, h1, h2⟩ := c84_equal_exact hg hh
    obtain ⟨c, h3, h4⟩ := c84_equal_exact hh hg
    rw [h1, h3, h2.2 ⟨hd, hnc, he, hsub⟩, h4.2 ⟨hd.symm, hnc.symm, he.symm, hsub⟩]
    exact ⟨rfl, rfl⟩
  · exact ⟨(c84_hash_data_iff hg hh hd).2 hsame, (c84_boxed_hash_data_iff hg hh).2 hsame⟩
  · obtain ⟨c, c1, c2⟩ := c35_graph hg
    obtain ⟨d, d1, d2⟩ := c35_graph hh
    obtain ⟨c', c3, c4⟩ := c36_graph hg
    obtain ⟨d', d3, d4⟩ := c36_graph hh
    rw [c1] at c3
    rw [d1] at d3
    cases c3
    cases d3
    refine ⟨c, d, c1, d1, by rw [c4, d4], fun a b => ?_⟩
    obtain ⟨c', r, e1, e2⟩ := c2 a b
    obtain ⟨d', r', e3, e4⟩ := d2 a b
    have : r = r' := by
      rw [Bool.eq_iff_iff, e2, e4]
    subst this
    exact ⟨c', d', r, e1, e3⟩

/-- What a mapped graph shows if it answers like an in-memory one. -/
theorem answersLike_shows {h : MmapGraph m k NL EL} {r : StaticGraph m k NL EL} {v : GView m k NL EL} {n : Nat}
    {A : AGraph (Id m) NL EL} (ha : h.AnswersLike r n) (hv : r.view = .ok v) (hs : Shows v A)
    (hn : ∀ s, (A.node s).isSome = true → s.val < n) :
    ∃ u, h.view = .ok u ∧ Shows u A ∧ u.directed = v.directed ∧ u.edgeCount = v.edgeCount := by
  have e := ha.view
  rw [hv] at e
  refine ⟨_, e, ?_, rfl, rfl⟩
  refine ⟨hs.ends, hs.sym, hs.hasNode, hs.nodesNodup, hs.memNodes, hs.nodeCount, ?_, hs.edgesNodup, hs.memEdges,
    hs.edgesEnds, hs.nodeLabel, ?_, hs.neighbors, hs.maxSeen⟩
  · intro s t h
    exact (if_pos (hn s h)).trans (hs.hasEdge s t h)
  · intro s t l h ho
    have hn := hn s (hs.ends s t (by rw [h]; rfl)).1
    refine Eq.trans ?_ (hs.edgeLabel s t l h ho)
    unfold GView.getEdgeLabel
    simp only [if_pos hn]

/-- **C114.** A graph with the ids `0..n-1` and an edge; what `into_static` makes of it; and what is loaded
after that was dumped to a prefix without files on a disk with room: any two are interchangeable. -/
theorem c114_stages {w v : Nat} {nl : Codec NL} {el : Codec EL} {g : GraphMap m k NL EL} (hg : Reachable g)
    (hd : ∀ n : Id m, g.hasNode n = true ↔ n.val < g.nodeCount) (h1 : g.nodeCount ≤ m)
    (hnl : g.nodeLabels.len ≤ k) (hel : g.edgeLabels.len ≤ k)
    (hw : 0 < w) (hv : 0 < v) (hwm : m + 1 = 256 ^ w) (hvk : k + 1 = 256 ^ v) {s t : Id m}
    (hedge : g.hasEdge s t = true) (hn : g.nodeCount < 2 ^ 64) (hec : g.edgeCount < 2 ^ 64)
    (hnl' : g.nodeLabels.len < 2 ^ 64) (hel' : g.edgeLabels.len < 2 ^ 64)
    (cnl : ∀ y ∈ g.nodeLabels.items, nl.RoundTrips y) (cel : ∀ y ∈ g.edgeLabels.items, el.RoundTrips y)
    (snl : nl.Stable) (sel : el.Stable) (pre : String) :
    ∃ r f, g.intoStatic = .ok r ∧ r.view = .ok f ∧ Interchangeable g.view f ∧
      (r.edgeVec.edges.length < 2 ^ 64 → (∀ e, r.inEdgeVec = some e → e.edges.length < 2 ^ 64) →
      ∀ x : World, (∀ suf, x.files (pre ++ suf) = none) → r.dumpRoom w v nl el ≤ x.room →
        (r.dumpMmap w v nl el pre x).1 = true ∧
        ∃ (h : MmapGraph m k NL EL) (u : GView m k NL EL), MmapGraph.new w v nl el pre (r.dumpMmap w v nl el pre x).2 = .ok h ∧ h.view = .ok u ∧
          Interchangeable g.view u ∧ Interchangeable f u) := by
  have hs := reachable_shows hg
  have hnode : ∀ n, (g.abs.node n).isSome = g.hasNode n := fun n => (hs.hasNode n).symm
  have hes : (g.abs.edge s t).isSome = true := by
    have hsn : (g.abs.node s).isSome = true := by
      rw [hnode]
      exact (c10_no_dangling hg s t hedge).1
    have := hs.hasEdge s t hsn
    exact (Except.ok.inj this).symm.trans hedge
  have hsn := hnode s ▸ (hs.ends s t hes).1
  have h0 : g.nodeCount ≠ 0 := by
    have := (hd s).1 hsn
    omega
  obtain ⟨r, f, a1, a2, a3⟩ := c24_shows hg h0 hd h1 hnl hel
  obtain ⟨r', f', b1, b2, b3, b4, b5, -⟩ := c24_into_static_keeps_graph hg h0 hd h1 hnl hel
  rw [a1] at b1; cases b1
  rw [a2] at b2; cases b2
  have e1 : g.view.directed = f.directed := b3.symm
  have e2 : g.view.edgeCount = f.edgeCount := b5.symm
  refine ⟨r, f, a1, a2, c114_interchangeable hs a3 e1 e2, fun q1 q2 => ?_⟩
  obtain ⟨h0', h1'⟩ := (c26_into_static_succeeds_iff hg).1 ⟨r, a1⟩
  obtain ⟨M, hM, hlt⟩ := exists_max h0' h1'
  obtain ⟨r', c1, c2⟩ := c47_round_trip hg hw hv hwm hvk hM hlt hedge hn hec hnl' hel' cnl cel snl sel pre
  rw [a1] at c1; cases c1
  have c3 := c2 q1 q2
  intro x hx hr
  obtain ⟨c4, h, c5, c6⟩ := c3 x hx hr
  obtain ⟨u, d1, d2, d3, d4⟩ := answersLike_shows c6 a2 a3 (fun n hn => by
    have := (max_spec hM).2 n (hnode n ▸ hn)
    have := Fin.le_def.1 this
    omega)
  exact ⟨c4, h, u, c5, d1, c114_interchangeable hs d2 (e1.trans d3.symm) (e2.trans d4.symm),
    c114_interchangeable a3 d2 d3.symm d4.symm⟩

/-- **C114.** A graph written to CSV and read into a new graph of the same kind is interchangeable with the
original exactly if the original's `edge_count` is right. -/
theorem c114_csv {g : GView m k NL EL} {A : AGraph (Id m) NL EL} (S : Shows g A) {c : Csv.Settings}
    (hs : SeparatorOk c.separator) (hh : c.hasHeaders = true)
    {xf : Field (Id m)} {nf : Field NL} {ef : Field EL}
    (hx : ∀ n, (A.node n).isSome = true → xf.parse (xf.shown n) = some n)
    (hn : ∀ n x, A.node n = some (some x) → nf.shown x ≠ [] ∧ nf.parse (nf.shown x) = some x)
    (he : ∀ s t x, A.edge s t = some (some x) → ef.shown x ≠ [] ∧ ef.parse (ef.shown x) = some x) :
    ∃ (nb eb : List Byte) (g' : GraphMap m k NL EL), Csv.write c.separator xf nf ef g = .ok (nb, eb) ∧
      Csv.read c xf nf ef (some nb) eb (new g.directed) = .ok g' ∧
      (Interchangeable g g'.view ↔ g.edgeCount = g.edgeIndices.length) := by
  obtain ⟨nb, eb, g', a1, a2, -, a4, a5, a6⟩ := c51_round_trip S hs hh hx hn he
  refine ⟨nb, eb, g', a1, a2, fun h => ?_, fun h => c114_interchangeable S a5 a4.symm (h.trans a6.symm)⟩
  obtain ⟨b, b1, b2⟩ := c84_equal_exact S a5
  have b3 := h.equal.1
  rw [b1] at b3
  cases b3
  exact (b2.1 rfl).2.2.1.trans a6

set_option maxRecDepth 8000 in
/-- Non-vacuity: the little graph of `small`, directed and undirected, goes through all stages. -/
example (d : Bool) (pre : String) : ∃ (g : GraphMap 255 255 (List Byte) (List Byte)),
    small d = .ok g ∧ g.isDirected = d ∧ g.edgeCount = g.edgeIndices.length ∧
    ∃ (r : StaticGraph 255 255 (List Byte) (List Byte)) (f : GView 255 255 (List Byte) (List Byte)),
      g.intoStatic = .ok r ∧ r.view = .ok f ∧
      Interchangeable g.view f ∧
      ∀ x : World, (∀ suf, x.files (pre ++ suf) = none) → r.dumpRoom 1 1 text text ≤ x.room →
        (r.dumpMmap 1 1 text text pre x).1 = true ∧
        ∃ (h : MmapGraph 255 255 (List Byte) (List Byte)) (u : GView 255 255 (List Byte) (List Byte)),
          MmapGraph.new 1 1 text text pre (r.dumpMmap 1 1 text text pre x).2 = .ok h ∧ h.view = .ok u ∧
          Interchangeable g.view u ∧ Interchangeable f u := by
  obtain ⟨g, hg, hr⟩ := small_reachable d
  refine ⟨g, hg, by cases d <;> cases hg <;> decide, by cases d <;> cases hg <;> decide, ?_⟩
  have hfacts : (∀ n : Id 255, g.hasNode n = true ↔ n.val < g.nodeCount) ∧ g.nodeCount ≤ 255 ∧
      g.nodeLabels.len ≤ 255 ∧ g.edgeLabels.len ≤ 255 ∧ g.hasEdge 1 0 = true ∧ g.edgeCount = 1 ∧
      (∀ y ∈ g.nodeLabels.items, y.length < 10) ∧ (∀ y ∈ g.edgeLabels.items, y.length < 10) ∧
      ∃ r, g.intoStatic = .ok r ∧ r.edgeVec.edges.length < 10 ∧
        ∀ e, r.inEdgeVec = some e → e.edges.length < 10 := by
    cases d <;> cases hg <;>
      refine ⟨by decide, by decide, by decide, by decide, by decide, by decide, by decide, by decide,
        _, rfl, by decide, ?_⟩
    · intro e he; cases he
    · intro e he; cases he; decide
  obtain ⟨f1, f2, f3, f4, f5, f6, f7, f8, r, f9, f10, f11⟩ := hfacts
  obtain ⟨r', f, a1, a2, a3, a4⟩ := c114_stages (w := 1) (v := 1) (nl := text) (el := text) hr f1 f2 f3 f4
    (by decide) (by decide) (by decide) (by decide) f5 (by omega) (by omega) (by omega) (by omega)
    (fun y hy => text_round (by have := f7 y hy; omega)) (fun y hy => text_round (by have := f8 y hy; omega))
    text_stable text_stable pre
  rw [f9] at a1
  cases a1
  exact ⟨r, f, f9, a2, a3, a4 (by omega) (fun e he => by have := f11 e he; omega)⟩

end Verif.Props
