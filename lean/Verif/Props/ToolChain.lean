import Verif.Props.Pipeline
import Verif.Props.Mixup
import Verif.Props.Stages

/-! C132: from CSV files to a mapped graph, by `csv_to_static` and `static_to_mmap`. -/

namespace Verif.Props

open GraphMap Spec Programs

variable {m k wd v : Nat} {NL EL NL' EL' : Type} [DecidableEq NL] [DecidableEq EL] [DecidableEq NL']
  [DecidableEq EL']

/-- The same nodes and edges without labels, for any label types. -/
def bared (A : AGraph (Id m) NL EL) : AGraph (Id m) NL' EL' where
  node n := (A.node n).map fun _ => none
  edge s t := (A.edge s t).map fun _ => none

omit [DecidableEq NL] [DecidableEq EL] [DecidableEq NL'] [DecidableEq EL'] in
/-- A graph with its label tables emptied shows the same nodes and edges, whatever the label types. -/
theorem bared_shows {u : GView m k NL EL} {A : AGraph (Id m) NL EL} (S : Shows u A) :
    Shows (⟨u.directed, u.nodeCount, u.edgeCount, u.hasNode, u.hasEdge, u.nodeLid, u.edgeLid, u.nodeIndices,
      u.edgeIndices, u.nodes, u.edges, u.degree, u.neighbors, u.maxSeenId, .empty, .empty⟩ :
        GView m k NL' EL') (bared A) := by
  have hn : ∀ n, ((bared A : AGraph (Id m) NL' EL').node n).isSome = (A.node n).isSome := fun n => by
    simp [bared]
  have he : ∀ s t, ((bared A : AGraph (Id m) NL' EL').edge s t).isSome = (A.edge s t).isSome := fun s t => by
    simp [bared]
  refine ⟨?_, ?_, ?_, S.nodesNodup, ?_, S.nodeCount, ?_, S.edgesNodup, ?_, S.edgesEnds, ?_, ?_, ?_, ?_⟩
  · intro s t h
    rw [he] at h
    rw [hn, hn]
    exact S.ends s t h
  · intro hd s t
    show (A.edge s t).map _ = (A.edge t s).map _
    rw [S.sym hd]
  · intro n; rw [hn]; exact S.hasNode n
  · intro n; rw [hn]; exact S.memNodes n
  · intro s t h; rw [he]; rw [hn] at h; exact S.hasEdge s t h
  · intro s t
    refine (S.memEdges s t).trans ?_
    unfold AGraph.Listed
    simp only [he]
  · intro n l h
    simp only [bared, Option.map_eq_some_iff] at h
    obtain ⟨l', hl, rfl⟩ := h
    have := S.nodeLabel n l' hl
    unfold GView.getNodeLabel at this ⊢
    obtain ⟨x, hx, h3⟩ := bind_eq_ok this
    show (u.nodeLid n >>= _) = _
    rw [hx, bind_ok]
    cases x <;> rfl
  · intro s t l h ho
    simp only [bared, Option.map_eq_some_iff] at h
    obtain ⟨l', hl, rfl⟩ := h
    have := S.edgeLabel s t l' hl ho
    unfold GView.getEdgeLabel at this ⊢
    obtain ⟨x, hx, h3⟩ := bind_eq_ok this
    show (u.edgeLid s t >>= _) = _
    rw [hx, bind_ok]
    cases x <;> rfl
  · intro n h
    rw [hn] at h
    obtain ⟨l, a, b, c, d⟩ := S.neighbors n h
    exact ⟨l, a, b, fun t => by rw [he]; exact c t, d⟩
  · rintro ⟨n, h⟩
    rw [hn] at h
    obtain ⟨M, a, b⟩ := S.maxSeen ⟨n, h⟩
    exact ⟨M, a, fun n h => b n (by rw [hn] at h; exact h)⟩

omit [DecidableEq NL] [DecidableEq EL] [DecidableEq NL'] [DecidableEq EL'] in
theorem retyped_view {r : StaticGraph m k NL EL} {u : GView m k NL EL} (h : r.view = .ok u) :
    (⟨r.directed, r.numNodes, r.numEdges, r.edgeVec, r.inEdgeVec, r.labels, .empty, .empty⟩ :
        StaticGraph m k NL' EL').view =
      .ok ⟨u.directed, u.nodeCount, u.edgeCount, u.hasNode, u.hasEdge, u.nodeLid, u.edgeLid, u.nodeIndices,
      u.edgeIndices, u.nodes, u.edges, u.degree, u.neighbors, u.maxSeenId, .empty, .empty⟩ := by
  unfold StaticGraph.view at h
  obtain ⟨es, h1, h⟩ := bind_eq_ok h
  obtain ⟨ed, h2, h⟩ := bind_eq_ok h
  cases h
  unfold StaticGraph.view
  have e1 : (⟨r.directed, r.numNodes, r.numEdges, r.edgeVec, r.inEdgeVec, r.labels, .empty, .empty⟩ :
        StaticGraph m k NL' EL').edgeIndices = r.edgeIndices := rfl
  have e2 : (⟨r.directed, r.numNodes, r.numEdges, r.edgeVec, r.inEdgeVec, r.labels, .empty, .empty⟩ :
        StaticGraph m k NL' EL').edges = r.edges := rfl
  rw [e1, e2, h1, bind_ok, h2, bind_ok]
  rfl

/-- **C132.** CSV files that are read as a graph `g` without labels and with an edge; ids `0..n-1` or the flag
`--reorder_nodes`; nothing under the output prefix, and the file in between not under it. On a disk with
room for the files in between and at the end `csv_to_static` and then `static_to_mmap`, with or without its flag `--directed`, end well. What
they leave loads as a mapped graph with the direction asked for from `csv_to_static` and the nodes and edges
of `g` under a renaming of the nodes to `0..n-1`, which is the identity without the flag. -/
theorem c132_chain {a : CsvArgs} {w : World} {g : GraphMap m k (List Byte) (List Byte)}
    (hr : Reads a w g) (mcN mcE : List (Id k × Nat)) (hw0 : 0 < wd) (hv0 : 0 < v) (hw : m + 1 = 256 ^ wd)
    (hv : k + 1 = 256 ^ v) (h64 : m + 1 < 2 ^ 64) (h1 : g.nodeCount ≤ m)
    (hd : "--reorder_nodes" ∈ a.flags ∨ ∀ n, g.hasNode n = true ↔ n.val < g.nodeCount)
    (hnl : g.nodeLabels.items = []) (hel : g.edgeLabels.items = []) (hec : g.edgeCount < 2 ^ 63)
    {s t : Id m} (hedge : g.hasEdge s t = true) {output : String}
    (hpath : ∀ suf, a.outFile.getD "graph.static" ≠ output ++ suf)
    (hno : ∀ suf, w.files (output ++ suf) = none) :
    ∃ (r : StaticGraph m k (List Byte) (List Byte)) (f : Id m → Id m), csvToStaticGraph (m := m) a mcN mcE w = .ok r ∧
      Set.BijOn f {n | g.hasNode n = true} {n | n.val < g.nodeCount} ∧
      ("--reorder_nodes" ∉ a.flags → f = id) ∧
      ∀ room, 1 + ((Codec.staticGraph wd v Programs.text Programs.text (a.flags.contains "--directed")).bytes r).length +
        r.dumpRoom wd v Programs.text Programs.text ≤ room → ∃ w1 w2, csvToStatic m wd v a mcN mcE { w with room := room } = (.ok (), w1) ∧
        (∀ d, staticToMmap m k wd v d (a.outFile.getD "graph.static") output w1 = (.ok (), w2)) ∧
        ∃ (h : MmapGraph m k (Id m) (Id m)) (u : GView m k (Id m) (Id m)) (A : AGraph (Id m) (Id m) (Id m)),
          MmapGraph.new wd v (.ident wd) (.ident wd) output w2 = .ok h ∧ h.view = .ok u ∧ Shows u A ∧
          u.directed = a.flags.contains "--directed" ∧ u.edgeCount = g.edgeCount ∧
          (∀ n, A.node n = if n.val < g.nodeCount then some none else none) ∧
          ∀ s t, g.hasNode s = true → g.hasNode t = true →
            A.edge (f s) (f t) = if g.hasEdge s t = true then some none else none := by
  obtain ⟨hg, hdir, f, h, e1, e2, e3, e4, e5, e6, e7, e8, e9, e10⟩ := csvToStaticGraph_eq hr mcN mcE
  have hdense : ∀ i, h.hasNode i = true ↔ i.val < g.nodeCount := by
    by_cases hf : "--reorder_nodes" ∈ a.flags
    · exact e8 (by simpa using hf)
    · rw [(e9 (by simpa using hf)).1]
      exact hd.resolve_left hf
  have hmax : h.hasNode Id.maxValue = false := by
    rw [← Bool.not_eq_true, hdense]
    show ¬ m < _
    omega
  have hsn := (c10_no_dangling hg s t hedge).1
  have htn := (c10_no_dangling hg s t hedge).2
  have h0 : g.nodeCount ≠ 0 := by
    have := (hdense (f s)).1 (e5.1.mapsTo hsn)
    omega
  have hedge' : h.hasEdge (f s) (f t) = true := by rw [(e5.2.2 s t hsn htn).1]; exact hedge
  obtain ⟨M, hM, hlt⟩ := exists_max (g := h) (by rw [e3]; exact h0) hmax
  have hnl0 : h.nodeLabels.len = 0 := by rw [e6]; exact congrArg List.length hnl
  have hel0 : h.edgeLabels.len = 0 := by rw [e7]; exact congrArg List.length hel
  obtain ⟨r, q1, hfz⟩ := intoStatic_ok e1.inv.toNWF hM hlt
  obtain ⟨r', vw, r1, r2, hS⟩ := c24_shows e1 (by rw [e3]; exact h0) (by rw [e3]; exact hdense)
    (by rw [e3]; exact h1) (by omega) (by omega)
  rw [q1] at r1; cases r1
  obtain ⟨r', vw', r1, r3, k1, k2, k3, -⟩ := c24_into_static_keeps_graph e1 (by rw [e3]; exact h0)
    (by rw [e3]; exact hdense) (by rw [e3]; exact h1) (by omega) (by omega)
  rw [q1] at r1; cases r1
  rw [r2] at r3; cases r3
  have hdir' : h.directed = a.flags.contains "--directed" := by
    have : h.isDirected = a.flags.contains "--directed" := by rw [e2, hdir]
    exact this
  have hlen : r.edgeVec.edges.length < 2 ^ 64 := by
    rw [hfz.out.edges, List.length_map]
    have := rows_flatten_le e1.inv (j := M.val + 1) (by omega)
    omega
  have hlenIn : ∀ e, r.inEdgeVec = some e → e.edges.length < 2 ^ 64 := by
    intro e he
    cases hdd : h.directed with
    | false => rw [hfz.noIn hdd] at he; cases he
    | true =>
      obtain ⟨iv, i1, i2⟩ := hfz.inn hdd
      rw [i1] at he
      cases he
      rw [i2.edges, List.length_map]
      have := inRows_flatten_le e1.inv hdd (j := M.val + 1) (by omega)
      omega
  have hmx := (max_spec hM).2
  -- the file read with numbers as labels
  obtain ⟨p, hp⟩ : ∃ p : Plain m k,
      p = ⟨r.directed, r.numNodes, r.numEdges, r.edgeVec, r.inEdgeVec, r.labels, .empty, .empty⟩ := ⟨_, rfl⟩
  have hpv := retyped_view (NL' := Id m) (EL' := Id m) r2
  rw [← hp] at hpv
  have hmap : p.Mappable := by
    rw [hp]
    refine ⟨EdgeVec.mappable_of_encodes hfz.out (rows_flatten_ne hmx hedge') hlen, ?_, ?_, ?_, ?_, ?_, ?_⟩
    · intro e hin
      cases hdd : h.directed with
      | false => rw [show _ = none from hfz.noIn hdd] at hin; cases hin
      | true =>
        obtain ⟨iv, h3, h4⟩ := hfz.inn hdd
        have := hlenIn _ h3
        rw [show _ = some iv from h3] at hin
        cases hin
        exact EdgeVec.mappable_of_encodes h4 (inRows_flatten_ne e1.inv hdd hmx hedge') this
    · show r.labels ≠ _
      rw [hfz.labels]
      split
      · intro hc
        have := congrArg (Option.map List.length) hc
        simp at this
      · intro hc; cases hc
    · show r.numNodes < _
      rw [hfz.numNodes, e3]; omega
    · show r.numEdges < _
      rw [hfz.numEdges, e4]; omega
    · exact ⟨List.nodup_nil, by show 0 < 2 ^ 64; omega⟩
    · exact ⟨List.nodup_nil, by show 0 < 2 ^ 64; omega⟩
  have hdump := c48_overwrite_partial (g := p) (nl := .ident wd) (el := .ident wd) (w := wd) (v := v)
    (rows := h.rows (M.val + 1)) (lab := h.view.hasEdgeLabels) (by rw [hp]; exact hfz.out)
    (by
      rw [rows_length]
      exact rows_target e1.inv hmx) (by
      rw [hp]
      show r.inEdgeVec.isSome = r.directed
      rw [hfz.directed]
      cases hdd : h.directed with
      | false => rw [hfz.noIn hdd]; rfl
      | true => obtain ⟨iv, h3, -⟩ := hfz.inn hdd; rw [h3]; rfl) hw0 hv0 hw hv
    (by rw [hp]; intro y hy; cases hy) (by rw [hp]; intro y hy; cases hy) Codec.ident_stable
    Codec.ident_stable hmap output
  have hpr : r.dumpRoom wd v Programs.text Programs.text = p.dumpRoom wd v (.ident wd) (.ident wd) := by
    rw [hp]
    unfold StaticGraph.dumpRoom labelBytes
    rw [hfz.nodeLabels, hfz.edgeLabels, e6, e7, hnl, hel]
    rfl
  rw [← hdir']
  refine ⟨r, f, by rw [← q1, ← e10], ?_, fun hf => (e9 (by simpa using hf)).2, fun room hroom => ?_⟩
  rotate_left
  rw [hpr] at hroom
  rotate_left
  · have : {n : Id m | n.val < g.nodeCount} = {n | h.hasNode n = true} :=
      Set.ext fun n => (hdense n).symm
    rw [this]; exact e5.1
  have hgraph : csvToStaticGraph (m := m) a mcN mcE { w with room := room } = .ok r := by
    rw [← q1, ← e10]
    rfl
  obtain ⟨ok, x1, x2⟩ := World.export_eq (Codec.staticGraph wd v Programs.text Programs.text h.directed) r
    (a.outFile.getD "graph.static") { w with room := room }
  have x2 := x2 (by show _ ≤ room - 1; omega)
  subst x2
  rw [if_neg (by show room ≠ 0; omega)] at x1
  generalize hx : ({ w with room := room } : World).put (a.outFile.getD "graph.static") _ = x at x1
  have hxf : ∀ suf, x.files (output ++ suf) = none := by
    intro suf
    rw [← hx]
    show (if _ then _ else _) = none
    rw [if_neg (Ne.symm (hpath suf))]
    exact hno suf
  have hfile : x.files (a.outFile.getD "graph.static") =
      some ((Codec.staticGraph wd v Programs.text Programs.text h.directed).bytes r) := by
    rw [← hx]
    show (if _ then _ else _) = _
    rw [if_pos rfl, List.take_of_length_le (by show _ ≤ room - 1; omega)]
  have hxr : p.dumpRoom wd v (.ident wd) (.ident wd) ≤ x.room := by
    rw [← hx]
    show _ ≤ room - 1 - _
    omega
  have hread := c108_unlabelled (wd := wd) (v := v) (.ident (m := m) wd) (.ident (m := m) wd) hw hv
    (by rw [hfz.numNodes, e3]; omega) (by rw [hfz.numEdges, e4]; omega)
    (sizedVec_of_encodes hfz.out (by rw [rows_length]; omega)
      (by rw [hfz.out.edges, List.length_map] at hlen; exact hlen))
    (by
      intro e hein
      cases hdd : h.directed with
      | false => rw [hfz.noIn hdd] at hein; cases hein
      | true =>
        obtain ⟨iv, h3, h4⟩ := hfz.inn hdd
        have := hlenIn _ h3
        rw [h3] at hein
        cases hein
        exact sizedVec_of_encodes h4 (by simp [inRows]; omega)
          (by rw [h4.edges, List.length_map] at this; exact this))
    (by
      intro l hl
      rw [hfz.labels] at hl
      split at hl
      · cases hl; simp; omega
      · cases hl) h.directed h.directed hfile (by rw [hfz.nodeLabels, e6]; exact hnl)
    (by rw [hfz.edgeLabels, e7]; exact hel)
  rw [show (⟨h.directed, r.numNodes, r.numEdges, r.edgeVec, r.inEdgeVec, r.labels, .empty, .empty⟩ :
    Plain m k) = p by rw [hp, hfz.directed]] at hread
  obtain ⟨a1, hm, a2, a3⟩ := hdump x (by
    have path : ∀ a b : String, output ++ a ++ b = output ++ (a ++ b) := fun a b => String.append_assoc
    refine ⟨fun _ => ?_, fun _ => ?_, fun _ _ _ => ?_, fun _ => hxf _⟩ <;> rw [path] <;> exact hxf _) hxr
  obtain ⟨b1, b2⟩ := c104_readable (output := output) hread
  rw [rows_length] at a3
  obtain ⟨u, u1, u2, u3, u4⟩ := answersLike_shows a3 hpv
    (bared_shows (NL' := Id m) (EL' := Id m) hS) (by
      intro n hn
      simp only [bared, Option.isSome_map] at hn
      rw [← (reachable_shows e1).hasNode] at hn
      have := Fin.le_def.1 (hmx n hn)
      omega)
  refine ⟨x, (staticToMmap m k wd v h.directed (a.outFile.getD "graph.static") output x).2, ?_, fun d => ?_,
    hm, u, _, ?_, u1, u2, ?_, ?_, ?_, ?_⟩
  · unfold csvToStatic exported
    rw [hgraph, on_directed, ← hdir']
    simp only [x1, if_true]
  · rw [c104_flag d h.directed]
    exact Prod.ext (b1.2 a1) rfl
  · rw [b2]; exact a2
  · rw [u3]
    show vw.directed = _
    rw [k1]; rfl
  · rw [u4]
    show vw.edgeCount = _
    rw [k3, e4]
  · intro n
    have hn := (reachable_shows e1).hasNode n
    show (h.abs.node n).map _ = _
    by_cases hlt : n.val < g.nodeCount
    · rw [if_pos hlt]
      have : (h.abs.node n).isSome = true := by rw [← hn]; exact (hdense n).2 hlt
      obtain ⟨y, hy⟩ := Option.isSome_iff_exists.1 this
      rw [hy]; rfl
    · rw [if_neg hlt]
      have : (h.abs.node n).isSome = false := by
        rw [← hn, ← Bool.not_eq_true]
        exact fun hc => hlt ((hdense n).1 hc)
      rw [Option.isSome_eq_false_iff, Option.isNone_iff_eq_none] at this
      rw [this]; rfl
  · intro s t hs ht
    have hs' : h.hasNode (f s) = true := e5.1.mapsTo hs
    have hsh := reachable_shows e1
    have he := Except.ok.inj (hsh.hasEdge (f s) (f t) (by rw [← hsh.hasNode]; exact hs'))
    rw [(e5.2.2 s t hs ht).1] at he
    show (h.abs.edge (f s) (f t)).map _ = _
    rw [he]
    cases h.abs.edge (f s) (f t) <;> rfl

/-- A disk with an edge file only, without labels. -/
def bareDisk : World := ⟨fun p => if p = "e" then some (lines ["9,5", "9,7"]) else none, 0⟩

theorem graph_mmap (suf : String) : "graph.static" ≠ "mapped" ++ suf := by
  intro h
  have := congrArg String.toList h
  rw [String.toList_append] at this
  cases this

set_option maxRecDepth 8000 in
/-- Non-vacuity: two edges between scattered ids, without and with a direction. -/
example (dir : Bool) : ∃ g : GraphMap 255 255 (List Byte) (List Byte),
    Reads ⟨none, "e", none, none, if dir then ["--reorder_nodes", "--directed"] else ["--reorder_nodes"]⟩
      bareDisk g ∧ g.nodeCount = 3 ∧ g.hasEdge 9 5 = true ∧
    ∃ (f : Id 255 → Id 255) (need : Nat), ∀ room, need ≤ room → ∃ w1 w2,
      csvToStatic (k := 255) 255 1 1
        ⟨none, "e", none, none, if dir then ["--reorder_nodes", "--directed"] else ["--reorder_nodes"]⟩ [] []
        { bareDisk with room := room } = (.ok (), w1) ∧
      (∀ d, staticToMmap 255 255 1 1 d "graph.static" "mapped" w1 = (.ok (), w2)) ∧
      ∃ (h : MmapGraph 255 255 (Id 255) (Id 255)) (u : GView 255 255 (Id 255) (Id 255))
        (A : AGraph (Id 255) (Id 255) (Id 255)),
        MmapGraph.new 1 1 (.ident 1) (.ident 1) "mapped" w2 = .ok h ∧ h.view = .ok u ∧ Shows u A ∧
        u.directed = dir ∧ u.edgeCount = 2 ∧ A.edge (f 9) (f 7) = some none ∧ A.edge (f 5) (f 7) = none := by
  obtain ⟨g, hr, h1, h2, h3, h4, h5, h6, h7, h8, h9, h10⟩ : ∃ g : GraphMap 255 255 (List Byte) (List Byte),
      Reads ⟨none, "e", none, none, if dir then ["--reorder_nodes", "--directed"] else ["--reorder_nodes"]⟩
        bareDisk g ∧ g.nodeCount = 3 ∧ g.nodeLabels.items = [] ∧ g.edgeLabels.items = [] ∧ g.edgeCount = 2 ∧
        g.hasEdge 9 5 = true ∧ g.hasNode 9 = true ∧ g.hasNode 7 = true ∧ g.hasNode 5 = true ∧
        g.hasEdge 9 7 = true ∧ g.hasEdge 5 7 = false := by
    cases dir <;> refine ⟨_, rfl, ?_, ?_, ?_, ?_, ?_, ?_, ?_, ?_, ?_, ?_⟩ <;> decide
  obtain ⟨r, f, -, -, -, h⟩ := c132_chain (wd := 1) (v := 1) hr [] [] (by decide) (by decide) (by decide)
    (by decide) (by decide) (by omega) (.inl (by cases dir <;> decide)) h2 h3 (by omega) h5
    (output := "mapped") graph_mmap (by
      intro suf
      unfold bareDisk
      simp only
      rw [if_neg]
      intro h
      have := congrArg String.toList h
      rw [String.toList_append] at this
      cases this)
  generalize 1 + List.length _ + StaticGraph.dumpRoom _ _ _ _ r = need at h
  refine ⟨g, hr, h1, h5, f, need, fun room hroom => ?_⟩
  obtain ⟨w1, w2, a1, a2, q, u, A, b1, b2, b3, b4, b5, -, b6⟩ := h room hroom
  refine ⟨w1, w2, a1, a2, q, u, A, b1, b2, b3, ?_, by rw [b5, h4], ?_, ?_⟩
  · rw [b4]; cases dir <;> decide
  · rw [b6 9 7 h6 h7, h9]; rfl
  · rw [b6 5 7 h8 h7, h10]; rfl

end Verif.Props
