import Verif.Model.Boxed
import Verif.Props.Stages
import Verif.Props.Csv
import Verif.Props.SetOps

/-! Property theorems about boxed graphs (C120) and the raw access to frozen graphs (C121). -/

namespace Verif.Props

open GraphMap Spec

variable {m k : Nat} {NL EL : Type}

/-! ### C120 -/

theorem static_view_directed {g : StaticGraph m k NL EL} {v : GView m k NL EL} (h : g.view = .ok v) :
    v.directed = g.directed := by
  unfold StaticGraph.view at h
  obtain ⟨es, -, h⟩ := bind_eq_ok h
  obtain ⟨ed, -, h⟩ := bind_eq_ok h
  cases h
  rfl

theorem mmap_view_directed {g : MmapGraph m k NL EL} {v : GView m k NL EL} (h : g.view = .ok v) :
    v.directed = g.isDirected := by
  unfold MmapGraph.view at h
  obtain ⟨es, -, h⟩ := bind_eq_ok h
  obtain ⟨ed, -, h⟩ := bind_eq_ok h
  cases h
  rfl

/-- **C120.** `as_digraph` gives something exactly for the graphs that say they are directed. -/
theorem c120_as_digraph {b : Boxed m k NL EL} {v : GView m k NL EL} (h : b.view = .ok v) :
    b.asDigraph.isSome = v.directed := by
  cases b with
  | map g =>
    cases h
    show (if g.directed = true then _ else _ : Option (DiView m)).isSome = g.directed
    cases g.directed <;> rfl
  | static g =>
    rw [static_view_directed h]
    show (if g.directed = true then _ else _ : Option (DiView m)).isSome = g.directed
    cases g.directed <;> rfl
  | mmap g =>
    rw [mmap_view_directed h]
    show (if g.isDirected = true then _ else _ : Option (DiView m)).isSome = g.isDirected
    cases g.isDirected <;> rfl

section decidable

variable [DecidableEq NL] [DecidableEq EL]

/-- **C120.** The directed view of a directed graph, of its frozen form and of that form mapped from a file
lists, for every node, exactly the starts of its incoming edges, ascending. -/
theorem c120_in_neighbors {g : GraphMap m k NL EL} (hg : Reachable g) (hdir : g.isDirected = true)
    (h0 : g.nodeCount ≠ 0) (hd : ∀ n : Id m, g.hasNode n = true ↔ n.val < g.nodeCount) (h1 : g.nodeCount ≤ m)
    (hnl : g.nodeLabels.len ≤ k) (hel : g.edgeLabels.len ≤ k) :
    ∃ r, g.intoStatic = .ok r ∧
      ∀ (h : MmapGraph m k NL EL) (p : Nat), h.AnswersLike r p →
        ∀ b ∈ [Boxed.map g, .static r, .mmap h], ∃ D, b.asDigraph = some D ∧
          ∀ n, g.hasNode n = true → ∃ l, D.inNeighbors n = .ok l ∧ D.inDegree n = .ok l.length ∧
            l.Pairwise (· < ·) ∧ ∀ s, s ∈ l ↔ g.hasEdge s n = true := by
  obtain ⟨r, v, hr, hv, e1, -, -, -, -, -, -, -, -, -, e2⟩ := c24_into_static_keeps_graph hg h0 hd h1 hnl hel
  have e1 := (static_view_directed hv).symm.trans (e1.trans hdir)
  refine ⟨r, hr, fun h p ha b hb => ?_⟩
  have e3 : h.isDirected = true := by
    have := ha.view
    rw [hv] at this
    have h2 := mmap_view_directed this
    rw [← h2]
    exact (static_view_directed hv).trans e1
  have key : ∀ D : DiView m, (∀ n, g.hasNode n = true → D.inNeighbors n = g.inNeighbors n ∧
      D.inDegree n = g.inDegree n) → ∀ n, g.hasNode n = true →
      ∃ l, D.inNeighbors n = .ok l ∧ D.inDegree n = .ok l.length ∧
        l.Pairwise (· < ·) ∧ ∀ s, s ∈ l ↔ g.hasEdge s n = true := by
    intro D hD n hn
    obtain ⟨l, a1, a2, a3, a4⟩ := c09_in_neighbors hg hdir n hn
    exact ⟨l, (hD n hn).1.trans a1, (hD n hn).2.trans a4, a2, a3⟩
  simp only [List.mem_cons, List.not_mem_nil, or_false] at hb
  rcases hb with rfl | rfl | rfl
  · exact ⟨_, if_pos hdir, key _ (fun n _ => ⟨rfl, rfl⟩)⟩
  · exact ⟨_, if_pos e1, key _ (e2 hdir)⟩
  · refine ⟨_, if_pos e3, key _ (fun n hn => ?_)⟩
    obtain ⟨a1, a2⟩ := ha.ins e1 n
    obtain ⟨b1, b2⟩ := e2 hdir n hn
    exact ⟨a1.trans b1, a2.trans b2⟩

/-- **C120.** `as_mut_graph` gives something exactly for `GraphMap`s. Through it a boxed graph is changed like
an unboxed one; a boxed graph of another implementation stays as it is. -/
theorem c120_as_mut_graph (b : Boxed m k NL EL) (ops : List (Op m k NL EL)) :
    (b.asMutGraph.isSome = true ↔ b.implementation = .graphMap) ∧
    (b.implementation ≠ .graphMap → b.mutate ops = .ok (b, false)) ∧
    ∀ g, b = .map g → b.mutate ops = (g.exec ops).map (fun g => (.map g, true)) := by
  refine ⟨?_, ?_, ?_⟩
  · cases b <;> simp [Boxed.asMutGraph, Boxed.implementation]
  · cases b <;> intro h
    · exact absurd rfl h
    · rfl
    · rfl
  · rintro g rfl
    show (g.exec ops >>= fun g => pure (Boxed.map g, true)) = _
    cases g.exec ops <;> rfl

/-- **C120.** What a box says about its implementation is told by exactly one of the three names, in any letter
case: that of the type that was put into it. -/
theorem c120_implementation {lower : Char → List Char} (hl : LowerTable lower) (s : String) :
    (∀ g : GraphMap m k NL EL, GraphImpl.fromStr lower s = .ok (Boxed.map g).implementation ↔
      SameButCase s "graphmap") ∧
    (∀ g : StaticGraph m k NL EL, GraphImpl.fromStr lower s = .ok (Boxed.static g).implementation ↔
      SameButCase s "staticgraph") ∧
    (∀ g : MmapGraph m k NL EL, GraphImpl.fromStr lower s = .ok (Boxed.mmap g).implementation ↔
      SameButCase s "staticgraphmmap") :=
  ⟨fun _ => c57_names hl s _, fun _ => c57_names hl s _, fun _ => c57_names hl s _⟩

/-- **C120.** A graph put into a box shows the same labelled graph there, with the same direction and the same
edge count, right or wrong. -/
theorem c120_boxed {g : GraphMap m k NL EL} (hg : Reachable g) :
    ∃ v, (Boxed.map g).view = .ok v ∧ Shows v (GraphMap.abs g) ∧ v.directed = g.isDirected ∧
      v.edgeCount = g.edgeCount ∧ v.nodeIndices = g.nodeIndices :=
  ⟨_, rfl, reachable_shows hg, rfl, rfl, rfl⟩

/-- **C120.** The clone of a boxed graph of any implementation is a `GraphMap`, so it can be changed; it shows the
same labelled graph, is directed if the original is, and feeds the same data to a hasher. -/
theorem c120_clone {b : Boxed m k NL EL} {v : GView m k NL EL} {A : AGraph (Id m) NL EL} (hv : b.view = .ok v)
    (S : Shows v A) : ∃ c, b.clone = .ok (.map c) ∧ Reachable c ∧ Shows c.view A ∧
      (Boxed.map c).asDigraph.isSome = b.asDigraph.isSome ∧ (Boxed.map c).hashData = b.hashData ∧
      ∃ d, b.hashData = .ok d := by
  obtain ⟨c, h1, h2, h3, h4, -⟩ := c42_clone S
  have hb := c120_as_digraph hv
  have hc : (Boxed.map c).asDigraph.isSome = b.asDigraph.isSome := by
    rw [hb, ← h2]
    exact c120_as_digraph (b := Boxed.map c) rfl
  have hh := GView.hashData_eq h4 S h2
  refine ⟨c, ?_, h3, h4, hc, ?_, ?_⟩
  · unfold Boxed.clone
    rw [hv, bind_ok, hb]
    have : (if v.directed = true then GraphMap.new true else GraphMap.new false : GraphMap m k NL EL) =
        GraphMap.new v.directed := by cases v.directed <;> rfl
    dsimp only
    rw [this]
    show GraphMap.cloneBox v >>= _ = _
    rw [h1]; rfl
  · unfold Boxed.hashData
    rw [hv, hc]
    show c.view.hashData >>= _ = v.hashData >>= _
    rw [hh]
  · unfold Boxed.hashData
    rw [hv, bind_ok, GView.hashData_ok S]
    exact ⟨_, rfl⟩

/-- **C120.** Boxed graphs compare equal whatever implementations they have, if they show the same labelled graph
and agree on directedness and `edge_count`. -/
theorem c120_eq {b c : Boxed m k NL EL} {u v : GView m k NL EL} {A : AGraph (Id m) NL EL}
    (hb : b.view = .ok u) (hc : c.view = .ok v) (S : Shows u A) (T : Shows v A)
    (hd : b.asDigraph.isSome = c.asDigraph.isSome) (he : u.edgeCount = v.edgeCount) :
    b.eq c = .ok true ∧ b.hashData = c.hashData := by
  have hd' : u.directed = v.directed := by rw [← c120_as_digraph hb, ← c120_as_digraph hc, hd]
  have I := c114_interchangeable S T hd' he
  constructor
  · unfold Boxed.eq
    rw [hb, bind_ok, hc, bind_ok]
    exact I.equal.1
  · unfold Boxed.hashData
    rw [hb, hc, hd]
    show u.hashData >>= _ = v.hashData >>= _
    rw [I.hash.1]

/-- Non-vacuity: a frozen directed graph in a box is cloned; the clone accepts an edge, the original does not. -/
example : ∃ (g : GraphMap 9 3 String String) (r : StaticGraph 9 3 String String) (c : GraphMap 9 3 String String)
    (c' : GraphMap 9 3 String String),
    denseGraph true [(0, 1, some "x"), (2, 1, none)] = .ok g ∧ g.intoStatic = .ok r ∧
    (Boxed.static r).clone = .ok (.map c) ∧
    (Boxed.map c).mutate [.addEdge 1 2 none] = .ok (.map c', true) ∧ c'.hasEdge 1 2 = true ∧
    c'.inNeighbors 1 = .ok [0, 2] ∧
    (Boxed.static r).mutate [.addEdge 1 2 none] = .ok (.static r, false) := by
  refine ⟨_, _, _, _, rfl, rfl, rfl, rfl, ?_, ?_, rfl⟩ <;> decide

/-- The hypotheses of `c120_eq` are met by a graph and its frozen form. -/
example : ∃ (g : GraphMap 9 3 String String) (r : StaticGraph 9 3 String String) (u v : GView 9 3 String String),
    Reachable g ∧ g.intoStatic = .ok r ∧ (Boxed.map g).view = .ok u ∧ (Boxed.static r).view = .ok v ∧
    Shows u (GraphMap.abs g) ∧ Shows v (GraphMap.abs g) ∧
    (Boxed.map g).asDigraph.isSome = (Boxed.static r).asDigraph.isSome ∧ u.edgeCount = v.edgeCount ∧
    u.edgeIndices ≠ [] := by
  obtain ⟨g, hg⟩ : ∃ g, denseGraph true [(0, 1, some "x"), (2, 1, none)] = .ok g := ⟨_, rfl⟩
  have hr := denseGraph_reachable hg
  cases hg
  obtain ⟨r, v, h1, h2, h3⟩ := c24_shows hr (by decide) (by decide) (by decide) (by decide) (by decide)
  refine ⟨_, r, _, v, hr, h1, rfl, h2, reachable_shows hr, h3, ?_⟩
  cases h1
  cases h2
  decide

/-! ### C121 -/

/-- **C121.** Assigning the node labels or a label table of a frozen graph leaves its structure as it was. -/
theorem c121_structure (g : StaticGraph m k NL EL) (ls : Option (List (Id k))) (nl : SetMap NL) (el : SetMap EL) :
    ∀ h ∈ [g.setLabels ls, g.setNodeLabels nl, g.setEdgeLabels el],
      h.directed = g.directed ∧ h.numNodes = g.numNodes ∧ h.numEdges = g.numEdges ∧
      h.hasNode = g.hasNode ∧ h.nodeIndices = g.nodeIndices ∧ h.hasEdge = g.hasEdge ∧
      h.findEdgeIndex = g.findEdgeIndex ∧ h.edgeIndices = g.edgeIndices ∧ h.degree = g.degree ∧
      h.neighbors = g.neighbors ∧ h.maxSeenId = g.maxSeenId ∧ h.inNeighbors = g.inNeighbors ∧
      h.inDegree = g.inDegree ∧ h.getEdge = g.getEdge ∧ h.edges = g.edges := by
  intro h hh
  simp only [List.mem_cons, List.not_mem_nil, or_false] at hh
  rcases hh with rfl | rfl | rfl <;>
    exact ⟨rfl, rfl, rfl, rfl, rfl, rfl, rfl, rfl, rfl, rfl, rfl, rfl, rfl, rfl, rfl⟩

/-- **C121.** After assigning node labels, `nodes` stops at the shorter of nodes and labels, and `get_node` panics
for exactly the nodes beyond the labels. -/
theorem c121_labels (g : StaticGraph m k NL EL) (ls : List (Id k)) :
    (g.setLabels (some ls)).nodes.length = min g.numNodes ls.length ∧
    (∀ n, g.hasNode n = true → (g.setLabels (some ls)).nodeLid n =
      match ls[n.val]? with
      | some l => .ok (if l = Id.maxValue then none else some l)
      | none => .error .indexOutOfBounds) ∧
    (∀ n, g.hasNode n = false → (g.setLabels (some ls)).nodeLid n = .ok none) := by
  refine ⟨?_, ?_, ?_⟩
  · show (List.map _ (List.zip ((List.range g.numNodes).map Id.new) ls)).length = _
    simp
  · intro n hn
    show (if (!g.hasNode n) = true then _ else _) = _
    rw [hn]
    show (index ls n.val >>= _) = _
    unfold index
    cases h : ls[n.val]? <;> rfl
  · intro n hn
    show (if (!g.hasNode n) = true then _ else _) = _
    rw [hn]
    rfl

/-- **C121.** Assigning a label table changes the names and nothing else. -/
theorem c121_tables (g : StaticGraph m k NL EL) (nl : SetMap NL) (el : SetMap EL) :
    (g.setNodeLabels nl).view = g.view.map (fun v => { v with nodeLabels := nl }) ∧
    (g.setEdgeLabels el).view = g.view.map (fun v => { v with edgeLabels := el }) := by
  constructor
  · unfold StaticGraph.view
    show g.edgeIndices >>= (fun es => g.edges >>= _) = _
    cases g.edgeIndices with
    | error e => rfl
    | ok es => cases g.edges <;> rfl
  · unfold StaticGraph.view
    show g.edgeIndices >>= (fun es => g.edges >>= _) = _
    cases g.edgeIndices with
    | error e => rfl
    | ok es => cases g.edges <;> rfl

/-- **C121.** A directed graph whose in-edges were set to `None` still says it is directed, but asking for
in-neighbours or in-degrees panics; nothing else changes. -/
theorem c121_no_in_edges {g : StaticGraph m k NL EL} (hd : g.directed = true) :
    ∃ D, (Boxed.static (g.setInEdgeVec none)).asDigraph = some D ∧
      (∀ n, D.inNeighbors n = .error .unwrapNone ∧ D.inDegree n = .error .unwrapNone) ∧
      (g.setInEdgeVec none).view = g.view :=
  ⟨_, if_pos hd, fun _ => ⟨rfl, rfl⟩, rfl⟩

/-- **C121.** An edge vector without offsets (cleared, or `EdgeVec::default`): every question about edges panics,
those about nodes and incoming edges are answered as before. -/
theorem c121_cleared (g : StaticGraph m k NL EL) {ev : EdgeVec m k}
    (hev : ev = g.edgeVec.clear ∨ ev = EdgeVec.default) :
    let h := g.setEdgeVec ev
    (∀ s t, h.hasEdge s t = .error .underflow ∧ h.getEdge s t = .error .underflow ∧
      h.findEdgeIndex s t = .error .underflow) ∧
    (∀ n, h.neighbors n = .error .underflow ∧ h.degree n = .error .underflow) ∧
    h.edgeIndices = .error .underflow ∧ h.edges = .error .underflow ∧
    h.nodeIndices = g.nodeIndices ∧ h.hasNode = g.hasNode ∧ h.nodes = g.nodes ∧ h.nodeLid = g.nodeLid ∧
    h.maxSeenId = g.maxSeenId ∧ h.inNeighbors = g.inNeighbors ∧ h.inDegree = g.inDegree ∧
    h.numNodes = g.numNodes ∧ h.numEdges = g.numEdges := by
  rcases hev with rfl | rfl
  all_goals
    refine ⟨fun s t => ⟨rfl, rfl, rfl⟩, fun n => ⟨rfl, rfl⟩, rfl, ?_, rfl, rfl, rfl, rfl, rfl, rfl, rfl, rfl, rfl⟩
    unfold StaticGraph.edges
    rw [if_pos (by unfold EdgeVec.getLabels; first | rfl | (cases h : g.edgeVec.labels <;>
      simp [StaticGraph.setEdgeVec, EdgeVec.clear, h]))]
    rfl

/-- **C121.** Directedness of a frozen graph is part of its type, that of a mapped one is whether in-edges were
dumped: a graph dumped to a prefix without files on a disk with room comes back directed exactly if it has
in-edges, and lists its edges accordingly. -/
theorem c121_direction {w v : Nat} {nl : Codec NL} {el : Codec EL} {g : StaticGraph m k NL EL}
    (hw : 0 < w) (hv : 0 < v) (hwm : m + 1 = 256 ^ w) (hvk : k + 1 = 256 ^ v)
    (cnl : ∀ y ∈ g.nodeLabels.items, nl.RoundTrips y) (cel : ∀ y ∈ g.edgeLabels.items, el.RoundTrips y)
    (snl : nl.Stable) (sel : el.Stable) (hg : g.Mappable) (pre : String) :
    ∀ x : World, (∀ suf, x.files (pre ++ suf) = none) → g.dumpRoom w v nl el ≤ x.room →
      (g.dumpMmap w v nl el pre x).1 = true ∧
      ∃ h : MmapGraph m k NL EL, MmapGraph.new w v nl el pre (g.dumpMmap w v nl el pre x).2 = .ok h ∧
        (Boxed.mmap h).asDigraph.isSome = g.inEdgeVec.isSome ∧
        h.edgeIndices = g.edgeVec.edgeIndices g.inEdgeVec.isSome ∧ h.numEdges = g.numEdges ∧
        ((Boxed.mmap h).asDigraph.isSome = (Boxed.static g).asDigraph.isSome ↔
          (g.inEdgeVec.isSome = true ↔ g.directed = true)) := by
  intro x hx hroom
  have path : ∀ a b : String, pre ++ a ++ b = pre ++ (a ++ b) := fun a b => String.append_assoc
  have hold : g.NoLeftovers pre x.files := by
    refine ⟨fun _ => ?_, fun _ => ?_, fun _ _ _ => ?_, fun _ => hx _⟩ <;> rw [path] <;> exact hx _
  obtain ⟨h4, h1, n, h2, h5⟩ := Sizes.dump_done pre hroom
  · refine ⟨h4, g.stored, ?_, ?_⟩
    · rw [StaticGraph.load_after hw hv hwm hvk cnl cel snl sel hg hold h1 h2, if_pos h5]
    have e1 : (Boxed.mmap g.stored).asDigraph.isSome = g.inEdgeVec.isSome := by
      show (if (g.inEdgeVec.map EdgeVec.stored).isSome = true then _ else _ : Option (DiView m)).isSome = _
      cases g.inEdgeVec <;> rfl
    have e2 : (Boxed.static g).asDigraph.isSome = g.directed := by
      show (if g.directed = true then _ else _ : Option (DiView m)).isSome = g.directed
      cases g.directed <;> rfl
    refine ⟨e1, ?_, rfl, by rw [e1, e2, Bool.eq_iff_iff]⟩
    show g.edgeVec.stored.edgeIndices (g.inEdgeVec.map EdgeVec.stored).isSome = _
    rw [EdgeVec.stored_edgeIndices, Option.isSome_map]

/-- The undirected graph 0 – 1, built with in-edges: the constructor takes it. -/
def withInEdges : Res (StaticGraph 255 255 (List Byte) (List Byte)) :=
  StaticGraph.new false ⟨[0, 1, 2], [1, 0], none⟩ (some ⟨[0, 1, 2], [1, 0], none⟩) none none

set_option maxRecDepth 8000 in
/-- **C121.** So an undirected graph that was given in-edges has one edge before and two after a dump. -/
theorem c121_turns_directed (pre : String) : ∃ g : StaticGraph 255 255 (List Byte) (List Byte),
    withInEdges = .ok g ∧ (Boxed.static g).asDigraph.isSome = false ∧ g.edgeIndices = .ok [(0, 1)] ∧
    ∀ x : World, (∀ suf, x.files (pre ++ suf) = none) → 89 ≤ x.room →
      (g.dumpMmap 1 1 text text pre x).1 = true ∧
      ∃ h : MmapGraph 255 255 (List Byte) (List Byte),
        MmapGraph.new 1 1 text text pre (g.dumpMmap 1 1 text text pre x).2 = .ok h ∧
        (Boxed.mmap h).asDigraph.isSome = true ∧ h.edgeIndices = .ok [(0, 1), (1, 0)] ∧ h.numEdges = 1 := by
  obtain ⟨g, hg⟩ : ∃ g, withInEdges = .ok g := ⟨_, rfl⟩
  refine ⟨g, hg, by cases hg; decide, by cases hg; decide, ?_⟩
  have h := c121_direction (w := 1) (v := 1) (nl := text) (el := text) (g := g) (by decide) (by decide)
    (by decide) (by decide) (by cases hg; intro y hy; cases hy) (by cases hg; intro y hy; cases hy)
    text_stable text_stable (by
      cases hg
      refine ⟨⟨by decide, by decide, by decide⟩, fun e he => ?_, by decide, by decide, by decide, by decide, by decide⟩
      cases he
      exact ⟨by decide, by decide, by decide⟩) pre
  intro x hx hr
  obtain ⟨a1, u, a2, a3, a4, a5, -⟩ := h x hx (le_trans (by cases hg; decide) hr)
  refine ⟨a1, u, a2, ?_, ?_, ?_⟩
  · rw [a3]; cases hg; decide
  · rw [a4]; cases hg; decide
  · rw [a5]; cases hg; decide

end decidable

end Verif.Props
