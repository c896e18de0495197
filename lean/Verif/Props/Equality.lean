import Verif.Proof.View

/-! Property theorems about equality, hashing and counters: C18, C19, C20, C21, C61. -/

namespace Verif.Props

open GraphMap Spec

variable {m k k' : Nat} {NL EL : Type} [DecidableEq NL] [DecidableEq EL]

/-- The user's notion of equality, in terms of the answers of the two graphs: same directedness, same
nodes, same node labels, same edges, same edge labels (of each listed edge). -/
def SameGraph (g : GView m k NL EL) (h : GView m k' NL EL) : Prop :=
  g.directed = h.directed ∧
  (∀ n, g.hasNode n = h.hasNode n) ∧
  (∀ n, g.hasNode n = true → g.getNodeLabel n = h.getNodeLabel n) ∧
  (∀ s t, g.hasNode s = true → g.hasEdge s t = h.hasEdge s t) ∧
  (∀ e ∈ g.edgeIndices, g.getEdgeLabel e.1 e.2 = h.getEdgeLabel e.1 e.2)

omit [DecidableEq NL] [DecidableEq EL] in
theorem sameGraph_iff {g : GView m k NL EL} {h : GView m k' NL EL} {A B : AGraph (Id m) NL EL}
    (hg : Shows g A) (hh : Shows h B) : SameGraph g h ↔ g.directed = h.directed ∧ A = B := by
  constructor
  · rintro ⟨hd, h1, h2, h3, h4⟩
    refine ⟨hd, AGraph_ext ?_ ?_⟩
    · intro n
      have hn : (A.node n).isSome = (B.node n).isSome := by rw [← hg.hasNode, ← hh.hasNode, h1]
      cases hA : A.node n with
      | none => cases hB : B.node n with
        | none => rfl
        | some l => simp [hA, hB] at hn
      | some l => cases hB : B.node n with
        | none => simp [hA, hB] at hn
        | some l' =>
          have := h2 n (by rw [hg.hasNode, hA]; rfl)
          rw [hg.nodeLabel n l hA, hh.nodeLabel n l' hB] at this
          cases this; rfl
    · have key : ∀ s t, (g.directed = true ∨ s ≤ t) → A.edge s t = B.edge s t := by
        intro s t hst
        have hn : (A.edge s t).isSome = (B.edge s t).isSome := by
          by_cases hs : (A.node s).isSome = true
          · have hs' : (B.node s).isSome = true := by rw [← hh.hasNode, ← h1, hg.hasNode, hs]
            have := h3 s t (by rw [hg.hasNode, hs])
            rw [hg.hasEdge s t hs, hh.hasEdge s t hs'] at this
            simpa using this
          · have hs' : ¬ (B.node s).isSome = true := by rw [← hh.hasNode, ← h1, hg.hasNode]; exact hs
            have e1 : ¬ (A.edge s t).isSome = true := fun h => hs (hg.ends s t h).1
            have e2 : ¬ (B.edge s t).isSome = true := fun h => hs' (hh.ends s t h).1
            simp only [Bool.not_eq_true] at e1 e2
            rw [e1, e2]
        cases hA : A.edge s t with
        | none => cases hB : B.edge s t with
          | none => rfl
          | some l => simp [hA, hB] at hn
        | some l => cases hB : B.edge s t with
          | none => simp [hA, hB] at hn
          | some l' =>
            have := h4 (s, t) ((hg.memEdges s t).2 ⟨by rw [hA]; rfl, hst⟩)
            rw [hg.edgeLabel s t l hA hst, hh.edgeLabel s t l' hB (hd ▸ hst)] at this
            cases this; rfl
      intro s t
      by_cases hst : g.directed = true ∨ s ≤ t
      · exact key s t hst
      · simp only [not_or, Bool.not_eq_true, not_le] at hst
        rw [hg.sym hst.1, hh.sym (hd ▸ hst.1)]
        exact key t s (Or.inr hst.2.le)
  · rintro ⟨hd, rfl⟩
    refine ⟨hd, ?_, ?_, ?_, ?_⟩
    · intro n; rw [hg.hasNode, hh.hasNode]
    · intro n hn
      rw [hg.hasNode] at hn
      obtain ⟨l, hl⟩ := Option.isSome_iff_exists.1 hn
      rw [hg.nodeLabel n l hl, hh.nodeLabel n l hl]
    · intro s t hs
      rw [hg.hasNode] at hs
      rw [hg.hasEdge s t hs, hh.hasEdge s t hs]
    · intro e he
      obtain ⟨h1, h2⟩ := (hg.memEdges e.1 e.2).1 he
      obtain ⟨l, hl⟩ := Option.isSome_iff_exists.1 h1
      rw [hg.edgeLabel _ _ l hl h2, hh.edgeLabel _ _ l hl (hd ▸ h2)]

/-- A reachable hash-map graph presents a labelled graph. -/
theorem reachable_shows {g : GraphMap m k NL EL} (hg : Reachable g) : Shows g.view g.abs :=
  inv_shows hg.inv

/-! ### C20 -/

/-- **C20** (partial: `edge_count` of both graphs must be the number of listed edges, which fails after
redundant insertions, C12). For two graphs of any implementations that present labelled graphs,
`equal` does not panic and is true exactly when they are the same graph. -/
theorem c20_equal_views_partial {g : GView m k NL EL} {h : GView m k' NL EL}
    {A B : AGraph (Id m) NL EL} (hg : Shows g A) (hh : Shows h B)
    (cg : g.edgeCount = g.edgeIndices.length) (ch : h.edgeCount = h.edgeIndices.length) :
    ∃ b, g.equal h = .ok b ∧ (b = true ↔ SameGraph g h) := by
  rw [sameGraph_iff hg hh]
  unfold GView.equal
  by_cases hc : g.directed = h.directed ∧ g.nodeCount = h.nodeCount ∧ g.edgeCount = h.edgeCount
  · obtain ⟨hd, hn, he⟩ := hc
    obtain ⟨b, h1, h2⟩ := GView.contained_ok hg hh hd
    refine ⟨b, by simp [hd, hn, he, h1], ?_⟩
    rw [h2]
    constructor
    · intro hs
      refine ⟨hd, sub_eq hs hg.sym (fun e => hh.sym (hd ▸ e)) ?_ ?_⟩
      · rw [← shows_nodeNumber hg, ← shows_nodeNumber hh, hn]
      · rw [← shows_edgeNumber hg, hd, ← shows_edgeNumber hh, ← cg, ← ch, he]
    · rintro ⟨-, rfl⟩
      exact ⟨fun _ _ h => h, fun _ _ _ h => h⟩
  · refine ⟨false, ?_, ?_⟩
    · rw [if_pos]
      · rfl
      · simp only [Bool.or_eq_true, bne_iff_ne, ne_eq]
        by_contra hcon
        simp only [not_or, not_not] at hcon
        exact hc ⟨hcon.1.1, hcon.1.2, hcon.2⟩
    · simp only [Bool.false_eq_true, false_iff]
      rintro ⟨hd, rfl⟩
      apply hc
      refine ⟨hd, ?_, ?_⟩
      · rw [shows_nodeNumber hg, shows_nodeNumber hh]
      · rw [cg, ch, shows_edgeNumber hg, shows_edgeNumber hh, hd]

/-- **C20** (partial, as above) for hash-map graphs however built, over whatever label numbering. -/
theorem c20_equal_partial {g : GraphMap m k NL EL} {h : GraphMap m k' NL EL} (hg : Reachable g)
    (hh : Reachable h) (cg : g.edgeCount = g.edgeIndices.length)
    (ch : h.edgeCount = h.edgeIndices.length) :
    ∃ b, g.view.equal h.view = .ok b ∧ (b = true ↔ SameGraph g.view h.view) :=
  c20_equal_views_partial (reachable_shows hg) (reachable_shows hh) cg ch

/-- A graph with nodes `1`, `2` and the edges `es`, edge labels as given. -/
def smallGraph (d : Bool) (es : List (Id 9 × Id 9 × Option String)) :
    Except Panic (GraphMap 9 3 String String) :=
  (withLabelMap d SetMap.empty SetMap.empty).exec
    ([.addNode 1 (some "a"), .addNode 2 none, .addNode 3 none] ++
      es.map (fun e => .addEdge e.1 e.2.1 e.2.2))

theorem smallGraph_reachable {d : Bool} {es : List (Id 9 × Id 9 × Option String)}
    {g : GraphMap 9 3 String String} (h : smallGraph d es = .ok g) : Reachable g :=
  (exec_run h).reachable List.nodup_nil List.nodup_nil

/-- **C20 fails** after a redundant insertion: different graphs are reported equal, and equal graphs
are reported different. -/
theorem c20_equal_misjudges : ∃ g h h' : GraphMap 9 3 String String,
    Reachable g ∧ Reachable h ∧ Reachable h' ∧
    g.view.equal h.view = .ok true ∧ g.hasEdge 2 3 = false ∧ h.hasEdge 2 3 = true ∧
    g.view.equal h'.view = .ok false ∧ SameGraph g.view h'.view := by
  refine ⟨_, _, _, smallGraph_reachable (d := true) (es := [(1, 2, none), (1, 2, none)]) rfl,
    smallGraph_reachable (d := true) (es := [(1, 2, none), (2, 3, none)]) rfl,
    smallGraph_reachable (d := true) (es := [(1, 2, none)]) rfl,
    by decide, by decide, by decide, by decide, ?_⟩
  refine ⟨by decide, by decide, by decide, by decide, by decide⟩

/-- Non-vacuity: two graphs with different label numbering that are the same graph, and one that is
not. -/
example : ∃ g h i : GraphMap 9 3 String String, Reachable g ∧ Reachable h ∧ Reachable i ∧
    g.edgeCount = g.edgeIndices.length ∧ h.edgeCount = h.edgeIndices.length ∧
    i.edgeCount = i.edgeIndices.length ∧ g.edgeLabels ≠ h.edgeLabels ∧
    g.view.equal h.view = .ok true ∧ g.view.equal i.view = .ok false := by
  refine ⟨_, _, _,
    smallGraph_reachable (d := false) (es := [(1, 2, some "x"), (3, 2, some "y")]) rfl,
    smallGraph_reachable (d := false) (es := [(2, 3, some "y"), (2, 1, some "x")]) rfl,
    smallGraph_reachable (d := false) (es := [(2, 3, some "x"), (2, 1, some "x")]) rfl,
    by decide, by decide, by decide, by decide, by decide, by decide⟩

/-! ### C18, C61 -/

/-- **C61.** `g == h` on typed graphs (of one type, so of one directedness) does not panic and decides
whether `g` is a labelled subgraph of `h`. The hypotheses on counts hold for any graph that fits into
memory. -/
theorem c61_eq_is_containment {g h : GView m k NL EL} {A B : AGraph (Id m) NL EL} (hg : Shows g A)
    (hh : Shows h B) (hd : g.directed = h.directed) (hn : g.nodeCount + h.nodeCount < 2 ^ 64 - 1)
    (he : g.edgeCount + h.edgeCount < 2 ^ 64 - 1) :
    ∃ b, g.typedEq h = .ok b ∧ (b = true ↔ A.Sub B) := by
  obtain ⟨b, h1, h2⟩ := GView.contained_ok hg hh hd
  refine ⟨b, ?_, h2⟩
  unfold GView.typedEq GView.bnot
  rw [if_neg, h1]
  simp only [Bool.or_eq_true, beq_iff_eq, not_or]
  omega

/-- **C61** for counters of any size: the only other reason for a no is two counters of nodes, or two of
edges, that add up to exactly `usize::MAX` (edge counters can be moved there by calls, see C60). -/
theorem c61_eq_exact {g h : GView m k NL EL} {A B : AGraph (Id m) NL EL} (hg : Shows g A)
    (hh : Shows h B) (hd : g.directed = h.directed) (hn : g.nodeCount < 2 ^ 64) (he : g.edgeCount < 2 ^ 64) :
    ∃ b, g.typedEq h = .ok b ∧ (b = true ↔ g.nodeCount + h.nodeCount ≠ 2 ^ 64 - 1 ∧
      g.edgeCount + h.edgeCount ≠ 2 ^ 64 - 1 ∧ A.Sub B) := by
  obtain ⟨b, h1, h2⟩ := GView.contained_ok hg hh hd
  unfold GView.typedEq GView.bnot
  by_cases hc : g.nodeCount + h.nodeCount = 2 ^ 64 - 1 ∨ g.edgeCount + h.edgeCount = 2 ^ 64 - 1
  · refine ⟨false, ?_, ?_⟩
    · rw [if_pos]
      · rfl
      · simp only [Bool.or_eq_true, beq_iff_eq]
        omega
    · constructor
      · intro h; cases h
      · rintro ⟨h3, h4, -⟩
        exact (hc.elim h3 h4).elim
  · refine ⟨b, ?_, ?_⟩
    · rw [if_neg, h1]
      simp only [Bool.or_eq_true, beq_iff_eq]
      omega
    · rw [h2]
      constructor
      · intro h
        exact ⟨fun e => hc (.inl e), fun e => hc (.inr e), h⟩
      · rintro ⟨-, -, h⟩; exact h

/-- **C61** in terms of the answers of two hash-map graphs. -/
theorem c61_graphmap {g h : GraphMap m k NL EL} (hg : Reachable g) (hh : Reachable h)
    (hd : g.isDirected = h.isDirected) (hn : g.nodeCount + h.nodeCount < 2 ^ 64 - 1)
    (he : g.edgeCount + h.edgeCount < 2 ^ 64 - 1) :
    ∃ b, g.view.typedEq h.view = .ok b ∧ (b = true ↔
      (∀ n, g.hasNode n = true → h.hasNode n = true ∧ h.getNodeLabel n = g.getNodeLabel n) ∧
      (∀ e ∈ g.edgeIndices, h.hasEdge e.1 e.2 = true ∧
        h.getEdgeLabel e.1 e.2 = g.getEdgeLabel e.1 e.2)) := by
  have hd' : g.view.directed = h.view.directed := hd
  have sg := reachable_shows hg
  have sh := reachable_shows hh
  obtain ⟨b, h1, h2⟩ := c61_eq_is_containment sg sh hd hn he
  refine ⟨b, h1, h2.trans ?_⟩
  constructor
  · rintro ⟨hN, hE⟩
    constructor
    · intro n hn
      obtain ⟨l, hl⟩ := Option.isSome_iff_exists.1 ((sg.hasNode n).symm.trans hn)
      have h3 := sg.nodeLabel n l hl
      have h4 := sh.nodeLabel n l (hN n l hl)
      rw [view_getNodeLabel] at h3 h4
      refine ⟨?_, by simp only [Except.ok.injEq] at h3 h4; rw [h3, h4]⟩
      have := sh.hasNode n
      rw [hN n l hl] at this
      exact this
    · intro e hel
      obtain ⟨h3, h4⟩ := (sg.memEdges e.1 e.2).1 hel
      obtain ⟨l, hl⟩ := Option.isSome_iff_exists.1 h3
      have h5 := sg.edgeLabel _ _ l hl h4
      have h6 := sh.edgeLabel _ _ l (hE _ _ l hl) (hd' ▸ h4)
      rw [view_getEdgeLabel] at h5 h6
      refine ⟨?_, by rw [h5, h6]⟩
      rw [← abs_edge_isSome hh.inv, hE _ _ l hl]; rfl
  · rintro ⟨hN, hE⟩
    have key : ∀ s t l, (g.isDirected = true ∨ s ≤ t) → g.abs.edge s t = some l →
        h.abs.edge s t = some l := by
      intro s t l hst hl
      obtain ⟨h3, h4⟩ := hE (s, t) ((sg.memEdges s t).2 ⟨by rw [hl]; rfl, hst⟩)
      rw [← abs_edge_isSome hh.inv] at h3
      obtain ⟨l', hl'⟩ := Option.isSome_iff_exists.1 h3
      have h5 := sg.edgeLabel _ _ l hl hst
      have h6 := sh.edgeLabel _ _ l' hl' (hd' ▸ hst)
      rw [view_getEdgeLabel] at h5 h6
      rw [h6, h5] at h4
      cases h4; exact hl'
    constructor
    · intro n l hl
      obtain ⟨h3, h4⟩ := hN n ((sg.hasNode n).trans (by rw [hl]; rfl))
      obtain ⟨l', hl'⟩ := Option.isSome_iff_exists.1 ((sh.hasNode n).symm.trans h3)
      have h5 := sg.nodeLabel n l hl
      have h6 := sh.nodeLabel n l' hl'
      rw [view_getNodeLabel] at h5 h6
      rw [hl']
      simp only [Except.ok.injEq] at h5 h6
      rw [← h5, ← h6, h4]
    · intro s t l hl
      by_cases hst : g.isDirected = true ∨ s ≤ t
      · exact key s t l hst hl
      · have hst' := hst
        simp only [not_or, Bool.not_eq_true, not_le] at hst
        rw [sg.sym hst.1] at hl
        rw [sh.sym (hd' ▸ hst.1)]
        exact key t s l (Or.inr hst.2.le) hl

/-- **C18** (partial: the two graphs must have equally many nodes and edges, a condition the code means
to test but does not). Then `g == h` is true exactly when the graphs are the same. -/
theorem c18_eq_partial {g h : GraphMap m k NL EL} (hg : Reachable g) (hh : Reachable h)
    (hd : g.isDirected = h.isDirected) (hn : g.nodeCount + h.nodeCount < 2 ^ 64 - 1)
    (he : g.edgeCount + h.edgeCount < 2 ^ 64 - 1) (cn : g.nodeCount = h.nodeCount)
    (ce : g.edgeIndices.length = h.edgeIndices.length) :
    ∃ b, g.view.typedEq h.view = .ok b ∧ (b = true ↔ SameGraph g.view h.view) := by
  have hd' : g.view.directed = h.view.directed := hd
  have sg := reachable_shows hg
  have sh := reachable_shows hh
  obtain ⟨b, h1, h2⟩ := c61_eq_is_containment sg sh hd hn he
  refine ⟨b, h1, ?_⟩
  rw [h2, sameGraph_iff sg sh]
  constructor
  · intro hs
    refine ⟨hd, sub_eq hs sg.sym (fun e => sh.sym (hd' ▸ e)) ?_ ?_⟩
    · rw [← shows_nodeNumber sg, ← shows_nodeNumber sh]; exact cn
    · rw [← shows_edgeNumber sg]
      have := shows_edgeNumber sh
      rw [show h.view.directed = g.view.directed from hd.symm] at this
      rw [← this]; exact ce
  · rintro ⟨-, h4⟩
    rw [h4]
    exact ⟨fun _ _ h => h, fun _ _ _ h => h⟩

/-- **C18 fails**: a graph `==` a graph with more nodes and edges, though not conversely. -/
theorem c18_eq_not_equality : ∃ g h : GraphMap 9 3 String String, Reachable g ∧ Reachable h ∧
    g.isDirected = h.isDirected ∧ g.view.typedEq h.view = .ok true ∧
    h.view.typedEq g.view = .ok false ∧ g.hasEdge 2 3 = false ∧ h.hasEdge 2 3 = true := by
  refine ⟨_, _, smallGraph_reachable (d := true) (es := [(1, 2, none)]) rfl,
    smallGraph_reachable (d := true) (es := [(1, 2, none), (2, 3, none)]) rfl,
    by decide, by decide, by decide, by decide, by decide⟩

example : ∃ g h : GraphMap 9 3 String String, Reachable g ∧ Reachable h ∧
    g.isDirected = h.isDirected ∧ g.nodeCount = h.nodeCount ∧
    g.nodeCount + h.nodeCount < 2 ^ 64 - 1 ∧ g.edgeCount + h.edgeCount < 2 ^ 64 - 1 ∧
    g.edgeIndices.length = h.edgeIndices.length ∧ g.edgeLabels ≠ h.edgeLabels ∧
    g.view.typedEq h.view = .ok true := by
  refine ⟨_, _,
    smallGraph_reachable (d := false) (es := [(1, 2, some "x"), (3, 2, some "y")]) rfl,
    smallGraph_reachable (d := false) (es := [(2, 3, some "y"), (2, 1, some "x")]) rfl,
    by decide, by decide, by decide, by decide, by decide, by decide, by decide⟩

/-! ### C19 -/

omit [DecidableEq NL] [DecidableEq EL] in
/-- **C19.** The same labelled graph, however built, feeds the same data to the hasher, and computing
it does not panic. -/
theorem c19_same_graph_same_hash {g : GView m k NL EL} {h : GView m k' NL EL}
    {A B : AGraph (Id m) NL EL} (hg : Shows g A) (hh : Shows h B) (hs : SameGraph g h) :
    (∃ d, g.hashData = .ok d) ∧ g.hashData = h.hashData ∧ g.boxHashData = h.boxHashData := by
  obtain ⟨hd, rfl⟩ := (sameGraph_iff hg hh).1 hs
  refine ⟨⟨_, GView.hashData_ok hg⟩, GView.hashData_eq hg hh hd, ?_⟩
  unfold GView.boxHashData
  rw [GView.hashData_eq hg hh hd, hd]

/-- **C19** (partial: exact edge counts). Boxed graphs that are equal hash alike. -/
theorem c19_boxed_hash_partial {g : GView m k NL EL} {h : GView m k' NL EL}
    {A B : AGraph (Id m) NL EL} (hg : Shows g A) (hh : Shows h B)
    (cg : g.edgeCount = g.edgeIndices.length) (ch : h.edgeCount = h.edgeIndices.length)
    (heq : g.equal h = .ok true) : g.boxHashData = h.boxHashData := by
  obtain ⟨b, h1, h2⟩ := c20_equal_views_partial hg hh cg ch
  rw [heq] at h1
  cases h1
  exact (c19_same_graph_same_hash hg hh (h2.1 rfl)).2.2

/-- **C19** (partial: `==` must hold in both directions, because it is not symmetric, C18). Typed graphs
that are equal hash alike. -/
theorem c19_typed_hash_partial {g h : GView m k NL EL} {A B : AGraph (Id m) NL EL} (hg : Shows g A)
    (hh : Shows h B) (hd : g.directed = h.directed) (hn : g.nodeCount + h.nodeCount < 2 ^ 64 - 1)
    (he : g.edgeCount + h.edgeCount < 2 ^ 64 - 1) (h1 : g.typedEq h = .ok true)
    (h2 : h.typedEq g = .ok true) : g.hashData = h.hashData := by
  obtain ⟨b, h3, h4⟩ := c61_eq_is_containment hg hh hd hn he
  obtain ⟨c, h5, h6⟩ := c61_eq_is_containment hh hg hd.symm (by omega) (by omega)
  rw [h1] at h3; rw [h2] at h5
  cases h3; cases h5
  obtain ⟨a1, a2⟩ := h4.1 rfl
  obtain ⟨b1, b2⟩ := h6.1 rfl
  have : A = B := by
    apply AGraph_ext
    · intro n
      exact Option.ext (fun l => ⟨a1 n l, b1 n l⟩)
    · intro s t
      exact Option.ext (fun l => ⟨a2 s t l, b2 s t l⟩)
  subst this
  exact GView.hashData_eq hg hh hd

omit [DecidableEq NL] [DecidableEq EL] in
theorem hash_length {g : GView m k NL EL} {h : GView m k' NL EL} {A B : AGraph (Id m) NL EL}
    (hg : Shows g A) (hh : Shows h B) (heq : g.hashData = h.hashData) :
    g.edgeIndices.length = h.edgeIndices.length := by
  rw [GView.hashData_ok hg, GView.hashData_ok hh] at heq
  simp only [Except.ok.injEq, Prod.mk.injEq] at heq
  have := congrArg List.length heq.2.2.1
  rwa [List.length_mergeSort, List.length_mergeSort] at this

omit [DecidableEq NL] [DecidableEq EL] in
theorem box_hash {g : GView m k NL EL} {h : GView m k' NL EL} {A B : AGraph (Id m) NL EL}
    (hg : Shows g A) (hh : Shows h B) (heq : g.boxHashData = h.boxHashData) :
    g.hashData = h.hashData := by
  unfold GView.boxHashData at heq
  rw [GView.hashData_ok hg, GView.hashData_ok hh] at heq ⊢
  simp only [bind_ok, pure_ok, Except.ok.injEq, Prod.mk.injEq] at heq ⊢
  exact heq.2

/-- **C19 fails**: graphs that are `==` need not hash alike. -/
theorem c19_equal_hash_differs : ∃ g h : GraphMap 9 3 String String, Reachable g ∧ Reachable h ∧
    g.view.typedEq h.view = .ok true ∧ g.view.hashData ≠ h.view.hashData := by
  have hg : Reachable _ := smallGraph_reachable (d := true) (es := [(1, 2, none)]) rfl
  have hh : Reachable _ := smallGraph_reachable (d := true) (es := [(1, 2, none), (2, 3, none)]) rfl
  exact ⟨_, _, hg, hh, by decide, fun h =>
    absurd (hash_length (reachable_shows hg) (reachable_shows hh) h) (by decide)⟩

/-- **C19 fails** for boxed graphs with an inexact edge count. -/
theorem c19_boxed_hash_differs : ∃ g h : GraphMap 9 3 String String, Reachable g ∧ Reachable h ∧
    g.view.equal h.view = .ok true ∧ g.view.boxHashData ≠ h.view.boxHashData := by
  have hg : Reachable _ :=
    smallGraph_reachable (d := true) (es := [(1, 2, none), (1, 2, none)]) rfl
  have hh : Reachable _ := smallGraph_reachable (d := true) (es := [(1, 2, none), (2, 3, none)]) rfl
  refine ⟨_, _, hg, hh, by decide, fun h => ?_⟩
  refine absurd (hash_length (reachable_shows hg) (reachable_shows hh) ?_) (by decide)
  exact box_hash (reachable_shows hg) (reachable_shows hh) h

/-! ### C21 -/

theorem count_filterMap {X Y : Type} [DecidableEq Y] (l : List X) (f : X → Option Y) (y : Y) :
    (l.filterMap f).count y = (l.filter (fun x => decide (f x = some y))).length := by
  induction l with
  | nil => rfl
  | cons a l ih =>
    cases h : f a with
    | none => simp [h, ih]
    | some z =>
      by_cases hz : z = y
      · subst hz; simp [h, ih]
      · simp [h, ih, hz]

theorem counter_spec {X Y : Type} [DecidableEq Y] (l : List X) (f : X → Option Y) (y : Y) (c : Nat) :
    AL.get (counterOf (l.filterMap f)) y = some c ↔
      0 < c ∧ c = (l.filter (fun x => decide (f x = some y))).length := by
  rw [counterOf_get, ← count_filterMap]
  by_cases h : y ∈ l.filterMap f
  · have := List.count_pos_iff.2 h
    rw [if_pos h]
    constructor
    · rintro h; cases h; exact ⟨this, rfl⟩
    · rintro ⟨-, rfl⟩; rfl
  · rw [if_neg h, List.count_eq_zero_of_not_mem h]
    constructor
    · intro h; cases h
    · rintro ⟨h1, rfl⟩; exact absurd h1 (lt_irrefl _)

omit [DecidableEq EL] in
/-- **C21.** The node label counter maps `x` to `c` exactly when `c > 0` nodes carry the label `x`; no
label occurs twice. -/
theorem c21_node_label_counter {g : GView m k NL EL} {A : AGraph (Id m) NL EL} (hg : Shows g A) :
    ∃ c, g.nodeLabelCounter = .ok c ∧ (AL.keys c).Nodup ∧ ∀ x v, AL.get c x = some v ↔
      0 < v ∧ v = (g.nodeIndices.filter
        (fun n => decide ((g.getNodeLabel n).toOption = some (some x)))).length := by
  unfold GView.nodeLabelCounter
  rw [GView.nodes_mapM hg _ (fun n hn => (hg.memNodes n).1 hn), bind_ok]
  refine ⟨_, rfl, counterOf_keys_nodup _, ?_⟩
  intro x v
  rw [List.filterMap_map, counter_spec]
  have : (g.nodeIndices.filter (fun n => decide ((id ∘ fun n => (A.node n).join) n = some x))) =
      (g.nodeIndices.filter (fun n => decide ((g.getNodeLabel n).toOption = some (some x)))) := by
    apply List.filter_congr
    intro n hn
    obtain ⟨l, hl⟩ := Option.isSome_iff_exists.1 ((hg.memNodes n).1 hn)
    simp [hg.nodeLabel n l hl, hl, Except.toOption]
  rw [this]

omit [DecidableEq NL] in
/-- **C21.** The edge label counter, likewise over the listed edges. -/
theorem c21_edge_label_counter {g : GView m k NL EL} {A : AGraph (Id m) NL EL} (hg : Shows g A) :
    ∃ c, g.edgeLabelCounter = .ok c ∧ (AL.keys c).Nodup ∧ ∀ x v, AL.get c x = some v ↔
      0 < v ∧ v = (g.edgeIndices.filter
        (fun e => decide ((g.getEdgeLabel e.1 e.2).toOption = some (some x)))).length := by
  unfold GView.edgeLabelCounter
  rw [GView.edges_mapM hg _ (fun n hn => hn), bind_ok]
  refine ⟨_, rfl, counterOf_keys_nodup _, ?_⟩
  intro x v
  rw [List.filterMap_map, counter_spec]
  have : (g.edgeIndices.filter (fun e => decide ((id ∘ fun (e : Id m × Id m) =>
      (A.edge e.1 e.2).join) e = some x))) =
      (g.edgeIndices.filter
        (fun e => decide ((g.getEdgeLabel e.1 e.2).toOption = some (some x)))) := by
    apply List.filter_congr
    intro e he
    obtain ⟨h1, h2⟩ := (hg.memEdges e.1 e.2).1 he
    obtain ⟨l, hl⟩ := Option.isSome_iff_exists.1 h1
    simp [hg.edgeLabel _ _ l hl h2, hl, Except.toOption]
  rw [this]

/-- **C21.** The node label id counter of a hash-map graph. -/
theorem c21_node_label_id_counter {g : GraphMap m k NL EL} (hg : Reachable g) :
    (AL.keys g.view.nodeLabelIdCounter).Nodup ∧ ∀ x v, AL.get g.view.nodeLabelIdCounter x = some v ↔
      0 < v ∧ v = (g.nodeIndices.filter
        (fun n => decide ((g.getNode n).bind (·.label) = some x))).length := by
  refine ⟨counterOf_keys_nodup _, ?_⟩
  intro x v
  unfold GView.nodeLabelIdCounter
  rw [counter_spec]
  have hw := hg.inv.toNWF
  have : ((g.nodes.map (fun nd => (nd.id, nd.label))).filter
      (fun p => decide (p.2 = some x))).length =
      (g.nodeIndices.filter (fun n => decide ((g.getNode n).bind (·.label) = some x))).length := by
    unfold GraphMap.nodes GraphMap.nodeIndices AL.values AL.keys
    rw [List.map_map, List.filter_map, List.filter_map, List.length_map, List.length_map]
    congr 1
    apply List.filter_congr
    rintro ⟨n, nd⟩ h
    have h3 : g.getNode n = some nd := AL.get_eq_of_mem hw.keys h
    simp [h3]
  rw [← this]; rfl

/-- **C21.** The edge label id counter of a hash-map graph. -/
theorem c21_edge_label_id_counter {g : GraphMap m k NL EL} (hg : Reachable g) :
    (AL.keys g.view.edgeLabelIdCounter).Nodup ∧ ∀ x v, AL.get g.view.edgeLabelIdCounter x = some v ↔
      0 < v ∧ v = (g.edgeIndices.filter (fun e => decide
        ((g.getEdge e.1 e.2).toOption.map (fun r => r.bind (·.label)) = some (some x)))).length := by
  refine ⟨counterOf_keys_nodup _, ?_⟩
  intro x v
  unfold GView.edgeLabelIdCounter
  rw [counter_spec]
  have hw := hg.inv.toNWF
  have : (g.edges.filter (fun e => decide (e.label = some x))).length =
      (g.edgeIndices.filter (fun e => decide
        ((g.getEdge e.1 e.2).toOption.map (fun r => r.bind (·.label)) = some (some x)))).length := by
    rw [edgeIndices_eq, List.filter_map, List.length_map]
    congr 1
    apply List.filter_congr
    intro e he
    rw [mem_edges hw] at he
    simp [getEdge_eq_outE, he.1, Except.toOption]
  rw [← this]; rfl

example : ∃ g : GraphMap 9 3 String String, Reachable g ∧
    g.view.nodeLabelIdCounter = [(0, 1)] ∧ g.view.edgeLabelIdCounter = [(0, 2), (1, 1)] ∧
    g.view.edgeLabelCounter = .ok [("x", 2), ("y", 1)] := by
  refine ⟨_, smallGraph_reachable (d := false)
    (es := [(1, 2, some "x"), (3, 2, some "y"), (3, 3, some "x"), (1, 3, none)]) rfl, ?_, ?_, ?_⟩
  · decide
  · decide
  · decide

end Verif.Props
