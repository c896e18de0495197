import Verif.Proof.SerdeClosed
import Verif.Props.Serde
import Verif.Props.Static
import Verif.Model.Programs

/-! Property theorems about reading files that no export of this library wrote: C97, C98; and about the
program `remove_labels`: C99. -/

namespace Verif.Props

open GraphMap Spec Programs

variable {X : Type}

/-! ### C97 -/

theorem import_get {c : Codec X} {path : String} {w : World} {x : X} (h : w.import c path = some x) :
    ∃ bs r, w.files path = some bs ∧ c.get bs = some (x, r) := by
  simp only [World.import, Option.bind_eq_bind, Option.bind_eq_some_iff, Option.pure_def,
    Option.some.injEq] at h
  obtain ⟨bs, h1, p, h2, rfl⟩ := h
  exact ⟨bs, p.2, h1, h2⟩

/-- What was imported once can be exported to any disk with room and is imported from there again. -/
theorem again {c : Codec X} (hc : c.Closed) {src dst : String} {w w' : World} {x : X}
    (h : w.import c src = some x) (hroom : (c.bytes x).length < w'.room) :
    (w'.export c x dst).1 = true ∧ (w'.export c x dst).2.import c dst = some x ∧
      ∀ p, p ≠ dst → (w'.export c x dst).2.files p = w'.files p := by
  obtain ⟨bs, r, -, h2⟩ := import_get h
  exact export_import (round_nil (hc _ _ _ h2)) dst w' hroom

/-- **C97** for label maps, the labels being texts. -/
theorem c97_set_map {src dst : String} {w w' : World} {s : SetMap (List Byte)}
    (h : w.import (.setMap Programs.text) src = some s)
    (hroom : ((Codec.setMap Programs.text).bytes s).length < w'.room) :
    s.items.Nodup ∧ (w'.export (.setMap Programs.text) s dst).1 = true ∧
      (w'.export (.setMap Programs.text) s dst).2.import (.setMap Programs.text) dst = some s ∧
      ∀ p, p ≠ dst → (w'.export (.setMap Programs.text) s dst).2.files p = w'.files p := by
  have ht : Programs.text.Closed := Codec.vec_closed (Codec.ident_closed (m := 255) (by decide))
  obtain ⟨bs, r, -, h2⟩ := import_get h
  exact ⟨(Codec.setMap_get ht h2).2.2, again (Codec.setMap_closed ht) h hroom⟩

/-- **C97** for `VecMap`. -/
theorem c97_vec_map {src dst : String} {w w' : World} {s : VecMap (List Byte)}
    (h : w.import (.vecMap Programs.text) src = some s)
    (hroom : ((Codec.vecMap Programs.text).bytes s).length < w'.room) :
    (w'.export (.vecMap Programs.text) s dst).1 = true ∧
      (w'.export (.vecMap Programs.text) s dst).2.import (.vecMap Programs.text) dst = some s ∧
      ∀ p, p ≠ dst → (w'.export (.vecMap Programs.text) s dst).2.files p = w'.files p :=
  again (Codec.vecMap_closed (Codec.vec_closed (Codec.ident_closed (m := 255) (by decide)))) h hroom

variable {m k wd v : Nat} {NL EL : Type} [DecidableEq NL] [DecidableEq EL]

/-- **C97.** Whatever `import` makes of a file, be it written by `export` or not, can be exported and
imported again without a difference. For `GraphMap`. -/
theorem c97_graph_map {nl : Codec NL} {el : Codec EL} (hnl : nl.Closed) (hel : el.Closed)
    (hw : m + 1 = 256 ^ wd) (hv : k + 1 = 256 ^ v) {d : Bool} {src dst : String} {w w' : World}
    {g : GraphMap m k NL EL} (h : w.import (.graphMap wd v nl el d) src = some g)
    (hroom : ((Codec.graphMap wd v nl el d).bytes g).length < w'.room) :
    (w'.export (.graphMap wd v nl el d) g dst).1 = true ∧
      (w'.export (.graphMap wd v nl el d) g dst).2.import (.graphMap wd v nl el d) dst = some g ∧
      ∀ p, p ≠ dst → (w'.export (.graphMap wd v nl el d) g dst).2.files p = w'.files p :=
  again (Codec.graphMap_closed hw hv hnl hel d) h hroom

/-- **C97** for frozen graphs. -/
theorem c97_static_graph {nl : Codec NL} {el : Codec EL} (hnl : nl.Closed) (hel : el.Closed)
    (hw : m + 1 = 256 ^ wd) (hv : k + 1 = 256 ^ v) {d : Bool} {src dst : String} {w w' : World}
    {g : StaticGraph m k NL EL} (h : w.import (.staticGraph wd v nl el d) src = some g)
    (hroom : ((Codec.staticGraph wd v nl el d).bytes g).length < w'.room) :
    (w'.export (.staticGraph wd v nl el d) g dst).1 = true ∧
      (w'.export (.staticGraph wd v nl el d) g dst).2.import (.staticGraph wd v nl el d) dst = some g ∧
      ∀ p, p ≠ dst → (w'.export (.staticGraph wd v nl el d) g dst).2.files p = w'.files p :=
  again (Codec.staticGraph_closed hw hv hnl hel d) h hroom

/-- The formats the theorems are about: numbers and texts as labels. -/
example : (Codec.ident (m := 255) 1).Closed ∧ Programs.text.Closed :=
  ⟨Codec.ident_closed (by decide), Codec.vec_closed (Codec.ident_closed (m := 255) (by decide))⟩

/-- A file with a repeated label that `export` never writes: the import drops the second, and what is
written after that is shorter. -/
example : let w : World := ⟨fun _ => some [2,0,0,0,0,0,0,0, 1,0,0,0,0,0,0,0, 9, 1,0,0,0,0,0,0,0, 9], 100⟩
    w.import (.setMap Programs.text) "f" = some ⟨[[9]]⟩ ∧
      ((Codec.setMap Programs.text).bytes ⟨[[9]]⟩).length = 17 := by
  decide

/-! ### C98 -/

/-- **C98.** `import` believes the counters of a frozen graph: from any file that is read, a file is
obtained that is read as the same graph with any other numbers of nodes and edges. -/
theorem c98_static_counts {nl : Codec NL} {el : Codec EL} (hnl : nl.Closed) (hel : el.Closed)
    (hw : m + 1 = 256 ^ wd) (hv : k + 1 = 256 ^ v) {d : Bool} {path : String} {w : World}
    {g : StaticGraph m k NL EL} (h : w.import (.staticGraph wd v nl el d) path = some g)
    {n e : Nat} (hn : n < 2 ^ 64) (he : e < 2 ^ 64) :
    ∃ bs, ∀ (w' : World) path', w'.files path' = some bs → w'.import (.staticGraph wd v nl el d) path' =
      some { g with numNodes := n, numEdges := e } := by
  obtain ⟨bs, r, -, h2⟩ := import_get h
  obtain ⟨rfl, hW⟩ := Codec.staticGraph_writable hw hv hnl hel h2
  have hW' : Codec.Writable wd v nl el { g with numNodes := n, numEdges := e } :=
    ⟨hn, he, hW.outVec, hW.inVec, hW.labels, hW.nodeLabels, hW.edgeLabels⟩
  have hr := round_nil hW'.round
  refine ⟨(Codec.staticGraph wd v nl el g.directed).bytes { g with numNodes := n, numEdges := e },
    fun w' path' hf => ?_⟩
  simp only [World.import, hf, Option.bind_eq_bind, Option.bind_some]
  rw [hr]
  rfl

/-- **C98**: of the nodes that only such a counter claims, `has_node` says they are there, while asking for
their neighbours or their degree panics. -/
theorem c98_static_phantom (g : StaticGraph m k NL EL) {n e : Nat} {i : Id m} (hi : i.val < n)
    (hlen : g.edgeVec.offsets.length ≤ i.val + 1) :
    let g' := { g with numNodes := n, numEdges := e }
    g'.hasNode i = true ∧ (∃ p, g'.neighbors i = .error p) ∧ ∃ p, g'.degree i = .error p := by
  have hno : (∃ p, g.edgeVec.hasNode i = .error p) ∨ g.edgeVec.hasNode i = .ok false := by
    unfold EdgeVec.hasNode EdgeVec.numNodes
    split
    · exact .inl ⟨_, rfl⟩
    · refine .inr ?_
      simp only [pure_ok, bind_ok, Except.ok.injEq, decide_eq_false_iff_not]
      omega
  refine ⟨by simpa [StaticGraph.hasNode] using hi, ?_, ?_⟩
  · show ∃ p, g.edgeVec.neighbors i = .error p
    unfold EdgeVec.neighbors
    rcases hno with ⟨p, hp⟩ | hp
    · exact ⟨p, by rw [hp]; rfl⟩
    · exact ⟨.explicit, by rw [hp]; rfl⟩
  · show ∃ p, g.edgeVec.degree i = .error p
    unfold EdgeVec.degree
    rcases hno with ⟨p, hp⟩ | hp
    · exact ⟨p, by rw [hp]; rfl⟩
    · exact ⟨.explicit, by rw [hp]; rfl⟩

/-- **C98** for `GraphMap`: whatever its records say, a value whose collections are such (no key twice, the
tree maps and sets sorted) and fit into a file is imported from some file. Nothing is asked of how the
records fit together. -/
theorem c98_graph_map_any {nl : Codec NL} {el : Codec EL} (hw : m + 1 = 256 ^ wd) (hv : k + 1 = 256 ^ v)
    {g : GraphMap m k NL EL} (h1 : g.nodeMap.length < 2 ^ 64) (h2 : (AL.keys g.nodeMap).Nodup)
    (h3 : ∀ p ∈ g.nodeMap, p.2.neighbors.length < 2 ^ 64 ∧ p.2.inNeighbors.length < 2 ^ 64 ∧
      (AL.keys p.2.neighbors).Pairwise (· < ·) ∧ p.2.inNeighbors.Pairwise (· < ·))
    (h4 : g.numEdges < 2 ^ 64) (hnl : g.nodeLabels.len < 2 ^ 64) (hel : g.edgeLabels.len < 2 ^ 64)
    (nnl : g.nodeLabels.items.Nodup) (nel : g.edgeLabels.items.Nodup)
    (cnl : ∀ y ∈ g.nodeLabels.items, nl.RoundTrips y) (cel : ∀ y ∈ g.edgeLabels.items, el.RoundTrips y) :
    ∃ bs, ∀ (w' : World) path', w'.files path' = some bs →
      w'.import (.graphMap wd v nl el g.directed) path' = some g := by
  have hr : (Codec.graphMap wd v nl el g.directed).get
      ((Codec.graphMap wd v nl el g.directed).bytes g ++ []) = some (_, []) :=
    Codec.graphMap_round hw cnl cel h1
      (fun p hp => Codec.nodeMap_round hw hv (h3 p hp).1 (h3 p hp).2.1 (h3 p hp).2.2.1 (h3 p hp).2.2.2)
      h2 h4 hnl nnl hel nel g.directed []
  rw [List.append_nil] at hr
  refine ⟨(Codec.graphMap wd v nl el g.directed).bytes g, fun w' path' hf => ?_⟩
  simp only [World.import, hf, Option.bind_eq_bind, Option.bind_some]
  rw [hr]
  rfl

/-- Node 0 with an arc to node 5, which has no record; the counter says 7. -/
def dangling : GraphMap 255 255 (List Byte) (List Byte) :=
  { (GraphMap.new true : GraphMap 255 255 (List Byte) (List Byte)) with nodeMap := [(0, ⟨0, none, [(5, none)], []⟩)], numEdges := 7 }

/-- **C98**, a witness: the file is imported, the graph has an edge to a node it does not have, seven edges
by its counter and one by its list, and removing the edge panics. It is not a graph the calls of `GraphMap`
can make. -/
theorem c98_dangling : ∃ bs, (∀ (w' : World) path', w'.files path' = some bs →
      w'.import (.graphMap 1 1 Programs.text Programs.text true) path' = some dangling) ∧
    dangling.hasEdge 0 5 = true ∧ dangling.hasNode 5 = false ∧ dangling.edgeCount = 7 ∧
    dangling.edgeIndices = [(0, 5)] ∧ (∃ p, dangling.removeEdge 0 5 = .error p) ∧ ¬ Reachable dangling := by
  obtain ⟨bs, h⟩ := c98_graph_map_any (wd := 1) (v := 1) (nl := Programs.text) (el := Programs.text)
    (g := dangling) (by decide) (by decide) (by decide) (by decide) (by decide) (by decide) (by decide)
    (by decide) (by decide) (by decide) (by rintro y ⟨⟩) (by rintro y ⟨⟩)
  refine ⟨bs, h, by decide, by decide, rfl, by decide, ⟨_, by rfl⟩, fun hr => ?_⟩
  have := hr.inv.target 0 5 (by decide)
  revert this
  decide

set_option maxRecDepth 8000 in
/-- A file of a frozen graph with two nodes, and the same with 200 nodes claimed. -/
example : ∃ g, (do let g ← small false; g.intoStatic) = .ok g ∧
    ((blank 500).export (.staticGraph 1 1 Programs.text Programs.text false) g "f").2.import
      (.staticGraph 1 1 Programs.text Programs.text false) "f" = some g ∧
    g.edgeVec.offsets.length ≤ (100 : Id 255).val + 1 ∧
    ({ g with numNodes := 200 } : StaticGraph _ _ _ _).hasNode 100 = true ∧
    ({ g with numNodes := 200 } : StaticGraph _ _ _ _).neighbors 100 = .error .explicit := by
  obtain ⟨g, h⟩ : ∃ g, (do let g ← small false; g.intoStatic) = .ok g := ⟨_, rfl⟩
  refine ⟨g, h, ?_⟩
  cases h
  decide

/-! ### C99 -/

/-- **C99**: `remove_labels` panics if its input cannot be read, and leaves the disk alone. -/
theorem c99_unreadable {inFile outFile : String} {w : World}
    (h : w.import (Codec.staticGraph (m := m) (k := k) wd v (.ident (m := m) wd) (.ident (m := m) wd) false)
      inFile = none) :
    removeLabels m k wd v inFile outFile w = (.error .explicit, w) := by
  simp [removeLabels, load, h, orPanic, exported]

theorem bytes_empty {X : Type} [DecidableEq X] (c : Codec X) (s : SetMap X) :
    ((Codec.setMap c).bytes (SetMap.empty : SetMap X)).length ≤ ((Codec.setMap c).bytes s).length := by
  simp [Codec.bytes, Codec.setMap, Codec.vec, Codec.usize, SetMap.empty, length_le]

theorem bytes_none {X : Type} (c : Codec X) (o : Option X) :
    ((Codec.opt c).bytes none).length ≤ ((Codec.opt c).bytes o).length := by
  cases o <;> simp [Codec.bytes, Codec.opt]

theorem bytes_removeEdgeLabels {nl : Codec NL} {el : Codec EL} {d : Bool} (g : StaticGraph m k NL EL) :
    ((Codec.staticGraph wd v nl el d).bytes g.removeEdgeLabels).length ≤
      ((Codec.staticGraph wd v nl el d).bytes g).length := by
  have h3 : ∀ e : EdgeVec m k, ((Codec.edgeVec wd v).bytes e.removeLabels).length ≤
      ((Codec.edgeVec wd v).bytes e).length := by
    intro e
    have := bytes_none (Codec.vec (Codec.ident (m := k) v)) e.labels
    simp only [Codec.bytes, Codec.edgeVec, EdgeVec.removeLabels, List.flatten_append, List.length_append] at this ⊢
    omega
  have h4 : ((Codec.opt (Codec.edgeVec wd v)).bytes (g.inEdgeVec.map (fun e => e.removeLabels))).length ≤
      ((Codec.opt (Codec.edgeVec wd v)).bytes g.inEdgeVec).length := by
    cases g.inEdgeVec with
    | none => exact le_rfl
    | some e =>
      have := h3 e
      simp only [Codec.bytes, Codec.opt, Option.map_some, List.flatten_cons, List.length_append] at this ⊢
      omega
  have h6 := bytes_empty el g.edgeLabels
  have h8 := h3 g.edgeVec
  simp only [Codec.bytes, Codec.staticGraph,
    StaticGraph.removeEdgeLabels, List.flatten_append, List.length_append] at h4 h6 h8 ⊢
  omega

theorem bytes_removeLabels {nl : Codec NL} {el : Codec EL} {d : Bool} (g : StaticGraph m k NL EL) :
    ((Codec.staticGraph wd v nl el d).bytes g.removeLabels).length ≤
      ((Codec.staticGraph wd v nl el d).bytes g).length := by
  refine le_trans (bytes_removeEdgeLabels g.removeNodeLabels) ?_
  have h5 := bytes_empty nl g.nodeLabels
  have h7 := bytes_none (Codec.vec (Codec.ident (m := k) v)) g.labels
  simp only [Codec.bytes, Codec.staticGraph, StaticGraph.removeNodeLabels, List.flatten_append,
    List.length_append] at h5 h7 ⊢
  omega

/-- **C99.** On a disk with room `remove_labels` replaces exactly its output file, which is read as a graph
with the nodes, edges, degrees and neighbours of the input and without a label. -/
theorem c99_removes (hw : m + 1 = 256 ^ wd) (hv : k + 1 = 256 ^ v) {inFile outFile : String} {w : World}
    {g : Plain m k} (h : w.import (.staticGraph wd v (.ident wd) (.ident wd) false) inFile = some g)
    (hroom : ((Codec.staticGraph wd v (.ident wd) (.ident wd) false).bytes g).length < w.room) :
    ∃ (w' : World) (g' : Plain m k), removeLabels m k wd v inFile outFile w = (.ok (), w') ∧
      w'.import (.staticGraph wd v (.ident wd) (.ident wd) false) outFile = some g' ∧
      (∀ p, p ≠ outFile → w'.files p = w.files p) ∧
      (g'.directed = false ∧ g'.numNodes = g.numNodes ∧ g'.numEdges = g.numEdges ∧
        g'.nodeIndices = g.nodeIndices ∧ g'.hasEdge = g.hasEdge ∧ g'.edgeIndices = g.edgeIndices ∧
        g'.degree = g.degree ∧ g'.neighbors = g.neighbors) ∧
      (∀ n, g'.nodeLid n = .ok none) ∧
      (∀ s t e, g'.getEdge s t = .ok (some e) → e.label = none) ∧
      g'.nodeLabels.len = 0 ∧ g'.edgeLabels.len = 0 := by
  obtain ⟨bs, r, -, h2⟩ := import_get h
  have hi := Codec.ident_closed hw
  obtain ⟨hd, hW⟩ := Codec.staticGraph_writable hw hv hi hi h2
  have hr := round_nil (hW.removeLabels hw hv).round
  have hd' : g.removeLabels.directed = false := hd
  rw [hd'] at hr
  obtain ⟨a1, a2, a3⟩ := export_import hr outFile w (lt_of_le_of_lt (bytes_removeLabels g) hroom)
  have hs := c28_structure_kept g g.removeLabels (by simp)
  have hn := c28_node_labels_gone g g.removeLabels (by simp)
  have he := c28_edge_labels_gone g g.removeLabels (by simp)
  refine ⟨_, g.removeLabels, ?_, a2, a3, ⟨hd', hs.2.1, hs.2.2.1, hs.2.2.2.2.1, hs.2.2.2.2.2.1,
    hs.2.2.2.2.2.2.2.1, hs.2.2.2.2.2.2.2.2.1, hs.2.2.2.2.2.2.2.2.2.1⟩, hn.1, fun s t e hse => ?_, ?_, ?_⟩
  · simp only [removeLabels, load, h, orPanic, exported, pure_ok, bind_ok]
    rw [a1]
    rfl
  · rw [he.1] at hse
    obtain ⟨o, -, ho⟩ := bind_eq_ok hse
    simp only [pure_ok, Except.ok.injEq, Option.map_eq_some_iff] at ho
    obtain ⟨x, -, rfl⟩ := ho
    rfl
  · rw [hn.2.2]; rfl
  · rw [he.2.2]; rfl

set_option maxRecDepth 8000 in
/-- A labelled input for which the hypotheses hold. -/
example : ∃ g : Plain 255 255, (do
      let g ← (GraphMap.new false : GraphMap 255 255 (Id 255) (Id 255)).addNode 0 (some 7)
      let g ← g.1.addEdge 0 1 (some 9)
      g.1.intoStatic) = .ok g ∧
    let w := ((blank 500).export (.staticGraph 1 1 (.ident 1) (.ident 1) false) g "f").2
    w.import (.staticGraph 1 1 (.ident 1) (.ident 1) false) "f" = some g ∧
    ((Codec.staticGraph 1 1 (.ident 1) (.ident 1) false).bytes g).length < w.room ∧
    g.nodeLid 0 = .ok (some 0) ∧ g.nodeLabels.len = 1 ∧
    (removeLabels 255 255 1 1 "f" "f" w).1 = .ok () := by
  obtain ⟨g, h⟩ : ∃ g : Plain 255 255, (do
      let g ← (GraphMap.new false : GraphMap 255 255 (Id 255) (Id 255)).addNode 0 (some 7)
      let g ← g.1.addEdge 0 1 (some 9)
      g.1.intoStatic) = .ok g := ⟨_, rfl⟩
  refine ⟨g, h, ?_⟩
  cases h
  decide

end Verif.Props
