import Verif.Proof.MmapRoom
import Verif.Proof.Build
import Verif.Props.GraphState

/-! Property theorems about `export`/`import`: C46, C73-C75. -/

namespace Verif.Props

open GraphMap Spec

variable {X : Type}

/-- Exporting with enough room and importing again. -/
theorem export_import {c : Codec X} {y z : X} (h : c.get (c.bytes y) = some (z, [])) (path : String)
    (x : World) (hroom : (c.bytes y).length < x.room) :
    (x.export c y path).1 = true ∧ (x.export c y path).2.import c path = some z ∧
      ∀ p, p ≠ path → (x.export c y path).2.files p = x.files p := by
  obtain ⟨ok, e1, e2⟩ := World.export_eq c y path x
  have hle : (c.bytes y).length ≤ x.room - 1 := by omega
  rw [e1, if_neg (by omega)]
  refine ⟨e2 hle, ?_, ?_⟩
  · simp only [World.import, World.put, if_true, Option.bind_eq_bind, Option.bind_some,
      List.take_of_length_le hle, h, Option.pure_def]
  · intro p hp
    simp only [World.put, if_neg hp]

theorem round_nil {c : Codec X} {y : X} (h : c.RoundTrips y) : c.get (c.bytes y) = some (y, []) := by
  have := h []
  rwa [List.append_nil] at this

/-! ### C46 -/

/-- **C46** for `SetMap`. The disk has room for the file; every item must come
back in its own format; a `SetMap` never holds an item twice (C01). -/
theorem c46_set_map [DecidableEq X] {c : Codec X} {s : SetMap X} (hl : s.len < 2 ^ 64)
    (hc : ∀ y ∈ s.items, c.RoundTrips y) (hn : s.items.Nodup) (path : String) (x : World)
    (hroom : ((Codec.setMap c).bytes s).length < x.room) :
    (x.export (.setMap c) s path).1 = true ∧
      (x.export (.setMap c) s path).2.import (.setMap c) path = some s ∧
      ∀ p, p ≠ path → (x.export (.setMap c) s path).2.files p = x.files p :=
  export_import (round_nil (Codec.setMap_round hl hc hn)) path x hroom

/-- **C46** for `VecMap`. -/
theorem c46_vec_map {c : Codec X} {s : VecMap X} (hl : s.len < 2 ^ 64)
    (hc : ∀ y ∈ s.items, c.RoundTrips y) (path : String) (x : World)
    (hroom : ((Codec.vecMap c).bytes s).length < x.room) :
    (x.export (.vecMap c) s path).1 = true ∧
      (x.export (.vecMap c) s path).2.import (.vecMap c) path = some s ∧
      ∀ p, p ≠ path → (x.export (.vecMap c) s path).2.files p = x.files p :=
  export_import (round_nil (Codec.vecMap_round hl hc)) path x hroom

variable {m k w v : Nat} {NL EL : Type} [DecidableEq NL] [DecidableEq EL]

omit [DecidableEq NL] [DecidableEq EL] in
theorem neighbors_le {g : GraphMap m k NL EL} (hg : g.Inv) {n : Id m} {nd : NodeMap m k}
    (h : g.getNode n = some nd) :
    nd.neighbors.length ≤ g.nodeCount ∧ nd.inNeighbors.length ≤ g.nodeCount := by
  have hcount : g.nodeCount = (AL.keys g.nodeMap).length := by simp [nodeCount, AL.keys]
  constructor
  · have h1 : nd.neighbors.length = (AL.keys nd.neighbors).length := by simp [AL.keys]
    rw [h1, hcount]
    apply nodup_length_le (sorted_nodup (hg.sortedOut n nd h))
    intro t ht
    have := hg.target n t ((mem_neighborIds_iff h t).1 ht)
    rw [← AL.get_isSome_iff]
    exact this
  · rw [hcount]
    apply nodup_length_le (sorted_nodup (hg.sortedIn n nd h))
    intro s hs
    have hin : g.inE n s := (mem_inNeighbors_iff h s).1 hs
    cases hd : g.directed with
    | true =>
      have := outE_hasNode ((hg.inSpec hd s n).1 hin)
      rw [← AL.get_isSome_iff]
      exact this
    | false => exact absurd hin (hg.inNil hd n s)

/-- Reading an exported graph as one of kind `d`. -/
theorem graph_map_get {nl : Codec NL} {el : Codec EL} {g : GraphMap m k NL EL} (hg : Reachable g)
    (hw : m + 1 = 256 ^ w) (hv : k + 1 = 256 ^ v) (hn : g.nodeCount < 2 ^ 64) (he : g.edgeCount < 2 ^ 64)
    (hnl : g.nodeLabels.len < 2 ^ 64) (hel : g.edgeLabels.len < 2 ^ 64)
    (cnl : ∀ y ∈ g.nodeLabels.items, nl.RoundTrips y) (cel : ∀ y ∈ g.edgeLabels.items, el.RoundTrips y)
    (d : Bool) (r : List Byte) :
    (Codec.graphMap w v nl el d).get ((Codec.graphMap w v nl el g.directed).bytes g ++ r) =
      some ({ g with directed := d }, r) := by
  have hi := hg.inv
  refine Codec.graphMap_round hw cnl cel hn ?_ hi.keys he hnl hi.nlNodup hel hi.elNodup d r
  rintro ⟨n, nd⟩ hp
  have hnd : g.getNode n = some nd := AL.get_eq_of_mem hi.keys hp
  obtain ⟨h1, h2⟩ := neighbors_le hi hnd
  exact Codec.nodeMap_round hw hv (by simp only; omega) (by simp only; omega) (hi.sortedOut n nd hnd)
    (hi.sortedIn n nd hnd)

/-- **C46** for `TypedGraphMap`: any graph a program can reach comes back identical. (The hash table may
list its nodes in another order; that is one of the moves of `Reachable`, see `c46_any_order`.) -/
theorem c46_graph_map {nl : Codec NL} {el : Codec EL} {g : GraphMap m k NL EL} (hg : Reachable g)
    (hw : m + 1 = 256 ^ w) (hv : k + 1 = 256 ^ v) (hn : g.nodeCount < 2 ^ 64) (he : g.edgeCount < 2 ^ 64)
    (hnl : g.nodeLabels.len < 2 ^ 64) (hel : g.edgeLabels.len < 2 ^ 64)
    (cnl : ∀ y ∈ g.nodeLabels.items, nl.RoundTrips y) (cel : ∀ y ∈ g.edgeLabels.items, el.RoundTrips y)
    (path : String) (x : World)
    (hroom : ((Codec.graphMap w v nl el g.directed).bytes g).length < x.room) :
    (x.export (.graphMap w v nl el g.directed) g path).1 = true ∧
      (x.export (.graphMap w v nl el g.directed) g path).2.import (.graphMap w v nl el g.directed) path =
        some g ∧
      ∀ p, p ≠ path → (x.export (.graphMap w v nl el g.directed) g path).2.files p = x.files p := by
  refine export_import ?_ path x hroom
  have := graph_map_get hg hw hv hn he hnl hel cnl cel g.directed []
  rwa [List.append_nil] at this

/-- **C46**: in whatever order the hash table lists the nodes, the graph is reachable and has the same
content. -/
theorem c46_any_order {g : GraphMap m k NL EL} (hg : Reachable g) {nm} (hp : g.nodeMap.Perm nm) :
    Reachable { g with nodeMap := nm } ∧
    (∀ n, ({ g with nodeMap := nm } : GraphMap m k NL EL).getNodeLabel n = g.getNodeLabel n) ∧
    (∀ n, ({ g with nodeMap := nm } : GraphMap m k NL EL).hasNode n = g.hasNode n) ∧
    (∀ s t, ({ g with nodeMap := nm } : GraphMap m k NL EL).hasEdge s t = g.hasEdge s t) ∧
    (∀ s t, ({ g with nodeMap := nm } : GraphMap m k NL EL).getEdgeLabel s t = g.getEdgeLabel s t) ∧
    (∀ n, ({ g with nodeMap := nm } : GraphMap m k NL EL).neighbors n = g.neighbors n) := by
  have h := getNode_rehash hg.inv.toNWF hp
  have he : ∀ s t, ({ g with nodeMap := nm } : GraphMap m k NL EL).hasEdge s t = g.hasEdge s t := by
    intro s t
    have h' := h s
    simp only [hasEdge, h']
  refine ⟨.rehash hg hp, ?_, ?_, he, ?_, ?_⟩
  · intro n
    have h' := h n
    simp only [getNodeLabel, h']
  · intro n
    have h' := h n
    simp only [hasNode] at *
    simp only [getNode] at h'
    rw [h']
  · intro s t
    have h' := h s
    have h'' := he s t
    simp only [getEdgeLabel, getEdge, h', h'']
  · intro n
    have h' := h n
    simp only [neighbors, h']

/-- What a static graph needs to be written faithfully: lengths and offsets are `usize`. -/
structure SizedVec (e : EdgeVec m k) : Prop where
  offsets : e.offsets.length < 2 ^ 64
  values : ∀ o ∈ e.offsets, o < 2 ^ 64
  edges : e.edges.length < 2 ^ 64
  labels : ∀ l, e.labels = some l → l.length < 2 ^ 64

/-- **C46** for `TypedStaticGraph`, whatever its arrays hold. -/
theorem c46_static_graph {nl : Codec NL} {el : Codec EL} {g : StaticGraph m k NL EL}
    (hw : m + 1 = 256 ^ w) (hv : k + 1 = 256 ^ v) (hn : g.numNodes < 2 ^ 64) (he : g.numEdges < 2 ^ 64)
    (hout : SizedVec g.edgeVec) (hin : ∀ e, g.inEdgeVec = some e → SizedVec e)
    (hlab : ∀ l, g.labels = some l → l.length < 2 ^ 64)
    (hnl : g.nodeLabels.len < 2 ^ 64) (hel : g.edgeLabels.len < 2 ^ 64)
    (nnl : g.nodeLabels.items.Nodup) (nel : g.edgeLabels.items.Nodup)
    (cnl : ∀ y ∈ g.nodeLabels.items, nl.RoundTrips y) (cel : ∀ y ∈ g.edgeLabels.items, el.RoundTrips y)
    (path : String) (x : World)
    (hroom : ((Codec.staticGraph w v nl el g.directed).bytes g).length < x.room) :
    (x.export (.staticGraph w v nl el g.directed) g path).1 = true ∧
      (x.export (.staticGraph w v nl el g.directed) g path).2.import (.staticGraph w v nl el g.directed) path =
        some g ∧
      ∀ p, p ≠ path → (x.export (.staticGraph w v nl el g.directed) g path).2.files p = x.files p := by
  refine export_import ?_ path x hroom
  have hev : ∀ e : EdgeVec m k, SizedVec e → (Codec.edgeVec w v).RoundTrips e := fun e h =>
    Codec.edgeVec_round hw hv h.offsets h.values h.edges h.labels
  have := Codec.staticGraph_round (w := w) hv cnl cel hn he (hev _ hout) (fun e h => hev e (hin e h)) hlab hnl nnl
    hel nel g.directed []
  rwa [List.append_nil] at this

theorem sizedVec_of_encodes {e : EdgeVec m k} {rows : List (List (Id m × Id k))} {lab : Bool}
    (h : Encodes e rows lab) (h1 : rows.length + 1 < 2 ^ 64) (h2 : rows.flatten.length < 2 ^ 64) :
    SizedVec e := by
  refine ⟨?_, ?_, ?_, ?_⟩
  · rw [h.offsets, offsetsOf_length]; exact h1
  · rw [h.offsets]
    intro o ho
    have := offsetsOf_le rows o ho
    omega
  · rw [h.edges, List.length_map]; exact h2
  · intro l hl
    rw [h.labels] at hl
    split at hl
    · cases hl; rw [List.length_map]; exact h2
    · cases hl

/-- **C46** for what `into_static` makes of a reachable graph: there are fewer than `2^64 - 1` ids up to
the largest node and the adjacency arrays are shorter than `2^64`. -/
theorem c46_frozen {nl : Codec NL} {el : Codec EL} {g : GraphMap m k NL EL} (hg : Reachable g)
    (hw : m + 1 = 256 ^ w) (hv : k + 1 = 256 ^ v) {M : Id m} (hM : g.nodeIndices.max? = some M)
    (hlt : M.val < m) (hs : M.val + 2 < 2 ^ 64) (hec : g.edgeCount < 2 ^ 64)
    (hnl : g.nodeLabels.len < 2 ^ 64) (hel : g.edgeLabels.len < 2 ^ 64)
    (cnl : ∀ y ∈ g.nodeLabels.items, nl.RoundTrips y) (cel : ∀ y ∈ g.edgeLabels.items, el.RoundTrips y)
    (path : String) :
    ∃ r, g.intoStatic = .ok r ∧ r.directed = g.directed ∧ (r.edgeVec.edges.length < 2 ^ 64 →
      (∀ e, r.inEdgeVec = some e → e.edges.length < 2 ^ 64) → ∀ x : World,
      ((Codec.staticGraph w v nl el g.directed).bytes r).length < x.room →
      (x.export (.staticGraph w v nl el g.directed) r path).1 = true ∧
      (x.export (.staticGraph w v nl el g.directed) r path).2.import (.staticGraph w v nl el g.directed) path =
        some r) := by
  obtain ⟨r, h1, h2⟩ := intoStatic_ok hg.inv.toNWF hM hlt
  refine ⟨r, h1, h2.directed, fun he hi x hx => ?_⟩
  have hcount : g.nodeCount ≤ M.val + 1 := by
    have e : g.nodeCount = (g.nodeIndices.map (·.val)).length := by
      simp [nodeCount, nodeIndices, AL.keys]
    have hnd : (g.nodeIndices.map (·.val)).Nodup :=
      List.Nodup.map (fun a b h => Fin.ext h) hg.inv.keys
    have := nodup_length_le hnd (l' := List.range (M.val + 1)) (by
      intro i hi
      obtain ⟨a, ha, rfl⟩ := List.mem_map.1 hi
      have := (List.max?_eq_some_iff.1 hM).2 a ha
      have : a.val ≤ M.val := this
      simp only [List.mem_range]
      omega)
    rw [List.length_range] at this
    omega
  have hdir := h2.directed
  have := c46_static_graph (g := r) (nl := nl) (el := el) hw hv (by rw [h2.numNodes]; omega)
    (by rw [h2.numEdges]; exact hec)
    (sizedVec_of_encodes h2.out (by rw [rows_length]; omega)
      (by rw [h2.out.edges, List.length_map] at he; exact he))
    (by
      intro e hein
      cases hd : g.directed with
      | false => rw [h2.noIn hd] at hein; cases hein
      | true =>
        obtain ⟨iv, h3, h4⟩ := h2.inn hd
        rw [h3] at hein
        cases hein
        exact sizedVec_of_encodes h4 (by simp [inRows]; omega)
          (by have := hi _ h3; rw [h4.edges, List.length_map] at this; exact this))
    (by
      intro l hl
      rw [h2.labels] at hl
      split at hl
      · cases hl; simp; omega
      · cases hl)
    (by rw [h2.nodeLabels]; exact hnl) (by rw [h2.edgeLabels]; exact hel)
    (by rw [h2.nodeLabels]; exact hg.inv.nlNodup) (by rw [h2.edgeLabels]; exact hg.inv.elNodup)
    (by rw [h2.nodeLabels]; exact cnl) (by rw [h2.edgeLabels]; exact cel) path x (by rw [hdir]; exact hx)
  rw [hdir] at this
  exact ⟨this.1, this.2.1⟩

/-- A label format for the examples: byte strings (as `Vec<u8>`, or `String` without the UTF-8 check). -/
def text : Codec (List Byte) := .vec (.ident 1)

theorem text_round {l : List Byte} (h : l.length < 2 ^ 64) : text.RoundTrips l :=
  Codec.vec_round h fun y _ => Codec.ident_round (by decide) y

theorem text_stable : text.Stable := Codec.vec_stable Codec.ident_stable

/-- A little graph `1 -["e"]-> 0` with a labelled node, as a program builds it. -/
def small (d : Bool) : Res (GraphMap 255 255 (List Byte) (List Byte)) := do
  let g := GraphMap.new d
  let g ← g.apply (.addNode 1 (some [104, 105]))
  g.apply (.addEdge 1 0 (some [101]))

theorem small_reachable (d : Bool) : ∃ g, small d = .ok g ∧ Reachable g := by
  have h0 : Reachable (GraphMap.new d : GraphMap 255 255 (List Byte) (List Byte)) :=
    .start d _ _ List.nodup_nil List.nodup_nil
  have h : ∃ g, small d = .ok g := by cases d <;> exact ⟨_, rfl⟩
  obtain ⟨g, h⟩ := h
  refine ⟨g, h, ?_⟩
  unfold small at h
  obtain ⟨g1, h1, h2⟩ := bind_eq_ok h
  exact .step (.step h0 h1) h2

/-- `n` effects and no files. -/
def blank (n : Nat) : World := ⟨fun _ => none, n⟩

set_option maxRecDepth 4000 in
example : ∃ g, small true = .ok g ∧
    g.nodeCount = 2 ∧ g.hasEdge 1 0 = true ∧
    ((Codec.graphMap 1 1 text text true).bytes g).length < (blank 97).room ∧
    ((blank 97).export (.graphMap 1 1 text text true) g "g").2.import (.graphMap 1 1 text text true) "g" =
      some g := by
  refine ⟨_, rfl, ?_, ?_, ?_, ?_⟩ <;> decide

example : text.RoundTrips [104, 105] := text_round (by decide)

/-! ### C73 -/

omit [DecidableEq NL] [DecidableEq EL] in
/-- **C73.** A file that holds only a beginning of an exported value is refused. -/
theorem c73_truncated {c : Codec X} (hs : c.Stable) {y : X} (hy : c.RoundTrips y) {p : List Byte}
    (hp : p <+: c.bytes y) (hne : p ≠ c.bytes y) {x : World} {path : String} (hx : x.files path = some p) :
    x.import c path = none := by
  unfold World.import
  rw [hx]
  simp [Codec.prefix_fails hs ⟨y, round_nil hy⟩ hp hne]

/-- **C73**: the formats of the library are of this kind, if those of the labels are. -/
theorem c73_formats {nl : Codec NL} {el : Codec EL} (hnl : nl.Stable) (hel : el.Stable) (d : Bool) :
    (Codec.setMap nl).Stable ∧ (Codec.vecMap nl).Stable ∧
    (Codec.graphMap (m := m) (k := k) w v nl el d).Stable ∧
    (Codec.staticGraph (m := m) (k := k) w v nl el d).Stable :=
  ⟨Codec.setMap_stable hnl, Codec.vecMap_stable hnl, Codec.graphMap_stable hnl hel d,
    Codec.staticGraph_stable hnl hel d⟩

/-- **C73** for graphs: a cut-off export of any reachable graph is refused. -/
theorem c73_graph_map {nl : Codec NL} {el : Codec EL} {g : GraphMap m k NL EL} (hg : Reachable g)
    (hw : m + 1 = 256 ^ w) (hv : k + 1 = 256 ^ v) (hn : g.nodeCount < 2 ^ 64) (he : g.edgeCount < 2 ^ 64)
    (hnl : g.nodeLabels.len < 2 ^ 64) (hel : g.edgeLabels.len < 2 ^ 64)
    (cnl : ∀ y ∈ g.nodeLabels.items, nl.RoundTrips y) (cel : ∀ y ∈ g.edgeLabels.items, el.RoundTrips y)
    (snl : nl.Stable) (sel : el.Stable) {n : Nat}
    (hcut : n < ((Codec.graphMap w v nl el g.directed).bytes g).length) {x : World} {path : String}
    (hx : x.files path = some (((Codec.graphMap w v nl el g.directed).bytes g).take n)) :
    x.import (Codec.graphMap (m := m) (k := k) w v nl el g.directed) path = none := by
  refine c73_truncated (Codec.graphMap_stable snl sel g.directed)
    (fun r => graph_map_get hg hw hv hn he hnl hel cnl cel g.directed r) (List.take_prefix n _) ?_ hx
  intro hc
  have := congrArg List.length hc
  rw [List.length_take] at this
  omega

set_option maxRecDepth 4000 in
example : ∃ g, small true = .ok g ∧ ((Codec.graphMap 1 1 text text true).bytes g).length = 96 ∧
    (Codec.graphMap (m := 255) (k := 255) 1 1 text text true).get
      (((Codec.graphMap 1 1 text text true).bytes g).take 95) = none := by
  refine ⟨_, rfl, ?_, ?_⟩ <;> decide

/-! ### C74 -/

omit [DecidableEq NL] [DecidableEq EL] in
/-- **C74.** `export` reports success for anything that fits its buffer, whether the bytes reached the file
or not: the buffer is only flushed when the writer is dropped, where errors are ignored. If the disk was
full, the file cannot be imported. -/
theorem c74_silent_loss {c : Codec X} (hs : c.Stable) {y : X} (hy : c.RoundTrips y)
    (h1 : ∀ p ∈ c.put y, p.length < 8192) (h2 : (c.bytes y).length ≤ 8192) {x : World} (hx : 0 < x.room)
    (hfull : x.room ≤ (c.bytes y).length) (path : String) :
    (x.export c y path).1 = true ∧ (x.export c y path).2.import c path = none := by
  have hok : (x.export c y path).1 = true := by
    unfold World.export World.create
    rw [if_neg (by omega)]
    exact exportTo_small _ _ h1 h2
  refine ⟨hok, ?_⟩
  obtain ⟨ok, e1, -⟩ := World.export_eq c y path x
  rw [e1, if_neg (by omega)]
  refine c73_truncated hs hy (List.take_prefix (x.room - 1) _) ?_
    (by simp only [World.put, if_true])
  intro hc
  have := congrArg List.length hc
  rw [List.length_take] at this
  omega

/-- **C74**: `dump`, which flushes explicitly, reports success exactly if all bytes are in the file. -/
theorem c74_dump_reports (path : String) (bs : List Byte) (x : World) :
    (x.dump path bs).1 = true ↔ bs.length < x.room := by
  rw [World.dump_eq]
  by_cases h : x.room = 0
  · rw [if_pos h]; simp; omega
  · rw [if_neg h]; simp; omega

example : ((blank 9).export (.setMap text) ⟨[[104, 105]]⟩ "labels").1 = true ∧
    ((blank 9).export (.setMap text) ⟨[[104, 105]]⟩ "labels").2.files "labels" =
      some [1, 0, 0, 0, 0, 0, 0, 0] ∧
    ((blank 9).export (.setMap text) ⟨[[104, 105]]⟩ "labels").2.import (.setMap text) "labels" = none := by
  decide

/-! ### C75 -/

/-- **C75.** The file does not say whether the graph is directed: importing it as the other kind succeeds
and keeps every field. -/
theorem c75_direction_not_stored {nl : Codec NL} {el : Codec EL} {g : GraphMap m k NL EL}
    (hg : Reachable g)
    (hw : m + 1 = 256 ^ w) (hv : k + 1 = 256 ^ v) (hn : g.nodeCount < 2 ^ 64) (he : g.edgeCount < 2 ^ 64)
    (hnl : g.nodeLabels.len < 2 ^ 64) (hel : g.edgeLabels.len < 2 ^ 64)
    (cnl : ∀ y ∈ g.nodeLabels.items, nl.RoundTrips y) (cel : ∀ y ∈ g.edgeLabels.items, el.RoundTrips y)
    (path : String) (x : World) (d : Bool)
    (hroom : ((Codec.graphMap w v nl el g.directed).bytes g).length < x.room) :
    (x.export (.graphMap w v nl el g.directed) g path).2.import (.graphMap w v nl el d) path =
      some { g with directed := d } := by
  have h := graph_map_get hg hw hv hn he hnl hel cnl cel d []
  rw [List.append_nil] at h
  have e : (x.export (.graphMap w v nl el g.directed) g path) =
      (x.export (.graphMap w v nl el d) g path) := rfl
  rw [e]
  exact (export_import (c := .graphMap w v nl el d) h path x hroom).2.1

/-- **C75**: a directed graph with an edge but not its reverse, imported as undirected, is a graph no
sequence of calls builds. -/
theorem c75_unreachable {g : GraphMap m k NL EL} {s t : Id m} (h1 : g.hasEdge s t = true)
    (h2 : g.hasEdge t s = false) : ¬ Reachable { g with directed := false } := by
  intro hr
  have h1' : ({ g with directed := false } : GraphMap m k NL EL).hasEdge s t = true := h1
  have h2' : ({ g with directed := false } : GraphMap m k NL EL).hasEdge t s = false := h2
  rw [hasEdge_eq_outE] at h1' h2'
  have := hr.inv.sym rfl s t h1'
  have h3 : (({ g with directed := false } : GraphMap m k NL EL).outE t s).isSome = true := this
  rw [h2'] at h3
  cases h3

example : ∃ g, small true = .ok g ∧ g.hasEdge 1 0 = true ∧ g.hasEdge 0 1 = false := by
  refine ⟨_, rfl, ?_, ?_⟩ <;> decide

end Verif.Props
