import Verif.Spec.Mmap
import Verif.Proof.Mmap
import Verif.Proof.Static

/-! Loading what was dumped. -/

namespace Verif

open Spec

variable {m k : Nat} {NL EL : Type}

namespace EdgeVec

theorem stored_skipEmpty (ev : EdgeVec m k) : ∀ fuel it,
    EdgeIter.skipEmpty ev.stored fuel it = EdgeIter.skipEmpty ev fuel it
  | 0, _ => rfl
  | fuel + 1, it => by
    unfold EdgeIter.skipEmpty
    simp only [stored_skipEmpty ev fuel]
    rfl

theorem stored_next (ev : EdgeVec m k) (d : Bool) : ∀ fuel it,
    EdgeIter.next ev.stored d fuel it = EdgeIter.next ev d fuel it
  | 0, _ => rfl
  | fuel + 1, it => by
    unfold EdgeIter.next
    simp only [stored_skipEmpty, stored_next ev d fuel]
    rfl

theorem stored_collect (ev : EdgeVec m k) (d : Bool) : ∀ fuel it,
    EdgeIter.collect ev.stored d fuel it = EdgeIter.collect ev d fuel it
  | 0, _ => rfl
  | fuel + 1, it => by
    unfold EdgeIter.collect
    simp only [stored_next, stored_collect ev d fuel]

theorem stored_edgeIndices (ev : EdgeVec m k) (d : Bool) : ev.stored.edgeIndices d = ev.edgeIndices d :=
  stored_collect ev d _ _

theorem stored_labelled (ev : EdgeVec m k) (d : Bool) : ev.stored.labelled d = ev.labelled d := by
  unfold labelled
  rw [stored_getLabels]
  have : ∀ F (ls : List (Id k)) it, EdgeIter.zip ev.stored d F ls it = EdgeIter.zip ev d F ls it := by
    intro F ls
    induction ls with
    | nil => intro it; unfold EdgeIter.zip; rw [stored_next]
    | cons x xs ih => intro it; unfold EdgeIter.zip; simp only [stored_next, ih]
  rw [this]
  rfl

theorem stored_neighbors (ev : EdgeVec m k) (s : Id m) : ev.stored.neighbors s = ev.neighbors s := rfl

theorem stored_findEdgeLabelId (ev : EdgeVec m k) (s t : Id m) :
    ev.stored.findEdgeLabelId s t = ev.findEdgeLabelId s t := by
  unfold findEdgeLabelId
  rw [stored_getLabels]; rfl

end EdgeVec

namespace StaticGraph

/-- The graph that loading gives. -/
def stored (g : StaticGraph m k NL EL) : MmapGraph m k NL EL :=
  ⟨g.edgeVec.stored, g.inEdgeVec.map EdgeVec.stored, g.labels, g.numNodes, g.numEdges, g.nodeLabels,
    g.edgeLabels⟩

theorem stored_hasEdge (g : StaticGraph m k NL EL) (s t : Id m) :
    g.stored.hasEdge s t = g.asMmap.hasEdge s t := rfl

theorem stored_getEdge (g : StaticGraph m k NL EL) (s t : Id m) :
    g.stored.getEdge s t = g.asMmap.getEdge s t := by
  unfold MmapGraph.getEdge
  have h : g.stored.edges.findEdgeLabelId s t = g.asMmap.edges.findEdgeLabelId s t :=
    EdgeVec.stored_findEdgeLabelId g.edgeVec s t
  rw [stored_hasEdge, h]

theorem stored_isDirected (g : StaticGraph m k NL EL) : g.stored.isDirected = g.asMmap.isDirected := by
  simp [MmapGraph.isDirected, stored, asMmap]

theorem stored_edgeIndices (g : StaticGraph m k NL EL) : g.stored.edgeIndices = g.asMmap.edgeIndices := by
  unfold MmapGraph.edgeIndices
  rw [stored_isDirected]
  exact EdgeVec.stored_edgeIndices _ _

theorem stored_edgeList (g : StaticGraph m k NL EL) : g.stored.edgeList = g.asMmap.edgeList := by
  unfold MmapGraph.edgeList
  rw [stored_edgeIndices]
  have : g.stored.edges.getLabels = g.asMmap.edges.getLabels := EdgeVec.stored_getLabels g.edgeVec
  have h2 : g.stored.edges.labelled = g.asMmap.edges.labelled := by
    funext d; exact EdgeVec.stored_labelled g.edgeVec d
  rw [this, h2, stored_isDirected]

theorem stored_inNeighbors (g : StaticGraph m k NL EL) (x : Id m) :
    g.stored.inNeighbors x = g.asMmap.inNeighbors x := by
  unfold MmapGraph.inNeighbors stored asMmap
  cases g.inEdgeVec with
  | none => rfl
  | some e => rfl

theorem stored_view (g : StaticGraph m k NL EL) : g.stored.view = g.asMmap.view := by
  unfold MmapGraph.view
  rw [stored_edgeIndices, stored_edgeList]
  have h : g.stored.getEdge = g.asMmap.getEdge := by
    funext s t; exact stored_getEdge g s t
  rw [h, stored_isDirected]
  rfl

/-! ### The in-memory and the mapped graph -/

variable {g : StaticGraph m k NL EL} {rows : List (List (Id m × Id k))} {lab : Bool}

theorem mmap_hasEdge (h : Encodes g.edgeVec rows lab) (ht : ∀ r ∈ rows, ∀ p ∈ r, p.1.val < rows.length)
    (s t : Id m) : g.asMmap.hasEdge s t =
      if s.val < rows.length then g.hasEdge s t else .error .explicit := by
  unfold MmapGraph.hasEdge MmapGraph.neighbors asMmap
  simp only
  by_cases hs : s.val < rows.length
  · rw [if_pos hs, EdgeVec.neighbors_eq h s hs, bind_ok]
    obtain ⟨b, h1, h2⟩ := EdgeVec.hasEdge_spec h s t
    unfold hasEdge
    rw [h1]
    rcases binarySearch_spec (rows[s.val].map Prod.fst) t (EdgeVec.row_sorted h _ hs) with
      ⟨i, e1, e2⟩ | ⟨i, e1, e2, -⟩
    · rw [e1, bind_ok]
      have hm : t ∈ rows[s.val].map Prod.fst := List.mem_of_getElem? e2
      obtain ⟨p, hp, rfl⟩ := List.mem_map.1 hm
      have : b = true := h2.2 ⟨ht _ (List.getElem_mem hs) p hp, hs, hm⟩
      rw [this]; rfl
    · rw [e1, bind_ok]
      have : b = false := by
        rw [← Bool.not_eq_true, h2]
        rintro ⟨-, hs', hm⟩
        exact e2 hm
      rw [this]; rfl
  · rw [if_neg hs, EdgeVec.neighbors_out h s hs]; rfl

theorem mmap_getEdge (h : Encodes g.edgeVec rows lab) (ht : ∀ r ∈ rows, ∀ p ∈ r, p.1.val < rows.length)
    (s t : Id m) : g.asMmap.getEdge s t =
      if s.val < rows.length then g.getEdge s t else .error .explicit := by
  unfold MmapGraph.getEdge
  rw [mmap_hasEdge h ht]
  by_cases hs : s.val < rows.length
  · rw [if_pos hs, if_pos hs]; rfl
  · rw [if_neg hs, if_neg hs]; rfl

theorem mmap_degree (h : Encodes g.edgeVec rows lab) (n : Id m) : g.asMmap.degree n = g.degree n := by
  unfold MmapGraph.degree MmapGraph.neighbors degree asMmap
  simp only
  by_cases hn : n.val < rows.length
  · rw [EdgeVec.neighbors_eq h n hn, EdgeVec.degree_eq h n hn, bind_ok]; simp [pure_ok]
  · rw [EdgeVec.neighbors_out h n hn, EdgeVec.degree_out h n hn]; rfl

theorem asMmap_answers (h : Encodes g.edgeVec rows lab)
    (ht : ∀ r ∈ rows, ∀ p ∈ r, p.1.val < rows.length) (hd : g.inEdgeVec.isSome = g.directed) :
    g.asMmap.AnswersLike g rows.length := by
  refine ⟨?_, ?_⟩
  · have hdir : g.asMmap.isDirected = g.directed := hd
    have hes : g.asMmap.edgeIndices = g.edgeIndices := by
      unfold MmapGraph.edgeIndices edgeIndices
      rw [hdir]; rfl
    have hel : g.asMmap.edgeList = g.edges := by
      unfold MmapGraph.edgeList edges
      rw [hes, hdir]; rfl
    have hhe : g.asMmap.hasEdge = fun s t => if s.val < rows.length then g.hasEdge s t else .error .explicit := by
      funext s t; exact mmap_hasEdge h ht s t
    have hge : g.asMmap.getEdge = fun s t => if s.val < rows.length then g.getEdge s t else .error .explicit := by
      funext s t; exact mmap_getEdge h ht s t
    have hdg : g.asMmap.degree = g.degree := by
      funext n; exact mmap_degree h n
    unfold MmapGraph.view view
    rw [hes, hel, hhe, hge, hdg, hdir]
    cases g.edgeIndices with
    | error e => rfl
    | ok es =>
      cases g.edges with
      | error e => rfl
      | ok eds =>
        simp only [bind_ok, pure_ok, Except.map]
        congr 2
        funext s t
        by_cases hs : s.val < rows.length
        · rw [if_pos hs, if_pos hs]
        · rw [if_neg hs, if_neg hs]; rfl
  · intro hdt x
    have : ∃ e, g.inEdgeVec = some e := Option.isSome_iff_exists.1 (by rw [hd, hdt])
    obtain ⟨e, he⟩ := this
    have h1 : g.asMmap.inNeighbors x = g.inNeighbors x := by
      unfold MmapGraph.inNeighbors inNeighbors asMmap
      rw [he]; rfl
    refine ⟨h1, ?_⟩
    unfold MmapGraph.inDegree inDegree
    rw [h1]

theorem stored_answers (h : Encodes g.edgeVec rows lab)
    (ht : ∀ r ∈ rows, ∀ p ∈ r, p.1.val < rows.length) (hd : g.inEdgeVec.isSome = g.directed) :
    g.stored.AnswersLike g rows.length := by
  have h1 := asMmap_answers h ht hd
  refine ⟨?_, ?_⟩
  · rw [stored_view]; exact h1.view
  · intro hdt x
    unfold MmapGraph.inDegree
    rw [stored_inNeighbors]
    exact h1.ins hdt x

/-! ### Loading -/

variable [DecidableEq NL] [DecidableEq EL]

/-- Loading when the arrays are as dumped: the rest depends on the auxiliary file. -/
theorem load_arrays {w v : Nat} (hw : 0 < w) (hv : 0 < v) (hwm : m + 1 = 256 ^ w) (hvk : k + 1 = 256 ^ v)
    (nl : Codec NL) (el : Codec EL) (hg : g.Mappable) {pre : String} {old : String → Option (List Byte)}
    (hold : g.NoLeftovers pre old) {x : World}
    (hx : ∀ p, p ≠ pre ++ "_aux.bin" → x.files p = World.look (g.files w v pre) old p) :
    MmapGraph.new w v nl el pre x = (do
      let aux ← MmapGraph.loadAux nl el g.edgeVec.stored g.inEdgeVec.isSome (pre ++ "_aux.bin") x
      pure ⟨g.edgeVec.stored, g.inEdgeVec.map EdgeVec.stored, g.labels, aux.numNodes, aux.numEdges,
        aux.nodeLabels, aux.edgeLabels⟩) := by
  obtain ⟨f1, f2, f3, f4, f5, f6, f7, -⟩ := look_files w v g pre old
  have path : ∀ a b : String, pre ++ a ++ b = pre ++ (a ++ b) := fun a b => String.append_assoc
  rw [← hx _ (by rw [path, Ne, prefix_inj]; decide)] at f1 f2 f3 f4 f5 f6
  rw [← hx _ (by rw [Ne, prefix_inj]; decide)] at f7
  unfold MmapGraph.new
  rw [EdgeVec.openMmap_eq hw hv hwm hvk hg.out.offsets hg.out.edges hg.out.small f1 f2 (by
    rw [f3]
    by_cases hl : g.edgeVec.getLabels = []
    · rw [if_pos hl, if_pos hl, hold.out hl]
    · rw [if_neg hl, if_neg hl]), bind_ok]
  have hins : (if (x.files (pre ++ "_IN" ++ ".offsets")).isSome then do
      let e ← EdgeVec.openMmap w v (pre ++ "_IN") x
      pure (some e)
    else pure none) = (.ok (g.inEdgeVec.map EdgeVec.stored) : Res (Option (EdgeVec m k))) := by
    cases hi : g.inEdgeVec with
    | none =>
      rw [f4, hi, hold.ins hi]; rfl
    | some e =>
      rw [hi] at f4 f5 f6
      simp only [Option.map_some, Option.some_or, Option.bind_some] at f4 f5 f6
      have he := hg.ins e hi
      rw [f4]
      simp only [Option.isSome_some, if_true]
      rw [EdgeVec.openMmap_eq hw hv hwm hvk he.offsets he.edges he.small f4 f5 (by
        rw [f6]
        by_cases hl : e.getLabels = []
        · rw [if_pos hl, hold.inLabels e hi hl]; rfl
        · rw [if_neg hl]; rfl), bind_ok]
      rfl
  rw [hins, bind_ok]
  have hlab : ∃ o, mapIfPresent v (pre ++ ".labels") x = .ok o ∧ o.map TypedMap.ids = g.labels := by
    unfold mapIfPresent
    cases hl : g.labels with
    | none =>
      rw [f7, hl, hold.labels hl]
      exact ⟨none, rfl, rfl⟩
    | some ls =>
      have hne : ls ≠ [] := fun hc => hg.labels (by rw [hl, hc])
      rw [hl] at f7
      simp only [Option.map_some, Option.some_or] at f7
      rw [f7]
      simp only [Option.isSome_some, if_true]
      rw [TypedMap.new_eq hv (by simpa using hne) f7, bind_ok]
      exact ⟨_, rfl, by simp only [Option.map_some, List.length_map, TypedMap.ids_full hvk]⟩
  obtain ⟨o, h1, h2⟩ := hlab
  rw [h1, bind_ok, h2]
  simp only [Option.isSome_map]

theorem auxBytes_round {nl : Codec NL} {el : Codec EL} (hnl : ∀ x ∈ g.nodeLabels.labels, nl.RoundTrips x)
    (hel : ∀ x ∈ g.edgeLabels.labels, el.RoundTrips x)
    (hg : g.Mappable) : (Codec.aux nl el).RoundTrips ⟨g.numNodes, g.numEdges, g.nodeLabels, g.edgeLabels⟩ :=
  Codec.aux_round hnl hel hg.numNodes hg.numEdges hg.nodeLabels.2 hg.nodeLabels.1 hg.edgeLabels.2
    hg.edgeLabels.1

/-- What `dump_mmap` leaves behind, wherever it stops: either the auxiliary file was not reached, or all
arrays are written and the auxiliary file holds a beginning of what it should. -/
theorem dump_outcome (w v : Nat) (nl : Codec NL) (el : Codec EL) (g : StaticGraph m k NL EL) (pre : String)
    (x : World) :
    ((g.dumpMmap w v nl el pre x).1 = false ∧
      (g.dumpMmap w v nl el pre x).2.files (pre ++ "_aux.bin") = x.files (pre ++ "_aux.bin") ∧
      (g.dumpMmap w v nl el pre x).2.room = 0) ∨
    ((∀ p, p ≠ pre ++ "_aux.bin" → (g.dumpMmap w v nl el pre x).2.files p =
        World.look (g.files w v pre) x.files p) ∧
      ∃ n, (g.dumpMmap w v nl el pre x).2.files (pre ++ "_aux.bin") =
        some (((Codec.aux nl el).bytes ⟨g.numNodes, g.numEdges, g.nodeLabels, g.edgeLabels⟩).take n) ∧
        (0 < (g.dumpMmap w v nl el pre x).2.room → (g.dumpMmap w v nl el pre x).1 = true ∧
          ((Codec.aux nl el).bytes ⟨g.numNodes, g.numEdges, g.nodeLabels, g.edgeLabels⟩).length ≤ n)) := by
  rw [dumpMmap_eq]
  have hd := did_dumpArrays w v g pre x
  unfold World.andThen
  have hauxk : (pre ++ "_aux.bin") ∉ AL.keys (g.files w v pre) := by
    intro hk
    have h8 := (look_files w v g pre (fun _ => none)).2.2.2.2.2.2.2
    have : AL.get (g.files w v pre) (pre ++ "_aux.bin") = none := by
      simpa [World.look] using h8
    rw [AL.get_eq_none_iff] at this
    exact this hk
  by_cases h1 : (g.dumpArrays w v pre x).1 = true
  · rw [if_pos h1]
    obtain ⟨ok, e1, e2⟩ := World.export_eq (Codec.aux nl el)
      ⟨g.numNodes, g.numEdges, g.nodeLabels, g.edgeLabels⟩ (pre ++ "_aux.bin") (g.dumpArrays w v pre x).2
    rw [e1]
    by_cases hr : (g.dumpArrays w v pre x).2.room = 0
    · left
      rw [if_pos hr]
      refine ⟨rfl, ?_, hr⟩
      exact hd.frame _ hauxk
    · right
      rw [if_neg hr]
      refine ⟨?_, (g.dumpArrays w v pre x).2.room - 1, ?_, ?_⟩
      · intro p hp
        simp only [World.put]
        rw [if_neg hp, hd.done h1]
      · simp only [World.put, if_true]
      · intro ht
        simp only [World.put] at ht
        have : ((Codec.aux nl el).bytes ⟨g.numNodes, g.numEdges, g.nodeLabels, g.edgeLabels⟩).length ≤
          (g.dumpArrays w v pre x).2.room - 1 := by omega
        exact ⟨e2 this, this⟩
  · left
    rw [if_neg h1]
    refine ⟨by simpa using h1, hd.frame _ hauxk, ?_⟩
    by_contra hr
    exact h1 (hd.room (by omega))

/-- Loading after a dump that reached the auxiliary file. -/
theorem load_after {w v : Nat} (hw : 0 < w) (hv : 0 < v) (hwm : m + 1 = 256 ^ w) (hvk : k + 1 = 256 ^ v)
    {nl : Codec NL} {el : Codec EL} (hnl : ∀ x ∈ g.nodeLabels.labels, nl.RoundTrips x)
    (hel : ∀ x ∈ g.edgeLabels.labels, el.RoundTrips x)
    (hns : nl.Stable) (hes : el.Stable) (hg : g.Mappable) {pre : String}
    {old : String → Option (List Byte)} (hold : g.NoLeftovers pre old) {x : World}
    (hx : ∀ p, p ≠ pre ++ "_aux.bin" → x.files p = World.look (g.files w v pre) old p) {n : Nat}
    (ha : x.files (pre ++ "_aux.bin") =
      some (((Codec.aux nl el).bytes ⟨g.numNodes, g.numEdges, g.nodeLabels, g.edgeLabels⟩).take n)) :
    MmapGraph.new w v nl el pre x =
      if ((Codec.aux nl el).bytes ⟨g.numNodes, g.numEdges, g.nodeLabels, g.edgeLabels⟩).length ≤ n
      then .ok g.stored else .error .unwrapNone := by
  rw [load_arrays hw hv hwm hvk nl el hg hold hx]
  have hrt := auxBytes_round hnl hel hg (nl := nl) (el := el)
  unfold MmapGraph.loadAux World.import
  rw [ha]
  simp only [Option.isSome_some, if_true, Option.bind_eq_bind, Option.bind_some]
  by_cases hn : ((Codec.aux nl el).bytes ⟨g.numNodes, g.numEdges, g.nodeLabels, g.edgeLabels⟩).length ≤ n
  · rw [if_pos hn, List.take_of_length_le hn]
    have := hrt []
    rw [List.append_nil] at this
    rw [this]
    rfl
  · rw [if_neg hn]
    have := Codec.prefix_fails (Codec.aux_stable hns hes)
      (x := ⟨g.numNodes, g.numEdges, g.nodeLabels, g.edgeLabels⟩)
      ⟨_, by have := hrt []; rw [List.append_nil] at this; exact this⟩ (List.take_prefix n _) (by
        intro hc
        have := congrArg List.length hc
        rw [List.length_take] at this
        omega)
    rw [this]
    rfl

end StaticGraph

end Verif
