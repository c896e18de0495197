import Verif.Props.Reimport
import Verif.Props.Mmap
import Verif.Props.Ldbc
import Verif.Props.DensityFiles
import Verif.Props.Programs

/-! Property theorems about the programs `static_to_mmap` (C104), `static_to_csv` (C105) and
`ldbc_to_graphmap` (C106). -/

namespace Verif.Props

open GraphMap Spec Programs

variable {m k wd v : Nat}

/-! ### C104 -/

/-- Reading with another type of direction gives the same graph but for the direction. -/
theorem import_direction {NL EL : Type} [DecidableEq NL] [DecidableEq EL] (nl : Codec NL) (el : Codec EL)
    (d d' : Bool) (path : String) (w : World) :
    w.import (Codec.staticGraph (m := m) (k := k) wd v nl el d) path =
      (w.import (Codec.staticGraph (m := m) (k := k) wd v nl el d') path).map
        (fun g => { g with directed := d }) := by
  unfold World.import
  cases w.files path with
  | none => rfl
  | some bs =>
    simp only [Codec.staticGraph, Option.bind_eq_bind, Option.bind_some, Option.pure_def]
    cases Codec.usize.get bs with
    | none => rfl
    | some a =>
    cases h2 : Codec.usize.get a.2 with
    | none => simp [h2]
    | some b =>
    cases h3 : (Codec.edgeVec (m := m) (k := k) wd v).get b.2 with
    | none => simp [h2, h3]
    | some c =>
    cases h4 : (Codec.opt (Codec.edgeVec (m := m) (k := k) wd v)).get c.2 with
    | none => simp [h2, h3, h4]
    | some e =>
    cases h5 : (Codec.opt (Codec.vec (Codec.ident (m := k) v))).get e.2 with
    | none => simp [h2, h3, h4, h5]
    | some f =>
    cases h6 : (Codec.setMap nl).get f.2 with
    | none => simp [h2, h3, h4, h5, h6]
    | some i =>
    cases h7 : (Codec.setMap el).get i.2 with
    | none => simp [h2, h3, h4, h5, h6, h7]
    | some j => simp [h2, h3, h4, h5, h6, h7]

theorem dump_direction (g : Plain m k) (d : Bool) (pre : String) (w : World) :
    ({ g with directed := d } : Plain m k).dumpMmap wd v (.ident wd) (.ident wd) pre w =
      g.dumpMmap wd v (.ident wd) (.ident wd) pre w := rfl

/-- **C104**: the flag `--directed` of `static_to_mmap` makes no difference: neither to whether the program
panics nor to any byte on the disk. -/
theorem c104_flag (d d' : Bool) (graph output : String) (w : World) :
    staticToMmap m k wd v d graph output w = staticToMmap m k wd v d' graph output w := by
  unfold staticToMmap load
  rw [import_direction _ _ d d']
  cases w.import (Codec.staticGraph (m := m) (k := k) wd v (.ident (m := m) wd) (.ident (m := m) wd) d')
      graph with
  | none => rfl
  | some g => rfl

/-- An unreadable file: a panic, and the disk stays as it is. -/
theorem c104_unreadable {d : Bool} {graph output : String} {w : World}
    (h : w.import (Codec.staticGraph (m := m) (k := k) wd v (.ident (m := m) wd) (.ident (m := m) wd) d)
      graph = none) :
    staticToMmap m k wd v d graph output w = (.error .explicit, w) := by
  unfold staticToMmap load
  rw [h]
  rfl

/-- A readable one: the outcome is that of `dump_mmap`. -/
theorem c104_readable {d : Bool} {graph output : String} {w : World} {g : Plain m k}
    (h : w.import (.staticGraph wd v (.ident wd) (.ident wd) d) graph = some g) :
    ((staticToMmap m k wd v d graph output w).1 = .ok () ↔
      (g.dumpMmap wd v (.ident wd) (.ident wd) output w).1 = true) ∧
    (staticToMmap m k wd v d graph output w).2 = (g.dumpMmap wd v (.ident wd) (.ident wd) output w).2 := by
  unfold staticToMmap load
  rw [h]
  refine ⟨?_, rfl⟩
  show (if _ then _ else _) = _ ↔ _
  cases (g.dumpMmap wd v (.ident wd) (.ident wd) output w).1 <;> simp

/-- **C104**, from one end to the other: freeze a graph with at least one edge, export it, run
`static_to_mmap` with or without the flag on a disk with enough room and nothing under the output prefix.
The program ends well, and the files load as a graph that answers as the frozen graph does. -/
theorem c104_pipeline {g : GraphMap m k (Id m) (Id m)} (hg : Reachable g)
    (hw : 0 < wd) (hv : 0 < v) (hwm : m + 1 = 256 ^ wd) (hvk : k + 1 = 256 ^ v)
    {M : Id m} (hM : g.nodeIndices.max? = some M) (hlt : M.val < m) (hs : M.val + 2 < 2 ^ 64) {s t : Id m}
    (hedge : g.hasEdge s t = true) (hn : g.nodeCount < 2 ^ 64) (hec : g.edgeCount < 2 ^ 64)
    (hnl : g.nodeLabels.len < 2 ^ 64) (hel : g.edgeLabels.len < 2 ^ 64)
    {graph output : String} (hpath : ∀ suf, graph ≠ output ++ suf) :
    ∃ r, g.intoStatic = .ok r ∧ (r.edgeVec.edges.length < 2 ^ 64 →
      (∀ e, r.inEdgeVec = some e → e.edges.length < 2 ^ 64) →
      ∀ (w : World) (d : Bool), (∀ suf, w.files (output ++ suf) = none) →
        1 + ((Codec.staticGraph wd v (.ident wd) (.ident wd) g.directed).bytes r).length +
          r.dumpRoom wd v (.ident wd) (.ident wd) ≤ w.room →
        ∃ w', staticToMmap m k wd v d graph output
            (w.export (.staticGraph wd v (.ident wd) (.ident wd) g.directed) r graph).2 = (.ok (), w') ∧
          ∃ h, MmapGraph.new wd v (.ident wd) (.ident wd) output w' = .ok h ∧
            h.AnswersLike r (M.val + 1)) := by
  have hround : ∀ y : Id m, (Codec.ident (m := m) wd).RoundTrips y := fun y => Codec.ident_round hwm y
  obtain ⟨r, h1, h2, h3⟩ := c46_frozen (w := wd) (v := v) (nl := .ident wd) (el := .ident wd) hg hwm hvk hM
    hlt hs hec hnl hel (fun y _ => hround y) (fun y _ => hround y) graph
  obtain ⟨r', h4, h5⟩ := c47_round_trip (w := wd) (v := v) (nl := .ident wd) (el := .ident wd) hg hw hv hwm
    hvk hM hlt hedge hn hec hnl hel (fun y _ => hround y) (fun y _ => hround y) Codec.ident_stable
    Codec.ident_stable output
  rw [h1] at h4
  cases h4
  refine ⟨r, h1, fun he hi => ?_⟩
  have h6 := h5 he hi
  intro w d hno hroom
  obtain ⟨h7, h8⟩ := h3 he hi w (by omega)
  obtain ⟨ok, e1, -⟩ := World.export_eq (Codec.staticGraph wd v (.ident wd) (.ident wd) g.directed) r graph w
  rw [if_neg (by omega)] at e1
  generalize hx : (w.export (.staticGraph wd v (.ident wd) (.ident wd) g.directed) r graph).2 = x at h8 ⊢
  have hxr : r.dumpRoom wd v (.ident wd) (.ident wd) ≤ x.room := by
    rw [← hx, e1]
    show _ ≤ w.room - 1 - _
    omega
  have hxf : ∀ suf, x.files (output ++ suf) = none := by
    intro suf
    rw [← hx, export_others _ _ _ _ (Ne.symm (hpath suf))]
    exact hno suf
  obtain ⟨a1, h, a2, a3⟩ := h6 x hxf hxr
  obtain ⟨b1, b2⟩ := c104_readable (output := output) h8
  rw [c104_flag d g.directed]
  refine ⟨_, Prod.ext (b1.2 a1) rfl, h, ?_, a3⟩
  show MmapGraph.new wd v _ _ output (staticToMmap m k wd v g.directed graph output x).2 = _
  rw [b2]
  exact a2

/-- The graph `0 - 1` with labels that are numbers. -/
def numbers : Res (GraphMap 255 255 (Id 255) (Id 255)) := do
  let g := GraphMap.new false
  let g ← g.apply (.addNode 0 (some 7))
  g.apply (.addEdge 0 1 (some 9))

example : ∃ g, numbers = .ok g ∧ Reachable g ∧ g.nodeIndices.max? = some 1 ∧ g.hasEdge 0 1 = true ∧
    g.nodeCount < 2 ^ 64 ∧ g.edgeCount < 2 ^ 64 ∧ g.nodeLabels.len < 2 ^ 64 ∧ g.edgeLabels.len < 2 ^ 64 ∧
    ∃ r, g.intoStatic = .ok r ∧ r.edgeVec.edges.length < 2 ^ 64 ∧ r.inEdgeVec = none := by
  have h0 : Reachable (GraphMap.new false : GraphMap 255 255 (Id 255) (Id 255)) :=
    .start false _ _ List.nodup_nil List.nodup_nil
  obtain ⟨g, h⟩ : ∃ g, numbers = .ok g := ⟨_, rfl⟩
  have hr : Reachable g := by
    unfold numbers at h
    obtain ⟨g1, h1, h2⟩ := bind_eq_ok h
    exact .step (.step h0 h1) h2
  refine ⟨g, h, hr, ?_⟩
  cases h
  exact ⟨by decide, by decide, by decide, by decide, by decide, by decide, _, rfl, by decide, rfl⟩

example : ∀ suf : String, "in" ≠ "out" ++ suf := by
  intro suf h
  have := congrArg String.toList h
  rw [String.toList_append] at this
  cases this

/-! ### C105 -/

/-- **C105**: an unreadable file makes `static_to_csv` panic before it writes. -/
theorem c105_unreadable {inFile np ep : String} {w : World}
    (h : w.import (Codec.graphMap (m := m) (k := k) wd v Programs.text Programs.text false) inFile = none) :
    staticToCsv m k wd v inFile np ep w = (.error .explicit, w) := by
  unfold staticToCsv
  rw [h]
  rfl

/-- **C105**: from a file with a graph that shows some abstract graph without empty labels (as every graph
the library builds does) the two CSV files are written so that reading them gives a graph that shows the
same; no other file changes. -/
theorem c105_round_trip {g : GraphMap m k (List Byte) (List Byte)} {A : AGraph (Id m) (List Byte) (List Byte)}
    (S : Shows g.view A) (hn : ∀ n, A.node n ≠ some (some [])) (he : ∀ s t, A.edge s t ≠ some (some []))
    {inFile np ep : String} (hne : np ≠ ep) {s : Option String} (hs : IsComma s) (fl : Bool) :
    ∀ w : World, w.import (.graphMap wd v Programs.text Programs.text false) inFile = some g →
      csvRoom (.decimal m) .text .text A g.nodeIndices g.edgeIndices ≤ w.room → ∃ (w' : World) (g' : GraphMap m k (List Byte) (List Byte)),
        staticToCsv m k wd v inFile np ep w = (.ok (), w') ∧
        (∀ p, p ≠ np → p ≠ ep → w'.files p = w.files p) ∧
        Csv.readFrom (.decimal m) .text .text (some np) ep s true fl w' (new false) = .ok (true, g') ∧
        Reachable g' ∧ Shows g'.view A := by
  have h := c88_write_read S (xf := .decimal m) (nf := .text) (ef := .text)
    (fun n _ => decimal_round m n)
    (fun n x h => ⟨fun hx => hn n (by rw [h]; exact congrArg _ (congrArg _ hx)), rfl⟩)
    (fun s t x h => ⟨fun hx => he s t (by rw [h]; exact congrArg _ (congrArg _ hx)), rfl⟩) hne hs fl
  intro w hw hroom
  obtain ⟨w', g', a1, a2, -, a3, a4, -, a5⟩ := h w hroom
  have hd : g.view.directed = false := by
    obtain ⟨bs, r, -, h2⟩ := import_get hw
    simp only [Codec.graphMap, Option.bind_eq_bind, Option.bind_eq_some_iff, Option.pure_def,
      Option.some.injEq, Prod.mk.injEq] at h2
    obtain ⟨_, _, _, _, _, _, _, _, _, _, rfl, _⟩ := h2
    rfl
  rw [hd] at a3
  refine ⟨w', g', ?_, a2, a3, a4, a5⟩
  unfold staticToCsv
  rw [hw]
  show (match Csv.writeTo _ _ _ _ _ _ _ with | .error p => _ | .ok r => _) = _
  rw [a1]
  rfl

/-- The edges that do not go from a larger to a smaller id, without orientation. -/
def halved (A : AGraph (Id m) (List Byte) (List Byte)) : AGraph (Id m) (List Byte) (List Byte) where
  node := A.node
  edge s t := if s ≤ t then A.edge s t else A.edge t s

theorem halved_indices (g : GraphMap m k (List Byte) (List Byte)) (hd : g.directed = true) :
    ({ g with directed := false } : GraphMap m k (List Byte) (List Byte)).edgeIndices =
      g.edgeIndices.filter (fun e => decide (e.1 ≤ e.2)) := by
  unfold edgeIndices
  simp only [hd, if_true, Bool.false_eq_true, if_false]
  induction AL.values g.nodeMap with
  | nil => rfl
  | cons nd l ih =>
    rw [List.flatMap_cons, List.flatMap_cons, List.filter_append, ih]
    congr 1
    unfold NodeMap.nonLessNeighborIds NodeMap.neighborIds NodeMap.nonLess AL.keys
    induction nd.neighbors with
    | nil => rfl
    | cons p ps ih =>
      simp only [List.map_cons, List.filter_cons]
      by_cases h : nd.id ≤ p.1
      · simp only [h, decide_true, if_true, List.map_cons, ih]
      · simp only [h, decide_false, Bool.false_eq_true, if_false, ih]

/-- What the program sees of a directed graph's file is, for writing, like a graph that shows the half. -/
theorem halved_shows {g : GraphMap m k (List Byte) (List Byte)} {A : AGraph (Id m) (List Byte) (List Byte)}
    (S : Shows g.view A) (hd : g.directed = true) :
    ∃ vw : GView m k (List Byte) (List Byte), Shows vw (halved A) ∧ vw.directed = false ∧
      vw.nodeIndices = g.nodeIndices ∧ vw.edgeIndices = g.edgeIndices.filter (fun e => decide (e.1 ≤ e.2)) ∧
      ∀ sep xf nf ef, Csv.write sep xf nf ef vw = Csv.write sep xf nf ef
        ({ g with directed := false } : GraphMap m k (List Byte) (List Byte)).view := by
  have hv : g.view.directed = true := hd
  have hhalf : ∀ s t, s ≤ t → (halved A).edge s t = A.edge s t := fun s t h => by simp [halved, h]
  have hsym : ∀ s t, (halved A).edge s t = (halved A).edge t s := by
    intro s t
    simp only [halved]
    rcases lt_trichotomy s t with h | rfl | h
    · rw [if_pos h.le, if_neg (not_le.2 h)]
    · rfl
    · rw [if_pos h.le, if_neg (not_le.2 h)]
  refine ⟨{ ({ g with directed := false } : GraphMap m k (List Byte) (List Byte)).view with
      hasEdge := fun s t => .ok ((halved A).edge s t).isSome
      neighbors := fun n => .ok ((List.finRange (m + 1)).filter (fun t => ((halved A).edge n t).isSome))
      degree := fun n => .ok ((List.finRange (m + 1)).filter (fun t => ((halved A).edge n t).isSome)).length },
    ?_, rfl, rfl, halved_indices g hd, fun _ _ _ _ => rfl⟩
  refine ⟨?_, fun _ => hsym, S.hasNode, S.nodesNodup, S.memNodes, S.nodeCount, fun _ _ _ => rfl, ?_, ?_, ?_,
    S.nodeLabel, ?_, ?_, S.maxSeen⟩
  · intro s t h
    simp only [halved] at h ⊢
    split at h
    · exact S.ends s t h
    · exact (S.ends t s h).symm
  · show (GraphMap.edgeIndices
      ({ g with directed := false } : GraphMap m k (List Byte) (List Byte))).Nodup
    rw [halved_indices g hd]
    exact S.edgesNodup.filter _
  · intro s t
    show (s, t) ∈ GraphMap.edgeIndices
      ({ g with directed := false } : GraphMap m k (List Byte) (List Byte)) ↔ _
    rw [halved_indices g hd, List.mem_filter]
    have := S.memEdges s t
    rw [hv] at this
    show (s, t) ∈ g.edgeIndices ∧ _ ↔ _
    rw [show ((s, t) ∈ g.edgeIndices ↔ _) from this]
    simp only [AGraph.Listed, true_or, and_true, decide_eq_true_eq]
    show _ ↔ _ ∧ (false = true ∨ _)
    constructor
    · rintro ⟨h1, h2⟩
      exact ⟨by rw [hhalf s t h2]; exact h1, .inr h2⟩
    · rintro ⟨h1, h2 | h2⟩
      · cases h2
      · exact ⟨by rw [← hhalf s t h2]; exact h1, h2⟩
  · exact (GraphMap.edgeIndices_eq
      ({ g with directed := false } : GraphMap m k (List Byte) (List Byte))).symm
  · intro s t l h hst
    rcases hst with hst | hst
    · cases hst
    · rw [hhalf s t hst] at h
      exact S.edgeLabel s t l h (.inl hv)
  · intro n _
    refine ⟨_, rfl, ?_, ?_, rfl⟩
    · exact (List.pairwise_lt_finRange _).filter _
    · intro t
      simp

theorem shows_hasEdge {g : GraphMap m k (List Byte) (List Byte)} {A : AGraph (Id m) (List Byte) (List Byte)}
    (S : Shows g.view A) (s t : Id m) : g.hasEdge s t = (A.edge s t).isSome := by
  cases hs : (A.node s).isSome with
  | true => exact Except.ok.inj (S.hasEdge s t hs)
  | false =>
    have h0 : g.hasNode s = false := by rw [show g.hasNode s = _ from S.hasNode s, hs]
    have h1 : (A.edge s t).isSome = false := by
      by_contra hcon
      rw [Bool.not_eq_false] at hcon
      rw [(S.ends s t hcon).1] at hs
      cases hs
    rw [h1]
    unfold hasEdge
    cases hgn : g.getNode s with
    | none => rfl
    | some nd =>
      have : g.hasNode s = true := by
        unfold hasNode
        unfold getNode at hgn
        rw [hgn]
        rfl
      rw [h0] at this
      cases this

/-- **C105**: the file does not tell whether the graph was directed. Of a directed graph, which this program
takes for undirected, exactly the edges that do not go from a larger to a smaller id arrive in the CSV
files; the program ends well. -/
theorem c105_directed_halved {g : GraphMap m k (List Byte) (List Byte)} (hg : Reachable g)
    (hd : g.directed = true) (hwm : m + 1 = 256 ^ wd) (hvk : k + 1 = 256 ^ v)
    (hc : g.nodeCount < 2 ^ 64) (hec : g.edgeCount < 2 ^ 64)
    (hnl : g.nodeLabels.len < 2 ^ 64) (hel : g.edgeLabels.len < 2 ^ 64)
    (cnl : ∀ y ∈ g.nodeLabels.items, y.length < 2 ^ 64) (cel : ∀ y ∈ g.edgeLabels.items, y.length < 2 ^ 64)
    {A : AGraph (Id m) (List Byte) (List Byte)} (S : Shows g.view A)
    (hn : ∀ n, A.node n ≠ some (some [])) (he : ∀ s t, A.edge s t ≠ some (some []))
    {inFile np ep : String} (hne : np ≠ ep) {s : Option String} (hs : IsComma s) (fl : Bool) :
    ∀ w : World,
      w.files inFile = some ((Codec.graphMap wd v Programs.text Programs.text true).bytes g) →
      csvRoom (.decimal m) .text .text A g.nodeIndices (g.edgeIndices.filter (fun e => e.1 ≤ e.2)) ≤ w.room → ∃ (w' : World) (g' : GraphMap m k (List Byte) (List Byte)),
        staticToCsv m k wd v inFile np ep w = (.ok (), w') ∧
        (∀ p, p ≠ np → p ≠ ep → w'.files p = w.files p) ∧
        Csv.readFrom (.decimal m) .text .text (some np) ep s true fl w' (new false) = .ok (true, g') ∧
        (∀ n, g'.hasNode n = g.hasNode n) ∧
        (∀ s t, g'.hasEdge s t = g.hasEdge (min s t) (max s t)) ∧ Shows g'.view (halved A) := by
  obtain ⟨vw, h1, h2, i1, i2, h3⟩ := halved_shows S hd
  have h := c88_write_read h1 (xf := .decimal m) (nf := .text) (ef := .text)
    (fun n _ => decimal_round m n)
    (fun n x h => ⟨fun hx => hn n (by rw [show A.node n = _ from h]; exact congrArg _ (congrArg _ hx)), rfl⟩)
    (fun s t x h => ⟨fun hx => by
      simp only [halved] at h
      split at h
      · exact he s t (by rw [h]; exact congrArg _ (congrArg _ hx))
      · exact he t s (by rw [h]; exact congrArg _ (congrArg _ hx)), rfl⟩) hne hs fl
  intro w hw hroom
  have hsize : csvRoom (.decimal m) .text .text (halved A) vw.nodeIndices vw.edgeIndices =
      csvRoom (.decimal m) .text .text A g.nodeIndices (g.edgeIndices.filter (fun e => e.1 ≤ e.2)) := by
    rw [i1, i2]
    unfold csvRoom nodeFileBytes edgeFileBytes
    congr 2
    refine List.map_congr_left fun e he => ?_
    have := (List.mem_filter.1 he).2
    simp only [decide_eq_true_eq] at this
    simp only [halved, if_pos this]
  obtain ⟨w', g', a1, a2, -, a3, a4, a5, a6⟩ := h w (hsize.trans_le hroom)
  rw [h2] at a3
  have hi : w.import (Codec.graphMap (m := m) (k := k) wd v Programs.text Programs.text false) inFile =
      some { g with directed := false } := by
    have := graph_map_get (nl := Programs.text) (el := Programs.text) hg hwm hvk hc hec hnl hel
      (fun y hy => text_round (cnl y hy)) (fun y hy => text_round (cel y hy)) false []
    rw [List.append_nil, hd] at this
    unfold World.import
    rw [hw]
    simp only [Option.bind_eq_bind, Option.bind_some, this, Option.pure_def]
  refine ⟨w', g', ?_, a2, a3, ?_, ?_, a6⟩
  · unfold staticToCsv
    rw [hi]
    show (match Csv.writeTo _ _ _ _ _ _ _ with | .error p => _ | .ok r => _) = _
    have : Csv.writeTo (.decimal m) .text .text
        ({ g with directed := false } : GraphMap m k (List Byte) (List Byte)).view np ep w =
        Csv.writeTo (.decimal m) .text .text vw np ep w := by
      unfold Csv.writeTo
      rw [h3]
    rw [this, a1]
    rfl
  · intro n
    rw [show g'.hasNode n = _ from a6.hasNode n, show g.hasNode n = _ from S.hasNode n]
    rfl
  · intro s t
    have q := shows_hasEdge S
    have q' : g'.hasEdge s t = ((halved A).edge s t).isSome := shows_hasEdge a6 s t
    rw [q', q]
    simp only [halved]
    rcases le_total s t with h | h
    · rw [if_pos h, min_eq_left h, max_eq_right h]
    · rcases eq_or_lt_of_le h with rfl | h
      · simp
      · rw [if_neg (not_le.2 h), min_eq_right h.le, max_eq_left h.le]

/-- Such a graph: the only edge goes from 1 to 0 and is lost. -/
theorem c105_lost : ∃ (g : GraphMap 255 255 (List Byte) (List Byte)) (w : World), small true = .ok g ∧
    Reachable g ∧ g.hasEdge 1 0 = true ∧
    w.files "f" = some ((Codec.graphMap 1 1 Programs.text Programs.text true).bytes g) ∧
    (staticToCsv 255 255 1 1 "f" "n" "e" w).1 = .ok () ∧
    (staticToCsv 255 255 1 1 "f" "n" "e" w).2.files "n" = some (lines ["nodeId:ID,:LABEL", "1,hi", "0,"]) ∧
    (staticToCsv 255 255 1 1 "f" "n" "e" w).2.files "e" = some [] := by
  obtain ⟨g, h, hr⟩ := small_reachable true
  refine ⟨g, ((blank 200).export (.graphMap 1 1 Programs.text Programs.text true) g "f").2, h, hr, ?_⟩
  cases h
  decide

/-! ### C106 -/

theorem ldbc_reachable {digit : Char → Bool} {utf8 : List Byte → Bool} {d : Bool}
    {dir : Option (List Ldbc.File)} (hm : 0 < m) {g : GraphMap m k (List Byte) (List Byte)}
    (h : Ldbc.readFromPath digit utf8 d dir = .ok g) : Reachable g ∧ g.directed = d := by
  rw [(c78_read_from_path digit utf8 d dir g).1] at h
  cases dir with
  | none => cases h
  | some files =>
    obtain ⟨h1, h2⟩ := c53_needed hm h
    obtain ⟨st, ops, h3, h4⟩ := Ldbc.events_ok hm (events digit .init files)
      (Ldbc.linv_start (m := m) (k := k) d ((events digit .init files).flatMap Event.nodeLabels)
        ((events digit .init files).flatMap Event.edgeLabels))
      (fun e he x hx => List.mem_flatMap.2 ⟨e, he, hx⟩) (fun e he x hx => List.mem_flatMap.2 ⟨e, he, hx⟩) h2
    rw [Ldbc.fromPath_good h1, h3, bind_ok] at h
    cases h
    have hr := exec_run h4.run
    exact ⟨hr.reachable List.nodup_nil List.nodup_nil, (run_shape List.nodup_nil List.nodup_nil hr).1⟩

/-- **C106**: when `ldbc_to_graphmap` gets as far as exporting: the directory is there, all files it reads
are readable, and there is an id for every entity. -/
theorem c106_reads_iff {digit : Char → Bool} {utf8 : List Byte → Bool} (hm : 0 < m)
    (dir : Option (List Ldbc.File)) :
    (∃ g : GraphMap m k (List Byte) (List Byte), Ldbc.readFromPath digit utf8 false dir = .ok g) ↔
      ∃ files, dir = some files ∧ AllReadable digit utf8 .init files ∧
        (firsts (events digit .init files)).length ≤ m + 1 := by
  constructor
  · rintro ⟨g, h⟩
    rw [(c78_read_from_path digit utf8 false dir g).1] at h
    cases dir with
    | none => cases h
    | some files => exact ⟨files, rfl, c53_needed hm h⟩
  · rintro ⟨files, rfl, h1, h2⟩
    obtain ⟨st, ops, h3, h4⟩ := Ldbc.events_ok hm (events digit .init files)
      (Ldbc.linv_start (m := m) (k := k) false ((events digit .init files).flatMap Event.nodeLabels)
        ((events digit .init files).flatMap Event.edgeLabels))
      (fun e he x hx => List.mem_flatMap.2 ⟨e, he, hx⟩) (fun e he x hx => List.mem_flatMap.2 ⟨e, he, hx⟩) h2
    refine ⟨st.graph, (c78_read_from_path digit utf8 false _ _).1.2 ?_⟩
    rw [Ldbc.fromPath_good h1, h3, bind_ok]
    rfl

/-- Otherwise it panics and the disk stays as it is. -/
theorem c106_unreadable {digit : Char → Bool} {utf8 : List Byte → Bool} {outDir dirName : String}
    {dir : Option (List Ldbc.File)} {w : World} {p : Panic}
    (h : (Ldbc.readFromPath digit utf8 false dir : Res (GraphMap m k (List Byte) (List Byte))) = .error p) :
    ldbcToGraphMap m k wd v digit utf8 outDir dirName dir w = (.error p, w) := by
  unfold ldbcToGraphMap
  rw [h]

/-- **C106**: the exported file holds the graph that was read, under the name made of its counts; no other
file changes. -/
theorem c106_written {digit : Char → Bool} {utf8 : List Byte → Bool} {outDir dirName : String}
    {dir : Option (List Ldbc.File)} {w : World} (hm : 0 < m) (hwm : m + 1 = 256 ^ wd) (hvk : k + 1 = 256 ^ v)
    {g : GraphMap m k (List Byte) (List Byte)} (h : Ldbc.readFromPath digit utf8 false dir = .ok g)
    (hn : g.nodeCount < 2 ^ 64) (he : g.edgeCount < 2 ^ 64)
    (hnl : g.nodeLabels.len < 2 ^ 64) (hel : g.edgeLabels.len < 2 ^ 64)
    (cnl : ∀ y ∈ g.nodeLabels.items, y.length < 2 ^ 64) (cel : ∀ y ∈ g.edgeLabels.items, y.length < 2 ^ 64)
    (hroom : ((Codec.graphMap wd v Programs.text Programs.text false).bytes g).length < w.room) :
    ∃ w', ldbcToGraphMap m k wd v digit utf8 outDir dirName dir w = (.ok (), w') ∧
      w'.import (.graphMap wd v Programs.text Programs.text false)
        (ldbcPath outDir dirName g.nodeCount g.edgeCount) = some g ∧
      (∀ p, p ≠ ldbcPath outDir dirName g.nodeCount g.edgeCount → w'.files p = w.files p) ∧
      w'.room = w.room - 1 - ((Codec.graphMap wd v Programs.text Programs.text false).bytes g).length := by
  obtain ⟨hg, hd⟩ := ldbc_reachable hm h
  obtain ⟨a1, a2, a3⟩ := c46_graph_map (nl := Programs.text) (el := Programs.text) hg hwm hvk hn he hnl hel
    (fun y hy => text_round (cnl y hy)) (fun y hy => text_round (cel y hy))
    (ldbcPath outDir dirName g.nodeCount g.edgeCount) w (by rw [hd]; exact hroom)
  rw [hd] at a1 a2 a3
  refine ⟨(w.export (.graphMap wd v Programs.text Programs.text false) g
    (ldbcPath outDir dirName g.nodeCount g.edgeCount)).2, ?_, a2, a3, ?_⟩
  · unfold ldbcToGraphMap
    rw [h]
    simp only [exported, a1, if_true]
  · obtain ⟨ok, e1, -⟩ := World.export_eq (Codec.graphMap wd v Programs.text Programs.text false) g
      (ldbcPath outDir dirName g.nodeCount g.edgeCount) w
    rw [e1, if_neg (by omega)]
    rfl

/-- The name tells the counts. -/
theorem c106_name {outDir dirName : String} {n n' e e' : Nat}
    (h : ldbcPath outDir dirName n e = ldbcPath outDir dirName n' e') : n = n' ∧ e = e' := by
  have h := congrArg String.toList h
  unfold ldbcPath at h
  simp only [String.toList_append, toString_toList, List.append_assoc] at h
  have h := List.append_cancel_left (List.append_cancel_left (List.append_cancel_left (List.append_cancel_left h)))
  have e0 : "_".toList = ['_'] := rfl
  simp only [e0, List.cons_append, List.nil_append] at h
  have hn := toDigits_inj (underscore_cut (by simp) (by simp) h)
  subst hn
  have h := List.append_cancel_left h
  injection h with _ h
  exact ⟨rfl, toDigits_inj (List.append_cancel_right h)⟩

/-- **C106**, from one end to the other: LDBC data converted by `ldbc_to_graphmap` and then by
`static_to_csv` gives CSV files that read back as the graph which the records describe (C53), when no label
is empty. -/
theorem c106_pipeline {digit : Char → Bool} {utf8 : List Byte → Bool} {outDir dirName : String}
    {files : List Ldbc.File} (hm : 0 < m) (hwm : m + 1 = 256 ^ wd) (hvk : k + 1 = 256 ^ v)
    (hr : AllReadable digit utf8 .init files)
    (hlen : (firsts (events digit .init files)).length ≤ m + 1)
    {nl el : List (List Byte)} (hnl : nl.length ≤ k + 1) (hel : el.length ≤ k + 1)
    (hn : ∀ e ∈ events digit .init files, ∀ x ∈ e.nodeLabels, x ∈ nl)
    (he : ∀ e ∈ events digit .init files, ∀ x ∈ e.edgeLabels, x ∈ el)
    (hl1 : ∀ key, (described false (events digit .init files)).node key ≠ some (some []))
    (hl2 : ∀ a b, (described false (events digit .init files)).edge a b ≠ some (some []))
    {np ep : String} (hne : np ≠ ep) {s : Option String} (hs : IsComma s) (fl : Bool) :
    ∃ g : GraphMap m k (List Byte) (List Byte), Ldbc.readFromPath digit utf8 false (some files) = .ok g ∧
      (g.nodeCount < 2 ^ 64 → g.edgeCount < 2 ^ 64 → g.nodeLabels.len < 2 ^ 64 → g.edgeLabels.len < 2 ^ 64 →
      (∀ y ∈ g.nodeLabels.items, y.length < 2 ^ 64) → (∀ y ∈ g.edgeLabels.items, y.length < 2 ^ 64) →
      ∀ w : World, 1 + ((Codec.graphMap wd v Programs.text Programs.text false).bytes g).length +
          csvRoom (.decimal m) .text .text (numbered (firsts (events digit .init files))
            (described false (events digit .init files))) g.nodeIndices g.edgeIndices ≤ w.room →
        ∃ (w1 w2 : World) (g' : GraphMap m k (List Byte) (List Byte)),
        ldbcToGraphMap m k wd v digit utf8 outDir dirName (some files) w = (.ok (), w1) ∧
        staticToCsv m k wd v (ldbcPath outDir dirName g.nodeCount g.edgeCount) np ep w1 = (.ok (), w2) ∧
        Csv.readFrom (.decimal m) .text .text (some np) ep s true fl w2 (new false) = .ok (true, g') ∧
        Shows g'.view (numbered (firsts (events digit .init files))
          (described false (events digit .init files)))) := by
  obtain ⟨g, b1, b2, b3, S, -⟩ := c53_loaded (m := m) (k := k) false hm hr hlen hnl hel hn he
  have b1 := (c78_read_from_path digit utf8 false _ g).1.2 b1
  refine ⟨g, b1, fun hc1 hc2 ht1 ht2 ht3 ht4 => ?_⟩
  have h := c105_round_trip (wd := wd) (v := v) S
    (fun i hc => by
      simp only [numbered, Option.bind_eq_some_iff] at hc
      obtain ⟨a, -, hc⟩ := hc
      exact hl1 a hc)
    (fun i j hc => by
      simp only [numbered, Option.bind_eq_some_iff] at hc
      obtain ⟨a, -, b, -, hc⟩ := hc
      exact hl2 a b hc)
    (inFile := ldbcPath outDir dirName g.nodeCount g.edgeCount) hne hs fl
  intro w hw
  obtain ⟨w1, a1, a2, -, a4⟩ := c106_written (outDir := outDir) (dirName := dirName) (w := w) hm hwm hvk b1
    hc1 hc2 ht1 ht2 ht3 ht4 (by omega)
  obtain ⟨w2, g', d1, -, d3, -, d5⟩ := h w1 a2 (by omega)
  exact ⟨w1, w2, g', a1, d1, d3, d5⟩

set_option maxRecDepth 100000 in
example : ∃ g : GraphMap 255 255 (List Byte) (List Byte),
    Ldbc.readFromPath isDigit (fun _ => true) false (some ldbcDir) = .ok g ∧ g.nodeCount = 5 ∧
    g.edgeCount < 2 ^ 64 ∧ g.nodeLabels.len < 2 ^ 64 ∧ g.edgeLabels.len < 2 ^ 64 ∧
    (∀ y ∈ g.nodeLabels.items, y ≠ [] ∧ y.length < 2 ^ 64) ∧
    (∀ y ∈ g.edgeLabels.items, y ≠ [] ∧ y.length < 2 ^ 64) := by
  refine ⟨_, rfl, ?_⟩
  decide

end Verif.Props
