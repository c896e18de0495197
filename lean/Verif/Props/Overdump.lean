import Verif.Proof.Overdump
import Verif.Props.Crash

/-! Property theorems about dumps interrupted while writing over other files: C112. -/

namespace Verif.Props

open Verif

variable {m k : Nat} {NL EL : Type} [DecidableEq NL] [DecidableEq EL] {w v : Nat}

/-- **C112.** What loading shows after `dump_mmap` to any prefix, wherever the dump stopped: a function of
what the eight files showed before (`World.dumped`) and the number of effects that took place. -/
theorem c112_exact {nl : Codec NL} {el : Codec EL} {g : StaticGraph m k NL EL}
    (hw : 0 < w) (hv : 0 < v) (hwm : m + 1 = 256 ^ w) (hvk : k + 1 = 256 ^ v)
    (hnl : ∀ y ∈ g.nodeLabels.labels, nl.RoundTrips y) (hel : ∀ y ∈ g.edgeLabels.labels, el.RoundTrips y)
    (hns : nl.Stable) (hes : el.Stable) (hg : g.Mappable) (pre : String) :
    ∀ x : World,
      (MmapGraph.new w v nl el pre (g.dumpMmap w v nl el pre x).2 : Res (MmapGraph m k NL EL)).toOption =
        (g.interrupted w v (32 + labelBytes nl g.nodeLabels + labelBytes el g.edgeLabels) x.room
          (x.dumped w v nl el pre)).load :=
  fun x => Sizes.aux_length nl el g ▸ StaticGraph.load_interrupted hw hv hwm hvk hnl hel hns hes hg pre x

/-- **C112.** Loading any files is `Dumped.load`. -/
theorem c112_load (hw : 0 < w) (hv : 0 < v) (nl : Codec NL) (el : Codec EL) (pre : String) (x : World) :
    (MmapGraph.new w v nl el pre x : Res (MmapGraph m k NL EL)).toOption =
      (x.dumped w v nl el pre : Dumped m k NL EL).load :=
  MmapGraph.new_seen hw hv nl el pre x

theorem toOption_eq {X : Type} {r : Res X} {a : X} : r.toOption = some a ↔ r = .ok a := by
  cases r with
  | error e => exact ⟨fun h => (by cases h), fun h => (by cases h)⟩
  | ok b => exact ⟨fun h => (by cases h; rfl), fun h => (by cases h; rfl)⟩

/-- The graph `h` loads from the files, auxiliary file included. -/
def Holds (p : Dumped m k NL EL) (h : MmapGraph m k NL EL) : Prop :=
  p.load = some h ∧ p.aux ≠ some none

omit [DecidableEq NL] [DecidableEq EL] in
theorem Holds.fields {p : Dumped m k NL EL} {h : MmapGraph m k NL EL} (H : Holds p h) :
    p.outOffsets = some (some h.edges.offsets) ∧ p.outEdges = some (some h.edges.edges) ∧
    p.outLabels = some h.edges.labels ∧ p.ins = some h.inEdges ∧ p.labels = some h.labels ∧
    p.aux = some (some ⟨h.numNodes, h.numEdges, h.nodeLabels, h.edgeLabels⟩) := by
  obtain ⟨hl, ha⟩ := H
  unfold Dumped.load at hl
  simp only [Option.bind_eq_bind, Option.bind_eq_some_iff, Option.join_eq_some_iff] at hl
  obtain ⟨oo, h1, oe, h2, ol, h3, i, h4, ls, h5, a, h6, hl⟩ := hl
  cases a with
  | none => exact absurd h6 ha
  | some a => cases hl; exact ⟨h1, h2, h3, h4, h5, h6⟩

omit [DecidableEq NL] [DecidableEq EL] in
/-- Files that show these parts load as the graph made of them. -/
theorem load_of {p : Dumped m k NL EL} {oo : List Nat} {oe : List (Id m)} {ol : Option (List (Id k))}
    {i : Option (EdgeVec m k)} {ls : Option (List (Id k))} {a : Aux NL EL}
    (h1 : p.outOffsets = some (some oo)) (h2 : p.outEdges = some (some oe)) (h3 : p.outLabels = some ol)
    (h4 : p.ins = some i) (h5 : p.labels = some ls) (h6 : p.aux = some (some a)) :
    p.load = some ⟨⟨oo, oe, ol⟩, i, ls, a.numNodes, a.numEdges, a.nodeLabels, a.edgeLabels⟩ := by
  unfold Dumped.load
  rw [h1, h2, h3, h4, h5, h6]
  rfl

omit [DecidableEq NL] [DecidableEq EL] in
theorem over_zero {X : Type} {n : Nat} {l : List X} {old : Seen (List X)} {R : Nat} (h : R = 0) :
    overArray n R l old = old := if_pos h

omit [DecidableEq NL] [DecidableEq EL] in
theorem overLabels_zero {n : Nat} {l : List (Id k)} {old : Seen (List (Id k))} {R : Nat} (h : R = 0) :
    overLabels n R l old = old := by
  unfold overLabels
  rw [over_zero h, ite_self]

omit [DecidableEq NL] [DecidableEq EL] in
/-- Stopped before the out-edges were complete, nothing else changed. -/
theorem interrupted_early {g : StaticGraph m k NL EL} (p : Dumped m k NL EL) {size R : Nat}
    (hR : R ≤ 1 + g.edgeVec.offsets.length * 8 + (1 + g.edgeVec.edges.length * w)) :
    g.interrupted w v size R p = { p with
      outOffsets := overArray 8 R g.edgeVec.offsets p.outOffsets
      outEdges := overArray w (R - (1 + g.edgeVec.offsets.length * 8)) g.edgeVec.edges p.outEdges } := by
  have h0 : R - g.edgeVec.cost w v = 0 := by unfold EdgeVec.cost; omega
  have h1 : R - (1 + g.edgeVec.offsets.length * 8) - (1 + g.edgeVec.edges.length * w) = 0 := by omega
  unfold StaticGraph.interrupted
  simp only [h0, h1, Nat.zero_sub, overLabels_zero, over_zero, if_true]
  cases p
  cases g.inEdgeVec <;> cases g.labels <;> rfl

/-- **C112.** Interrupted before its first effect, the dump leaves the old graph. -/
theorem c112_untouched {nl : Codec NL} {el : Codec EL} {g : StaticGraph m k NL EL} {h : MmapGraph m k NL EL}
    (hw : 0 < w) (hv : 0 < v) (hwm : m + 1 = 256 ^ w) (hvk : k + 1 = 256 ^ v)
    (hnl : ∀ y ∈ g.nodeLabels.labels, nl.RoundTrips y) (hel : ∀ y ∈ g.edgeLabels.labels, el.RoundTrips y)
    (hns : nl.Stable) (hes : el.Stable) (hg : g.Mappable) (pre : String) {x : World}
    (hx : MmapGraph.new w v nl el pre x = .ok h) (hroom : x.room = 0) :
    MmapGraph.new w v nl el pre (g.dumpMmap w v nl el pre x).2 = .ok h := by
  rw [← toOption_eq] at hx ⊢
  rw [StaticGraph.load_interrupted hw hv hwm hvk hnl hel hns hes hg, interrupted_early _ (by omega), hroom]
  rw [MmapGraph.new_seen hw hv] at hx
  simp only [Nat.zero_sub, over_zero]
  exact hx

/-- **C112.** Interrupted within the offsets: the offsets written so far, everything else from the old
graph. -/
theorem c112_within_offsets {nl : Codec NL} {el : Codec EL} {g : StaticGraph m k NL EL}
    {h : MmapGraph m k NL EL} (hw : 0 < w) (hv : 0 < v) (hwm : m + 1 = 256 ^ w) (hvk : k + 1 = 256 ^ v)
    (hnl : ∀ y ∈ g.nodeLabels.labels, nl.RoundTrips y) (hel : ∀ y ∈ g.edgeLabels.labels, el.RoundTrips y)
    (hns : nl.Stable) (hes : el.Stable) (hg : g.Mappable) (pre : String) {x : World}
    (hx : MmapGraph.new w v nl el pre x = .ok h) (haux : x.files (pre ++ "_aux.bin") ≠ none)
    {n : Nat} (hn : 0 < n) (hlt : n ≤ g.edgeVec.offsets.length * 8) (hroom : x.room = 1 + n) :
    MmapGraph.new w v nl el pre (g.dumpMmap w v nl el pre x).2 =
      .ok { h with edges := { h.edges with offsets := g.edgeVec.offsets.take (n / 8) } } := by
  rw [← toOption_eq] at hx ⊢
  rw [StaticGraph.load_interrupted hw hv hwm hvk hnl hel hns hes hg, interrupted_early _ (by omega), hroom]
  rw [MmapGraph.new_seen hw hv] at hx
  obtain ⟨f1, f2, f3, f4, f5, f6⟩ := Holds.fields (p := x.dumped w v nl el pre) ⟨hx, by
    unfold World.dumped
    rw [if_neg haux]
    cases x.import (Codec.aux nl el) (pre ++ "_aux.bin") <;> exact fun hc => by cases hc⟩
  refine (load_of (ol := h.edges.labels) (i := h.inEdges) (ls := h.labels)
    (a := ⟨h.numNodes, h.numEdges, h.nodeLabels, h.edgeLabels⟩) ?_ ?_ ?_ ?_ ?_ ?_).trans rfl
  rotate_left 2
  · exact f3
  · exact f4
  · exact f5
  · exact f6
  · show overArray _ _ _ _ = _
    unfold overArray
    rw [if_neg (by omega), if_neg (by omega), Nat.add_sub_cancel_left]
  · rw [← f2]
    exact over_zero (by omega)

/-- **C112.** Interrupted within the out-edges: the new offsets, the edges written so far, and everything
else from the old graph. -/
theorem c112_within_edges {nl : Codec NL} {el : Codec EL} {g : StaticGraph m k NL EL}
    {h : MmapGraph m k NL EL} (hw : 0 < w) (hv : 0 < v) (hwm : m + 1 = 256 ^ w) (hvk : k + 1 = 256 ^ v)
    (hnl : ∀ y ∈ g.nodeLabels.labels, nl.RoundTrips y) (hel : ∀ y ∈ g.edgeLabels.labels, el.RoundTrips y)
    (hns : nl.Stable) (hes : el.Stable) (hg : g.Mappable) (pre : String) {x : World}
    (hx : MmapGraph.new w v nl el pre x = .ok h) (haux : x.files (pre ++ "_aux.bin") ≠ none)
    {n : Nat} (hn : 0 < n) (hlt : n ≤ g.edgeVec.edges.length * w)
    (hroom : x.room = 1 + g.edgeVec.offsets.length * 8 + 1 + n) :
    MmapGraph.new w v nl el pre (g.dumpMmap w v nl el pre x).2 =
      .ok { h with edges :=
        ⟨g.edgeVec.offsets, g.edgeVec.edges.take (n / w), h.edges.labels⟩ } := by
  have hol : 0 < g.edgeVec.offsets.length := List.length_pos_iff.2 hg.out.offsets
  rw [← toOption_eq] at hx ⊢
  rw [StaticGraph.load_interrupted hw hv hwm hvk hnl hel hns hes hg, interrupted_early _ (by omega)]
  rw [MmapGraph.new_seen hw hv] at hx
  obtain ⟨f1, f2, f3, f4, f5, f6⟩ := Holds.fields (p := x.dumped w v nl el pre) ⟨hx, by
    unfold World.dumped
    rw [if_neg haux]
    cases x.import (Codec.aux nl el) (pre ++ "_aux.bin") <;> exact fun hc => by cases hc⟩
  refine (load_of (ol := h.edges.labels) (i := h.inEdges) (ls := h.labels)
    (a := ⟨h.numNodes, h.numEdges, h.nodeLabels, h.edgeLabels⟩) ?_ ?_ ?_ ?_ ?_ ?_).trans rfl
  rotate_left 2
  · exact f3
  · exact f4
  · exact f5
  · exact f6
  · show overArray _ _ _ _ = _
    unfold overArray
    rw [if_neg (by omega), if_neg (by omega), List.take_of_length_le (by omega)]
  · show overArray _ _ _ _ = _
    unfold overArray
    rw [if_neg (by omega), if_neg (by omega)]
    congr 4
    omega

omit [DecidableEq NL] [DecidableEq EL] in
theorem over_full {X : Type} {n R : Nat} (hn : 0 < n) {l : List X} (hl : l ≠ []) (old : Seen (List X))
    (hR : 1 + l.length * n ≤ R) : overArray n R l old = some (some l) := by
  have : 0 < l.length * n := Nat.mul_pos (List.length_pos_iff.2 hl) hn
  unfold overArray
  rw [if_neg (by omega), if_neg (by omega), List.take_of_length_le (by
    rw [Nat.le_div_iff_mul_le hn]; omega)]

omit [DecidableEq NL] [DecidableEq EL] in
theorem overLabels_full {R : Nat} (hv : 0 < v) {ev : EdgeVec m k} {old : Option (List (Id k))}
    (hR : ev.getLabels ≠ [] → 1 + ev.getLabels.length * v ≤ R) :
    overLabels v R ev.getLabels (some old) = some (ev.labelsOr old) := by
  unfold overLabels EdgeVec.labelsOr
  by_cases h : ev.getLabels = []
  · rw [if_pos h, if_pos h]
  · rw [if_neg h, if_neg h, over_full hv h _ (hR h)]

omit [DecidableEq NL] [DecidableEq EL] in
/-- Once the arrays are complete, only the auxiliary file matters. -/
theorem interrupted_arrays (hw : 0 < w) (hv : 0 < v) {g : StaticGraph m k NL EL} (hg : g.Mappable)
    {p : Dumped m k NL EL} {h : MmapGraph m k NL EL} (H : Holds p h)
    (horphan : h.inEdges = none → p.inLabels = some none) {size R : Nat} (hR : arraysCost w v g ≤ R) :
    (g.interrupted w v size R p).load =
      if R = arraysCost w v g then some { g.over h with
        numNodes := h.numNodes, numEdges := h.numEdges, nodeLabels := h.nodeLabels, edgeLabels := h.edgeLabels }
      else if R - arraysCost w v g - 1 < size then none
      else some (g.over h) := by
  obtain ⟨f1, f2, f3, f4, f5, f6⟩ := H.fields
  unfold arraysCost at hR ⊢
  have hRo : g.edgeVec.cost w v ≤ R := by omega
  have full : ∀ (ev : EdgeVec m k) (R' : Nat) (o' : Seen (List Nat)) (e' : Seen (List (Id m)))
      (l' : Option (List (Id k))), ev.Mappable → ev.cost w v ≤ R' →
      overArray 8 R' ev.offsets o' = some (some ev.offsets) ∧
      overArray w (R' - (1 + ev.offsets.length * 8)) ev.edges e' = some (some ev.edges) ∧
      overLabels v (R' - (1 + ev.offsets.length * 8) - (1 + ev.edges.length * w)) ev.getLabels (some l') =
        some (ev.labelsOr l') := by
    intro ev R' o' e' l' he hc
    unfold EdgeVec.cost at hc
    refine ⟨over_full (by decide) he.offsets _ (by omega), over_full hw he.edges _ (by omega),
      overLabels_full hv (fun hl => ?_)⟩
    rw [if_neg hl] at hc
    omega
  obtain ⟨o1, o2, o3⟩ := full g.edgeVec R p.outOffsets p.outEdges h.edges.labels hg.out hRo
  have hin : (g.interrupted w v size R p).ins = some (g.over h).inEdges := by
    unfold StaticGraph.interrupted Dumped.ins StaticGraph.over
    cases hi : g.inEdgeVec with
    | none => simp only; exact f4
    | some e =>
      rw [hi] at hR
      simp only [Option.map_some, Option.getD_some] at hR
      have hl : p.inLabels = some (h.inEdges.bind (·.labels)) := by
        unfold Dumped.ins at f4
        split at f4
        · cases f4
        · have hq : none = h.inEdges := Option.some.inj f4
          rw [horphan hq.symm, ← hq]; rfl
        · simp only [Option.bind_eq_bind, Option.bind_eq_some_iff] at f4
          obtain ⟨ie, -, il, h2, f4⟩ := f4
          rw [h2, ← Option.some.inj f4]; rfl
      obtain ⟨i1, i2, i3⟩ := full e (R - g.edgeVec.cost w v) p.inOffsets p.inEdges (h.inEdges.bind (·.labels))
        (hg.ins e hi) (by omega)
      simp only [i1, i2, hl, i3]
      rfl
  have hls : (g.interrupted w v size R p).labels = some (g.over h).labels := by
    unfold StaticGraph.interrupted StaticGraph.over
    cases hl : g.labels with
    | none => simp only; exact f5
    | some ls =>
      rw [hl] at hR
      simp only [Option.map_some, Option.getD_some] at hR
      simp only
      exact over_full hv (fun hc => hg.labels (by rw [hl, hc])) _ (by omega)
  have hsub : R - g.edgeVec.cost w v - (g.inEdgeVec.map (·.cost w v)).getD 0 -
      (g.labels.map fun ls => 1 + ls.length * v).getD 0 = R - (g.edgeVec.cost w v +
        ((g.inEdgeVec.map (·.cost w v)).getD 0 + (g.labels.map fun ls => 1 + ls.length * v).getD 0)) := by
    omega
  have ho3 : (g.interrupted w v size R p).outLabels = some (g.over h).edges.labels := by
    show overLabels _ _ _ _ = _
    rw [f3]; exact o3
  have haux : (g.interrupted w v size R p).aux = if R - (g.edgeVec.cost w v +
        ((g.inEdgeVec.map (·.cost w v)).getD 0 + (g.labels.map fun ls => 1 + ls.length * v).getD 0)) = 0
      then p.aux else if R - (g.edgeVec.cost w v + ((g.inEdgeVec.map (·.cost w v)).getD 0 +
        (g.labels.map fun ls => 1 + ls.length * v).getD 0)) - 1 < size then none
      else some (some ⟨g.numNodes, g.numEdges, g.nodeLabels, g.edgeLabels⟩) := by
    rw [← hsub]; rfl
  by_cases h0 : R = g.edgeVec.cost w v +
      ((g.inEdgeVec.map (·.cost w v)).getD 0 + (g.labels.map fun ls => 1 + ls.length * v).getD 0)
  · rw [if_pos h0]
    rw [if_pos (by omega), f6] at haux
    rw [load_of o1 o2 ho3 hin hls haux]
    rfl
  · rw [if_neg h0]
    rw [if_neg (by omega)] at haux
    split at haux
    · rename_i hc
      rw [if_pos hc]
      unfold Dumped.load
      rw [haux]
      simp only [Option.bind_eq_bind, Option.bind_none, Option.bind_fun_none]
    · rename_i hc
      rw [if_neg hc, load_of o1 o2 ho3 hin hls haux]
      rfl

/-- **C112.** With all arrays written: stopped before the auxiliary file, the new arrays load with the
counts and label names of the old graph; stopped within it, neither graph loads; else the new graph, with
its holes filled from the old one (C109). -/
theorem c112_arrays_done {nl : Codec NL} {el : Codec EL} {g : StaticGraph m k NL EL}
    (hw : 0 < w) (hv : 0 < v) (hwm : m + 1 = 256 ^ w) (hvk : k + 1 = 256 ^ v)
    (hnl : ∀ y ∈ g.nodeLabels.labels, nl.RoundTrips y) (hel : ∀ y ∈ g.edgeLabels.labels, el.RoundTrips y)
    (hns : nl.Stable) (hes : el.Stable) (hg : g.Mappable) (pre : String) :
    ∀ (x : World) (h : MmapGraph m k NL EL), MmapGraph.new w v nl el pre x = .ok h →
      x.files (pre ++ "_aux.bin") ≠ none →
      (h.inEdges = none → x.files (pre ++ "_IN.labels") = none) → arraysCost w v g ≤ x.room →
      (MmapGraph.new w v nl el pre (g.dumpMmap w v nl el pre x).2).toOption =
      if x.room = arraysCost w v g then some { g.over h with
        numNodes := h.numNodes, numEdges := h.numEdges, nodeLabels := h.nodeLabels, edgeLabels := h.edgeLabels }
      else if x.room - arraysCost w v g - 1 < 32 + labelBytes nl g.nodeLabels + labelBytes el g.edgeLabels then none
      else some (g.over h) := by
  intro x h hx haux horphan hR
  rw [← Sizes.aux_length]
  rw [← toOption_eq, MmapGraph.new_seen hw hv] at hx
  rw [StaticGraph.load_interrupted hw hv hwm hvk hnl hel hns hes hg]
  refine interrupted_arrays hw hv hg ⟨hx, ?_⟩ (fun hi => ?_) hR
  · unfold World.dumped
    rw [if_neg haux]
    cases x.import (Codec.aux nl el) (pre ++ "_aux.bin") <;> exact fun hc => by cases hc
  · show Option.map _ (World.numbers _ _ _) = _
    rw [World.numbers_absent.2 (horphan hi)]
    rfl

/-- A path of three nodes, both ways, whose names the little graph does not know. -/
def path3 : StaticGraph 255 255 (List Byte) (List Byte) :=
  ⟨true, 3, 4, ⟨[0, 1, 3, 4], [1, 0, 2, 1], some [0, 0, 1, 1]⟩, some ⟨[0, 1, 3, 4], [1, 0, 2, 1], some [0, 0, 1, 1]⟩,
    some [0, 1, 255], ⟨[[65], [66]]⟩, ⟨[[67], [68]]⟩⟩

/-- The disk with a complete dump of the path and room for `R` more effects. -/
def overPath (R : Nat) : World := ⟨(path3.dumpMmap 1 1 text text "g" (blank 500)).2.files, R⟩

set_option maxRecDepth 8000 in
/-- The hypotheses of C112 are met by the little graph dumped over the path. Stopped after 59 effects, before
the auxiliary file, what loads is neither graph: it has a node 2, as the path has, whose neighbours cannot be
asked for, and node 1 is called `B`. After 60 effects nothing loads; a
complete dump loads as the little graph with the labels of the path's in-edges. -/
example : ∃ r, smallStatic true = .ok r ∧ r.Mappable ∧ arraysCost 1 1 r = 59 ∧
    MmapGraph.new 1 1 text text "g" (overPath 59) = .ok path3.asMmap ∧
    (overPath 59).files "g_aux.bin" ≠ none ∧
    (∃ h, MmapGraph.new 1 1 text text "g" (r.dumpMmap 1 1 text text "g" (overPath 59)).2 = .ok h ∧
      h ≠ path3.asMmap ∧ h ≠ r.asMmap ∧ h.hasNode 2 = true ∧ h.neighbors 2 = .error .explicit ∧
      h.nodeLabels = path3.nodeLabels) ∧
    (MmapGraph.new 1 1 text text "g" (r.dumpMmap 1 1 text text "g" (overPath 60)).2 :
      Res (MmapGraph 255 255 (List Byte) (List Byte))).toOption = none ∧
    MmapGraph.new 1 1 text text "g" (r.dumpMmap 1 1 text text "g" (overPath 500)).2 =
      .ok (r.over path3.asMmap) := by
  refine ⟨_, rfl, ⟨⟨?_, ?_, ?_⟩, ?_, ?_, ?_, ?_, ?_, ?_⟩, ?_, ?_, ?_, ⟨_, rfl, ?_, ?_, ?_, ?_, ?_⟩, ?_, ?_⟩
  · decide
  · decide
  · decide
  · intro e he; cases he; exact ⟨by decide, by decide, by decide⟩
  · decide
  · decide
  · decide
  · decide
  · decide
  · decide
  · rfl
  · decide
  · decide
  · decide
  · decide
  · decide
  · decide
  · rfl
  · rfl

end Verif.Props
