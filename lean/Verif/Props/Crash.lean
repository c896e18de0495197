import Verif.Proof.Crash
import Verif.Proof.Sizes
import Verif.Props.Leftovers

/-! Property theorems about interrupted dumps: C110. -/

namespace Verif.Props

open Verif

variable {m k : Nat} {NL EL : Type} [DecidableEq NL] [DecidableEq EL] {w v : Nat}

/-- The effects of dumping the arrays of a graph. -/
def arraysCost (w v : Nat) (g : StaticGraph m k NL EL) : Nat :=
  g.edgeVec.cost w v + ((g.inEdgeVec.map (·.cost w v)).getD 0 +
    (g.labels.map fun ls => 1 + ls.length * v).getD 0)

/-- **C110.** What loading shows after `dump_mmap` to a prefix without files, wherever the dump stopped:
`StaticGraph.cut`, as a function of the number of effects that took place. -/
theorem c110_exact {nl : Codec NL} {el : Codec EL} {g : StaticGraph m k NL EL}
    (hw : 0 < w) (hv : 0 < v) (hwm : m + 1 = 256 ^ w) (hvk : k + 1 = 256 ^ v)
    (hnl : ∀ y ∈ g.nodeLabels.labels, nl.RoundTrips y) (hel : ∀ y ∈ g.edgeLabels.labels, el.RoundTrips y)
    (hns : nl.Stable) (hes : el.Stable) (hg : g.Mappable) (pre : String) :
    ∀ x : World, (∀ suf, x.files (pre ++ suf) = none) →
      (MmapGraph.new w v nl el pre (g.dumpMmap w v nl el pre x).2).toOption =
        g.cut w v (32 + labelBytes nl g.nodeLabels + labelBytes el g.edgeLabels) x.room :=
  fun _ hx => Sizes.aux_length nl el g ▸ StaticGraph.load_cut hw hv hwm hvk hnl hel hns hes hg hx

omit [DecidableEq NL] [DecidableEq EL] in
theorem cut_full (hw : 0 < w) (hv : 0 < v) {ev : EdgeVec m k} (he : ev.Mappable) (hl : ev.labels ≠ some [])
    {R : Nat} (hR : ev.cost w v ≤ R) : ev.cut w v R = some (some ev) := by
  have h0 : 0 < ev.edges.length * w := Nat.mul_pos (List.length_pos_iff.2 he.edges) hw
  unfold EdgeVec.cost at hR
  unfold EdgeVec.cut
  rw [if_neg (by omega), if_neg (by omega)]
  have he : ev.edges.take ((R - (1 + ev.offsets.length * 8) - 1) / w) = ev.edges := by
    apply List.take_of_length_le
    rw [Nat.le_div_iff_mul_le hw]
    omega
  rw [he]
  by_cases hlab : ev.getLabels = []
  · rw [if_pos hlab]
    have : ev.labels = none := by
      unfold EdgeVec.getLabels at hlab
      cases h : ev.labels with
      | none => rfl
      | some ls => rw [h] at hlab; exact absurd (by rw [h]; exact congrArg some hlab) hl
    show some (some (EdgeVec.mk _ _ none)) = _
    rw [← this]
  · rw [if_neg hlab] at hR ⊢
    have hlen : 0 < ev.getLabels.length * v := Nat.mul_pos (List.length_pos_iff.2 hlab) hv
    unfold cutArray
    rw [if_neg (by omega), if_neg (by omega), List.take_of_length_le (by
      rw [Nat.le_div_iff_mul_le hv]; omega)]
    have : ev.labels = some ev.getLabels := by
      unfold EdgeVec.getLabels at hlab ⊢
      cases h : ev.labels with
      | none => rw [h] at hlab; exact absurd rfl hlab
      | some ls => rfl
    show some (some (EdgeVec.mk _ _ (some ev.getLabels))) = _
    rw [← this]

/-- With the arrays complete, only the auxiliary file matters. -/
theorem cut_arrays (hw : 0 < w) (hv : 0 < v) {g : StaticGraph m k NL EL} (hg : g.Mappable)
    (hlab : g.edgeVec.labels ≠ some []) (hilab : ∀ e, g.inEdgeVec = some e → e.labels ≠ some [])
    {aux R : Nat} (hR : arraysCost w v g ≤ R) : g.cut w v aux R =
      if R = arraysCost w v g then some ⟨g.edgeVec, g.inEdgeVec, g.labels, g.edgeVec.offsets.length - 1,
        if g.inEdgeVec.isSome then g.edgeVec.edges.length else g.edgeVec.edges.length / 2, SetMap.empty,
        SetMap.empty⟩
      else if R - arraysCost w v g - 1 < aux then none
      else some g.asMmap := by
  unfold arraysCost at hR ⊢
  unfold StaticGraph.cut
  rw [cut_full hw hv hg.out hlab (by omega)]
  simp only [Option.bind_eq_bind, Option.bind_some]
  have fin : ∀ (a b : Nat) (q : MmapGraph m k NL EL), a = b →
      (if a - 1 < aux then none else pure q : Option (MmapGraph m k NL EL)) =
        if b - 1 < aux then none else some q := by
    rintro a _ q rfl; rfl
  cases hi : g.inEdgeVec with
  | none =>
    rw [hi] at hR
    simp only [Option.map_none, Option.getD_none, Nat.zero_add] at hR
    simp only [Option.bind_some, Option.map_none, Option.getD_none, Nat.zero_add, Nat.sub_zero]
    cases hl : g.labels with
    | none =>
      simp only [Option.bind_some, Option.map_none, Option.getD_none, Nat.sub_zero, Nat.add_zero]
      rw [hl] at hR
      simp only [Option.map_none, Option.getD_none, Nat.add_zero] at hR
      unfold StaticGraph.asMmap
      rw [hi, hl]
      by_cases h0 : R = g.edgeVec.cost w v
      · rw [if_pos h0, if_pos (by omega)]; rfl
      · rw [if_neg h0, if_neg (by omega)]; rfl
    | some ls =>
      rw [hl] at hR
      simp only [Option.map_some, Option.getD_some] at hR ⊢
      have hne : ls ≠ [] := fun hc => hg.labels (by rw [hl, hc])
      have hlen : 0 < ls.length * v := Nat.mul_pos (List.length_pos_iff.2 hne) hv
      unfold cutArray
      rw [if_neg (by omega), if_neg (by omega), List.take_of_length_le (by
        rw [Nat.le_div_iff_mul_le hv]; omega)]
      simp only [Option.bind_some]
      unfold StaticGraph.asMmap
      rw [hi, hl]
      by_cases h0 : R = g.edgeVec.cost w v + (1 + ls.length * v)
      · rw [if_pos h0, if_pos (by omega)]; rfl
      · rw [if_neg h0, if_neg (by omega)]; exact fin _ _ _ (by omega)
  | some e =>
    rw [hi] at hR
    simp only [Option.map_some, Option.getD_some] at hR
    simp only [Option.map_some, Option.getD_some]
    rw [cut_full hw hv (hg.ins e hi) (hilab e hi) (by omega)]
    simp only [Option.bind_some]
    cases hl : g.labels with
    | none =>
      simp only [Option.bind_some, Option.map_none, Option.getD_none, Nat.sub_zero, Nat.add_zero]
      rw [hl] at hR
      simp only [Option.map_none, Option.getD_none, Nat.add_zero] at hR
      unfold StaticGraph.asMmap
      rw [hi, hl]
      by_cases h0 : R = g.edgeVec.cost w v + e.cost w v
      · rw [if_pos h0, if_pos (by omega)]; rfl
      · rw [if_neg h0, if_neg (by omega)]; exact fin _ _ _ (by omega)
    | some ls =>
      rw [hl] at hR
      simp only [Option.map_some, Option.getD_some] at hR ⊢
      have hne : ls ≠ [] := fun hc => hg.labels (by rw [hl, hc])
      have hlen : 0 < ls.length * v := Nat.mul_pos (List.length_pos_iff.2 hne) hv
      unfold cutArray
      rw [if_neg (by omega), if_neg (by omega), List.take_of_length_le (by
        rw [Nat.le_div_iff_mul_le hv]; omega)]
      simp only [Option.bind_some]
      unfold StaticGraph.asMmap
      rw [hi, hl]
      by_cases h0 : R = g.edgeVec.cost w v + (e.cost w v + (1 + ls.length * v))
      · rw [if_pos h0, if_pos (by omega)]; rfl
      · rw [if_neg h0, if_neg (by omega)]; exact fin _ _ _ (by omega)

/-- **C110.** Once the arrays are complete: stopped before the auxiliary file, the arrays load with the
counts they suggest and without label names; stopped within it, loading panics; else all is right. -/
theorem c110_arrays_done {nl : Codec NL} {el : Codec EL} {g : StaticGraph m k NL EL}
    (hw : 0 < w) (hv : 0 < v) (hwm : m + 1 = 256 ^ w) (hvk : k + 1 = 256 ^ v)
    (hnl : ∀ y ∈ g.nodeLabels.labels, nl.RoundTrips y) (hel : ∀ y ∈ g.edgeLabels.labels, el.RoundTrips y)
    (hns : nl.Stable) (hes : el.Stable) (hg : g.Mappable) (hlab : g.edgeVec.labels ≠ some [])
    (hilab : ∀ e, g.inEdgeVec = some e → e.labels ≠ some []) (pre : String) :
    ∀ x : World, (∀ suf, x.files (pre ++ suf) = none) → arraysCost w v g ≤ x.room →
      (MmapGraph.new w v nl el pre (g.dumpMmap w v nl el pre x).2).toOption =
      if x.room = arraysCost w v g then some ⟨g.edgeVec, g.inEdgeVec, g.labels,
        g.edgeVec.offsets.length - 1,
        if g.inEdgeVec.isSome then g.edgeVec.edges.length else g.edgeVec.edges.length / 2, SetMap.empty,
        SetMap.empty⟩
      else if x.room - arraysCost w v g - 1 < 32 + labelBytes nl g.nodeLabels + labelBytes el g.edgeLabels then none
      else some g.asMmap :=
  fun x hx hR => by
    rw [StaticGraph.load_cut hw hv hwm hvk hnl hel hns hes hg hx, cut_arrays hw hv hg hlab hilab hR,
      Sizes.aux_length]

/-- **C110.** Stopped within the out-edges, at least one byte and less than all of them, the dump loads as
an undirected unlabelled graph with the edges written so far. -/
theorem c110_loses_edges {nl : Codec NL} {el : Codec EL} {g : StaticGraph m k NL EL}
    (hw : 0 < w) (hv : 0 < v) (hwm : m + 1 = 256 ^ w) (hvk : k + 1 = 256 ^ v)
    (hnl : ∀ y ∈ g.nodeLabels.labels, nl.RoundTrips y) (hel : ∀ y ∈ g.edgeLabels.labels, el.RoundTrips y)
    (hns : nl.Stable) (hes : el.Stable) (hg : g.Mappable) (pre : String) (x : World)
    (hx : ∀ suf, x.files (pre ++ suf) = none) (n : Nat) (hn : 0 < n) (hlt : n < g.edgeVec.edges.length * w)
    (hroom : x.room = 1 + g.edgeVec.offsets.length * 8 + 1 + n) :
    MmapGraph.new w v nl el pre (g.dumpMmap w v nl el pre x).2 =
      .ok (⟨⟨g.edgeVec.offsets, g.edgeVec.edges.take (n / w), none⟩, none, none,
        g.edgeVec.offsets.length - 1, n / w / 2, SetMap.empty, SetMap.empty⟩ : MmapGraph m k NL EL) := by
  have key : (MmapGraph.new w v nl el pre (g.dumpMmap w v nl el pre x).2).toOption =
      some (⟨⟨g.edgeVec.offsets, g.edgeVec.edges.take (n / w), none⟩, none, none,
        g.edgeVec.offsets.length - 1, n / w / 2, SetMap.empty, SetMap.empty⟩ : MmapGraph m k NL EL) := by
    rw [StaticGraph.load_cut hw hv hwm hvk hnl hel hns hes hg hx]
    have h1 : g.edgeVec.cut w v x.room =
        some (some ⟨g.edgeVec.offsets, g.edgeVec.edges.take (n / w), none⟩) := by
      unfold EdgeVec.cut
      rw [if_neg (by omega), if_neg (by omega)]
      have h2 : x.room - (1 + g.edgeVec.offsets.length * 8) - 1 = n := by omega
      have h3 : x.room - (1 + g.edgeVec.offsets.length * 8) - (1 + g.edgeVec.edges.length * w) = 0 := by
        omega
      rw [h2, h3]
      unfold cutArray
      rw [if_pos rfl, ite_self]
      rfl
    have h4 : x.room - g.edgeVec.cost w v = 0 := by unfold EdgeVec.cost; omega
    have hins : ∀ e : EdgeVec m k, e.cut w v 0 = some none := fun e => by unfold EdgeVec.cut; rw [if_pos rfl]
    have hlen : (g.edgeVec.edges.take (n / w)).length = n / w := by
      rw [List.length_take, Nat.min_eq_left]
      exact Nat.le_of_lt ((Nat.div_lt_iff_lt_mul hw).2 hlt)
    unfold StaticGraph.cut
    rw [h1, h4]
    simp only [Option.bind_eq_bind, Option.bind_some, Nat.zero_sub, if_true]
    cases g.inEdgeVec with
    | none =>
      simp only [Option.bind_some]
      cases g.labels with
      | none => simp [hlen]
      | some ls => simp [hlen, cutArray]
    | some e =>
      simp only [hins, Option.bind_some]
      cases g.labels with
      | none => simp [hlen]
      | some ls => simp [hlen, cutArray]
  cases h : MmapGraph.new w v nl el pre (g.dumpMmap w v nl el pre x).2 with
  | error p => rw [h] at key; cases key
  | ok h' => rw [h] at key; rw [Option.some.inj key]

/-- **C110.** Whatever loads after an interrupted dump is the graph itself, or it has no label names, all
offsets, a beginning of the edges, and counts to match. -/
theorem c110_either {nl : Codec NL} {el : Codec EL} {g : StaticGraph m k NL EL}
    (hw : 0 < w) (hv : 0 < v) (hwm : m + 1 = 256 ^ w) (hvk : k + 1 = 256 ^ v)
    (hnl : ∀ y ∈ g.nodeLabels.labels, nl.RoundTrips y) (hel : ∀ y ∈ g.edgeLabels.labels, el.RoundTrips y)
    (hns : nl.Stable) (hes : el.Stable) (hg : g.Mappable) (hlab : g.edgeVec.labels ≠ some [])
    (hilab : ∀ e, g.inEdgeVec = some e → e.labels ≠ some []) (pre : String) (x : World)
    (hx : ∀ suf, x.files (pre ++ suf) = none) {h : MmapGraph m k NL EL}
    (hload : MmapGraph.new w v nl el pre (g.dumpMmap w v nl el pre x).2 = .ok h) :
    h = g.asMmap ∨ (h.nodeLabels = SetMap.empty ∧ h.edgeLabels = SetMap.empty ∧
      h.edges.offsets = g.edgeVec.offsets ∧ h.edges.edges <+: g.edgeVec.edges ∧
      h.numNodes = g.edgeVec.offsets.length - 1 ∧
      h.numEdges = if h.isDirected then h.edges.edges.length else h.edges.edges.length / 2) := by
  have key := StaticGraph.load_cut hw hv hwm hvk hnl hel hns hes hg hx
  rw [hload] at key
  by_cases hR : arraysCost w v g ≤ x.room
  · rw [cut_arrays hw hv hg hlab hilab hR] at key
    split at key
    · right
      cases key
      exact ⟨rfl, rfl, rfl, List.prefix_refl _, rfl, rfl⟩
    · split at key
      · cases key
      · left; exact Option.some.inj key
  · right
    replace key : some h = _ := key
    symm at key
    unfold StaticGraph.cut at key
    simp only [Option.bind_eq_bind, Option.bind_eq_some_iff] at key
    obtain ⟨out, h1, out, rfl, ins, -, ls, -, key⟩ := key
    have hzero : (x.room - g.edgeVec.cost w v - (match g.inEdgeVec with | none => 0 | some e => e.cost w v)) -
        (match g.labels with | none => 0 | some ls => 1 + ls.length * v) = 0 := by
      unfold arraysCost at hR
      revert hR
      cases g.inEdgeVec <;> cases g.labels <;>
        simp only [Option.map_none, Option.map_some, Option.getD_none, Option.getD_some] <;> omega
    replace key := (if_pos hzero).symm.trans key
    cases key
    unfold EdgeVec.cut at h1
    split at h1
    · cases h1
    · split at h1
      · cases h1
      · simp only [Option.bind_eq_bind, Option.bind_eq_some_iff] at h1
        obtain ⟨l, -, h1⟩ := h1
        cases h1
        exact ⟨rfl, rfl, rfl, List.take_prefix _ _, rfl, rfl⟩

/-- The little directed graph `1 -> 0` meets the hypotheses of C110; its arrays take 59 effects. Stopped
after 57 and 60 effects, it cannot be loaded; after 56, 58 and 59 it can, though it has lost its node
labels, some of them, or only the label names. -/
example : ∃ r, smallStatic true = .ok r ∧ r.Mappable ∧ r.edgeVec.labels ≠ some [] ∧
    (∀ e, r.inEdgeVec = some e → e.labels ≠ some []) ∧ arraysCost 1 1 r = 59 ∧
    [56, 57, 58, 59, 60].map (fun R => ((MmapGraph.new (m := 255) (k := 255) 1 1 text text "g"
      (r.dumpMmap 1 1 text text "g" (blank R)).2).toOption.map fun h => h.labels.map List.length)) =
    [some none, none, some (some 1), some (some 2), none] := by
  refine ⟨_, rfl, ⟨⟨?_, ?_, ?_⟩, ?_, ?_, ?_, ?_, ?_, ?_⟩, ?_, ?_, ?_, ?_⟩
  · decide
  · decide
  · decide
  · intro e he; cases he; exact ⟨by decide, by decide, by decide⟩
  · decide
  · decide
  · decide
  · decide
  · decide
  · decide
  · intro e he; cases he; decide
  · decide
  · rfl

end Verif.Props
