import Verif.Props.Static

/-! What `edges()` of a labelled static graph lists, and when it is right: C85. -/

namespace Verif.Props

open Verif Verif.Spec

variable {m k : Nat} {NL EL : Type} {rows : List (List (Id m × Id k))}

theorem arcsOf_pairs (d : Bool) (rows : List (List (Id m × Id k))) :
    pairsOf d rows = (arcsOf d rows).map (fun x => (x.1, x.2.1)) := by
  rw [pairsOf_eq, List.filter_map]
  rfl

/-- **C85.** `edges()` of a labelled static graph gives the `j`-th listed edge the `j`-th stored label,
stored labels being counted over all arcs. -/
theorem c85_edges {g : StaticGraph m k NL EL} (h : Encodes g.edgeVec rows true) (hm : rows.length ≤ m) :
    g.edges = .ok (((arcsOf g.directed rows).zip rows.flatten).map
      (fun p => ⟨Id.new p.1.1, p.1.2.1, staticLabel p.2.2⟩)) := by
  rw [StaticGraph.edges_of (show g.edgeIndices = _ from edgeIndices_eq h hm _)]
  have hl : g.edgeVec.getLabels = rows.flatten.map Prod.snd := by simp [EdgeVec.getLabels, h.labels]
  rw [hl, arcsOf_pairs]
  by_cases he : rows.flatten.map Prod.snd = []
  · rw [if_pos he]
    have h0 : rows.flatten = [] := List.map_eq_nil_iff.1 he
    have h1 : arcsOf g.directed rows = [] := by
      unfold arcsOf
      have : (rows.zipIdx).flatMap (fun r => r.1.map (fun p => (r.2, p))) = arcs rows 0 := rfl
      have h2 := congrArg List.length (arcs_snd rows 0)
      rw [h0, List.length_map, List.length_nil] at h2
      rw [this, List.length_eq_zero_iff.1 h2]; rfl
    rw [h0, h1]; rfl
  · rw [if_neg he, List.map_map, List.zip_map, List.map_map]
    rfl

theorem arcs_le (d : Bool) (rows : List (List (Id m × Id k))) :
    (arcsOf d rows).length ≤ rows.flatten.length := by
  rw [← arcs_snd rows 0, List.length_map]
  exact List.length_filter_le _ _

/-- **C85.** `edges()` of a labelled static graph agrees with `get_edge` exactly when the `j`-th listed
arc and the `j`-th stored arc carry the same label, for every listed arc. -/
theorem c85_agree_iff {g : StaticGraph m k NL EL} (h : Encodes g.edgeVec rows true)
    (hc : ∀ r ∈ rows, ∀ p ∈ r, p.1.val < rows.length) (hm : rows.length ≤ m) :
    EdgesAgree g ↔ ∀ (j : Nat) (a : Nat × Id m × Id k) (b : Id m × Id k),
      (arcsOf g.directed rows)[j]? = some a → rows.flatten[j]? = some b →
      staticLabel a.2.2 = staticLabel b.2 := by
  have key : ∀ (a : Nat × Id m × Id k), a ∈ arcsOf g.directed rows →
      g.getEdge (Id.new a.1) a.2.1 = .ok (some ⟨Id.new a.1, a.2.1, staticLabel a.2.2⟩) := by
    intro a ha
    have ha : a ∈ arcs rows 0 := (List.mem_filter.1 ha).1
    obtain ⟨i, t, l⟩ := a
    rw [mem_arcs] at ha
    obtain ⟨-, hi, hl⟩ := ha
    simp only [Nat.sub_zero] at hi hl
    have hv : (Id.new i : Id m).val = i := EdgeIter.Id_new_val (by omega)
    obtain ⟨r, h1, h2⟩ := StaticGraph.getEdge_spec h (Id.new i) t
    simp only
    rw [h1]
    congr 1
    refine (h2 _).2 ⟨hc _ (List.getElem_mem hi) _ hl, by rw [hv]; exact hi, l, ?_, rfl⟩
    simp only [hv]
    exact hl
  constructor
  · rintro ⟨es, h1, h2⟩ j a b ha hb
    rw [c85_edges h hm] at h1
    cases h1
    have hz : ((arcsOf g.directed rows).zip rows.flatten)[j]? = some (a, b) := by
      rw [List.getElem?_zip_eq_some]; exact ⟨ha, hb⟩
    have hmem := List.mem_map_of_mem (f := fun p : (Nat × Id m × Id k) × Id m × Id k =>
      (⟨Id.new p.1.1, p.1.2.1, staticLabel p.2.2⟩ : Edge m k)) (List.mem_of_getElem? hz)
    have h3 := h2 _ hmem
    simp only at h3
    rw [key a (List.mem_of_getElem? ha)] at h3
    simpa using h3
  · intro hj
    refine ⟨_, c85_edges h hm, ?_⟩
    intro e he
    obtain ⟨⟨a, b⟩, hz, rfl⟩ := List.mem_map.1 he
    obtain ⟨j, hjz⟩ := List.mem_iff_getElem?.1 hz
    rw [List.getElem?_zip_eq_some] at hjz
    simp only
    rw [key a (List.mem_of_getElem? hjz.1), hj j a b hjz.1 hjz.2]

/-- **C85.** Every edge is listed, once, whatever its label. -/
theorem c85_pairs {g : StaticGraph m k NL EL} (h : Encodes g.edgeVec rows true) (hm : rows.length ≤ m) :
    ∃ es is, g.edges = .ok es ∧ g.edgeIndices = .ok is ∧ es.map (fun e => (e.src, e.dst)) = is := by
  refine ⟨_, _, c85_edges h hm, edgeIndices_eq h hm g.directed, ?_⟩
  rw [List.map_map, arcsOf_pairs, List.map_map]
  have : ((fun e : Edge m k => (e.src, e.dst)) ∘ fun p : (Nat × Id m × Id k) × Id m × Id k =>
      (⟨Id.new p.1.1, p.1.2.1, staticLabel p.2.2⟩ : Edge m k)) =
      (fun a : Nat × Id m × Id k => ((Id.new a.1 : Id m), a.2.1)) ∘ Prod.fst := rfl
  rw [this, ← List.map_map, List.map_fst_zip (arcs_le _ _)]
  rfl

/-- Non-vacuity, wrong: the path `0-1-2` with two labels. -/
example : ¬ (∀ (j : Nat) (a : Nat × Id 9 × Id 3) (b : Id 9 × Id 3),
      (arcsOf false [[(1, 0)], [(0, 0), (2, 1)], [(1, 1)]])[j]? = some a →
      ([[(1, 0)], [(0, 0), (2, 1)], [(1, 1)]] : List (List (Id 9 × Id 3))).flatten[j]? = some b →
      staticLabel a.2.2 = staticLabel b.2) := by
  intro h
  exact absurd (h 1 (1, 2, 1) (0, 0) (by decide) (by decide)) (by decide)

/-- Non-vacuity, right: the star `0-1`, `0-2` with two labels. -/
example : ∀ (j : Nat) (a : Nat × Id 9 × Id 3) (b : Id 9 × Id 3),
      (arcsOf false [[(1, 0), (2, 1)], [(0, 0)], [(0, 1)]])[j]? = some a →
      ([[(1, 0), (2, 1)], [(0, 0)], [(0, 1)]] : List (List (Id 9 × Id 3))).flatten[j]? = some b →
      staticLabel a.2.2 = staticLabel b.2 := by
  intro j a b
  match j with
  | 0 => rintro ⟨⟩ ⟨⟩; rfl
  | 1 => rintro ⟨⟩ ⟨⟩; rfl
  | n + 2 => intro h; simp [arcsOf] at h

end Verif.Props
