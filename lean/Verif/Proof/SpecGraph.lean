import Verif.Spec.Graph
import Mathlib.Data.Finset.Card
import Mathlib.Data.Finset.Prod
import Mathlib.Algebra.BigOperators.Group.Finset.Basic

/-! Facts about the abstract graph: how each operation changes the number of edges. -/

set_option linter.unusedSectionVars false

namespace Verif.Spec.AGraph

open Finset

variable {I NL EL : Type} [LinearOrder I] [Fintype I]

/-- The set of edges counted by `edgeNumber`. -/
def edgeSet (d : Bool) (g : AGraph I NL EL) : Finset (I × I) :=
  univ.filter (fun p : I × I => (g.edge p.1 p.2).isSome ∧ (d = true ∨ p.1 ≤ p.2))

theorem mem_edgeSet (d : Bool) (g : AGraph I NL EL) (p : I × I) :
    p ∈ edgeSet d g ↔ (g.edge p.1 p.2).isSome ∧ (d = true ∨ p.1 ≤ p.2) := by
  simp [edgeSet]

theorem edgeNumber_eq (d : Bool) (g : AGraph I NL EL) : edgeNumber d g = (edgeSet d g).card := rfl

/-- Presence of edges does not depend on the orientation. -/
def Sym (d : Bool) (g : AGraph I NL EL) : Prop :=
  d = false → ∀ s t, (g.edge s t).isSome → (g.edge t s).isSome

/-- The counted representative of the edge `(s, t)`. -/
def canon (d : Bool) (s t : I) : I × I := if d = true ∨ s ≤ t then (s, t) else (t, s)

theorem canon_ok (d : Bool) (s t : I) : d = true ∨ (canon d s t).1 ≤ (canon d s t).2 := by
  unfold canon
  split
  · assumption
  · rename_i h; simp only [not_or, not_le] at h; exact Or.inr h.2.le

theorem same_iff_canon (d : Bool) (s t : I) (p : I × I) (hp : d = true ∨ p.1 ≤ p.2) :
    same d s t p.1 p.2 ↔ p = canon d s t := by
  obtain ⟨a, b⟩ := p
  unfold same canon
  cases d
  · simp only [Bool.false_eq_true, false_or, true_and] at *
    split
    · rename_i h
      rw [Prod.mk.injEq]
      constructor
      · rintro (h' | ⟨rfl, rfl⟩)
        · exact h'
        · exact ⟨le_antisymm hp h, le_antisymm h hp⟩
      · exact Or.inl
    · rename_i h
      rw [Prod.mk.injEq]
      constructor
      · rintro (⟨rfl, rfl⟩ | h')
        · exact absurd hp h
        · exact h'
      · exact Or.inr
  · simp

theorem edge_canon (d : Bool) (g : AGraph I NL EL) (hs : Sym d g) (s t : I) :
    (g.edge (canon d s t).1 (canon d s t).2).isSome ↔ (g.edge s t).isSome := by
  unfold canon
  split
  · rfl
  · rename_i h
    simp only [not_or, Bool.not_eq_true] at h
    exact ⟨hs h.1 t s, hs h.1 s t⟩

theorem edgeNumber_addEdge (d : Bool) (g : AGraph I NL EL) (hs : Sym d g) (s t : I) (l : Option EL) :
    edgeNumber d (g.addEdge d s t l) =
      edgeNumber d g + if (g.edge s t).isSome then 0 else 1 := by
  rw [edgeNumber_eq, edgeNumber_eq]
  have h1 : edgeSet d (g.addEdge d s t l) = insert (canon d s t) (edgeSet d g) := by
    ext p
    rw [mem_edgeSet, Finset.mem_insert, mem_edgeSet]
    by_cases hp : d = true ∨ p.1 ≤ p.2
    · simp only [addEdge, hp, and_true]
      by_cases h : same d s t p.1 p.2
      · rw [if_pos h]; have := (same_iff_canon d s t p hp).1 h; simp [← this]
      · have := (same_iff_canon d s t p hp).not.1 h
        simp [h, this]
    · have : p ≠ canon d s t := by rintro rfl; exact hp (canon_ok d s t)
      simp [hp, this]
  rw [h1]
  by_cases he : (g.edge s t).isSome
  · rw [Finset.insert_eq_of_mem]
    · simp [he]
    · rw [mem_edgeSet]; exact ⟨(edge_canon d g hs s t).2 he, canon_ok d s t⟩
  · rw [Finset.card_insert_of_notMem]
    · simp [he]
    · rw [mem_edgeSet]; exact fun h => he ((edge_canon d g hs s t).1 h.1)

theorem edgeNumber_removeEdge (d : Bool) (g : AGraph I NL EL) (hs : Sym d g) (s t : I)
    (he : (g.edge s t).isSome) :
    edgeNumber d (g.removeEdge d s t) + 1 = edgeNumber d g := by
  rw [edgeNumber_eq, edgeNumber_eq]
  have h1 : edgeSet d (g.removeEdge d s t) = (edgeSet d g).erase (canon d s t) := by
    ext p
    rw [mem_edgeSet, Finset.mem_erase, mem_edgeSet]
    by_cases hp : d = true ∨ p.1 ≤ p.2
    · simp only [removeEdge, hp, and_true]
      by_cases h : same d s t p.1 p.2
      · rw [if_pos h]; have := (same_iff_canon d s t p hp).1 h; simp [← this]
      · have := (same_iff_canon d s t p hp).not.1 h
        simp [h, this]
    · simp [hp]
  rw [h1]
  apply Finset.card_erase_add_one
  rw [mem_edgeSet]; exact ⟨(edge_canon d g hs s t).2 he, canon_ok d s t⟩

theorem edgeNumber_removeNode (d : Bool) (g : AGraph I NL EL) (hs : Sym d g) (n : I)
    (hl : (g.edge n n).isSome = false) :
    edgeNumber d (g.removeNode n) + (univ.filter (fun t => (g.edge n t).isSome)).card +
      (if d = true then (univ.filter (fun s => (g.edge s n).isSome)).card else 0) =
      edgeNumber d g := by
  rw [edgeNumber_eq, edgeNumber_eq]
  have key : edgeSet d g = edgeSet d (g.removeNode n) ∪
      ((univ.filter (fun t => (g.edge n t).isSome)).image (fun t => canon d n t) ∪
        (if d = true then (univ.filter (fun s => (g.edge s n).isSome)).image (fun s => (s, n))
          else ∅)) := by
    ext ⟨a, b⟩
    cases d
    · simp only [mem_edgeSet, Bool.false_eq_true, false_or, if_false, Finset.union_empty,
        Finset.mem_union, Finset.mem_image, Finset.mem_filter, Finset.mem_univ, true_and, removeNode]
      have hs := hs rfl
      constructor
      · rintro ⟨he, hab⟩
        by_cases han : a = n
        · right
          subst han
          exact ⟨b, he, by simp [canon, hab]⟩
        · by_cases hbn : b = n
          · right
            subst hbn
            refine ⟨a, hs _ _ he, ?_⟩
            have : ¬ b ≤ a := fun h => han (le_antisymm hab h)
            simp [canon, this]
          · left; simp [han, hbn, he, hab]
      · rintro (⟨he, hab⟩ | ⟨t, ht, hc⟩)
        · refine ⟨?_, hab⟩
          split at he
          · simp at he
          · exact he
        · unfold canon at hc
          simp only [Bool.false_eq_true, false_or] at hc
          split at hc
          · cases hc; exact ⟨ht, by assumption⟩
          · rename_i h; cases hc; exact ⟨hs _ _ ht, (not_le.1 h).le⟩
    · simp only [mem_edgeSet, true_or, and_true, if_true, Finset.mem_union, Finset.mem_image,
        Finset.mem_filter, Finset.mem_univ, true_and, removeNode, canon, Prod.mk.injEq]
      constructor
      · intro he
        by_cases han : a = n
        · subst han; exact Or.inr (Or.inl ⟨b, he, rfl, rfl⟩)
        · by_cases hbn : b = n
          · subst hbn; exact Or.inr (Or.inr ⟨a, he, rfl, rfl⟩)
          · left; simp [han, hbn, he]
      · rintro (he | ⟨t, ht, rfl, rfl⟩ | ⟨t, ht, rfl, rfl⟩)
        · split at he
          · simp at he
          · exact he
        · exact ht
        · exact ht
  have d1 : Disjoint (edgeSet d (g.removeNode n))
      ((univ.filter (fun t => (g.edge n t).isSome)).image (fun t => canon d n t) ∪
        (if d = true then (univ.filter (fun s => (g.edge s n).isSome)).image (fun s => (s, n))
          else ∅)) := by
    rw [Finset.disjoint_left]
    rintro ⟨a, b⟩ h1 h2
    rw [mem_edgeSet] at h1
    simp only [removeNode] at h1
    have h1 : ¬ (a = n ∨ b = n) := by
      intro h; simp [h] at h1
    simp only [not_or] at h1
    rcases Finset.mem_union.1 h2 with h2 | h2
    · obtain ⟨t, -, ht⟩ := Finset.mem_image.1 h2
      unfold canon at ht
      split at ht
      · cases ht; exact h1.1 rfl
      · cases ht; exact h1.2 rfl
    · split at h2
      · obtain ⟨t, -, ht⟩ := Finset.mem_image.1 h2
        cases ht; exact h1.2 rfl
      · simp at h2
  have d2 : Disjoint ((univ.filter (fun t => (g.edge n t).isSome)).image (fun t => canon d n t))
        (if d = true then (univ.filter (fun s => (g.edge s n).isSome)).image (fun s => (s, n))
          else ∅) := by
    rw [Finset.disjoint_left]
    rintro ⟨a, b⟩ h1 h2
    split at h2
    · rename_i hd
      obtain ⟨t, ht1, ht⟩ := Finset.mem_image.1 h1
      obtain ⟨u, hu1, hu⟩ := Finset.mem_image.1 h2
      simp only [canon, hd, true_or, if_true] at ht
      cases ht
      cases hu
      simp [hl] at ht1
    · simp at h2
  have c1 : ((univ.filter (fun t => (g.edge n t).isSome)).image (fun t => canon d n t)).card =
      (univ.filter (fun t => (g.edge n t).isSome)).card := by
    apply Finset.card_image_of_injective
    intro x y hxy
    simp only [canon] at hxy
    split at hxy <;> split at hxy <;> simp_all
  rw [key, Finset.card_union_of_disjoint d1, Finset.card_union_of_disjoint d2, c1, add_assoc]
  congr 2
  split
  · rw [Finset.card_image_of_injective]
    intro x y hxy
    simpa using hxy
  · simp

end Verif.Spec.AGraph
