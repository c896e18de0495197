import Verif.Proof.GraphInv
import Mathlib.Algebra.BigOperators.Group.Finset.Basic
import Mathlib.Data.Fintype.BigOperators

/-! Counting arcs. -/

namespace Verif

open Spec

theorem mapM_ok {α β : Type} (f : α → Res β) (h : α → β) (l : List α)
    (hf : ∀ x ∈ l, f x = .ok (h x)) : l.mapM f = .ok (l.map h) := by
  induction l with
  | nil => rfl
  | cons a l ih =>
    rw [List.mapM_cons, hf a (by simp), ih (fun x hx => hf x (by simp [hx]))]
    rfl

theorem mapM_eq_ok {α β : Type} {f : α → Res β} {l : List α} {r : List β}
    (h : l.mapM f = .ok r) : List.Forall₂ (fun x y => f x = .ok y) l r := by
  induction l generalizing r with
  | nil => cases h; exact .nil
  | cons a l ih =>
    rw [List.mapM_cons] at h
    obtain ⟨b, h1, h⟩ := bind_eq_ok h
    obtain ⟨bs, h2, h⟩ := bind_eq_ok h
    cases h
    exact .cons h1 (ih h2)

namespace GraphMap

variable {m k : Nat} {NL EL : Type}

theorem card_swap {I : Type} [Fintype I] [DecidableEq I] (p : I → I → Prop) [DecidableRel p] :
    (Finset.univ.filter (fun q : I × I => p q.2 q.1)).card =
      (Finset.univ.filter (fun q : I × I => p q.1 q.2)).card := by
  apply Finset.card_bij (fun q _ => (q.2, q.1))
  · intro q hq; simpa using hq
  · intro a _ b _ h; simp only [Prod.mk.injEq] at h; exact Prod.ext h.2 h.1
  · intro b hb; exact ⟨(b.2, b.1), by simpa using hb, rfl⟩

theorem undirected_count {I : Type} [Fintype I] [LinearOrder I] (p : I → I → Prop) [DecidableRel p]
    (hs : ∀ a b, p a b → p b a) :
    (Finset.univ.filter (fun q : I × I => p q.1 q.2)).card +
      (Finset.univ.filter (fun n => p n n)).card =
      2 * (Finset.univ.filter (fun q : I × I => p q.1 q.2 ∧ q.1 ≤ q.2)).card := by
  have h1 : (Finset.univ.filter (fun q : I × I => p q.1 q.2)).card =
      (Finset.univ.filter (fun q : I × I => p q.1 q.2 ∧ q.1 ≤ q.2)).card +
      (Finset.univ.filter (fun q : I × I => p q.1 q.2 ∧ q.2 < q.1)).card := by
    rw [← Finset.card_union_of_disjoint]
    · congr 1
      ext q
      simp only [Finset.mem_filter, Finset.mem_univ, true_and, Finset.mem_union]
      rcases le_or_gt q.1 q.2 with h | h
      · simp [h]
      · simp [h]
    · rw [Finset.disjoint_filter]
      intro q _ h1 h2
      exact absurd h1.2 (not_le.2 h2.2)
  have h2 : (Finset.univ.filter (fun q : I × I => p q.1 q.2 ∧ q.1 ≤ q.2)).card =
      (Finset.univ.filter (fun q : I × I => p q.1 q.2 ∧ q.1 < q.2)).card +
      (Finset.univ.filter (fun n => p n n)).card := by
    have : (Finset.univ.filter (fun n => p n n)).card =
        (Finset.univ.filter (fun q : I × I => p q.1 q.2 ∧ q.1 = q.2)).card := by
      apply Finset.card_bij (fun n _ => (n, n))
      · intro n hn; simpa using hn
      · intro a _ b _ h; simp only [Prod.mk.injEq] at h; exact h.1
      · rintro ⟨a, b⟩ hb
        simp only [Finset.mem_filter, Finset.mem_univ, true_and] at hb
        obtain ⟨h1, rfl⟩ := hb
        exact ⟨a, by simpa using h1, rfl⟩
    rw [this, ← Finset.card_union_of_disjoint]
    · congr 1
      ext q
      simp only [Finset.mem_filter, Finset.mem_univ, true_and, Finset.mem_union, le_iff_lt_or_eq]
      tauto
    · rw [Finset.disjoint_filter]
      intro q _ h1 h2
      exact absurd h2.2 (ne_of_lt h1.2)
  have h3 : (Finset.univ.filter (fun q : I × I => p q.1 q.2 ∧ q.2 < q.1)).card =
      (Finset.univ.filter (fun q : I × I => p q.1 q.2 ∧ q.1 < q.2)).card := by
    rw [← card_swap (fun a b => p a b ∧ a < b)]
    congr 1
    ext q
    simp only [Finset.mem_filter, Finset.mem_univ, true_and]
    exact ⟨fun h => ⟨hs _ _ h.1, h.2⟩, fun h => ⟨hs _ _ h.1, h.2⟩⟩
  omega

theorem edgeNum_directed {g : GraphMap m k NL EL} (hd : g.directed = true) :
    g.edgeNum = (Finset.univ.filter (fun q : Id m × Id m => (g.outE q.1 q.2).isSome)).card := by
  unfold edgeNum AGraph.edgeNumber
  congr 1
  ext q
  simp [hd, rep]

theorem edgeNum_undirected {g : GraphMap m k NL EL} (hd : g.directed = false) :
    g.edgeNum = (Finset.univ.filter
      (fun q : Id m × Id m => (g.outE q.1 q.2).isSome ∧ q.1 ≤ q.2)).card := by
  unfold edgeNum AGraph.edgeNumber
  congr 1
  ext q
  simp [hd, rep]

end GraphMap

end Verif
