import Verif.Proof.Handshake
import Verif.Proof.Freeze
import Mathlib.Algebra.BigOperators.Fin

/-! How long the arrays of a frozen graph are. -/

namespace Verif.GraphMap

variable {m k : Nat} {NL EL : Type}

theorem sum_range_le (F : Nat → Nat) (f : Id m → Nat) (h : ∀ n : Id m, F n.val = f n) {j : Nat}
    (hj : j ≤ m + 1) : ((List.range j).map F).sum ≤ ∑ n, f n := by
  have e : ∀ j, ((List.range j).map F).sum = ∑ i ∈ Finset.range j, F i := by
    intro j
    induction j with
    | zero => rfl
    | succ j ih => rw [List.range_succ, List.map_append, List.sum_append, ih, Finset.sum_range_succ]; simp
  rw [e]
  calc ∑ i ∈ Finset.range j, F i ≤ ∑ i ∈ Finset.range (m + 1), F i :=
        Finset.sum_le_sum_of_subset (Finset.range_subset_range.2 hj)
    _ = ∑ n : Fin (m + 1), F n.val := (Fin.sum_univ_eq_sum_range F (m + 1)).symm
    _ = ∑ n, f n := Finset.sum_congr rfl (fun n _ => h n)

theorem new_val (n : Id m) : (Id.new n.val : Id m) = n :=
  Fin.ext (Nat.mod_eq_of_lt n.isLt)

theorem pairs_le {g : GraphMap m k NL EL} (hg : g.Inv) :
    (Finset.univ.filter (fun q : Id m × Id m => (g.outE q.1 q.2).isSome = true)).card ≤
      2 * g.edgeCount := by
  have hc : g.edgeNum ≤ g.edgeCount := hg.count
  cases hd : g.directed with
  | true => rw [edgeNum_directed hd] at hc; omega
  | false =>
    rw [edgeNum_undirected hd] at hc
    have := undirected_count (fun s t : Id m => (g.outE s t).isSome = true) (fun a b h => hg.sym hd a b h)
    omega

theorem rows_flatten_le {g : GraphMap m k NL EL} (hg : g.Inv) {j : Nat} (hj : j ≤ m + 1) :
    (g.rows j).flatten.length ≤ 2 * g.edgeCount := by
  refine le_trans ?_ (pairs_le hg)
  rw [List.length_flatten, rows, List.map_map, ← sum_card (fun s t : Id m => (g.outE s t).isSome = true)]
  refine sum_range_le _ _ (fun n => ?_) hj
  simp only [Function.comp, rowOf, new_val]
  cases hn : g.getNode n with
  | none => simp [outE, hn]
  | some nd =>
    have := degree_eq hg.toNWF hn
    rw [← this]
    simp [NodeMap.degree]

theorem inRows_flatten_le {g : GraphMap m k NL EL} (hg : g.Inv) (hd : g.directed = true) {j : Nat}
    (hj : j ≤ m + 1) : (g.inRows j).flatten.length ≤ 2 * g.edgeCount := by
  refine le_trans ?_ (pairs_le hg)
  rw [List.length_flatten, inRows, List.map_map, ← card_swap (fun s t : Id m => (g.outE s t).isSome = true),
    ← sum_card (fun s t : Id m => (g.outE t s).isSome = true)]
  refine sum_range_le _ _ (fun n => ?_) hj
  simp only [Function.comp, inRowOf, new_val]
  cases hn : g.getNode n with
  | none =>
    simp only [List.length_nil]
    symm
    rw [Finset.card_eq_zero, Finset.filter_eq_empty_iff]
    intro t _ ht
    have := hg.target t n ht
    obtain ⟨nd, h⟩ := (hasNode_iff _ _).1 this
    rw [hn] at h; cases h
  | some nd =>
    have := inDegree_eq hg hn
    rw [if_pos hd] at this
    rw [← this]
    simp [NodeMap.inDegree]

end Verif.GraphMap
