import Verif.Spec.Again
import Verif.Proof.Build
import Verif.Proof.Csv
import Mathlib.Data.List.Basic

/-! Additions made again; what CSV files make of labels. -/

namespace Verif.Again

open Spec GraphMap

variable {m k : Nat} {NL EL : Type}

/-- The label the last `add_node` gives a node. -/
def lastNode (ops : List (Op m k NL EL)) (x : Id m) : Option (Option NL) :=
  ops.foldl (fun o op => match op with
    | .addNode n l => if n = x then some l else o
    | _ => o) none

/-- Whether an edge is added at a node. -/
def meets (ops : List (Op m k NL EL)) (x : Id m) : Bool :=
  ops.any (fun op => match op with
    | .addEdge s t _ => s = x || t = x
    | _ => false)

/-- The label the last `add_edge` gives an edge. -/
def lastEdge (d : Bool) (ops : List (Op m k NL EL)) (a b : Id m) : Option (Option EL) :=
  ops.foldl (fun o op => match op with
    | .addEdge s t l => if AGraph.same d s t a b then some l else o
    | _ => o) none

theorem adds_edge {d : Bool} (A : AGraph (Id m) NL EL) (a b : Id m) (ops : List (Op m k NL EL))
    (h : ∀ op ∈ ops, op.isAdd = true) :
    (ops.foldl (step d) A).edge a b = (lastEdge d ops a b).or (A.edge a b) := by
  induction ops using List.reverseRecOn with
  | nil => rfl
  | append_singleton ops op ih =>
    have ih := ih (fun o ho => h o (by simp [ho]))
    have hop := h op (by simp)
    unfold lastEdge at ih ⊢
    rw [List.foldl_append, List.foldl_append, List.foldl_cons, List.foldl_nil, List.foldl_cons, List.foldl_nil]
    cases op with
    | addNode n l => simpa [step, AGraph.addNode] using ih
    | addEdge s t l =>
      simp only [step, AGraph.addEdge, ih]
      split <;> simp
    | _ => simp [Op.isAdd] at hop

theorem adds_node {d : Bool} (A : AGraph (Id m) NL EL) (x : Id m) (ops : List (Op m k NL EL))
    (h : ∀ op ∈ ops, op.isAdd = true) :
    (ops.foldl (step d) A).node x =
      (lastNode ops x).or ((A.node x).or (if meets ops x then some none else none)) := by
  induction ops using List.reverseRecOn with
  | nil => simp [lastNode, meets]
  | append_singleton ops op ih =>
    have ih := ih (fun o ho => h o (by simp [ho]))
    have hop := h op (by simp)
    unfold lastNode meets at ih ⊢
    rw [List.foldl_append, List.foldl_append, List.foldl_cons, List.foldl_nil, List.foldl_cons, List.foldl_nil,
      List.any_append]
    cases op with
    | addNode n l =>
      simp only [step, AGraph.addNode, ih, List.any_cons, List.any_nil, Bool.or_false]
      by_cases hx : x = n
      · simp [hx]
      · simp [hx, Ne.symm hx]
    | addEdge s t l =>
      simp only [step, AGraph.addEdge, List.any_cons, List.any_nil, Bool.or_false]
      rw [ih]
      generalize List.foldl _ none ops = o
      generalize List.any ops _ = b
      cases o <;> cases A.node x <;> cases b <;> by_cases h1 : x = s <;> by_cases h2 : x = t <;>
        simp [h1, h2, eq_comm (b := x)]
    | _ => simp [Op.isAdd] at hop

/-- Additions made again change nothing. -/
theorem adds_again {d : Bool} (A : AGraph (Id m) NL EL) (ops : List (Op m k NL EL))
    (h : ∀ op ∈ ops, op.isAdd = true) :
    ops.foldl (step d) (ops.foldl (step d) A) = ops.foldl (step d) A := by
  apply AGraph_ext
  · intro x
    rw [adds_node _ _ _ h, adds_node _ _ _ h]
    cases lastNode ops x <;> cases A.node x <;> cases meets ops x <;> rfl
  · intro a b
    rw [adds_edge _ _ _ _ h, adds_edge _ _ _ _ h]
    cases lastEdge d ops a b <;> rfl

theorem adds_touch {d : Bool} (x : Id m) (ops : List (Op m k NL EL)) (h : ∀ op ∈ ops, op.isAdd = true)
    (A : AGraph (Id m) NL EL) (hx : (A.node x).isSome = true ∨ x ∈ ops.flatMap touched) :
    ((ops.foldl (step d) A).node x).isSome = true := by
  induction ops generalizing A with
  | nil => simpa using hx
  | cons op ops ih =>
    refine ih (fun o ho => h o (by simp [ho])) _ ?_
    have hop := h op (by simp)
    rw [List.flatMap_cons, List.mem_append] at hx
    have key : (A.node x).isSome = true ∨ x ∈ touched op → ((step d A op).node x).isSome = true := by
      intro hk
      cases op with
      | addNode n l =>
        simp only [step, AGraph.addNode, touched, List.mem_singleton] at hk ⊢
        split
        · rfl
        · rcases hk with hk | hk
          · exact hk
          · contradiction
      | addEdge s t l =>
        simp only [step, AGraph.addEdge, touched, List.mem_cons, List.not_mem_nil, or_false] at hk ⊢
        cases hA : A.node x with
        | none =>
          rw [hA] at hk
          rw [if_pos ⟨by simpa using hk, rfl⟩]
          rfl
        | some l => simp
      | _ => simp [Op.isAdd] at hop
    tauto

end Verif.Again
