import Verif.Proof.TraversalParts
import Verif.Props.Traversal
import Verif.Props.GraphState

/-! Property theorems about searches from given parts: C125. -/

namespace Verif.Props

open GraphMap Spec Traversal

variable {m k : Nat} {NL EL : Type} {g : GView m k NL EL} {A : AGraph (Id m) NL EL}

/-! ### C125 -/

/-- **C125.** A search from any stack of nodes and any bits ends, unless a bit beyond the ids is taken for a
node: it yields every entry of the stack as often as it occurs there, and every node whose bit is set once
more. -/
theorem c125_yields (hs : Shows g A) {stack : List (Id m)} {bits : BitSet}
    (hn : ∀ n ∈ stack, (A.node n).isSome = true)
    (hb : ∀ i, m < i → bits.contains i = true → (A.node (Id.new i)).isSome = false) :
    ∃ (l : List (Id m)) (st' : Traversal m), Yields (Dfs.next g) (Dfs.fromParts stack bits) l st' ∧
      ∀ n, l.count n = stack.count n +
        if bits.contains n.val = true ∧ (A.node n).isSome = true then 1 else 0 := by
  obtain ⟨l, st', h, hc, -⟩ := drain_any pops_back hs _ (Dfs.fromParts stack bits) rfl hn (by
    rintro ⟨i, hi, h1, h2⟩
    rw [hb i hi h1] at h2; cases h2)
  refine ⟨l, st', ⟨_, by rw [dfs_next]; exact h⟩, fun n => ?_⟩
  rw [hc]
  simp only [todo, Finset.mem_filter, Finset.mem_univ, true_and]
  rfl

/-- **C125.** In particular nothing is yielded twice if nothing waits twice and the bits of what waits are
cleared; without the latter the nodes that wait and are discovered again are yielded twice. -/
theorem c125_twice (hs : Shows g A) {stack : List (Id m)} {bits : BitSet}
    (hn : ∀ n ∈ stack, (A.node n).isSome = true)
    (hb : ∀ i, m < i → bits.contains i = true → (A.node (Id.new i)).isSome = false)
    (hd : stack.Nodup) {l : List (Id m)} {st' : Traversal m}
    (hl : Yields (Dfs.next g) (Dfs.fromParts stack bits) l st') :
    (∀ n, n ∈ l ↔ n ∈ stack ∨ (bits.contains n.val = true ∧ (A.node n).isSome = true)) ∧
    ∀ n, l.count n = 2 ↔ n ∈ stack ∧ bits.contains n.val = true := by
  obtain ⟨l', st'', hl', hc⟩ := c125_yields hs hn hb
  obtain ⟨rfl, -⟩ := Yields.unique hl hl'
  constructor
  · intro n
    rw [← List.count_pos_iff, hc, ← List.count_pos_iff (l := stack)]
    split
    · next h => simp [h]
    · next h => simp [h]
  · intro n
    rw [hc]
    by_cases h : n ∈ stack
    · rw [List.count_eq_one_of_mem hd h]
      simp only [h, hn n h, and_true, true_and]
      split
      · next hx => simp [hx]
      · next hx => simp [hx]
    · rw [List.count_eq_zero_of_not_mem h]
      simp only [h, false_and, iff_false]
      split <;> omega

/-- **C125.** With a bit beyond the ids that is taken for a node the search never ends. -/
theorem c125_never_ends (hs : Shows g A) {stack : List (Id m)} {bits : BitSet}
    (hn : ∀ n ∈ stack, (A.node n).isSome = true) {i : Nat} (hi : m < i) (hb : bits.contains i = true)
    (hx : (A.node (Id.new i)).isSome = true) (fuel : Nat) :
    drain (Dfs.next g) fuel (Dfs.fromParts stack bits) = .error .diverge := by
  rw [dfs_next]
  refine drain_wraps pops_back hs fuel _ hn ?_ ⟨i, hi, hb, hx⟩
  have := BitSet.mem_ones.2 hb
  rw [BitSet.ones, List.mem_filter, List.mem_range] at this
  intro j hj
  show j < bits.length
  omega

/-- **C125.** An entry that is no node of a `GraphMap` makes the search panic. -/
theorem c125_panics [DecidableEq NL] [DecidableEq EL] {g : GraphMap m k NL EL} (hg : Reachable g)
    {stack : List (Id m)} {bits : BitSet} {n : Id m} (hn : n ∈ stack) (ha : g.hasNode n = false)
    {fuel : Nat} (hf : stack.length + m + 1 ≤ fuel) :
    drain (Dfs.next g.view) fuel (Dfs.fromParts stack bits) = .error .nodeMissing := by
  have hs := reachable_shows hg
  have hab : ∀ n : Id m, (g.abs.node n).isSome = false → g.view.neighbors n = .error .nodeMissing := by
    intro n h
    rw [← hs.hasNode] at h
    exact (c09_absent g n h).1
  have hcard : (todo g.abs (Dfs.fromParts stack bits).undiscovered).card ≤ m + 1 := by
    refine (Finset.card_le_univ _).trans ?_
    rw [Fintype.card_fin]
  obtain ⟨x, -, hx, p, hp, h⟩ := drain_absent pops_back hs (fun n h => ⟨_, hab n h⟩) _
    (Dfs.fromParts stack bits) rfl ⟨n, hn, by rw [← hs.hasNode]; exact ha⟩ fuel (by
      have : (Dfs.fromParts stack bits).work.length = stack.length := rfl
      omega)
  rw [dfs_next, h]
  rw [hab x hx] at hp
  cases hp
  rfl

/-- The cases occur: a node that waits twice and is discovered again, an entry that is no node, and a
twelfth bit, which stands for the id 1 of a type with ten ids. -/
example : (do let r ← drain (Dfs.next kite.view) 9 (Dfs.fromParts [1, 1] [false, true, true, true])
              pure r.1) = .ok [1, 3, 1, 1, 2] := by decide

example : drain (Dfs.next kite.view) 9 (Dfs.fromParts [6, 0] [true, true, true, true]) =
      .error .nodeMissing ∧
    (9 < 11 ∧ BitSet.contains (List.replicate 12 true) 11 = true ∧
      (kite.abs.node (Id.new 11)).isSome = true) := by decide

end Verif.Props
