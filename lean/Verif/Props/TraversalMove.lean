import Verif.Proof.TraversalPart
import Verif.Props.Traversal

/-! C70: the order of a depth-first search after `move_to`. -/

namespace Verif.Props

open Spec Traversal

variable {m k : Nat} {NL EL : Type} {g : GView m k NL EL} {A : AGraph (Id m) NL EL}

/-- **C70.** After a search begun at `s0` has yielded `V`, moving to `s` makes it go on as a search, begun at
`s`, of the graph left when `s0`, the nodes in `V` and their out-neighbours are taken out, all but `s`. -/
theorem c70_move_to_order (hs : Shows g A) {start0 start : Option (Id m)} {s0 s : Id m}
    (h0 : BeginsAt g A start0 s0) (h : BeginsAt g A start s) {st0 st : Traversal m} {V : List (Id m)}
    (hnew : Traversal.new g start0 = .ok st0) (hV : Steps (Dfs.next g) st0 V st) :
    ∃ st1 l st', st.moveTo g start = .ok st1 ∧ Yields (Dfs.next g) st1 l st' ∧
      (A.on (fun n => n = s ∨ (n ≠ s0 ∧ n ∉ V ∧ ∀ u ∈ V, ¬ (A.edge u n).isSome))).Sweep s
        (A.on (fun n => n = s ∨ (n ≠ s0 ∧ n ∉ V ∧ ∀ u ∈ V, ¬ (A.edge u n).isSome))).LastIn l := by
  obtain ⟨b, h1, h2⟩ := new_ok hs h0.1 h0.2
  rw [hnew] at h1
  cases h1
  rw [dfs_next] at hV
  obtain ⟨h3, h4⟩ := steps_inv (s0 := s0) pops_back hs hV [] h2
    (fun y hy => .inl (List.mem_singleton.1 hy))
  rw [List.nil_append] at h3 h4
  have hw := moveTo_weak h3.toWInv h.1
  have hs0 : s0 ∈ V ++ st.work := by
    cases hV with
    | nil => exact List.mem_singleton.2 rfl
    | @cons _ b _ x r e1 e2 =>
      obtain ⟨x', rest, news, st1, j1, j2, j3, -⟩ := next_step pops_back hs h2 (List.cons_ne_nil _ _)
      rw [e1] at j3
      cases j3
      rw [(nil_of_perm_single j2).1]
      exact List.mem_cons_self ..
  have hU : ∀ n, (A.node n).isSome → ((n = s ∨ (n ≠ s0 ∧ n ∉ V ∧ ∀ u ∈ V, ¬ (A.edge u n).isSome)) ↔
      n ∉ (V ++ st.work).filter (fun n => decide (n ≠ s))) := by
    intro n _
    rw [List.mem_filter, decide_eq_true_iff]
    constructor
    · rintro (rfl | ⟨c, d, e⟩) hc
      · exact hc.2 rfl
      · rcases List.mem_append.1 hc.1 with hc | hc
        · exact d hc
        · rcases h4 n hc with rfl | ⟨u, hu, he⟩
          · exact c rfl
          · exact e u hu he
    · intro c
      by_cases e : n = s
      · exact .inl e
      · have hn : n ∉ V ++ st.work := fun hc => c ⟨hc, e⟩
        refine .inr ⟨fun hc => hn (hc ▸ hs0), fun hc => hn (List.mem_append_left _ hc), ?_⟩
        exact fun u hu he => hn (h3.closed u hu n he)
  obtain ⟨l, st', i1, -, i3⟩ := dfs_sweep_part hs hw hU
  refine ⟨_, l, st', ?_, i1, i3⟩
  unfold moveTo
  rw [startNode_ok hs h.1 h.2, bind_ok, BitSet.put_ok (h3.len s h.1)]; rfl

/-- In `kite` (edges 0-1, 0-2, 0-3, 3-1 and 7-5 apart), a search from 0 yields 0; moved to 7 it yields 7 and 5
and never 1, 2, 3, which 0 had discovered. -/
example : ∃ st0 st st1 st', Traversal.new kite.view (some 0) = .ok st0 ∧ Steps (Dfs.next kite.view) st0 [0] st ∧
    st.moveTo kite.view (some 7) = .ok st1 ∧ Yields (Dfs.next kite.view) st1 [7, 5] st' :=
  ⟨_, _, _, _, rfl, .cons rfl (.nil _), rfl, 3, rfl⟩

end Verif.Props
