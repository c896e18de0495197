import Verif.Proof.TraversalSpec

/-! `Dfs::move_to`, and what a search still yields from an arbitrary state. -/

namespace Verif

open Verif.Spec

variable {m k : Nat} {NL EL : Type} {g : GView m k NL EL} {A : AGraph (Id m) NL EL}

namespace Traversal

theorem nil_of_perm_single {a x : Id m} {rest : List (Id m)} (h : [a].Perm (x :: rest)) :
    x = a ∧ rest = [] := by
  have hl := h.length_eq
  simp only [List.length_cons, List.length_nil] at hl
  have hr : rest = [] := List.length_eq_zero_iff.1 (by omega)
  subst hr
  exact ⟨(List.singleton_perm_singleton.1 h).symm, rfl⟩

/-- From any state a search goes on to yield the waiting and the undiscovered nodes. -/
theorem exhaust {pop : List (Id m) → Option (Id m × List (Id m))} (hp : Pops pop) (hs : Shows g A) :
    ∀ (c : Nat) (P : List (Id m)) (st : Traversal m), g.nodeIndices.length - P.length ≤ c → WInv A P st →
      ∃ l st', Yields (nextWith pop g) st l st' ∧ nextWith pop g st' = .ok (none, st') ∧ l.Nodup ∧
        (∀ n, n ∈ l ↔ (A.node n).isSome ∧ n ∉ P) ∧
        (∀ x rest, pop st.work = some (x, rest) → l.head? = some x) := by
  intro c
  induction c with
  | zero =>
    intro P st hc h
    have hb := nodes_bound hs h.nodup h.nodes
    rw [List.length_append] at hb
    have hw : st.work = [] := List.length_eq_zero_iff.1 (by omega)
    have hnd := h.nodup
    rw [hw, List.append_nil] at hnd
    have hall : ∀ n, (A.node n).isSome → n ∈ P := by
      intro n hn
      have hsub : P.Subperm g.nodeIndices := List.subperm_of_subset hnd
        (fun x hx => (hs.memNodes x).2 (h.nodes x (List.mem_append_left _ hx)))
      exact (hsub.perm_of_length_le (by omega)).mem_iff.2 ((hs.memNodes n).2 hn)
    have hd := next_done hp hs h hw hall
    refine ⟨[], st, ⟨1, ?_⟩, hd, List.nodup_nil, fun n => ?_, fun x rest hx => ?_⟩
    · show (nextWith pop g st >>= _) = _
      rw [hd, bind_ok]; rfl
    · simp only [List.not_mem_nil, false_iff]
      exact fun hn => hn.2 (hall n hn.1)
    · rw [hw, hp.nil] at hx; cases hx
  | succ c ih =>
    intro P st hc h
    have step : ∀ st0 : Traversal m, WInv A P st0 → st0.work ≠ [] → nextWith pop g st = nextWith pop g st0 →
        ∃ x rest, pop st0.work = some (x, rest) ∧
          ∃ l st', Yields (nextWith pop g) st l st' ∧ nextWith pop g st' = .ok (none, st') ∧ l.Nodup ∧
          (∀ n, n ∈ l ↔ (A.node n).isSome ∧ n ∉ P) ∧ l.head? = some x := by
      intro st0 h0 hw0 hn0
      obtain ⟨x, rest, news, st', h1, h2, h3, h4, h5, h6, h7⟩ := next_weak hp hs h0 hw0
      have hb := nodes_bound hs h7.nodup h7.nodes
      simp only [List.length_append, List.length_singleton] at hb
      obtain ⟨l, st'', ⟨f, i1⟩, i2, i3, i4, -⟩ := ih (P ++ [x]) st'
        (by simp only [List.length_append, List.length_singleton]; omega) h7
      have hxw : x ∈ st0.work := h2.mem_iff.2 (List.mem_cons_self ..)
      have hxP : x ∉ P := fun hc => (List.nodup_append'.1 h0.nodup).2.2 hc hxw
      have hxn := h0.nodes x (List.mem_append_right _ hxw)
      refine ⟨x, rest, h1, x :: l, st'', ⟨f + 1, ?_⟩, i2, ?_, ?_, rfl⟩
      · show (nextWith pop g st >>= _) = _
        rw [hn0, h3, bind_ok]
        show (drain (nextWith pop g) f st' >>= _) = _
        rw [i1, bind_ok]; rfl
      · rw [List.nodup_cons]
        exact ⟨fun hc => ((i4 x).1 hc).2 (by simp), i3⟩
      · intro n
        rw [List.mem_cons, i4, List.mem_append, List.mem_singleton]
        constructor
        · rintro (rfl | ⟨a, b⟩)
          · exact ⟨hxn, hxP⟩
          · exact ⟨a, fun hc => b (.inl hc)⟩
        · rintro ⟨a, b⟩
          by_cases e : n = x
          · exact .inl e
          · exact .inr ⟨a, fun hc => hc.elim b e⟩
    by_cases hw : st.work = []
    · by_cases hex : ∃ n, (A.node n).isSome ∧ n ∉ P
      · obtain ⟨s, h1, h2, h3, h4, h5⟩ := restart_weak (pop := pop) hs h hw hex
        obtain ⟨x, rest, -, l, st', i1, i2, i3, i4, -⟩ := step _ h4 (List.cons_ne_nil _ _) h5
        exact ⟨l, st', i1, i2, i3, i4, fun x rest hx => by rw [hw, hp.nil] at hx; cases hx⟩
      · have hall : ∀ n, (A.node n).isSome → n ∈ P := by
          intro n hn
          by_contra hc
          exact hex ⟨n, hn, hc⟩
        have hd := next_done hp hs h hw hall
        refine ⟨[], st, ⟨1, ?_⟩, hd, List.nodup_nil, fun n => ?_, fun x rest hx => ?_⟩
        · show (nextWith pop g st >>= _) = _
          rw [hd, bind_ok]; rfl
        · simp only [List.not_mem_nil, false_iff]
          exact fun hn => hn.2 (hall n hn.1)
        · rw [hw, hp.nil] at hx; cases hx
    · obtain ⟨x, rest, hx, l, st', i1, i2, i3, i4, i5⟩ := step st h hw rfl
      refine ⟨l, st', i1, i2, i3, i4, fun y r hy => ?_⟩
      rw [hx] at hy
      cases hy; exact i5

/-- Along a fresh search every waiting node is the start or was seen from a yielded one. -/
theorem steps_inv {pop : List (Id m) → Option (Id m × List (Id m))} (hp : Pops pop) (hs : Shows g A)
    {s0 : Id m} {st st' : Traversal m} {l : List (Id m)} (h : Steps (nextWith pop g) st l st') :
    ∀ V, SInv A V st → (∀ y ∈ st.work, y = s0 ∨ ∃ u ∈ V, (A.edge u y).isSome) →
      SInv A (V ++ l) st' ∧ ∀ y ∈ st'.work, y = s0 ∨ ∃ u ∈ V ++ l, (A.edge u y).isSome := by
  induction h with
  | nil s => intro V h1 h2; simpa using ⟨h1, h2⟩
  | @cons a b c x l hn _ ih =>
    intro V h1 h2
    have key : SInv A (V ++ [x]) b ∧ ∀ y ∈ b.work, y = s0 ∨ ∃ u ∈ V ++ [x], (A.edge u y).isSome := by
      by_cases hw : a.work = []
      · by_cases hex : ∃ n, (A.node n).isSome ∧ n ∉ V
        · obtain ⟨s, e1, e2, e3, e4, e5⟩ := next_restart (pop := pop) hs h1 hw hex
          obtain ⟨x', rest, news, st', i1, i2, i3, i4, i5, i6, i7⟩ := next_step hp hs e4 (List.cons_ne_nil _ _)
          rw [← e5, hn] at i3
          cases i3
          obtain ⟨-, rfl⟩ := nil_of_perm_single i2
          refine ⟨i7, fun y hy => .inr ⟨x, by simp, ?_⟩⟩
          rw [i4, List.nil_append] at hy
          exact ((i6 y).1 hy).1
        · have hall : ∀ n, (A.node n).isSome → n ∈ V := by
            intro n hn
            by_contra hc
            exact hex ⟨n, hn, hc⟩
          rw [next_done hp hs h1.toWInv hw hall] at hn
          cases hn
      · obtain ⟨x', rest, news, st', i1, i2, i3, i4, i5, i6, i7⟩ := next_step hp hs h1 hw
        rw [hn] at i3
        cases i3
        refine ⟨i7, fun y hy => ?_⟩
        rw [i4] at hy
        rcases List.mem_append.1 hy with hc | hc
        · rcases h2 y (i2.mem_iff.2 (List.mem_cons_of_mem _ hc)) with e | ⟨u, hu, he⟩
          · exact .inl e
          · exact .inr ⟨u, List.mem_append_left _ hu, he⟩
        · exact .inr ⟨x, by simp, ((i6 y).1 hc).1⟩
    obtain ⟨j1, j2⟩ := ih (V ++ [x]) key.1 key.2
    rw [List.append_assoc, List.singleton_append] at j1 j2
    exact ⟨j1, j2⟩

/-- Making `s` the only entry. -/
theorem moveTo_weak {P : List (Id m)} {st : Traversal m} (h : WInv A P st) {s : Id m}
    (hn : (A.node s).isSome) :
    WInv A ((P ++ st.work).filter (fun n => decide (n ≠ s))) ⟨[s], st.undiscovered.set s.val false⟩ := by
  have hmem : ∀ n, n ∈ (P ++ st.work).filter (fun n => decide (n ≠ s)) ++ [s] ↔ n ∈ P ++ st.work ∨ n = s := by
    intro n
    rw [List.mem_append, List.mem_filter, decide_eq_true_iff, List.mem_singleton]
    tauto
  refine ⟨?_, ?_, ?_, ?_, ?_⟩
  · rw [List.nodup_append']
    refine ⟨h.nodup.filter _, List.nodup_singleton _, ?_⟩
    intro a ha hb
    rw [List.mem_singleton.1 hb] at ha
    simpa using (List.mem_filter.1 ha).2
  · intro x hx
    rcases (hmem x).1 hx with hc | rfl
    · exact h.nodes x hc
    · exact hn
  · intro n hn'; rw [List.length_set]; exact h.len n hn'
  · rw [List.length_set]; exact h.short
  · intro n hn'
    show BitSet.contains (st.undiscovered.set s.val false) n.val = true ↔ n ∉ _ ++ [s]
    rw [BitSet.contains_set (h.len s hn), hmem]
    by_cases e : s.val = n.val
    · have : s = n := Fin.ext e
      subst this; simp
    · rw [if_neg e, h.bits n hn']
      have : n ≠ s := fun h => e (by rw [h])
      simp [this]

theorem startNode_ok (hs : Shows g A) {start : Option (Id m)} {s : Id m} (hn : (A.node s).isSome)
    (h : start = some s ∨ (start = none ∧ g.nodeIndices.head? = some s)) : startNode g start = .ok s := by
  rcases h with rfl | ⟨rfl, h⟩
  · show (if (!g.hasNode s) = true then _ else _) = _
    rw [hs.hasNode, hn]; rfl
  · unfold startNode
    have : g.nodeCount ≠ 0 := by
      rw [hs.nodeCount]
      intro hc
      rw [List.length_eq_zero_iff.1 hc] at h; cases h
    simp only [this, if_false, h, unwrap]

end Traversal

end Verif
