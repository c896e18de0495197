import Verif.Proof.TraversalMove

/-! The state of a search between two calls of `next`. -/

namespace Verif.Traversal

open Verif.Spec

variable {m k : Nat} {NL EL : Type} {g : GView m k NL EL} {A : AGraph (Id m) NL EL}

theorem moment {pop : List (Id m) → Option (Id m × List (Id m))} (hp : Pops pop) (hs : Shows g A)
    {start : Option (Id m)} {s : Id m} (hn : (A.node s).isSome)
    (h : start = some s ∨ (start = none ∧ g.nodeIndices.head? = some s)) {st0 st : Traversal m}
    {V : List (Id m)} (hnew : Traversal.new g start = .ok st0) (hV : Steps (nextWith pop g) st0 V st) :
    SInv A V st ∧ (∀ y, y ∈ st.work ↔ y ∉ V ∧ ((V = [] ∧ y = s) ∨ ∃ u ∈ V, (A.edge u y).isSome)) := by
  obtain ⟨b, h1, h2⟩ := new_ok hs hn h
  rw [hnew] at h1
  cases h1
  obtain ⟨h3, h4⟩ := steps_inv (s0 := s) hp hs hV [] h2 (fun y hy => .inl (List.mem_singleton.1 hy))
  rw [List.nil_append] at h3 h4
  have hdis : ∀ y, y ∈ st.work → y ∉ V := fun y hy hv => (List.nodup_append'.1 h3.nodup).2.2 hv hy
  refine ⟨h3, fun y => ⟨fun hy => ⟨hdis y hy, ?_⟩, ?_⟩⟩
  · rcases h4 y hy with rfl | h
    · cases hV with
      | nil => exact .inl ⟨rfl, rfl⟩
      | @cons _ b _ x r e1 e2 =>
        obtain ⟨x', rest, news, st1, j1, j2, j3, -⟩ := next_step hp hs h2 (List.cons_ne_nil _ _)
        rw [e1] at j3
        cases j3
        rw [(nil_of_perm_single j2).1] at hdis
        exact absurd (List.mem_cons_self ..) (hdis _ hy)
    · exact .inr h
  · rintro ⟨hy, ⟨rfl, rfl⟩ | ⟨u, hu, he⟩⟩
    · cases hV; exact List.mem_singleton.2 rfl
    · exact (List.mem_append.1 (h3.closed u hu y he)).resolve_left hy

theorem next_cases {pop : List (Id m) → Option (Id m × List (Id m))} (hp : Pops pop) (hs : Shows g A)
    {V : List (Id m)} {st : Traversal m} (h : SInv A V st) :
    ((∀ n, (A.node n).isSome → n ∈ V) → nextWith pop g st = .ok (none, st)) ∧
    ((∃ n, (A.node n).isSome ∧ n ∉ V) → ∃ x st', nextWith pop g st = .ok (some x, st') ∧ x ∉ V ∧
      (A.node x).isSome ∧ (st.work ≠ [] → x ∈ st.work) ∧
      (st.work = [] → ∀ n, (A.node n).isSome → n ∉ V → x ≤ n)) := by
  constructor
  · intro hall
    refine next_done hp hs h.toWInv ?_ hall
    by_contra hw
    obtain ⟨y, hy⟩ := List.exists_mem_of_ne_nil _ hw
    exact (List.nodup_append'.1 h.nodup).2.2 (hall y (h.nodes y (List.mem_append_right _ hy))) hy
  · intro hex
    by_cases hw : st.work = []
    · obtain ⟨s, e1, e2, e3, e4, e5⟩ := next_restart (pop := pop) hs h hw hex
      obtain ⟨x', rest, news, st', i1, i2, i3, -⟩ := next_step hp hs e4 (List.cons_ne_nil _ _)
      obtain ⟨rfl, -⟩ := nil_of_perm_single i2
      exact ⟨x', st', by rw [e5, i3], e2, e1, fun h => absurd hw h, fun _ => e3⟩
    · obtain ⟨x, rest, news, st', i1, i2, i3, -⟩ := next_step hp hs h hw
      have hx : x ∈ st.work := i2.mem_iff.2 (List.mem_cons_self ..)
      exact ⟨x, st', i3, fun hv => (List.nodup_append'.1 h.nodup).2.2 hv hx,
        h.nodes x (List.mem_append_right _ hx), fun _ => hx, fun h => absurd h hw⟩

/-- The neighbour lists of all nodes hold each edge once per direction. -/
theorem read_count (hs : Shows g A) {l : List (Id m)} (hn : l.Nodup) (hm : ∀ n, n ∈ l ↔ (A.node n).isSome) :
    ∃ ns, l.mapM g.neighbors = .ok ns ∧
      ns.flatten.length = {e : Id m × Id m | (A.edge e.1 e.2).isSome}.ncard := by
  have key : ∀ l : List (Id m), l.Nodup → (∀ n ∈ l, (A.node n).isSome) → ∃ ns, l.mapM g.neighbors = .ok ns ∧
      ns.flatten.length = (Finset.univ.filter
        (fun e : Id m × Id m => e.1 ∈ l ∧ (A.edge e.1 e.2).isSome = true)).card := by
    intro l
    induction l with
    | nil => intro _ _; exact ⟨[], rfl, by simp⟩
    | cons a l ih =>
      intro hnd hl
      obtain ⟨ns, h1, h2⟩ := ih (List.nodup_cons.1 hnd).2 (fun n hn => hl n (List.mem_cons_of_mem _ hn))
      obtain ⟨la, e1, e2, e3, -⟩ := hs.neighbors a (hl a (List.mem_cons_self ..))
      refine ⟨la :: ns, ?_, ?_⟩
      · rw [List.mapM_cons, e1, bind_ok, h1, bind_ok]; rfl
      · rw [List.flatten_cons, List.length_append, h2]
        have ha : la.length = (Finset.univ.filter
            (fun e : Id m × Id m => e.1 = a ∧ (A.edge e.1 e.2).isSome = true)).card := by
          have hnd : la.Nodup := e2.imp (fun h => ne_of_lt h)
          rw [← List.toFinset_card_of_nodup hnd]
          refine Finset.card_bij (fun t _ => (a, t)) ?_ ?_ ?_
          · intro t ht
            simpa using (e3 t).1 (List.mem_toFinset.1 ht)
          · intro t _ t' _ h
            exact (Prod.mk.injEq .. ▸ h).2
          · rintro ⟨b, t⟩ hb
            simp only [Finset.mem_filter, Finset.mem_univ, true_and] at hb
            obtain ⟨rfl, hb⟩ := hb
            exact ⟨t, List.mem_toFinset.2 ((e3 t).2 hb), rfl⟩
        rw [ha, ← Finset.card_union_of_disjoint]
        · congr 1
          ext e
          simp only [Finset.mem_union, Finset.mem_filter, Finset.mem_univ, true_and, List.mem_cons]
          tauto
        · rw [Finset.disjoint_left]
          intro e he he'
          simp only [Finset.mem_filter, Finset.mem_univ, true_and] at he he'
          rw [he.1] at he'
          exact (List.nodup_cons.1 hnd).1 he'.1
  obtain ⟨ns, h1, h2⟩ := key l hn (fun n h => (hm n).1 h)
  refine ⟨ns, h1, h2.trans ?_⟩
  rw [← Set.ncard_coe_finset]
  congr 1
  ext e
  simp only [Finset.coe_filter, Finset.mem_univ, true_and, Set.mem_setOf_eq]
  exact ⟨fun h => h.2, fun h => ⟨(hm _).2 (hs.ends _ _ h).1, h⟩⟩

end Verif.Traversal
