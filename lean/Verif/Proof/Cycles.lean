import Verif.Proof.ConnCompGraph
import Verif.Proof.GraphRefine
import Verif.Props.ConnComp
import Verif.Proof.View

/-! How one more edge changes the number of components. -/

namespace Verif.Cycles

open Spec Props ConnComp

variable {m k : Nat} {NL EL : Type}

theorem register_count {E : List (Id m × Id m)} {rep} {c : ConnComp m} (I : Inv E rep c) (x y : Id m) :
    (Occurs E x → Occurs E y → ((c.register x).register y).count = c.count) ∧
    (Occurs E x → ¬ Occurs E y → ((c.register x).register y).count = c.count + 1) ∧
    (¬ Occurs E x → (Occurs E y ∨ y = x) → ((c.register x).register y).count = c.count + 1) ∧
    (¬ Occurs E x → ¬ Occurs E y → y ≠ x → ((c.register x).register y).count = c.count + 2) := by
  have hx := I.keys x
  have hy := I.keys y
  have hr : ∀ (c : ConnComp m) n, (c.register n).count = if (AL.get c.parent n).isSome then c.count else c.count + 1 := by
    intro c n
    unfold register
    split <;> rfl
  have hk : (AL.get (c.register x).parent y).isSome ↔ (AL.get c.parent y).isSome ∨ y = x := by
    rw [AL.get_isSome_iff, AL.get_isSome_iff, register_keys]
    split
    · rename_i h
      exact ⟨.inl, fun h' => h'.elim id (fun h' => h' ▸ h)⟩
    · simp
  rw [hr, hr]
  refine ⟨fun a b => ?_, fun a b => ?_, fun a b => ?_, fun a b e => ?_⟩
  · rw [if_pos (hk.2 (.inl (hy.2 b))), if_pos (hx.2 a)]
  · rw [if_neg (fun h => (hk.1 h).elim (fun h => b (hy.1 h)) (fun h => b (h ▸ a))), if_pos (hx.2 a)]
  · rw [if_pos (hk.2 (b.imp hy.2 id)), if_neg (fun h => a (hx.1 h))]
  · rw [if_neg (fun h => (hk.1 h).elim (fun h => b (hy.1 h)) e), if_neg (fun h => a (hx.1 h))]

theorem history_exists : ∀ E : List (Id m × Id m), ∃ c, History E c := by
  intro E
  induction E using List.reverseRecOn with
  | nil => exact ⟨_, .empty⟩
  | append_singleton E e ih =>
    obtain ⟨c, H⟩ := ih
    obtain ⟨c', h⟩ := c35_process_total H e.1 e.2
    exact ⟨c', .edge H h⟩

theorem linked_new {E : List (Id m × Id m)} {x y : Id m} (hx : ¬ Occurs E x) (h : Linked E x y) : x = y := by
  rcases linked_occurs h with h | h
  · exact h
  · exact absurd h.1 hx

/-- The number of components with one more edge. -/
theorem count_snoc (E : List (Id m × Id m)) (x y : Id m) :
    (Occurs E x → Occurs E y → Linked E x y → (components (E ++ [(x, y)])).ncard = (components E).ncard) ∧
    (Occurs E x → Occurs E y → ¬ Linked E x y → (components (E ++ [(x, y)])).ncard + 1 = (components E).ncard) ∧
    (¬ (Occurs E x ↔ Occurs E y) → (components (E ++ [(x, y)])).ncard = (components E).ncard) ∧
    (¬ Occurs E x → ¬ Occurs E y → (components (E ++ [(x, y)])).ncard = (components E).ncard + 1) := by
  obtain ⟨c, H⟩ := history_exists E
  obtain ⟨rep, I⟩ := history_inv H
  obtain ⟨c', h1, I', -, h3⟩ := inv_edge_count I x y
  obtain ⟨r1, r2, r3, r4⟩ := register_count I x y
  rw [← I.count_components, ← I'.count_components]
  have hl := I.linked x y
  refine ⟨fun a b l => ?_, fun a b l => ?_, fun a => ?_, fun a b => ?_⟩
  · rw [if_pos (hl.2 l), r1 a b] at h3
    omega
  · rw [if_neg (fun h => l (hl.1 h)), r1 a b] at h3
    omega
  · have hne : ¬ Linked E x y := by
      intro l
      rcases linked_occurs l with rfl | ⟨h, h'⟩
      · exact a Iff.rfl
      · exact a ⟨fun _ => h', fun _ => h⟩
    rw [if_neg (fun h => hne (hl.1 h))] at h3
    by_cases hx : Occurs E x
    · rw [r2 hx (fun hy => a ⟨fun _ => hy, fun _ => hx⟩)] at h3
      omega
    · have hy : Occurs E y := by
        by_contra hy
        exact a ⟨fun h => absurd h hx, fun h => absurd h hy⟩
      rw [r3 hx (.inl hy)] at h3
      omega
  · by_cases e : y = x
    · subst e
      rw [if_pos rfl, r3 a (.inr rfl)] at h3
      omega
    · rw [if_neg (fun h => e (linked_new a (hl.1 h)).symm), r4 a b e] at h3
      omega

theorem occurs_iff (E : List (Id m × Id m)) (x y n : Id m) :
    Occurs (E ++ [(x, y)]) n ↔ Occurs E n ∨ n = x ∨ n = y := by
  unfold Occurs
  simp only [List.mem_append, List.mem_singleton]
  constructor
  · rintro ⟨e, h | rfl, h'⟩
    · exact .inl ⟨e, h, h'⟩
    · exact .inr h'
  · rintro (⟨e, h, h'⟩ | h)
    · exact ⟨e, .inl h, h'⟩
    · exact ⟨(x, y), .inr rfl, h⟩

/-- The number of nodes that occur, with one more edge. -/
theorem occurs_snoc_card (E : List (Id m × Id m)) (x y : Id m) :
    {n | Occurs (E ++ [(x, y)]) n}.ncard + (components E).ncard =
      {n | Occurs E n}.ncard + (components (E ++ [(x, y)])).ncard + (open Classical in if Linked E x y then 0 else 1) := by
  obtain ⟨c1, c2, c3, c4⟩ := count_snoc E x y
  have key : {n | Occurs (E ++ [(x, y)]) n} = insert y (insert x {n | Occurs E n}) := by
    ext n
    simp only [Set.mem_ofPred_eq, Set.mem_insert_iff, occurs_iff]
    tauto
  rw [key]
  by_cases hx : Occurs E x <;> by_cases hy : Occurs E y
  · rw [Set.insert_eq_of_mem (a := y) (by simp [hy]), Set.insert_eq_of_mem (a := x) hx]
    by_cases l : Linked E x y
    · rw [if_pos l, c1 hx hy l]; omega
    · rw [if_neg l, ← c2 hx hy l]; omega
  · have hne : ¬ Linked E x y := fun l => by
      rcases linked_occurs l with rfl | h
      · exact hy hx
      · exact hy h.2
    rw [if_neg hne, Set.insert_eq_of_mem (a := x) hx, Set.ncard_insert_of_notMem (by exact hy) (Set.toFinite _),
      c3 (by tauto)]
    omega
  · have hne : ¬ Linked E x y := fun l => hx (by
      rcases linked_occurs l with rfl | h
      · exact hy
      · exact h.1)
    rw [if_neg hne, Set.insert_eq_of_mem (a := y) (by simp [hy]),
      Set.ncard_insert_of_notMem (by exact hx) (Set.toFinite _), c3 (by tauto)]
    omega
  · by_cases e : y = x
    · subst e
      rw [if_pos (linked_refl _ _), Set.insert_eq_of_mem (a := y) (by simp),
        Set.ncard_insert_of_notMem (by exact hx) (Set.toFinite _), c4 hx hy]
      omega
    · rw [if_neg (fun l => e (linked_new hx l).symm), Set.ncard_insert_of_notMem (by simp [hy, e]) (Set.toFinite _),
        Set.ncard_insert_of_notMem (by exact hx) (Set.toFinite _), c4 hx hy]
      omega

/-- The positions of the edges whose ends were not linked by the edges before. -/
def joins (E : List (Id m × Id m)) : Set Nat :=
  {i | ∃ x y, E[i]? = some (x, y) ∧ ¬ Linked (E.take i) x y}

theorem joins_finite (E : List (Id m × Id m)) : (joins E).Finite := by
  refine (Set.finite_lt_nat E.length).subset ?_
  rintro i ⟨x, y, h, -⟩
  exact (List.getElem?_eq_some_iff.1 h).1

theorem joins_snoc (E : List (Id m × Id m)) (x y : Id m) :
    (joins (E ++ [(x, y)])).ncard = (joins E).ncard + (open Classical in if Linked E x y then 0 else 1) := by
  have hlt : ∀ i, i < E.length → (i ∈ joins (E ++ [(x, y)]) ↔ i ∈ joins E) := by
    intro i hi
    unfold joins
    simp only [Set.mem_ofPred_eq]
    rw [List.getElem?_append_left hi, List.take_append_of_le_length (le_of_lt hi)]
  have hbound : ∀ i ∈ joins E, i < E.length := by
    rintro i ⟨a, b, h, -⟩
    exact (List.getElem?_eq_some_iff.1 h).1
  have hb' : ∀ i ∈ joins (E ++ [(x, y)]), i < E.length ∨ i = E.length := by
    rintro i ⟨a, b, h, -⟩
    have := (List.getElem?_eq_some_iff.1 h).1
    simp at this
    omega
  have hlast : E.length ∈ joins (E ++ [(x, y)]) ↔ ¬ Linked E x y := by
    unfold joins
    simp
  by_cases l : Linked E x y
  · rw [if_pos l]
    congr 1
    ext i
    constructor
    · intro h
      rcases hb' i h with h' | rfl
      · exact (hlt i h').1 h
      · exact absurd l (hlast.1 h)
    · intro h
      exact (hlt i (hbound i h)).2 h
  · rw [if_neg l, ← Set.ncard_insert_of_notMem (a := E.length) (fun h => lt_irrefl _ (hbound _ h)) (joins_finite E)]
    congr 1
    ext i
    rw [Set.mem_insert_iff]
    constructor
    · intro h
      rcases hb' i h with h' | rfl
      · exact .inr ((hlt i h').1 h)
      · exact .inl rfl
    · rintro (rfl | h)
      · exact hlast.2 l
      · exact (hlt i (hbound i h)).2 h

theorem occurs_joins (E : List (Id m × Id m)) :
    {n | Occurs E n}.ncard = (components E).ncard + (joins E).ncard := by
  induction E using List.reverseRecOn with
  | nil =>
    have h1 : {n : Id m | Occurs [] n} = ∅ := by ext n; simp [Occurs]
    have h2 : components ([] : List (Id m × Id m)) = ∅ := by ext n; simp [components, Occurs]
    have h3 : joins ([] : List (Id m × Id m)) = ∅ := by ext n; simp [joins]
    rw [h1, h2, h3]
    simp
  | append_singleton E e ih =>
    have h1 := occurs_snoc_card E e.1 e.2
    have h2 := joins_snoc E e.1 e.2
    have he : (e.1, e.2) = e := rfl
    rw [he] at h1 h2
    omega

theorem joins_le (E : List (Id m × Id m)) : (joins E).ncard ≤ E.length := by
  have : joins E ⊆ {i | i < E.length} := by
    rintro i ⟨a, b, h, -⟩
    exact (List.getElem?_eq_some_iff.1 h).1
  have h1 := Set.ncard_le_ncard this (Set.finite_lt_nat _)
  have h2 : {i | i < E.length}.ncard = E.length := by
    rw [show {i | i < E.length} = ↑(Finset.range E.length) by ext; simp, Set.ncard_coe_finset, Finset.card_range]
  omega

theorem joins_all {E : List (Id m × Id m)} : (joins E).ncard = E.length ↔ ∀ i x y, E[i]? = some (x, y) →
    ¬ Linked (E.take i) x y := by
  have hsub : joins E ⊆ {i | i < E.length} := by
    rintro i ⟨a, b, h, -⟩
    exact (List.getElem?_eq_some_iff.1 h).1
  have h2 : {i | i < E.length}.ncard = E.length := by
    rw [show {i | i < E.length} = ↑(Finset.range E.length) by ext; simp, Set.ncard_coe_finset, Finset.card_range]
  constructor
  · intro h i x y hi
    have := Set.eq_of_subset_of_ncard_le hsub (by rw [h2, h]) (Set.finite_lt_nat _)
    have hm : i ∈ joins E := by
      rw [this]
      exact (List.getElem?_eq_some_iff.1 hi).1
    obtain ⟨a, b, e1, e2⟩ := hm
    rw [hi] at e1
    cases e1
    exact e2
  · intro h
    have : joins E = {i | i < E.length} := by
      refine Set.Subset.antisymm hsub (fun i hi => ?_)
      have hi : i < E.length := hi
      exact ⟨E[i].1, E[i].2, List.getElem?_eq_getElem hi, h i _ _ (List.getElem?_eq_getElem hi)⟩
    rw [this, h2]

/-- The number of components depends on the edges only. -/
theorem components_ext {E E' : List (Id m × Id m)} (h : SameEdges E E') : components E = components E' := by
  ext C
  unfold components component
  simp only [Set.mem_ofPred_eq, occurs_ext h, linked_ext h]

/-- An edge whose ends the other edges link already closes a cycle. -/
theorem forest_iff (E : List (Id m × Id m)) :
    {n | Occurs E n}.ncard = (components E).ncard + E.length ↔
      ∀ i x y, E[i]? = some (x, y) → ¬ Linked (E.eraseIdx i) x y := by
  rw [occurs_joins, Nat.add_left_cancel_iff, joins_all]
  constructor
  · intro h i x y hi l
    obtain ⟨hlt, hget⟩ := List.getElem?_eq_some_iff.1 hi
    have hp : E.Perm (E.eraseIdx i ++ [(x, y)]) := by
      have := List.getElem_cons_eraseIdx_perm hlt
      rw [hget] at this
      exact this.symm.trans (List.perm_append_singleton _ _).symm
    have hsame : SameEdges E (E.eraseIdx i ++ [(x, y)]) := fun a b => by rw [hp.mem_iff, hp.mem_iff]
    have h1 := occurs_joins E
    rw [joins_all.2 h] at h1
    have h2 := occurs_joins (E.eraseIdx i ++ [(x, y)])
    rw [← components_ext hsame, joins_snoc, if_pos l] at h2
    have h3 : {n | Occurs E n} = {n | Occurs (E.eraseIdx i ++ [(x, y)]) n} := by
      ext n
      exact occurs_ext hsame n
    rw [← h3] at h2
    have h4 := joins_le (E.eraseIdx i)
    have h5 := hp.length_eq
    simp only [List.length_append, List.length_singleton] at h5
    omega
  · intro h i x y hi l
    refine h i x y hi (linked_mono (fun e he => ?_) l)
    rw [List.eraseIdx_eq_take_drop_succ]
    exact List.mem_append_left _ he

theorem eraseIdx_nodup {E : List (Id m × Id m)} (hn : E.Nodup) {i : Nat} {e : Id m × Id m} (hi : E[i]? = some e) :
    E.eraseIdx i = E.erase e := by
  obtain ⟨hlt, rfl⟩ := List.getElem?_eq_some_iff.1 hi
  exact (hn.erase_getElem i hlt).symm

/-- Linked by the other edges. -/
theorem linked_erase {g : GView m k NL EL} {A : AGraph (Id m) NL EL} (S : Shows g A) {s t : Id m}
    (he : (s, t) ∈ g.edgeIndices) (a b : Id m) : Linked (g.edgeIndices.erase (s, t)) a b ↔
      Relation.EqvGen (fun a b => (A.edge a b).isSome ∧ ¬ AGraph.same g.directed s t a b) a b := by
  have hst := (S.memEdges s t).1 he
  constructor
  · refine Relation.EqvGen.mono (fun a b hab => ?_) _ _
    obtain ⟨h1, h2⟩ := (S.edgesNodup.mem_erase_iff).1 hab
    have hl := (S.memEdges a b).1 h2
    refine ⟨hl.1, ?_⟩
    rintro (⟨rfl, rfl⟩ | ⟨hd, rfl, rfl⟩)
    · exact h1 rfl
    · have e1 := hl.2.resolve_left (by rw [hd]; simp)
      have e2 := hst.2.resolve_left (by rw [hd]; simp)
      exact h1 (by rw [le_antisymm e1 e2])
  · intro h
    induction h with
    | refl a => exact linked_refl _ _
    | symm a b _ ih => exact linked_symm ih
    | trans a b c _ _ ih1 ih2 => exact linked_trans ih1 ih2
    | rel a b hab =>
      have mem : ∀ x y, (x, y) ∈ g.edgeIndices → ¬ (x = s ∧ y = t) → (x, y) ∈ g.edgeIndices.erase (s, t) :=
        fun x y h1 h2 => (S.edgesNodup.mem_erase_iff).2 ⟨fun h => h2 (by cases h; exact ⟨rfl, rfl⟩), h1⟩
      have hns : ¬ (a = s ∧ b = t) := fun h => hab.2 (.inl h)
      cases hd : g.directed with
      | true => exact linked_edge (mem a b ((S.memEdges a b).2 ⟨hab.1, .inl hd⟩) hns)
      | false =>
        rcases edge_listed S hab.1 with h | h
        · exact linked_edge (mem a b h hns)
        · exact linked_symm (linked_edge (mem b a h (fun h => hab.2 (.inr ⟨hd, h.2, h.1⟩))))

theorem linked_snoc (E : List (Id m × Id m)) (u v a b : Id m) :
    Linked (E ++ [(u, v)]) a b ↔ Linked E a b ∨ (Linked E a u ∧ Linked E v b) ∨ (Linked E a v ∧ Linked E u b) := by
  have hm : ∀ {x y}, Linked E x y → Linked (E ++ [(u, v)]) x y :=
    fun h => linked_mono (fun e he => List.mem_append_left _ he) h
  have huv : Linked (E ++ [(u, v)]) u v := linked_edge (by simp)
  constructor
  · intro h
    obtain ⟨c, H⟩ := history_exists E
    obtain ⟨rep, I⟩ := history_inv H
    have := (linked_join I.linked u v a b).2 h
    simp only [← I.linked]
    split at this <;> split at this <;> grind
  · rintro (h | ⟨h, h'⟩ | ⟨h, h'⟩)
    · exact hm h
    · exact linked_trans (hm h) (linked_trans huv (hm h'))
    · exact linked_trans (hm h) (linked_trans (linked_symm huv) (hm h'))

theorem mem_either {g : GView m k NL EL} {A : AGraph (Id m) NL EL} (S : Shows g A) (a b : Id m) :
    ((a, b) ∈ g.edgeIndices ∨ (b, a) ∈ g.edgeIndices) ↔ ((A.edge a b).isSome ∨ (A.edge b a).isSome) := by
  constructor
  · rintro (h | h)
    · exact .inl ((S.memEdges _ _).1 h).1
    · exact .inr ((S.memEdges _ _).1 h).1
  · rintro (h | h)
    · exact edge_listed S h
    · exact (edge_listed S h).symm

theorem same_add {g g' : GView m k NL EL} {A A' : AGraph (Id m) NL EL} (S : Shows g A) (S' : Shows g' A')
    {d : Bool} {u v : Id m} (h : ∀ a b, (A'.edge a b).isSome ↔ (A.edge a b).isSome ∨ AGraph.same d u v a b) :
    SameEdges g'.edgeIndices (g.edgeIndices ++ [(u, v)]) := by
  intro a b
  rw [mem_either S', h, h]
  have := mem_either S a b
  simp only [List.mem_append, List.mem_singleton, Prod.mk.injEq]
  unfold AGraph.same
  tauto

theorem same_kept {g g' : GView m k NL EL} {A A' : AGraph (Id m) NL EL} (S : Shows g A) (S' : Shows g' A')
    (h : ∀ a b, (A'.edge a b).isSome ↔ (A.edge a b).isSome) : SameEdges g'.edgeIndices g.edgeIndices := by
  intro a b
  rw [mem_either S', mem_either S, h, h]

variable [DecidableEq NL] [DecidableEq EL]

open GraphMap

theorem edge_shape {g g' : GraphMap m k NL EL} (hg : Reachable g) {op : Op m k NL EL} (h : g.apply op = .ok g')
    (a b : Id m) : (g'.abs.edge a b).isSome = ((Spec.step g.directed g.decode op).edge a b).isSome := by
  rw [abs_edge_isSome (Reachable.step hg h).inv, hasEdge_eq_outE]
  exact (refines_apply hg.inv h).shape.2 a b

theorem decode_edge {g : GraphMap m k NL EL} (hg : Reachable g) (a b : Id m) :
    (g.decode.edge a b).isSome = (g.abs.edge a b).isSome := by
  rw [abs_edge_isSome hg.inv, hasEdge_eq_outE]
  exact ((shape_decode g).2 a b).symm

theorem edge_add {g g' : GraphMap m k NL EL} (hg : Reachable g) {u v : Id m} {l : Option EL}
    (h : g.apply (.addEdge u v l) = .ok g') (a b : Id m) :
    (g'.abs.edge a b).isSome ↔ (g.abs.edge a b).isSome ∨ AGraph.same g.directed u v a b := by
  rw [edge_shape hg h, ← decode_edge hg]
  simp only [Spec.step, AGraph.addEdge]
  split <;> simp [*]

theorem edge_remove {g g' : GraphMap m k NL EL} (hg : Reachable g) {u v : Id m} (huv : g.hasEdge u v = true)
    (h : g.apply (.removeEdge u v) = .ok g') (a b : Id m) :
    (g.abs.edge a b).isSome ↔ (g'.abs.edge a b).isSome ∨ AGraph.same g.directed u v a b := by
  rw [edge_shape hg h, ← decode_edge hg]
  simp only [Spec.step, AGraph.removeEdge]
  split
  · rename_i hs
    simp only [hs, or_true, iff_true]
    rw [decode_edge hg]
    rcases hs with ⟨rfl, rfl⟩ | ⟨hd, rfl, rfl⟩
    · rw [abs_edge_isSome hg.inv]; exact huv
    · rw [(inv_shows hg.inv).sym hd, abs_edge_isSome hg.inv]; exact huv
  · rename_i hs
    simp [hs]

theorem edge_kept {g g' : GraphMap m k NL EL} (hg : Reachable g) {op : Op m k NL EL}
    (hop : (∃ n l, op = .addNode n l) ∨ (∃ n l, op = .updateNodeLabel n l) ∨ (∃ u v l, op = .updateEdgeLabel u v l))
    (h : g.apply op = .ok g') (a b : Id m) : (g'.abs.edge a b).isSome ↔ (g.abs.edge a b).isSome := by
  rw [edge_shape hg h, ← decode_edge hg]
  rcases hop with ⟨n, l, rfl⟩ | ⟨n, l, rfl⟩ | ⟨u, v, l, rfl⟩
  · rfl
  · simp only [Spec.step, AGraph.updateNodeLabel]
    split <;> rfl
  · simp only [Spec.step, AGraph.updateEdgeLabel]
    split
    · rename_i hs
      simp only
      split
      · rename_i hq
        rw [decode_edge hg] at hs ⊢
        rcases hq with ⟨rfl, rfl⟩ | ⟨hd, rfl, rfl⟩
        · simp [hs]
        · rw [(inv_shows hg.inv).sym hd]; simp [hs]
      · rfl
    · rfl

end Verif.Cycles
