import Verif.Props.Uniform
import Mathlib.Algebra.BigOperators.Ring.Finset
import Mathlib.Data.Finset.Powerset

/-! C185: chances of edges and mean degrees of random graphs. Draws are equally likely, so outcomes are counted. -/

namespace Verif.Props

open Spec Gen

variable {m k : Nat} {NL EL : Type} [DecidableEq NL] [DecidableEq EL]

/-- The call returns a graph in which every pair of `S` is an edge. -/
def HasAll (x : Res (GraphMap m k NL EL × Rng)) (S : Finset (Nat × Nat)) : Prop :=
  ∃ g r, x = .ok (g, r) ∧ ∀ q ∈ S, g.hasEdge (Id.new q.1) (Id.new q.2) = true

/-- All pairs that can be edges. -/
def allPairs (d : Bool) (n : Nat) : Finset (Nat × Nat) := (completeEdgePairs d n).toFinset

theorem allPairs_card (d : Bool) (n : Nat) : (allPairs d n).card = possibleEdges d n := by
  rw [allPairs, List.toFinset_card_of_nodup (pairs_nodup d n), pairs_length]

theorem edgeSet_iff {d : Bool} {n : Nat} {T : Finset (Nat × Nat)} : EdgeSet d n T ↔ T ⊆ allPairs d n := by
  constructor
  · rintro h ⟨a, b⟩ hq
    exact List.mem_toFinset.2 (mem_pairs.2 (h _ hq))
  · intro h q hq
    exact mem_pairs.1 (List.mem_toFinset.1 (h hq))

theorem hasAll_iff {d : Bool} {n : Nat} (hn : n ≤ m + 1) {S T : Finset (Nat × Nat)} (hS : EdgeSet d n S)
    (hT : EdgeSet d n T) {x : Res (GraphMap m k NL EL × Rng)} (h : Makes x d T) : HasAll x S ↔ S ⊆ T := by
  obtain ⟨g, r, rfl, h⟩ := h
  have key : ∀ q ∈ S, g.hasEdge (Id.new q.1) (Id.new q.2) = true ↔ q ∈ T := by
    rintro ⟨a, b⟩ hq
    obtain ⟨h1, h2, h3, h4⟩ := hS _ hq
    simp only at h1 h2 h3 h4
    have e1 : (Id.new a : Id m).val = a := Nat.mod_eq_of_lt (by omega)
    have e2 : (Id.new b : Id m).val = b := Nat.mod_eq_of_lt (by omega)
    rw [h, e1, e2]
    constructor
    · rintro (e | ⟨hd, e⟩)
      · exact e
      · exfalso
        obtain ⟨_, _, _, h5⟩ := hT _ e
        subst hd
        simp only [Bool.false_eq_true, false_or] at h4 h5
        omega
    · exact .inl
  constructor
  · rintro ⟨g', r', e, hq⟩ q hqS
    obtain ⟨rfl, -⟩ := Prod.mk.inj (Except.ok.inj e)
    exact (key q hqS).1 (hq q hqS)
  · intro hs
    exact ⟨g, r, rfl, fun q hq => (key q hq).2 (hs hq)⟩

theorem makes_unique {d : Bool} {n : Nat} (hn : n ≤ m + 1) {S T : Finset (Nat × Nat)} (hS : EdgeSet d n S)
    (hT : EdgeSet d n T) {x : Res (GraphMap m k NL EL × Rng)} (h : Makes x d S) (h' : Makes x d T) : S = T := by
  obtain ⟨g, r, rfl, h⟩ := h
  obtain ⟨g', r', e, h'⟩ := h'
  obtain ⟨rfl, -⟩ := Prod.mk.inj (Except.ok.inj e)
  exact pairs_determined hn hS hT (fun s t => by rw [← h, h'])

/-- The outcomes that have some edges, by the set of edges they have altogether. -/
theorem counted {W : Type} [Fintype W] {d : Bool} {n : Nat} (hn : n ≤ m + 1) {x : W → Res (GraphMap m k NL EL × Rng)}
    {𝒜 : Finset (Finset (Nat × Nat))} (h𝒜 : ∀ A ∈ 𝒜, EdgeSet d n A) (made : ∀ w, ∃ T ∈ 𝒜, Makes (x w) d T)
    {S : Finset (Nat × Nat)} (hS : EdgeSet d n S) :
    Nat.card {w // HasAll (x w) S} = ∑ A ∈ 𝒜.filter (S ⊆ ·), Nat.card {w // Makes (x w) d A} := by
  classical
  choose T hT hm using made
  rw [Nat.card_eq_fintype_card, Fintype.card_subtype,
    Finset.card_eq_sum_card_fiberwise (f := T) (t := 𝒜.filter (S ⊆ ·))]
  · refine Finset.sum_congr rfl fun A hA => ?_
    obtain ⟨hA1, hA2⟩ := Finset.mem_filter.1 hA
    rw [Nat.card_eq_fintype_card, Fintype.card_subtype, Finset.filter_filter]
    congr 1
    refine Finset.filter_congr fun w _ => ?_
    constructor
    · rintro ⟨-, rfl⟩; exact hm w
    · intro h
      have e := makes_unique hn (h𝒜 _ (hT w)) (h𝒜 _ hA1) (hm w) h
      exact ⟨(hasAll_iff hn hS (h𝒜 _ hA1) h).2 hA2, e⟩
  · intro w hw
    have := (Finset.mem_filter.1 hw).2
    exact Finset.mem_coe.2 (Finset.mem_filter.2 ⟨hT w, (hasAll_iff hn hS (h𝒜 _ (hT w)) (hm w)).1 this⟩)

theorem edgeSet_of {d : Bool} {n : Nat} {qs : List (Nat × Nat)} (hq : Simple d n qs) : EdgeSet d n qs.toFinset :=
  fun q hq' => mem_pairs.1 (hq.2 q (List.mem_toFinset.1 hq'))

theorem gnm_makes (d : Bool) {n c : Nat} (hn : n ≤ m + 1) (hc : c ≤ possibleEdges d n) (nl : List NL)
    (el : List EL) (r : Rng) : ∃ T ∈ (allPairs d n).powersetCard c,
      Makes (gnm d n c nl el r : Res (GraphMap m k NL EL × Rng)) d T ∧
      ∃ (g : GraphMap m k NL EL) (r' : Rng), gnm d n c nl el r = .ok (g, r') ∧ Generated d n T.card nl el g g.abs := by
  obtain ⟨g, r', h1, H⟩ := emptyGraph_ok (m := m) (k := k) d n nl el r
  obtain ⟨qs, r2, s1, s2, s3, s4⟩ := sampleIter_ok r' (pairs_nodup d n) (c := c) (by rwa [pairs_length])
  obtain ⟨g2, r3, h2, H2⟩ := addEdges_ok qs [] g r2 H (fun p hp => pairs_ends p (s4 p hp))
  rw [List.nil_append] at H2
  have hx : gnm d n c nl el r = .ok (g2, r3) := by
    unfold gnm
    simp only [h1, bind_ok, s1]
    exact h2
  refine ⟨qs.toFinset, ?_, (makes_of hn hx ⟨s3, s4⟩ H2 (edgeSet_of ⟨s3, s4⟩)).2 rfl, g2, r3, hx, ?_⟩
  swap
  · rw [List.toFinset_card_of_nodup s3]; exact (generated_of hn ⟨s3, s4⟩ H2).1
  rw [Finset.mem_powersetCard]
  exact ⟨edgeSet_iff.1 (edgeSet_of ⟨s3, s4⟩), by rw [List.toFinset_card_of_nodup s3, s2]⟩

theorem gnp_makes (d : Bool) {n : Nat} (hn : n ≤ m + 1) {p : ℚ} (h0 : 0 ≤ p) (h1 : p ≤ 1) (nl : List NL)
    (el : List EL) (r : Rng) : ∃ T ∈ (allPairs d n).powerset,
      Makes (gnp d n (.fin p) nl el r : Res (GraphMap m k NL EL × Rng)) d T ∧
      ∃ (g : GraphMap m k NL EL) (r' : Rng), gnp d n (.fin p) nl el r = .ok (g, r') ∧
        Generated d n T.card nl el g g.abs := by
  obtain ⟨g, r', e1, H⟩ := emptyGraph_ok (m := m) (k := k) d n nl el r
  obtain ⟨g2, r2, qs, h2, q1, q2, q3, H2⟩ := toss_ok (.fin p) (completeEdgePairs d n) [] g r' H pairs_ends
  rw [List.nil_append] at H2
  have hs : Simple d n qs := ⟨q1.nodup (pairs_nodup d n), fun _ h => q1.subset h⟩
  have hx : gnp d n (.fin p) nl el r = .ok (g2, r2) := by
    unfold gnp
    rw [if_neg (by rw [lt_zero_or, not_or]; exact ⟨not_lt.2 h0, not_lt.2 h1⟩)]
    simp only [e1, bind_ok]
    exact h2
  exact ⟨qs.toFinset, Finset.mem_powerset.2 (edgeSet_iff.1 (edgeSet_of hs)),
    (makes_of hn hx hs H2 (edgeSet_of hs)).2 rfl, g2, r2, hx,
    by rw [List.toFinset_card_of_nodup hs.1]; exact (generated_of hn hs H2).1⟩

theorem supersets_card {U S : Finset (Nat × Nat)} (h : S ⊆ U) {c : Nat} (hc : S.card ≤ c) :
    ((U.powersetCard c).filter (S ⊆ ·)).card = (U.card - S.card).choose (c - S.card) := by
  rw [← Finset.card_sdiff_of_subset h, ← Finset.card_powersetCard]
  refine Finset.card_bij' (fun T _ => T \ S) (fun R _ => R ∪ S) ?_ ?_ ?_ ?_
  · intro T hT
    obtain ⟨h1, h2⟩ := Finset.mem_filter.1 hT
    obtain ⟨h3, h4⟩ := Finset.mem_powersetCard.1 h1
    rw [Finset.mem_powersetCard]
    exact ⟨Finset.sdiff_subset_sdiff h3 (Finset.Subset.refl _), by rw [Finset.card_sdiff_of_subset h2, h4]⟩
  · intro R hR
    obtain ⟨h1, h2⟩ := Finset.mem_powersetCard.1 hR
    rw [Finset.mem_filter, Finset.mem_powersetCard]
    have hd : Disjoint R S := Finset.disjoint_of_subset_left h1 Finset.sdiff_disjoint
    refine ⟨⟨Finset.union_subset (h1.trans Finset.sdiff_subset) h, ?_⟩, Finset.subset_union_right⟩
    rw [Finset.card_union_of_disjoint hd]; omega
  · intro T hT
    exact Finset.sdiff_union_of_subset (Finset.mem_filter.1 hT).2
  · intro R hR
    obtain ⟨h1, h2⟩ := Finset.mem_powersetCard.1 hR
    have hd : Disjoint R S := Finset.disjoint_of_subset_left h1 Finset.sdiff_disjoint
    rw [Finset.union_sdiff_right, Finset.sdiff_eq_self_of_disjoint hd]

theorem supersets_sum {U S : Finset (Nat × Nat)} (h : S ⊆ U) (a b : Nat) :
    ∑ T ∈ U.powerset.filter (S ⊆ ·), a ^ T.card * b ^ (U.card - T.card) =
      a ^ S.card * (a + b) ^ (U.card - S.card) := by
  rw [← Finset.card_sdiff_of_subset h, ← Finset.sum_pow_mul_eq_add_pow, Finset.mul_sum]
  refine Finset.sum_bij' (fun T _ => T \ S) (fun R _ => R ∪ S) ?_ ?_ ?_ ?_ ?_
  · intro T hT
    obtain ⟨h1, h2⟩ := Finset.mem_filter.1 hT
    exact Finset.mem_powerset.2 (Finset.sdiff_subset_sdiff (Finset.mem_powerset.1 h1) (Finset.Subset.refl _))
  · intro R hR
    have h1 := Finset.mem_powerset.1 hR
    rw [Finset.mem_filter, Finset.mem_powerset]
    exact ⟨Finset.union_subset (h1.trans Finset.sdiff_subset) h, Finset.subset_union_right⟩
  · intro T hT
    exact Finset.sdiff_union_of_subset (Finset.mem_filter.1 hT).2
  · intro R hR
    have h1 := Finset.mem_powerset.1 hR
    have hd : Disjoint R S := Finset.disjoint_of_subset_left h1 Finset.sdiff_disjoint
    rw [Finset.union_sdiff_right, Finset.sdiff_eq_self_of_disjoint hd]
  · intro T hT
    obtain ⟨h1, h2⟩ := Finset.mem_filter.1 hT
    have l1 := Finset.card_le_card h2
    have l2 := Finset.card_le_card (Finset.mem_powerset.1 h1)
    rw [Finset.card_sdiff_of_subset h2, Finset.card_sdiff_of_subset h, ← mul_assoc, ← pow_add]
    congr 2 <;> omega

/-- **C185** `random_gnm_graph`: of the equally likely draws, the part that gives a graph with all the edges of `S`
(among `c` edges out of `N` possible ones) is `choose (N - |S|) (c - |S|) / choose N c`. -/
theorem c185_gnm_has (d : Bool) {n c : Nat} (hn : n ≤ m + 1) (hc : c ≤ possibleEdges d n) (nl : List NL)
    (el : List EL) (r : Rng) {S : Finset (Nat × Nat)} (hS : EdgeSet d n S) (hSc : S.card ≤ c) :
    Nat.card {w : (i : Fin (possibleEdges d n - c)) → Fin (c + i + 1) //
      HasAll (gnm d n c nl el (withWords r (if nl = [] then 0 else n) w) : Res (GraphMap m k NL EL × Rng)) S} *
        (possibleEdges d n).choose c =
      (possibleEdges d n - S.card).choose (c - S.card) *
        Nat.card ((i : Fin (possibleEdges d n - c)) → Fin (c + i + 1)) := by
  rw [counted (𝒜 := (allPairs d n).powersetCard c) hn
    (fun A hA => edgeSet_iff.2 (Finset.mem_powersetCard.1 hA).1) (fun w => have ⟨T, a, b, _⟩ := gnm_makes d hn hc nl el _; ⟨T, a, b⟩) hS,
    Finset.sum_mul]
  rw [Finset.sum_congr rfl fun A hA => ?_, Finset.sum_const, supersets_card (edgeSet_iff.1 hS) hSc, allPairs_card,
    smul_eq_mul]
  obtain ⟨h1, h2⟩ := Finset.mem_powersetCard.1 (Finset.mem_filter.1 hA).1
  exact c141_gnm_uniform d hn hc nl el r (edgeSet_iff.2 h1) h2

/-- **C185** `random_gnp_graph`: of the equally likely draws, the part that gives a graph with all the edges of `S` is
the part of the draws below `p`, to the power of `|S|`. -/
theorem c185_gnp_has (d : Bool) {n : Nat} (hn : n ≤ m + 1) {p : ℚ} (h0 : 0 ≤ p) (h1 : p ≤ 1)
    (nl : List NL) (el : List EL) (r : Rng) {D : Type} [Fintype D] (draw : D → Draw) {l : Nat}
    (hlen : n + 2 * possibleEdges d n ≤ l) {S : Finset (Nat × Nat)} (hS : EdgeSet d n S) :
    Nat.card {w : Fin l → D //
      HasAll (gnp d n (.fin p) nl el (withDraws r (fun i => draw (w i))) : Res (GraphMap m k NL EL × Rng)) S} *
        Fintype.card D ^ S.card = Nat.card {a // (draw a).unit < p} ^ S.card * Fintype.card D ^ l := by
  classical
  rw [counted (𝒜 := (allPairs d n).powerset) hn
    (fun A hA => edgeSet_iff.2 (Finset.mem_powerset.1 hA)) (fun w => have ⟨T, a, b, _⟩ := gnp_makes d hn h0 h1 nl el _; ⟨T, a, b⟩) hS]
  have hab : Nat.card {a // (draw a).unit < p} + Nat.card {a // ¬ (draw a).unit < p} = Fintype.card D := by
    rw [Nat.card_eq_fintype_card, Nat.card_eq_fintype_card]
    rw [Fintype.card_subtype_compl]
    have := Fintype.card_subtype_le (fun a => (draw a).unit < p)
    omega
  have hle := Finset.card_le_card (edgeSet_iff.1 hS)
  rw [allPairs_card] at hle
  rw [Finset.sum_congr rfl fun A hA => c141_gnp_independent d hn h0 h1 nl el r draw hlen
      (edgeSet_iff.2 (Finset.mem_powerset.1 (Finset.mem_filter.1 hA).1)), ← Finset.sum_mul, ← allPairs_card,
    supersets_sum (edgeSet_iff.1 hS), hab, allPairs_card, mul_assoc, mul_assoc, ← pow_add, ← pow_add]
  congr 2
  omega

/-- The pair that stands for the edge between two nodes. -/
def asPair (d : Bool) (s t : Nat) : Nat × Nat := if d = true ∨ s < t then (s, t) else (t, s)

theorem asPair_edgeSet (d : Bool) {n s t : Nat} (hs : s < n) (ht : t < n) (hne : s ≠ t) :
    EdgeSet d n {asPair d s t} := by
  intro q hq
  obtain rfl := Finset.mem_singleton.1 hq
  unfold asPair
  split
  · next h => exact ⟨hs, ht, hne, h⟩
  · next h => exact ⟨ht, hs, hne.symm, .inr (by simp only [not_or] at h; simp only; omega)⟩

/-- The call returns a graph with an edge from `s` to `t`. -/
def Joins (x : Res (GraphMap m k NL EL × Rng)) (s t : Id m) : Prop :=
  ∃ g r, x = .ok (g, r) ∧ g.hasEdge s t = true

theorem joins_iff {d : Bool} {T : Finset (Nat × Nat)} {x : Res (GraphMap m k NL EL × Rng)} (h : Makes x d T)
    {s t : Id m} : Joins x s t ↔ HasAll x {asPair d s.val t.val} := by
  obtain ⟨g, r, rfl, h⟩ := h
  have e : ∀ a : Id m, (Id.new a.val : Id m) = a := fun a => Fin.ext (Nat.mod_eq_of_lt a.isLt)
  have key : g.hasEdge s t = true ↔
      g.hasEdge (Id.new (asPair d s.val t.val).1) (Id.new (asPair d s.val t.val).2) = true := by
    unfold asPair
    split
    · rw [e, e]
    · next hn =>
      simp only [not_or, Bool.not_eq_true] at hn
      rw [e, e, h, h]
      constructor
      · rintro (a | ⟨_, a⟩)
        · exact .inr ⟨hn.1, a⟩
        · exact .inl a
      · rintro (a | ⟨_, a⟩)
        · exact .inr ⟨hn.1, a⟩
        · exact .inl a
  constructor
  · rintro ⟨g', r', e', h'⟩
    obtain ⟨rfl, -⟩ := Prod.mk.inj (Except.ok.inj e')
    exact ⟨g, r, rfl, fun q hq => by rw [Finset.mem_singleton.1 hq]; exact key.1 h'⟩
  · rintro ⟨g', r', e', h'⟩
    obtain ⟨rfl, -⟩ := Prod.mk.inj (Except.ok.inj e')
    exact ⟨g, r, rfl, key.2 (h' _ (Finset.mem_singleton_self _))⟩

/-- **C185** `random_gnm_graph`: two nodes are joined with chance `c / N`. -/
theorem c185_gnm_edge (d : Bool) {n c : Nat} (hn : n ≤ m + 1) (hc : c ≤ possibleEdges d n) (nl : List NL)
    (el : List EL) (r : Rng) {s t : Id m} (hs : s.val < n) (ht : t.val < n) (hne : s ≠ t) :
    Nat.card {w : (i : Fin (possibleEdges d n - c)) → Fin (c + i + 1) //
      Joins (gnm d n c nl el (withWords r (if nl = [] then 0 else n) w) : Res (GraphMap m k NL EL × Rng)) s t} *
        possibleEdges d n = c * Nat.card ((i : Fin (possibleEdges d n - c)) → Fin (c + i + 1)) := by
  have hS := asPair_edgeSet d hs ht (fun e => hne (Fin.ext e))
  have e0 : ∀ w : (i : Fin (possibleEdges d n - c)) → Fin (c + i + 1),
      Joins (gnm d n c nl el (withWords r (if nl = [] then 0 else n) w) : Res (GraphMap m k NL EL × Rng)) s t ↔
      HasAll (gnm d n c nl el (withWords r (if nl = [] then 0 else n) w) : Res (GraphMap m k NL EL × Rng))
        {asPair d s.val t.val} := fun w => by
    obtain ⟨T, -, hT, -⟩ := gnm_makes (m := m) (k := k) d hn hc nl el (withWords r (if nl = [] then 0 else n) w)
    exact joins_iff hT
  rw [Nat.card_congr (Equiv.subtypeEquivRight e0)]
  rcases Nat.eq_zero_or_pos c with rfl | hpos
  · rw [counted (𝒜 := (allPairs d n).powersetCard 0) hn
      (fun A hA => edgeSet_iff.2 (Finset.mem_powersetCard.1 hA).1)
      (fun w => have ⟨T, a, b, _⟩ := gnm_makes d hn hc nl el _; ⟨T, a, b⟩) hS]
    simp
  · have h := c185_gnm_has (m := m) (k := k) d hn hc nl el r hS (by rw [Finset.card_singleton]; exact hpos)
    rw [Finset.card_singleton] at h
    obtain ⟨c', rfl⟩ : ∃ c', c = c' + 1 := ⟨c - 1, by omega⟩
    obtain ⟨N', hN⟩ : ∃ N', possibleEdges d n = N' + 1 := ⟨possibleEdges d n - 1, by omega⟩
    have hch := Nat.add_one_mul_choose_eq N' c'
    have hp : 0 < N'.choose c' := Nat.choose_pos (by omega)
    revert h
    generalize Nat.card {w : (i : Fin (possibleEdges d n - (c' + 1))) → Fin (c' + 1 + i + 1) // _} = X
    generalize Nat.card ((i : Fin (possibleEdges d n - (c' + 1))) → Fin (c' + 1 + i + 1)) = W
    intro h
    rw [hN] at h ⊢
    simp only [Nat.add_sub_cancel] at h
    apply Nat.eq_of_mul_eq_mul_left hp
    calc N'.choose c' * (X * (N' + 1)) = X * ((N' + 1) * N'.choose c') := by ring
      _ = X * (N' + 1).choose (c' + 1) * (c' + 1) := by rw [hch]; ring
      _ = N'.choose c' * ((c' + 1) * W) := by rw [h]; ring

/-- **C185** `random_gnp_graph`: two nodes are joined with the chance that a draw is below `p`. -/
theorem c185_gnp_edge (d : Bool) {n : Nat} (hn : n ≤ m + 1) {p : ℚ} (h0 : 0 ≤ p) (h1 : p ≤ 1)
    (nl : List NL) (el : List EL) (r : Rng) {D : Type} [Fintype D] (draw : D → Draw) {l : Nat}
    (hlen : n + 2 * possibleEdges d n ≤ l) {s t : Id m} (hs : s.val < n) (ht : t.val < n) (hne : s ≠ t) :
    Nat.card {w : Fin l → D //
      Joins (gnp d n (.fin p) nl el (withDraws r (fun i => draw (w i))) : Res (GraphMap m k NL EL × Rng)) s t} *
        Fintype.card D = Nat.card {a // (draw a).unit < p} * Fintype.card D ^ l := by
  have hS := asPair_edgeSet d hs ht (fun e => hne (Fin.ext e))
  have h := c185_gnp_has (m := m) (k := k) d hn h0 h1 nl el r draw hlen hS
  rw [Finset.card_singleton, pow_one, pow_one] at h
  rw [← h]
  congr 1
  refine Nat.card_congr (Equiv.subtypeEquivRight fun w => ?_)
  obtain ⟨T, -, hT, -⟩ := gnp_makes (m := m) (k := k) d hn h0 h1 nl el (withDraws r (fun i => draw (w i)))
  exact joins_iff hT

/-! ### Degrees -/

theorem degree_joins {d : Bool} {n c : Nat} {nl : List NL} {el : List EL} {g : GraphMap m k NL EL}
    {A : AGraph (Id m) NL EL} (h : Generated d n c nl el g A) {s : Id m} (hs : s.val < n) :
    g.degree s = .ok (Finset.univ.filter (fun t => g.hasEdge s t = true)).card := by
  obtain ⟨h1, h2, h3, h4, h5, -⟩ := h
  obtain ⟨l, l1, l2, l3, l4⟩ := h2.neighbors s ((h4 s).2 hs)
  have : g.degree s = .ok l.length := l4
  rw [this, ← List.toFinset_card_of_nodup (l2.imp fun h => ne_of_lt h)]
  congr 2
  ext t
  have h6 := h2.hasEdge s t ((h4 s).2 hs)
  have h7 : g.hasEdge s t = (A.edge s t).isSome := Except.ok.inj h6
  rw [List.mem_toFinset, l3, Finset.mem_filter, h7]
  simp

/-- The degrees of a node over all outcomes, given how often it is joined to each other node. -/
theorem degrees_sum {W : Type} [Fintype W] {d : Bool} {n : Nat} (hn : n ≤ m + 1) {nl : List NL} {el : List EL}
    {x : W → Res (GraphMap m k NL EL × Rng)} (hx : ∀ w, ∃ g r c, x w = .ok (g, r) ∧ Generated d n c nl el g g.abs)
    {s : Id m} (hs : s.val < n) {X Y : Nat}
    (hj : ∀ t : Id m, t.val < n → s ≠ t → Nat.card {w // Joins (x w) s t} * X = Y) :
    ∃ f : W → Nat, (∀ w, ∃ g r, x w = .ok (g, r) ∧ g.degree s = .ok (f w)) ∧ (∑ w, f w) * X = (n - 1) * Y := by
  classical
  choose g r c h1 h2 using hx
  have hjo : ∀ w t, Joins (x w) s t ↔ (g w).hasEdge s t = true := by
    intro w t
    constructor
    · rintro ⟨g', r', e, h⟩
      rw [h1] at e
      obtain ⟨rfl, -⟩ := Prod.mk.inj (Except.ok.inj e)
      exact h
    · exact fun h => ⟨_, _, h1 w, h⟩
  refine ⟨fun w => (Finset.univ.filter (fun t => (g w).hasEdge s t = true)).card,
    fun w => ⟨g w, r w, h1 w, degree_joins (h2 w) hs⟩, ?_⟩
  have e1 : ∑ w, (Finset.univ.filter (fun t => (g w).hasEdge s t = true)).card =
      ∑ t : Id m, Nat.card {w // Joins (x w) s t} := by
    simp only [Finset.card_filter]
    rw [Finset.sum_comm]
    refine Finset.sum_congr rfl fun t _ => ?_
    rw [Nat.card_congr (Equiv.subtypeEquivRight fun w => hjo w t), Nat.card_eq_fintype_card, Fintype.card_subtype,
      Finset.card_filter]
  rw [e1, Finset.sum_mul]
  have e2 : ∀ t : Id m, Nat.card {w // Joins (x w) s t} * X = if t.val < n ∧ s ≠ t then Y else 0 := by
    intro t
    split
    · next h => exact hj t h.1 h.2
    · next h =>
      have : IsEmpty {w // Joins (x w) s t} := by
        refine ⟨fun ⟨w, hw⟩ => h ?_⟩
        rw [hjo] at hw
        obtain ⟨a1, a2, a3, a4, a5, -⟩ := h2 w
        have h7 : (g w).hasEdge s t = ((g w).abs.edge s t).isSome := Except.ok.inj (a2.hasEdge s t ((a4 s).2 hs))
        rw [h7] at hw
        refine ⟨(a4 t).1 (a2.ends s t hw).2, ?_⟩
        rintro rfl
        rw [a5] at hw; cases hw
      rw [Nat.card_of_isEmpty, Nat.zero_mul]
  rw [Finset.sum_congr rfl fun t _ => e2 t, ← Finset.sum_filter, Finset.sum_const, smul_eq_mul]
  congr 1
  have e3 : (Finset.univ.filter (fun t : Id m => t.val < n ∧ s ≠ t)) =
      (Finset.univ.filter (fun t : Id m => t.val < n)).erase s := by
    ext t
    simp only [Finset.mem_filter, Finset.mem_univ, true_and, Finset.mem_erase]
    constructor
    · rintro ⟨a, b⟩; exact ⟨b.symm, a⟩
    · rintro ⟨a, b⟩; exact ⟨b, a.symm⟩
  rw [e3, Finset.card_erase_of_mem (by simpa using hs)]
  congr 1
  rw [Fin.card_filter_val_lt]
  omega

theorem possible_twice (n : Nat) : possibleEdges false n * 2 = n * (n - 1) := by
  unfold possibleEdges
  simp only [Bool.false_eq_true, if_false]
  exact Nat.div_mul_cancel (Nat.even_mul_pred_self n).two_dvd

/-- **C185** The mean degree of every node of `random_gnm_graph` is `2c/n`, `c/n` in a directed graph. -/
theorem c185_gnm_degree (d : Bool) {n c : Nat} (hn : n ≤ m + 1) (hc : c ≤ possibleEdges d n) (nl : List NL)
    (el : List EL) (r : Rng) {s : Id m} (hs : s.val < n) :
    ∃ f : ((i : Fin (possibleEdges d n - c)) → Fin (c + i + 1)) → Nat,
      (∀ w, ∃ (g : GraphMap m k NL EL) (r' : Rng),
        gnm d n c nl el (withWords r (if nl = [] then 0 else n) w) = .ok (g, r') ∧ g.degree s = .ok (f w)) ∧
      (∑ w, f w) * n = (if d then c else 2 * c) * Nat.card ((i : Fin (possibleEdges d n - c)) → Fin (c + i + 1)) := by
  have made : ∀ w : (i : Fin (possibleEdges d n - c)) → Fin (c + i + 1), ∃ (g : GraphMap m k NL EL) (r' : Rng) (c' : Nat),
      gnm d n c nl el (withWords r (if nl = [] then 0 else n) w) = .ok (g, r') ∧ Generated d n c' nl el g g.abs := by
    intro w
    obtain ⟨T, -, -, g, r', h1, h2⟩ := gnm_makes (m := m) (k := k) d hn hc nl el
      (withWords r (if nl = [] then 0 else n) w)
    exact ⟨g, r', _, h1, h2⟩
  rcases Nat.lt_or_ge n 2 with h2 | h2
  · obtain ⟨f, f1, f2⟩ := degrees_sum hn made hs (X := 1) (Y := 0) (fun t ht hne => by
      exfalso; exact hne (Fin.ext (by omega)))
    refine ⟨f, f1, ?_⟩
    have hN : possibleEdges d n = 0 := by
      obtain rfl : n = 1 := by omega
      cases d <;> rfl
    have hc0 : c = 0 := by omega
    rw [Nat.mul_one, Nat.mul_zero] at f2
    rw [f2, hc0]
    simp
  · obtain ⟨f, f1, f2⟩ := degrees_sum hn made hs (X := possibleEdges d n)
      (fun t ht hne => c185_gnm_edge d hn hc nl el r hs ht hne)
    refine ⟨f, f1, ?_⟩
    apply Nat.eq_of_mul_eq_mul_left (show 0 < n - 1 by omega)
    generalize (∑ w, f w) = F at f2 ⊢
    generalize Nat.card ((i : Fin (possibleEdges d n - c)) → Fin (c + i + 1)) = W at f2 ⊢
    cases d with
    | true =>
      simp only [if_true]
      rw [← f2]
      simp only [possibleEdges, if_true]
      ring
    | false =>
      have := possible_twice n
      simp only [Bool.false_eq_true, if_false]
      calc (n - 1) * (F * n) = F * (n * (n - 1)) := by ring
        _ = F * possibleEdges false n * 2 := by rw [← this]; ring
        _ = (n - 1) * (2 * c * W) := by rw [f2]; ring

/-- **C185** The mean degree of every node of `random_gnp_graph` is `n - 1` times the chance of an edge. -/
theorem c185_gnp_degree (d : Bool) {n : Nat} (hn : n ≤ m + 1) {p : ℚ} (h0 : 0 ≤ p) (h1 : p ≤ 1)
    (nl : List NL) (el : List EL) (r : Rng) {D : Type} [Fintype D] (draw : D → Draw) {l : Nat}
    (hlen : n + 2 * possibleEdges d n ≤ l) {s : Id m} (hs : s.val < n) :
    ∃ f : (Fin l → D) → Nat,
      (∀ w, ∃ (g : GraphMap m k NL EL) (r' : Rng),
        gnp d n (.fin p) nl el (withDraws r (fun i => draw (w i))) = .ok (g, r') ∧ g.degree s = .ok (f w)) ∧
      (∑ w, f w) * Fintype.card D = (n - 1) * (Nat.card {a // (draw a).unit < p} * Fintype.card D ^ l) := by
  classical
  obtain ⟨f, f1, f2⟩ := degrees_sum (m := m) (k := k) (d := d) hn (nl := nl) (el := el)
    (x := fun w : Fin l → D => gnp d n (.fin p) nl el (withDraws r (fun i => draw (w i))))
    (fun w => by
      obtain ⟨T, -, -, g, r', h1, h2⟩ := gnp_makes (m := m) (k := k) d hn h0 h1 nl el
        (withDraws r (fun i => draw (w i)))
      exact ⟨g, r', _, h1, h2⟩)
    hs (X := Fintype.card D) (fun t ht hne => c185_gnp_edge d hn h0 h1 nl el r draw hlen hs ht hne)
  exact ⟨f, f1, f2⟩

/-- **C185** The mean number of edges of `random_gnp_graph` is that of possible edges times the chance of one. -/
theorem c185_gnp_edges (d : Bool) {n : Nat} (hn : n ≤ m + 1) {p : ℚ} (h0 : 0 ≤ p) (h1 : p ≤ 1)
    (nl : List NL) (el : List EL) (r : Rng) {D : Type} [Fintype D] (draw : D → Draw) {l : Nat}
    (hlen : n + 2 * possibleEdges d n ≤ l) :
    ∃ f : (Fin l → D) → Nat,
      (∀ w, ∃ (g : GraphMap m k NL EL) (r' : Rng),
        gnp d n (.fin p) nl el (withDraws r (fun i => draw (w i))) = .ok (g, r') ∧ g.edgeCount = f w) ∧
      (∑ w, f w) * Fintype.card D = possibleEdges d n * (Nat.card {a // (draw a).unit < p} * Fintype.card D ^ l) := by
  classical
  have made := fun w : Fin l → D =>
    gnp_makes (m := m) (k := k) d hn h0 h1 nl el (withDraws r (fun i => draw (w i)))
  choose T hT hm g r' e1 e2 using made
  refine ⟨fun w => (T w).card, fun w => ⟨g w, r' w, e1 w, (e2 w).2.2.2.2.2.2.2.1⟩, ?_⟩
  have key : ∑ w, (T w).card = ∑ q ∈ allPairs d n, Nat.card {w : Fin l → D //
      HasAll (gnp d n (.fin p) nl el (withDraws r (fun i => draw (w i))) : Res (GraphMap m k NL EL × Rng)) {q}} := by
    have : ∀ w, (T w).card = ∑ q ∈ allPairs d n, if q ∈ T w then 1 else 0 := by
      intro w
      rw [← Finset.card_filter, Finset.filter_mem_eq_inter, Finset.inter_eq_right.2 (Finset.mem_powerset.1 (hT w))]
    simp only [this]
    rw [Finset.sum_comm]
    refine Finset.sum_congr rfl fun q hq => ?_
    rw [Nat.card_eq_fintype_card, Fintype.card_subtype, Finset.card_filter]
    refine Finset.sum_congr rfl fun w _ => ?_
    have hq' : EdgeSet d n {q} := edgeSet_iff.2 (Finset.singleton_subset_iff.2 hq)
    have := hasAll_iff hn hq' (edgeSet_iff.2 (Finset.mem_powerset.1 (hT w))) (hm w)
    rw [Finset.singleton_subset_iff] at this
    simp only [this]
  rw [key, Finset.sum_mul]
  have : ∀ q ∈ allPairs d n, Nat.card {w : Fin l → D //
      HasAll (gnp d n (.fin p) nl el (withDraws r (fun i => draw (w i))) : Res (GraphMap m k NL EL × Rng)) {q}} *
        Fintype.card D = Nat.card {a // (draw a).unit < p} * Fintype.card D ^ l := by
    intro q hq
    have h := c185_gnp_has (m := m) (k := k) d hn h0 h1 nl el r draw hlen
      (edgeSet_iff.2 (Finset.singleton_subset_iff.2 hq))
    rwa [Finset.card_singleton, pow_one, pow_one] at h
  rw [Finset.sum_congr rfl this, Finset.sum_const, smul_eq_mul, allPairs_card]

/-- Two edges among three nodes: two of the three draws join 0 and 1, one gives both edges of 0. -/
example (r : Rng) :
    Nat.card {w : (i : Fin (possibleEdges false 3 - 2)) → Fin (2 + i + 1) //
      Joins (gnm false 3 2 ["a"] ([] : List String) (withWords r 3 w) : Res (GraphMap 9 3 String String × Rng)) 0 1} = 2 ∧
    Nat.card {w : (i : Fin (possibleEdges false 3 - 2)) → Fin (2 + i + 1) //
      HasAll (gnm false 3 2 ["a"] ([] : List String) (withWords r 3 w) : Res (GraphMap 9 3 String String × Rng))
        {(0, 1), (0, 2)}} = 1 := by
  have h := c185_gnm_edge (m := 9) (k := 3) false (n := 3) (c := 2) (by decide) (by decide) ["a"] ([] : List String) r
    (s := 0) (t := 1) (by decide) (by decide) (by decide)
  have h' := c185_gnm_has (m := 9) (k := 3) false (n := 3) (c := 2) (by decide) (by decide) ["a"] ([] : List String) r
    (S := {(0, 1), (0, 2)}) (fun q hq => by
      simp only [Finset.mem_insert, Finset.mem_singleton] at hq
      rcases hq with rfl | rfl <;> decide) (by decide)
  rw [if_neg (by decide), Nat.card_eq_fintype_card (α := (i : Fin (possibleEdges false 3 - 2)) → Fin (2 + i + 1)),
    show Fintype.card ((i : Fin (possibleEdges false 3 - 2)) → Fin (2 + i + 1)) = 3 by decide] at h h'
  rw [show ({(0, 1), (0, 2)} : Finset (Nat × Nat)).card = 2 by decide,
    show (possibleEdges false 3).choose 2 = 3 by decide,
    show (possibleEdges false 3 - 2).choose (2 - 2) = 1 by decide] at h'
  replace h : _ * 3 = 2 * 3 := h
  exact ⟨by omega, by omega⟩

/-- With the draws of `quarters` the two nodes of a directed graph have a mean degree of three quarters. -/
example (r : Rng) : ∃ f : (Fin 6 → Fin 4) → Nat,
    (∀ w, ∃ (g : GraphMap 9 3 String String) (r' : Rng),
      gnp true 2 (.fin (3 / 4)) [] [] (withDraws r (fun i => quarters (w i))) = .ok (g, r') ∧ g.degree 0 = .ok (f w)) ∧
    (∑ w, f w) * 4 = 3 * 4 ^ 6 := by
  obtain ⟨f, f1, f2⟩ := c185_gnp_degree (m := 9) (k := 3) (NL := String) (EL := String) true (n := 2) (p := 3 / 4)
    (by decide) (by norm_num) (by norm_num) [] [] r quarters (l := 6) (by decide) (s := 0) (by decide)
  refine ⟨f, f1, ?_⟩
  rw [show Nat.card {a // (quarters a).unit < 3 / 4} = 3 by rw [Nat.card_eq_fintype_card]; decide +kernel,
    Fintype.card_fin] at f2
  omega

end Verif.Props
