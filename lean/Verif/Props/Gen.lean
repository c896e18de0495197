import Mathlib.Tactic.NormNum
import Verif.Proof.Gen

/-! C43–C45, C69, C71: graph generators, for every stream of random draws. -/

namespace Verif.Props

open Spec Gen

variable {m k : Nat} {NL EL : Type} [DecidableEq NL] [DecidableEq EL]

/-- The facts shared by all generated graphs: the nodes are `0..n-1`, no self loop, labels from the lists, and
`edge_count` exact, with `c` edges. -/
def Generated (d : Bool) (n c : Nat) (nl : List NL) (el : List EL) (g : GraphMap m k NL EL)
    (A : AGraph (Id m) NL EL) : Prop :=
  GraphMap.Reachable g ∧ Shows g.view A ∧ g.directed = d ∧
  (∀ x, (A.node x).isSome ↔ x.val < n) ∧ (∀ s, A.edge s s = none) ∧ A.LabelledFrom nl el ∧
  g.nodeCount = n ∧ g.edgeCount = c ∧ g.edgeIndices.length = c

theorem generated_of {d : Bool} {n : Nat} {nl : List NL} {el : List EL} {qs : List (Nat × Nat)}
    {g : GraphMap m k NL EL} (hn : n ≤ m + 1) (hq : Simple d n qs)
    (H : Holding d (SetMap.fromVec nl) (SetMap.fromVec el) ((List.range n).map Id.new)
      (qs.map (fun p => (Id.new p.1, Id.new p.2))) g) :
    Generated d n qs.length nl el g g.abs ∧
    ∀ s t : Id m, (g.abs.edge s t).isSome ↔ (s.val, t.val) ∈ qs ∨ (d = false ∧ (t.val, s.val) ∈ qs) := by
  obtain ⟨S, -, -, h4⟩ := H.shows
  obtain ⟨a1, a2, a3, a4, a5, a6⟩ := H.simple hn hq
  exact ⟨⟨H.reach, S, H.dir, a1, a3, h4, a4, a5, a6⟩, a2⟩

/-- **C43** `empty_graph(n)`. -/
theorem c43_empty_graph (d : Bool) {n : Nat} (hn : n ≤ m + 1) (nl : List NL) (el : List EL) (r : Rng) :
    ∃ (g : GraphMap m k NL EL) (r' : Rng) (A : AGraph (Id m) NL EL), emptyGraph d n nl el r = .ok (g, r') ∧
      Generated d n 0 nl el g A ∧ ∀ s t, A.edge s t = none := by
  obtain ⟨g, r', h1, H⟩ := emptyGraph_ok (m := m) (k := k) d n nl el r
  obtain ⟨h2, h3⟩ := generated_of (qs := []) hn ⟨List.nodup_nil, by simp⟩ H
  refine ⟨g, r', g.abs, h1, h2, fun s t => ?_⟩
  rw [← Option.not_isSome_iff_eq_none, h3]
  simp

/-- **C43** `complete_graph(n)`: an edge between every two distinct nodes. -/
theorem c43_complete_graph (d : Bool) {n : Nat} (hn : n ≤ m + 1) (nl : List NL) (el : List EL) (r : Rng) :
    ∃ (g : GraphMap m k NL EL) (r' : Rng) (A : AGraph (Id m) NL EL), completeGraph d n nl el r = .ok (g, r') ∧
      Generated d n (if d then n * (n - 1) else n * (n - 1) / 2) nl el g A ∧
      ∀ s t, (A.edge s t).isSome ↔ s.val < n ∧ t.val < n ∧ s ≠ t := by
  obtain ⟨g, r', h1, H⟩ := emptyGraph_ok (m := m) (k := k) d n nl el r
  obtain ⟨g2, r2, h2, H2⟩ := addEdges_ok (completeEdgePairs d n) [] g r' H pairs_ends
  rw [List.nil_append] at H2
  obtain ⟨h3, h4⟩ := generated_of hn ⟨pairs_nodup d n, fun _ h => h⟩ H2
  rw [pairs_length] at h3
  refine ⟨g2, r2, g2.abs, ?_, h3, fun s t => ?_⟩
  · unfold completeGraph
    rw [h1, bind_ok, h2]
  · rw [h4, mem_pairs, mem_pairs, show s ≠ t ↔ s.val ≠ t.val from not_congr Fin.ext_iff]
    cases d
    · simp only [Bool.false_eq_true, false_or, true_and]
      constructor
      · rintro (h | h) <;> omega
      · intro h; omega
    · simp only [true_or, and_true, Bool.true_eq_false, false_and, or_false]

/-- **C44** `random_gnm_graph(n, c)` with at most as many edges as possible: exactly `c` distinct edges. -/
theorem c44_gnm (d : Bool) {n c : Nat} (hn : n ≤ m + 1) (hc : c ≤ possibleEdges d n) (nl : List NL)
    (el : List EL) (r : Rng) :
    ∃ (g : GraphMap m k NL EL) (r' : Rng) (A : AGraph (Id m) NL EL), gnm d n c nl el r = .ok (g, r') ∧
      Generated d n c nl el g A := by
  obtain ⟨g, r', h1, H⟩ := emptyGraph_ok (m := m) (k := k) d n nl el r
  obtain ⟨qs, r2, s1, s2, s3, s4⟩ := sampleIter_ok r' (pairs_nodup d n) (c := c) (by rwa [pairs_length])
  obtain ⟨g2, r3, h2, H2⟩ := addEdges_ok qs [] g r2 H (fun p hp => pairs_ends p (s4 p hp))
  rw [List.nil_append] at H2
  obtain ⟨h3, -⟩ := generated_of hn ⟨s3, s4⟩ H2
  rw [s2] at h3
  refine ⟨g2, r3, g2.abs, ?_, h3⟩
  unfold gnm
  simp only [h1, bind_ok, s1]
  exact h2

/-- **C44** More edges than possible: the call panics. -/
theorem c44_gnm_too_many (d : Bool) {n c : Nat} (hc : possibleEdges d n < c) (nl : List NL) (el : List EL)
    (r : Rng) : (gnm d n c nl el r : Res (GraphMap m k NL EL × Rng)) = .error .explicit := by
  obtain ⟨g, r', h1, H⟩ := emptyGraph_ok (m := m) (k := k) d n nl el r
  unfold gnm
  simp only [h1, bind_ok, sampleIter_few r' (l := completeEdgePairs d n) (c := c) (by rwa [pairs_length])]

/-- What `p < 0` or `p > 1` says of a float that is a number. -/
theorem lt_zero_or {q : ℚ} : ((F32.fin q).lt (.fin 0) || (F32.fin 1).lt (.fin q)) = true ↔ q < 0 ∨ 1 < q := by
  simp [F32.lt]

theorem gnp_ok (d : Bool) {n : Nat} (hn : n ≤ m + 1) {p : F32}
    (hp : (p.lt (.fin 0) || (F32.fin 1).lt p) = false) (nl : List NL) (el : List EL) (r : Rng) :
    ∃ (g : GraphMap m k NL EL) (r' : Rng) (A : AGraph (Id m) NL EL) (c : Nat), gnp d n p nl el r = .ok (g, r') ∧
      Generated d n c nl el g A ∧
      ((∀ u : ℚ, 0 ≤ u → u < 1 → (F32.fin u).lt p = true) → c = possibleEdges d n ∧
        ∀ s t, (A.edge s t).isSome ↔ s.val < n ∧ t.val < n ∧ s ≠ t) ∧
      ((∀ u : ℚ, 0 ≤ u → u < 1 → (F32.fin u).lt p = false) → c = 0 ∧ ∀ s t, A.edge s t = none) := by
  obtain ⟨g, r', h1, H⟩ := emptyGraph_ok (m := m) (k := k) d n nl el r
  obtain ⟨g2, r2, qs, h2, q1, q2, q3, H2⟩ := toss_ok p (completeEdgePairs d n) [] g r' H pairs_ends
  rw [List.nil_append] at H2
  obtain ⟨h3, h4⟩ := generated_of hn ⟨q1.nodup (pairs_nodup d n), fun _ h => q1.subset h⟩ H2
  refine ⟨g2, r2, g2.abs, qs.length, ?_, h3, fun h => ?_, fun h => ?_⟩
  · unfold gnp
    rw [hp]
    simp only [Bool.false_eq_true, if_false, h1, bind_ok]
    exact h2
  · have e := q2 h
    subst e
    refine ⟨pairs_length d n, fun s t => ?_⟩
    rw [h4, mem_pairs, mem_pairs, show s ≠ t ↔ s.val ≠ t.val from not_congr Fin.ext_iff]
    cases d
    · simp only [Bool.false_eq_true, false_or, true_and]
      constructor
      · rintro (h | h) <;> omega
      · intro h; omega
    · simp only [true_or, and_true, Bool.true_eq_false, false_and, or_false]
  · have e := q3 h
    subst e
    refine ⟨rfl, fun s t => ?_⟩
    rw [← Option.not_isSome_iff_eq_none, h4]
    simp

/-- **C45** (partial: for a `p` that is a number; NaN is in C69). `random_gnp_graph(n, p)` with `p` in
`[0, 1]` is a simple graph, without edges for `p = 0` and complete for `p = 1`. -/
theorem c45_gnp_partial (d : Bool) {n : Nat} (hn : n ≤ m + 1) {p : ℚ} (h0 : 0 ≤ p) (h1 : p ≤ 1)
    (nl : List NL) (el : List EL) (r : Rng) :
    ∃ (g : GraphMap m k NL EL) (r' : Rng) (A : AGraph (Id m) NL EL) (c : Nat),
      gnp d n (.fin p) nl el r = .ok (g, r') ∧ Generated d n c nl el g A ∧
      (p = 0 → c = 0 ∧ ∀ s t, A.edge s t = none) ∧
      (p = 1 → c = possibleEdges d n ∧ ∀ s t, (A.edge s t).isSome ↔ s.val < n ∧ t.val < n ∧ s ≠ t) := by
  obtain ⟨g, r', A, c, a1, a2, a3, a4⟩ := gnp_ok (m := m) (k := k) d hn (p := .fin p)
    (by rw [← Bool.not_eq_true, lt_zero_or, not_or]; exact ⟨not_lt.2 h0, not_lt.2 h1⟩) nl el r
  refine ⟨g, r', A, c, a1, a2, fun h => a4 ?_, fun h => a3 ?_⟩
  · intro u hu _
    subst h
    simp only [F32.lt, decide_eq_false_iff_not, not_lt]
    exact hu
  · intro u _ hu
    subst h
    simp only [F32.lt, decide_eq_true_eq]
    exact hu

/-- **C45** Outside `[0, 1]`, infinities included, the call panics. -/
theorem c45_gnp_panics (d : Bool) (n : Nat) {p : F32}
    (hp : p = .negInf ∨ p = .posInf ∨ ∃ q : ℚ, p = .fin q ∧ (q < 0 ∨ 1 < q)) (nl : List NL) (el : List EL)
    (r : Rng) : (gnp d n p nl el r : Res (GraphMap m k NL EL × Rng)) = .error .explicit := by
  have : (p.lt (.fin 0) || (F32.fin 1).lt p) = true := by
    rcases hp with rfl | rfl | ⟨q, rfl, h⟩
    · rfl
    · rfl
    · exact lt_zero_or.2 h
  unfold gnp
  rw [this]; rfl

/-- **C69** NaN, though not in `[0, 1]`, passes the test and gives a graph without edges. -/
theorem c69_gnp_nan (d : Bool) {n : Nat} (hn : n ≤ m + 1) (nl : List NL) (el : List EL) (r : Rng) :
    ∃ (g : GraphMap m k NL EL) (r' : Rng) (A : AGraph (Id m) NL EL), gnp d n .nan nl el r = .ok (g, r') ∧
      Generated d n 0 nl el g A ∧ ∀ s t, A.edge s t = none := by
  obtain ⟨g, r', A, c, a1, a2, -, a4⟩ := gnp_ok (m := m) (k := k) d hn (p := .nan) rfl nl el r
  obtain ⟨rfl, h⟩ := a4 (fun _ _ _ => rfl)
  exact ⟨g, r', A, a1, a2, h⟩

/-- **C71** Asked for more nodes than there are ids, `complete_graph` wraps around: every id is a node, node 0
gets a self loop, and `edge_count` is that of the requested size. -/
theorem c71_complete_wraps (d : Bool) {n : Nat} (hn : m + 1 < n) (nl : List NL) (el : List EL) (r : Rng) :
    ∃ (g : GraphMap m k NL EL) (r' : Rng) (A : AGraph (Id m) NL EL), completeGraph d n nl el r = .ok (g, r') ∧
      Shows g.view A ∧ (∀ x, (A.node x).isSome) ∧ g.nodeCount = m + 1 ∧ (A.edge 0 0).isSome ∧
      g.edgeCount = possibleEdges d n ∧ A.LabelledFrom nl el := by
  obtain ⟨g, r', h1, H⟩ := emptyGraph_ok (m := m) (k := k) d n nl el r
  obtain ⟨g2, r2, h2, H2⟩ := addEdges_ok (completeEdgePairs d n) [] g r' H pairs_ends
  rw [List.nil_append] at H2
  obtain ⟨S, a1, a2, a3⟩ := H2.shows
  have hall : ∀ x, (g2.abs.node x).isSome := by
    intro x
    rw [a1, List.mem_map]
    exact ⟨x.val, List.mem_range.2 (by have := x.isLt; omega), GraphMap.Id_new_self x⟩
  refine ⟨g2, r2, g2.abs, ?_, S, hall, ?_, ?_, ?_, a3⟩
  · unfold completeGraph
    rw [h1, bind_ok, h2]
  · have e : g2.nodeCount = g2.nodeIndices.length := S.nodeCount
    have hnd : g2.nodeIndices.Nodup := S.nodesNodup
    have e2 : g2.nodeIndices.length = (List.finRange (m + 1)).length := by
      apply List.Perm.length_eq
      rw [List.perm_ext_iff_of_nodup hnd (List.nodup_finRange _)]
      intro x
      exact ⟨fun _ => List.mem_finRange x, fun _ => (S.memNodes x).2 (hall x)⟩
    rw [e, e2, List.length_finRange]
  · rw [a2]
    left
    rw [List.mem_map]
    refine ⟨(0, m + 1), mem_pairs.2 ⟨by omega, hn, by omega, .inr (by simp)⟩, ?_⟩
    simp only [Prod.mk.injEq]
    constructor <;> apply Fin.ext <;> simp [Id.new]
  · show g2.numEdges = _
    rw [H2.count, List.length_map, pairs_length]

/-- Pairs of numbers below `n` that a generator may choose: distinct ends, for an undirected graph in
ascending order, no pair twice. -/
def Chosen (d : Bool) (n : Nat) (T : List (Nat × Nat)) : Prop :=
  T.Nodup ∧ ∀ q ∈ T, q.1 < n ∧ q.2 < n ∧ q.1 ≠ q.2 ∧ (d = true ∨ q.1 < q.2)

/-- The graph holds the chosen pairs, every number standing for the id it wraps around to; `edge_count` counts
the pairs, not the edges. No bound on `n`. -/
def WrapsAround (d : Bool) (n : Nat) (T : List (Nat × Nat)) (nl : List NL) (el : List EL)
    (g : GraphMap m k NL EL) (A : AGraph (Id m) NL EL) : Prop :=
  GraphMap.Reachable g ∧ Shows g.view A ∧ g.directed = d ∧ A.LabelledFrom nl el ∧
  (∀ x, (A.node x).isSome ↔ x.val < n) ∧ g.nodeCount = min n (m + 1) ∧ g.edgeCount = T.length ∧
  ∀ s t : Id m, (A.edge s t).isSome ↔ ∃ q ∈ T, (q.1 % (m + 1) = s ∧ q.2 % (m + 1) = t) ∨
    (d = false ∧ q.1 % (m + 1) = t ∧ q.2 % (m + 1) = s)

theorem wraps_of {d : Bool} {n : Nat} {nl : List NL} {el : List EL} {qs : List (Nat × Nat)}
    {g : GraphMap m k NL EL}
    (H : Holding d (SetMap.fromVec nl) (SetMap.fromVec el) ((List.range n).map Id.new)
      (qs.map (fun p => (Id.new p.1, Id.new p.2))) g) : WrapsAround d n qs nl el g g.abs := by
  obtain ⟨S, a1, a2, a3⟩ := H.shows
  have hnode : ∀ x : Id m, (g.abs.node x).isSome ↔ x.val < n := by
    intro x
    rw [a1, List.mem_map]
    constructor
    · rintro ⟨y, hy, rfl⟩
      have := List.mem_range.1 hy
      exact lt_of_le_of_lt (Nat.mod_le _ _) this
    · intro h
      exact ⟨x.val, List.mem_range.2 h, GraphMap.Id_new_self x⟩
  refine ⟨H.reach, S, H.dir, a3, hnode, ?_, ?_, fun s t => ?_⟩
  · have e : g.nodeCount = g.nodeIndices.length := S.nodeCount
    have hnd : g.nodeIndices.Nodup := S.nodesNodup
    have e2 : g.nodeIndices.length = ((List.finRange (m + 1)).filter (fun x => x.val < n)).length := by
      apply List.Perm.length_eq
      rw [List.perm_ext_iff_of_nodup hnd ((List.nodup_finRange _).filter _)]
      intro x
      rw [List.mem_filter, decide_eq_true_eq, ← hnode x]
      exact ⟨fun h => ⟨List.mem_finRange x, (S.memNodes x).1 h⟩, fun h => (S.memNodes x).2 h.2⟩
    rw [e, e2]
    have e3 : ((List.finRange (m + 1)).filter (fun x => x.val < n)).map Fin.val =
        (List.range (m + 1)).filter (· < n) := by
      rw [← List.map_coe_finRange_eq_range, List.filter_map]
      rfl
    have e4 : ((List.range (m + 1)).filter (· < n)).length = min n (m + 1) := by
      have : ∀ c, ((List.range c).filter (· < n)).length = min n c := by
        intro c
        induction c with
        | zero => simp
        | succ c ih =>
          rw [List.range_succ, List.filter_append, List.length_append, ih]
          by_cases h : c < n
          · simp [h]; omega
          · simp [h]; omega
      exact this _
    rw [← List.length_map (f := Fin.val), e3, e4]
  · show g.numEdges = _
    rw [H.count, List.length_map]
  · rw [a2, List.mem_map, List.mem_map]
    have key : ∀ (x : Nat) (y : Id m), (Id.new x : Id m) = y ↔ x % (m + 1) = y.val := fun x y => Fin.ext_iff
    simp only [Prod.mk.injEq, key]
    constructor
    · rintro (⟨q, h1, h2⟩ | ⟨hd, q, h1, h2⟩)
      · exact ⟨q, h1, .inl h2⟩
      · exact ⟨q, h1, .inr ⟨hd, h2⟩⟩
    · rintro ⟨q, h1, h2 | ⟨hd, h2⟩⟩
      · exact .inl ⟨q, h1, h2⟩
      · exact .inr ⟨hd, q, h1, h2⟩

/-- **C71** The edges of `complete_graph` of any size: distinct ids below `n` are joined, and an id has a self
loop exactly if a second number below `n` wraps around to it. -/
theorem c71_complete_edges (d : Bool) (n : Nat) (nl : List NL) (el : List EL) (r : Rng) :
    ∃ (g : GraphMap m k NL EL) (r' : Rng) (A : AGraph (Id m) NL EL) (T : List (Nat × Nat)),
      completeGraph d n nl el r = .ok (g, r') ∧ Chosen d n T ∧ T.length = possibleEdges d n ∧
      WrapsAround d n T nl el g A ∧
      ∀ s t : Id m, (A.edge s t).isSome ↔
        (s.val < n ∧ t.val < n ∧ s ≠ t) ∨ (s = t ∧ s.val + (m + 1) < n) := by
  obtain ⟨g, r', h1, H⟩ := emptyGraph_ok (m := m) (k := k) d n nl el r
  obtain ⟨g2, r2, h2, H2⟩ := addEdges_ok (completeEdgePairs d n) [] g r' H pairs_ends
  rw [List.nil_append] at H2
  have W := wraps_of H2
  refine ⟨g2, r2, g2.abs, _, ?_, ⟨pairs_nodup d n, fun q hq => mem_pairs.1 hq⟩, pairs_length d n, W,
    fun s t => ?_⟩
  · unfold completeGraph
    rw [h1, bind_ok, h2]
  · rw [W.2.2.2.2.2.2.2 s t]
    have hs := s.isLt
    have ht := t.isLt
    rw [show s ≠ t ↔ s.val ≠ t.val from not_congr Fin.ext_iff, show s = t ↔ s.val = t.val from Fin.ext_iff]
    constructor
    · rintro ⟨⟨a, b⟩, hq, hab⟩
      obtain ⟨h3, h4, h5, h6⟩ := mem_pairs.1 hq
      simp only at hab
      have ma := Nat.mod_le a (m + 1)
      have mb := Nat.mod_le b (m + 1)
      have da := Nat.div_add_mod a (m + 1)
      have db := Nat.div_add_mod b (m + 1)
      by_cases hst : s.val = t.val
      · right
        refine ⟨hst, ?_⟩
        have hmod : a % (m + 1) = b % (m + 1) := by
          rcases hab with h | h <;> omega
        have hne : a / (m + 1) ≠ b / (m + 1) := by
          intro h
          rw [h, hmod] at da
          exact h5 (da.symm.trans db)
        have hle : ∀ x, 1 ≤ x → m + 1 ≤ (m + 1) * x := fun x hx => Nat.le_mul_of_pos_right _ hx
        rcases Nat.eq_zero_or_pos (a / (m + 1)) with h0 | h0
        · have := hle (b / (m + 1)) (Nat.pos_of_ne_zero (fun h => hne (h0.trans h.symm)))
          rcases hab with h | h <;> omega
        · have := hle _ h0
          rcases hab with h | h <;> omega
      · left
        rcases hab with h | h <;> omega
    · rintro (⟨h3, h4, h5⟩ | ⟨h3, h4⟩)
      · cases d
        · rcases Nat.lt_or_gt_of_ne h5 with h | h
          · exact ⟨(s.val, t.val), mem_pairs.2 ⟨h3, h4, h5, .inr h⟩,
              .inl ⟨Nat.mod_eq_of_lt hs, Nat.mod_eq_of_lt ht⟩⟩
          · exact ⟨(t.val, s.val), mem_pairs.2 ⟨h4, h3, Ne.symm h5, .inr h⟩,
              .inr ⟨rfl, Nat.mod_eq_of_lt ht, Nat.mod_eq_of_lt hs⟩⟩
        · exact ⟨(s.val, t.val), mem_pairs.2 ⟨h3, h4, h5, .inl rfl⟩,
            .inl ⟨Nat.mod_eq_of_lt hs, Nat.mod_eq_of_lt ht⟩⟩
      · refine ⟨(s.val, s.val + (m + 1)), mem_pairs.2 ⟨by omega, h4, by omega, .inr (by simp)⟩, .inl ⟨?_, ?_⟩⟩
        · exact Nat.mod_eq_of_lt hs
        · simp only [Nat.add_mod_right]
          rw [Nat.mod_eq_of_lt hs, h3]

/-- **C71** `random_gnm_graph` of any size: `c` distinct pairs, wrapped around. -/
theorem c71_gnm_wraps (d : Bool) {n c : Nat} (hc : c ≤ possibleEdges d n) (nl : List NL) (el : List EL)
    (r : Rng) :
    ∃ (g : GraphMap m k NL EL) (r' : Rng) (A : AGraph (Id m) NL EL) (T : List (Nat × Nat)),
      gnm d n c nl el r = .ok (g, r') ∧ Chosen d n T ∧ T.length = c ∧ WrapsAround d n T nl el g A := by
  obtain ⟨g, r', h1, H⟩ := emptyGraph_ok (m := m) (k := k) d n nl el r
  obtain ⟨qs, r2, s1, s2, s3, s4⟩ := sampleIter_ok r' (pairs_nodup d n) (c := c) (by rwa [pairs_length])
  obtain ⟨g2, r3, h2, H2⟩ := addEdges_ok qs [] g r2 H (fun p hp => pairs_ends p (s4 p hp))
  rw [List.nil_append] at H2
  refine ⟨g2, r3, g2.abs, qs, ?_, ⟨s3, fun q hq => mem_pairs.1 (s4 q hq)⟩, s2, wraps_of H2⟩
  unfold gnm
  simp only [h1, bind_ok, s1]
  exact h2

/-- **C71** `random_gnp_graph` of any size: the pairs tossed, wrapped around. -/
theorem c71_gnp_wraps (d : Bool) (n : Nat) {p : F32}
    (hp : p = .nan ∨ ∃ q : ℚ, p = .fin q ∧ 0 ≤ q ∧ q ≤ 1) (nl : List NL) (el : List EL) (r : Rng) :
    ∃ (g : GraphMap m k NL EL) (r' : Rng) (A : AGraph (Id m) NL EL) (T : List (Nat × Nat)),
      gnp d n p nl el r = .ok (g, r') ∧ Chosen d n T ∧ WrapsAround d n T nl el g A ∧
      (p = .nan ∨ p = .fin 0 → T = []) ∧ (p = .fin 1 → T.length = possibleEdges d n) := by
  obtain ⟨g, r', h1, H⟩ := emptyGraph_ok (m := m) (k := k) d n nl el r
  obtain ⟨g2, r2, qs, h2, q1, q2, q3, H2⟩ := toss_ok p (completeEdgePairs d n) [] g r' H pairs_ends
  rw [List.nil_append] at H2
  have hin : (p.lt (.fin 0) || (F32.fin 1).lt p) = false := by
    rcases hp with rfl | ⟨q, rfl, h3, h4⟩
    · rfl
    · rw [← Bool.not_eq_true, lt_zero_or, not_or]; exact ⟨not_lt.2 h3, not_lt.2 h4⟩
  refine ⟨g2, r2, g2.abs, qs, ?_, ⟨q1.nodup (pairs_nodup d n), fun q hq => mem_pairs.1 (q1.subset hq)⟩,
    wraps_of H2, fun h => q3 ?_, fun h => ?_⟩
  · unfold gnp
    rw [hin]
    simp only [Bool.false_eq_true, if_false, h1, bind_ok]
    exact h2
  · intro u hu _
    rcases h with rfl | rfl
    · rfl
    · simp only [F32.lt, decide_eq_false_iff_not, not_lt]
      exact hu
  · rw [q2 ?_, pairs_length]
    intro u _ hu
    subst h
    simp only [F32.lt, decide_eq_true_eq]
    exact hu

/-- **C71** `empty_graph` of any size. -/
theorem c71_empty_wraps (d : Bool) (n : Nat) (nl : List NL) (el : List EL) (r : Rng) :
    ∃ (g : GraphMap m k NL EL) (r' : Rng) (A : AGraph (Id m) NL EL),
      emptyGraph d n nl el r = .ok (g, r') ∧ WrapsAround d n [] nl el g A := by
  obtain ⟨g, r', h1, H⟩ := emptyGraph_ok (m := m) (k := k) d n nl el r
  exact ⟨g, r', g.abs, h1, wraps_of (qs := []) H⟩

/-- **C72** Every choice of edges is possible: for every loop-free set of edges some stream of draws makes
`random_gnm_graph` produce exactly these. -/
theorem c72_gnm_any (d : Bool) {n : Nat} (hn : n ≤ m + 1) (nl : List NL) (el : List EL)
    {T : List (Nat × Nat)} (hT : T.Nodup)
    (hv : ∀ q ∈ T, q.1 < n ∧ q.2 < n ∧ q.1 ≠ q.2 ∧ (d = true ∨ q.1 < q.2)) :
    ∃ (r : Rng) (g : GraphMap m k NL EL) (r' : Rng) (A : AGraph (Id m) NL EL),
      gnm d n T.length nl el r = .ok (g, r') ∧ Shows g.view A ∧
      ∀ s t : Id m, (A.edge s t).isSome ↔ (s.val, t.val) ∈ T ∨ (d = false ∧ (t.val, s.val) ∈ T) := by
  have hsub : ∀ q ∈ T, q ∈ completeEdgePairs d n := fun q hq => mem_pairs.2 (hv q hq)
  obtain ⟨r2, qs, r3, s1, s2⟩ := sampleIter_any (pairs_nodup d n) hT hsub zeros
  obtain ⟨r, g, h1, H⟩ := emptyGraph_any (m := m) (k := k) d n nl el r2
  obtain ⟨g2, r4, h2, H2⟩ := addEdges_ok qs [] g r3 H
    (fun p hp => pairs_ends p (hsub p (s2.mem_iff.1 hp)))
  rw [List.nil_append] at H2
  obtain ⟨h3, h4⟩ := generated_of hn ⟨s2.nodup_iff.2 hT, fun q hq => hsub q (s2.mem_iff.1 hq)⟩ H2
  refine ⟨r, g2, r4, g2.abs, ?_, h3.2.1, fun s t => ?_⟩
  · unfold gnm
    simp only [h1, bind_ok, s1]
    exact h2
  · rw [h4, s2.mem_iff, s2.mem_iff]

/-- **C72** Likewise for `random_gnp_graph` with `0 < p < 1`. -/
theorem c72_gnp_any (d : Bool) {n : Nat} (hn : n ≤ m + 1) {p : ℚ} (h0 : 0 < p) (h1 : p < 1)
    (nl : List NL) (el : List EL) (E : Nat → Nat → Bool) :
    ∃ (r : Rng) (g : GraphMap m k NL EL) (r' : Rng) (A : AGraph (Id m) NL EL),
      gnp d n (.fin p) nl el r = .ok (g, r') ∧ Shows g.view A ∧
      ∀ s t : Id m, (A.edge s t).isSome ↔ s.val < n ∧ t.val < n ∧ s ≠ t ∧
        (if d = true ∨ s < t then E s.val t.val else E t.val s.val) = true := by
  obtain ⟨b1, b2⟩ := toss_any (m := m) (k := k) (NL := NL) (EL := EL) (d := d) h0 h1
    (fun q => E q.1 q.2) (completeEdgePairs d n) (SetMap.fromVec nl) (SetMap.fromVec el)
    ((List.range n).map Id.new) pairs_ends
  obtain ⟨r, g, a1, H⟩ := emptyGraph_any (m := m) (k := k) d n nl el b1
  obtain ⟨g2, r', a2, H2⟩ := b2 [] g H
  rw [List.nil_append] at H2
  have hsim : Simple d n ((completeEdgePairs d n).filter (fun q => E q.1 q.2)) :=
    ⟨(pairs_nodup d n).filter _, fun q hq => (List.mem_filter.1 hq).1⟩
  obtain ⟨h3, h4⟩ := generated_of hn hsim H2
  refine ⟨r, g2, r', g2.abs, ?_, h3.2.1, fun s t => ?_⟩
  · unfold gnp
    rw [if_neg (by rw [lt_zero_or, not_or]; exact ⟨not_lt.2 h0.le, not_lt.2 h1.le⟩)]
    simp only [a1, bind_ok]
    exact a2
  · rw [h4, List.mem_filter, List.mem_filter, mem_pairs, mem_pairs,
      show s ≠ t ↔ s.val ≠ t.val from not_congr Fin.ext_iff]
    simp only [Fin.lt_def]
    cases d
    · simp only [Bool.false_eq_true, false_or, true_and]
      split
      · rename_i h
        have : ¬ t.val < s.val := by omega
        simp only [this, and_false, false_and, or_false, h, and_true]
        tauto
      · rename_i h
        have : s.val ≠ t.val ↔ t.val < s.val := by omega
        simp only [h, and_false, false_and, false_or, this]
        constructor
        · rintro ⟨⟨x1, x2, _, x3⟩, x4⟩; exact ⟨x2, x1, x3, x4⟩
        · rintro ⟨x1, x2, x3, x4⟩; exact ⟨⟨x2, x1, by omega, x3⟩, x4⟩
    · simp only [true_or, and_true, Bool.true_eq_false, false_and, or_false, if_true]
      tauto

/-- **C72** Every label of the list can be drawn. -/
theorem c72_label_any {X : Type} [DecidableEq X] {labels : List X} {x : X} (h : x ∈ labels) :
    ∃ r r', randomItem r (SetMap.fromVec labels) = .ok (some x, r') := by
  obtain ⟨j, hj, rfl⟩ := List.getElem_of_mem ((SetMap.mem_fromVec labels x).2 h)
  have h0 : (SetMap.fromVec labels).len ≠ 0 := by
    show (SetMap.fromVec labels).labels.length ≠ 0
    omega
  refine ⟨after ⟨j, 0, le_refl _, by decide⟩ zeros, zeros, ?_⟩
  unfold randomItem Rng.range
  rw [if_neg h0, if_neg h0, pure_ok, bind_ok]
  show Except.ok ((SetMap.fromVec labels).getItem (j % (SetMap.fromVec labels).len), zeros) = _
  rw [Nat.mod_eq_of_lt (show j < (SetMap.fromVec labels).len from hj)]
  unfold SetMap.getItem
  rw [List.getElem?_eq_getElem hj]

/-- A stream of draws: 0, 1, 2, … and one half. -/
def counting : Rng := fun i => ⟨i, 1 / 2, by norm_num, by norm_num⟩

/-- The hypotheses are met by concrete sizes, and the functions compute. -/
example : (3 : Nat) ≤ 9 + 1 ∧ (4 : Nat) ≤ possibleEdges true 3 ∧ possibleEdges false 3 < 4 ∧
    (gnm true 3 4 ["a", "b"] ["e"] counting : Res (GraphMap 9 3 String String × Rng)).map
      (fun s => (s.1.edgeIndices, s.1.nodeIndices.map s.1.getNodeLabel)) =
      .ok ([(0, 1), (0, 2), (1, 0), (1, 2)], [some "a", some "b", some "a"]) := by
  decide

/-- The hypotheses of C72 are met by a path on three nodes and by probability one half. -/
example : [(0, 1), (1, 2)].Nodup ∧ (∀ q ∈ [(0, 1), (1, 2)], q.1 < 3 ∧ q.2 < 3 ∧ q.1 ≠ q.2 ∧
    (false = true ∨ q.1 < q.2)) ∧ (0 : ℚ) < 1 / 2 ∧ (1 / 2 : ℚ) < 1 := by
  refine ⟨by decide, by decide, by norm_num, by norm_num⟩

/-- Two ids are too few for three nodes. -/
example : (1 : Nat) + 1 < 3 ∧
    (completeGraph false 3 [] [] counting : Res (GraphMap 1 3 String String × Rng)).map
      (fun s => (s.1.edgeIndices, s.1.edgeCount)) = .ok ([(0, 0), (0, 1)], 3) := by
  decide

end Verif.Props
