import Mathlib.Data.Nat.Choose.Basic
import Mathlib.Data.List.Sublists
import Verif.Model.Gen
import Verif.Spec.Gen
import Verif.Proof.Freeze
import Verif.Proof.Build

/-! Graph generators: the graph while it is being filled. -/

namespace Verif.Gen

open Spec

/-! ### The pairs of a complete graph -/

theorem combinations_sorted {l : List Nat} (h : l.Pairwise (· < ·)) {a b : Nat} :
    (a, b) ∈ combinations l ↔ a ∈ l ∧ b ∈ l ∧ a < b := by
  induction l with
  | nil => simp [combinations]
  | cons x xs ih =>
    obtain ⟨h1, h2⟩ := List.pairwise_cons.1 h
    unfold combinations
    rw [List.mem_append, ih h2]
    simp only [List.mem_map, Prod.mk.injEq, List.mem_cons]
    constructor
    · rintro (⟨y, hy, rfl, rfl⟩ | ⟨ha, hb, hab⟩)
      · exact ⟨.inl rfl, .inr hy, h1 _ hy⟩
      · exact ⟨.inr ha, .inr hb, hab⟩
    · rintro ⟨rfl | ha, rfl | hb, hab⟩
      · exact absurd hab (lt_irrefl _)
      · exact .inl ⟨b, hb, rfl, rfl⟩
      · exact absurd (h1 _ ha) (by omega)
      · exact .inr ⟨ha, hb, hab⟩

theorem combinations_nodup {l : List Nat} (h : l.Pairwise (· < ·)) : (combinations l).Nodup := by
  induction l with
  | nil => exact List.nodup_nil
  | cons x xs ih =>
    obtain ⟨h1, h2⟩ := List.pairwise_cons.1 h
    unfold combinations
    rw [List.nodup_append]
    refine ⟨List.Nodup.map (fun a b h => by cases h; rfl) (h2.imp (fun h => Nat.ne_of_lt h)), ih h2, ?_⟩
    rintro ⟨a, b⟩ ha ⟨c, d⟩ hc heq
    cases heq
    simp only [List.mem_map, Prod.mk.injEq] at ha
    obtain ⟨y, hy, rfl, rfl⟩ := ha
    exact absurd (h1 _ ((combinations_sorted h2).1 hc).1) (lt_irrefl _)

theorem combinations_length {X : Type} (l : List X) :
    (combinations l).length = l.length.choose 2 := by
  induction l with
  | nil => rfl
  | cons x xs ih =>
    unfold combinations
    rw [List.length_append, List.length_map, ih, List.length_cons, Nat.choose_succ_succ' xs.length 1,
      Nat.choose_one_right]

theorem range_sorted (n : Nat) : (List.range n).Pairwise (· < ·) := List.pairwise_lt_range

/-- Two distinct numbers below `n`, in ascending order unless directed. -/
theorem mem_pairs {d : Bool} {n a b : Nat} : (a, b) ∈ completeEdgePairs d n ↔
    a < n ∧ b < n ∧ a ≠ b ∧ (d = true ∨ a < b) := by
  unfold completeEdgePairs
  cases d with
  | false =>
    simp only [Bool.false_eq_true, if_false, combinations_sorted (range_sorted n), List.mem_range, false_or]
    constructor
    · rintro ⟨h1, h2, h3⟩; exact ⟨h1, h2, by omega, h3⟩
    · rintro ⟨h1, h2, _, h3⟩; exact ⟨h1, h2, h3⟩
  | true =>
    simp only [if_true, List.mem_flatMap, Prod.exists, combinations_sorted (range_sorted n), List.mem_range,
      List.mem_cons, Prod.mk.injEq, List.not_mem_nil, or_false, true_or, and_true]
    constructor
    · rintro ⟨x, y, ⟨h1, h2, h3⟩, ⟨rfl, rfl⟩ | ⟨rfl, rfl⟩⟩
      · exact ⟨h1, h2, by omega⟩
      · exact ⟨h2, h1, by omega⟩
    · rintro ⟨h1, h2, h3⟩
      rcases Nat.lt_or_gt_of_ne h3 with h | h
      · exact ⟨a, b, ⟨h1, h2, h⟩, .inl ⟨rfl, rfl⟩⟩
      · exact ⟨b, a, ⟨h2, h1, h⟩, .inr ⟨rfl, rfl⟩⟩

theorem pairs_nodup (d : Bool) (n : Nat) : (completeEdgePairs d n).Nodup := by
  unfold completeEdgePairs
  have h0 := combinations_nodup (range_sorted n)
  cases d with
  | false => simpa using h0
  | true =>
    simp only [if_true]
    rw [List.nodup_flatMap]
    have hlt : ∀ p ∈ combinations (List.range n), p.1 < p.2 :=
      fun p hp => ((combinations_sorted (range_sorted n)).1 hp).2.2
    refine ⟨?_, ?_⟩
    · rintro ⟨a, b⟩ hp
      have := hlt _ hp
      simp only [List.nodup_cons, List.mem_cons, Prod.mk.injEq, List.not_mem_nil, or_false,
        not_false_eq_true, List.nodup_nil, and_self, and_true, not_and]
      intro h; simp only at this; omega
    · refine List.Pairwise.imp_of_mem ?_ h0
      rintro ⟨a, b⟩ ⟨c, d⟩ h1 h2 hne
      have l1 := hlt _ h1
      have l2 := hlt _ h2
      simp only at l1 l2
      rw [Function.onFun, List.disjoint_left]
      intro p hp hq
      simp only [List.mem_cons, List.not_mem_nil, or_false] at hp hq
      rcases hp with rfl | rfl <;> simp only [Prod.mk.injEq] at hq <;> apply hne
      · rcases hq with ⟨rfl, rfl⟩ | ⟨rfl, rfl⟩
        · rfl
        · omega
      · rcases hq with ⟨rfl, rfl⟩ | ⟨rfl, rfl⟩
        · omega
        · rfl

theorem pairs_length (d : Bool) (n : Nat) :
    (completeEdgePairs d n).length = possibleEdges d n := by
  unfold possibleEdges
  have hl : (combinations (List.range n)).length = n * (n - 1) / 2 := by
    rw [combinations_length, List.length_range, Nat.choose_two_right]
  unfold completeEdgePairs
  cases d with
  | false => simpa using hl
  | true =>
    simp only [if_true]
    have h2 : ∀ l : List (Nat × Nat), (l.flatMap (fun p => [(p.1, p.2), (p.2, p.1)])).length = l.length * 2 := by
      intro l
      induction l with
      | nil => rfl
      | cons p l ih => rw [List.flatMap_cons, List.length_append, ih, List.length_cons]; simp; omega
    rw [h2, hl, Nat.div_mul_cancel]
    exact (Nat.even_mul_pred_self n).two_dvd

/-! ### Filling the graph -/

variable {m k : Nat} {NL EL : Type}

/-- A label id drawn from a label map: none exactly if the map is empty, otherwise an index of it. -/
def Drawn {X : Type} (s : SetMap X) (o : Option (Id k)) : Prop :=
  (s.len = 0 ∧ o = none) ∨ ∃ i, o = some i ∧ i.val < s.len

/-- The graph has the given nodes and edges, all labelled from its label maps. -/
structure Holding (d : Bool) (N : SetMap NL) (L : SetMap EL) (ns : List (Id m))
    (es : List (Id m × Id m)) [DecidableEq NL] [DecidableEq EL] (g : GraphMap m k NL EL) : Prop where
  reach : g.Reachable
  dir : g.directed = d
  nl : g.nodeLabels = N
  el : g.edgeLabels = L
  node : ∀ x, (g.labE x).isSome ↔ x ∈ ns
  edge : ∀ s t, (g.outE s t).isSome ↔ (s, t) ∈ es ∨ (d = false ∧ (t, s) ∈ es)
  nodeLab : ∀ x o, g.labE x = some o → Drawn N o
  edgeLab : ∀ s t o, g.outE s t = some o → Drawn L o
  count : g.numEdges = es.length

/-- What a draw from a label map can give. -/
theorem randomItem_ok {X : Type} [DecidableEq X] (r : Rng) (s : SetMap X) (hn : s.labels.Nodup) :
    ∃ l r', randomItem r s = .ok (l, r') ∧
      ∃ lid : Option (Id k), intern s l = .ok (s, lid) ∧ Drawn s lid := by
  unfold randomItem
  by_cases h : s.len = 0
  · rw [if_pos h]
    exact ⟨none, r, rfl, none, rfl, .inl ⟨h, rfl⟩⟩
  · rw [if_neg h]
    unfold Rng.range
    rw [if_neg h, pure_ok, bind_ok]
    have hlt : (r 0).word % s.len < s.len := Nat.mod_lt _ (Nat.pos_of_ne_zero h)
    refine ⟨_, _, rfl, ?_⟩
    have hget : s.getItem ((r 0).word % s.len) = some (s.labels[(r 0).word % s.len]'hlt) :=
      List.getElem?_eq_getElem hlt
    show ∃ lid, intern s (s.getItem ((r 0).word % s.len)) = _ ∧ _
    rw [hget]
    obtain ⟨s', lid, h1, h2, h3, -, h4, h5⟩ := intern_ok (k := k) s (some (s.labels[(r 0).word % s.len]'hlt))
    have hs : s' = s := by
      have : s.labels = s'.labels := by
        apply h2.eq_of_length_le
        apply nodup_length_le (h3 hn)
        intro y hy
        rcases (h5 y).1 hy with h | h
        · exact h
        · cases h; exact List.getElem_mem _
      cases s; cases s'; cases this; rfl
    subst hs
    refine ⟨lid, h1, .inr ?_⟩
    obtain ⟨i, e1, e2⟩ := h4 _ rfl
    refine ⟨Id.new i, e1, ?_⟩
    have : i < s'.labels.length := by
      by_contra hc
      rw [List.getElem?_eq_none (by omega)] at e2; cases e2
    show i % (k + 1) < _
    exact lt_of_le_of_lt (Nat.mod_le _ _) this

variable [DecidableEq NL] [DecidableEq EL] {d : Bool} {N : SetMap NL} {L : SetMap EL} {ns : List (Id m)}
  {es : List (Id m × Id m)} {g : GraphMap m k NL EL}

theorem addRandomNode_ok (H : Holding d N L ns es g) (r : Rng) (i : Nat) :
    ∃ g' r', addRandomNode (g, r) i = .ok (g', r') ∧ Holding d N L (ns ++ [Id.new i]) es g' := by
  have hI := H.reach.inv
  obtain ⟨l, r', h1, lid, h2, h3⟩ := randomItem_ok (k := k) r g.nodeLabels hI.nlNodup
  obtain ⟨g', nl, lid', a0, a1, a2, a3, a4, a5, a6, a7, a8, a9⟩ := GraphMap.addNode_spec hI.toNWF (Id.new i) l
  rw [h2] at a0
  cases a0
  refine ⟨g', r', ?_, ?_⟩
  · unfold addRandomNode
    simp only [h1, bind_ok, a1, pure_ok]
  · have hn : ∀ x, g'.labE x = if x = Id.new i then some lid else g.labE x := by
      intro x
      have := congrArg (fun A => A.node x) a8
      exact this
    have ho : ∀ s t, g'.outE s t = g.outE s t := by
      intro s t
      have := congrArg (fun A => A.edge s t) a8
      exact this
    refine ⟨.step (op := .addNode (Id.new i) l) H.reach (by show (g.addNode _ _ >>= _) = _; rw [a1]; rfl),
      a3.trans H.dir, a5.trans H.nl, a6.trans H.el, ?_, ?_, ?_, ?_, a4.trans H.count⟩
    · intro x
      rw [hn, List.mem_append, List.mem_singleton, ← H.node]
      by_cases h : x = Id.new i <;> simp [h]
    · intro s t; rw [ho]; exact H.edge s t
    · intro x o hx
      rw [hn] at hx
      by_cases h : x = Id.new i
      · rw [if_pos h] at hx
        cases hx
        rw [← H.nl]; exact h3
      · rw [if_neg h] at hx
        exact H.nodeLab x o hx
    · intro s t o h; rw [ho] at h; exact H.edgeLab s t o h

theorem addRandomEdge_ok (H : Holding d N L ns es g) (r : Rng) (e : Nat × Nat) (h1 : Id.new e.1 ∈ ns)
    (h2 : Id.new e.2 ∈ ns) :
    ∃ g' r', addRandomEdge (g, r) e = .ok (g', r') ∧
      Holding d N L ns (es ++ [(Id.new e.1, Id.new e.2)]) g' := by
  have hI := H.reach.inv
  obtain ⟨l, r', q1, lid, q2, q3⟩ := randomItem_ok (k := k) r g.edgeLabels hI.elNodup
  obtain ⟨g', el, lid', a0, a1, a2, a3, a4, a5, a6, a7, a8, a9⟩ :=
    GraphMap.addEdge_spec hI.toNWF (Id.new e.1) (Id.new e.2) l
  rw [q2] at a0
  cases a0
  refine ⟨g', r', ?_, ?_⟩
  · unfold addRandomEdge
    simp only [q1, bind_ok, a1, pure_ok]
  · have hn : ∀ x, g'.labE x = g.labE x := by
      intro x
      have : g'.labE x = _ := congrArg (fun A => A.node x) a8
      rw [this]
      show (if (x = Id.new e.1 ∨ x = Id.new e.2) ∧ g.labE x = none then some none else g.labE x) = _
      rw [if_neg]
      rintro ⟨hx, hnone⟩
      have : (g.labE x).isSome := by
        rw [H.node]; rcases hx with rfl | rfl <;> assumption
      rw [hnone] at this; cases this
    have ho : ∀ s t, g'.outE s t = if AGraph.same g.directed (Id.new e.1) (Id.new e.2) s t then some lid
        else g.outE s t := fun s t => congrArg (fun A => A.edge s t) a8
    refine ⟨.step (op := .addEdge (Id.new e.1) (Id.new e.2) l) H.reach
      (by show (g.addEdge _ _ _ >>= _) = _; rw [a1]; rfl),
      a3.trans H.dir, a5.trans H.nl, a6.trans H.el, ?_, ?_, ?_, ?_, ?_⟩
    · intro x; rw [hn]; exact H.node x
    · intro s t
      rw [ho, H.dir]
      by_cases h : AGraph.same d (Id.new e.1) (Id.new e.2) s t
      · rw [if_pos h]
        simp only [Option.isSome_some, true_iff, List.mem_append, List.mem_singleton, Prod.mk.injEq]
        unfold AGraph.same at h
        rcases h with h | h
        · exact .inl (.inr (by tauto))
        · exact .inr (by tauto)
      · rw [if_neg h, H.edge]
        simp only [List.mem_append, List.mem_singleton, Prod.mk.injEq]
        unfold AGraph.same at h
        tauto
    · intro x o h; rw [hn] at h; exact H.nodeLab x o h
    · intro s t o h
      rw [ho] at h
      split at h
      · cases h; rw [← H.el]; exact q3
      · exact H.edgeLab s t o h
    · rw [a4, H.count, List.length_append]; rfl

theorem addNodes_ok : ∀ (is : List Nat) (ns : List (Id m)) (g : GraphMap m k NL EL) (r : Rng),
    Holding d N L ns es g → ∃ g' r', is.foldlM addRandomNode (g, r) = .ok (g', r') ∧
      Holding d N L (ns ++ is.map Id.new) es g' := by
  intro is
  induction is with
  | nil => intro ns g r H; exact ⟨g, r, rfl, by simpa using H⟩
  | cons i is ih =>
    intro ns g r H
    obtain ⟨g1, r1, h1, H1⟩ := addRandomNode_ok H r i
    obtain ⟨g2, r2, h2, H2⟩ := ih _ g1 r1 H1
    refine ⟨g2, r2, ?_, by simpa using H2⟩
    rw [List.foldlM_cons, h1, bind_ok, h2]

theorem addEdges_ok : ∀ (ps : List (Nat × Nat)) (es : List (Id m × Id m)) (g : GraphMap m k NL EL) (r : Rng),
    Holding d N L ns es g → (∀ p ∈ ps, Id.new p.1 ∈ ns ∧ Id.new p.2 ∈ ns) →
    ∃ g' r', ps.foldlM addRandomEdge (g, r) = .ok (g', r') ∧
      Holding d N L ns (es ++ ps.map (fun p => (Id.new p.1, Id.new p.2))) g' := by
  intro ps
  induction ps with
  | nil => intro es g r H _; exact ⟨g, r, rfl, by simpa using H⟩
  | cons p ps ih =>
    intro es g r H hp
    obtain ⟨g1, r1, h1, H1⟩ := addRandomEdge_ok H r p (hp p (by simp)).1 (hp p (by simp)).2
    obtain ⟨g2, r2, h2, H2⟩ := ih _ g1 r1 H1 (fun q hq => hp q (by simp [hq]))
    refine ⟨g2, r2, ?_, by simpa using H2⟩
    rw [List.foldlM_cons, h1, bind_ok, h2]

theorem holding_start (d : Bool) (nl : List NL) (el : List EL) :
    Holding d (SetMap.fromVec nl) (SetMap.fromVec el) [] []
      (GraphMap.withLabelMap d (SetMap.fromVec nl) (SetMap.fromVec el) : GraphMap m k NL EL) :=
  ⟨.start _ _ _ (SetMap.fromVec_nodup nl) (SetMap.fromVec_nodup el), rfl, rfl, rfl,
    fun x => by simp [GraphMap.labE, GraphMap.getNode, GraphMap.withLabelMap, AL.get],
    fun s t => by simp [GraphMap.outE, GraphMap.getNode, GraphMap.withLabelMap, AL.get],
    fun x o h => by simp [GraphMap.labE, GraphMap.getNode, GraphMap.withLabelMap, AL.get] at h,
    fun s t o h => by simp [GraphMap.outE, GraphMap.getNode, GraphMap.withLabelMap, AL.get] at h, rfl⟩

theorem emptyGraph_ok (d : Bool) (n : Nat) (nl : List NL) (el : List EL) (r : Rng) :
    ∃ (g : GraphMap m k NL EL) (r' : Rng), emptyGraph d n nl el r = .ok (g, r') ∧
      Holding d (SetMap.fromVec nl) (SetMap.fromVec el) ((List.range n).map Id.new) [] g := by
  obtain ⟨g, r', h1, h2⟩ := addNodes_ok (List.range n) [] _ r (holding_start (m := m) (k := k) d nl el)
  exact ⟨g, r', h1, by simpa using h2⟩

theorem pairs_ends {d : Bool} {n : Nat} : ∀ p ∈ completeEdgePairs d n,
    (Id.new p.1 : Id m) ∈ (List.range n).map Id.new ∧ (Id.new p.2 : Id m) ∈ (List.range n).map Id.new := by
  rintro ⟨a, b⟩ hp
  obtain ⟨h1, h2, _⟩ := mem_pairs.1 hp
  exact ⟨List.mem_map.2 ⟨a, List.mem_range.2 h1, rfl⟩, List.mem_map.2 ⟨b, List.mem_range.2 h2, rfl⟩⟩

/-- The edges with a draw below `p`, in order: the loop of `gnp`. -/
theorem toss_ok (p : F32) : ∀ (ps : List (Nat × Nat)) (es : List (Id m × Id m)) (g : GraphMap m k NL EL)
    (r : Rng), Holding d N L ns es g → (∀ p ∈ ps, Id.new p.1 ∈ ns ∧ Id.new p.2 ∈ ns) →
    ∃ g' r' qs, ps.foldlM (tossEdge p) (g, r) = .ok (g', r') ∧ qs.Sublist ps ∧
      ((∀ u : ℚ, 0 ≤ u → u < 1 → (F32.fin u).lt p = true) → qs = ps) ∧
      ((∀ u : ℚ, 0 ≤ u → u < 1 → (F32.fin u).lt p = false) → qs = []) ∧
      Holding d N L ns (es ++ qs.map (fun p => (Id.new p.1, Id.new p.2))) g' := by
  intro ps
  induction ps with
  | nil => intro es g r H _; exact ⟨g, r, [], rfl, .slnil, fun _ => rfl, fun _ => rfl, by simpa using H⟩
  | cons q ps ih =>
    intro es g r H hp
    rw [List.foldlM_cons]
    unfold tossEdge
    by_cases hu : (F32.fin (r 0).unit).lt p = true
    · obtain ⟨g1, r1, h1, H1⟩ := addRandomEdge_ok H r.rest q (hp q (by simp)).1 (hp q (by simp)).2
      obtain ⟨g2, r2, qs, h2, h3, h4, h5, H2⟩ := ih _ g1 r1 H1 (fun q hq => hp q (by simp [hq]))
      refine ⟨g2, r2, q :: qs, ?_, h3.cons_cons q, fun h => by rw [h4 h], fun h => ?_, by simpa using H2⟩
      · simp only [if_pos hu, h1, bind_ok]; exact h2
      · rw [h _ (r 0).unit_nonneg (r 0).unit_lt] at hu; cases hu
    · obtain ⟨g2, r2, qs, h2, h3, h4, h5, H2⟩ := ih _ g r.rest H (fun q hq => hp q (by simp [hq]))
      refine ⟨g2, r2, qs, ?_, h3.cons q, fun h => ?_, h5, H2⟩
      · simp only [if_neg hu, pure_ok, bind_ok]; exact h2
      · exact absurd (h _ (r 0).unit_nonneg (r 0).unit_lt) hu

/-- Reservoir sampling keeps the size and yields distinct elements of the input. -/
theorem sampleLoop_ok {X : Type} (amount : Nat) : ∀ (xs res : List X) (i : Nat) (r : Rng),
    (res ++ xs).Nodup → ∃ out r', sampleLoop amount i xs res r = .ok (out, r') ∧
      out.length = res.length ∧ out.Nodup ∧ ∀ x ∈ out, x ∈ res ++ xs := by
  intro xs
  induction xs with
  | nil => intro res i r h; exact ⟨res, r, rfl, rfl, by simpa using h, by simp⟩
  | cons x xs ih =>
    intro res i r h
    unfold sampleLoop Rng.range
    rw [if_neg (by omega), pure_ok, bind_ok]
    show ∃ out r', sampleLoop amount (i + 1) xs
      (if (r 0).word % (i + 1 + amount) < res.length then res.set ((r 0).word % (i + 1 + amount)) x else res)
      r.rest = _ ∧ _
    obtain ⟨n1, n2, n3⟩ := List.nodup_append.1 h
    obtain ⟨n4, n5⟩ := List.nodup_cons.1 n2
    generalize (r 0).word % (i + 1 + amount) = j
    by_cases hj : j < res.length
    · rw [if_pos hj]
      have hmem : ∀ y ∈ res.set j x, y ∈ res ∨ y = x := fun y hy => List.mem_or_eq_of_mem_set hy
      obtain ⟨out, r', e1, e2, e3, e4⟩ := ih (res.set j x) (i + 1) r.rest (by
        rw [List.nodup_append]
        refine ⟨n1.set (fun hx => n3 x hx x (by simp) rfl), n5, ?_⟩
        intro a ha b hb hab
        subst hab
        rcases hmem a ha with h | h
        · exact n3 a h a (by simp [hb]) rfl
        · subst h; exact n4 hb)
      refine ⟨out, r', e1, by rw [e2, List.length_set], e3, fun y hy => ?_⟩
      rcases List.mem_append.1 (e4 y hy) with h | h
      · rcases hmem y h with h | h
        · simp [h]
        · simp [h]
      · simp [h]
    · rw [if_neg hj]
      obtain ⟨out, r', e1, e2, e3, e4⟩ := ih res (i + 1) r.rest (by
        rw [List.nodup_append]
        exact ⟨n1, n5, fun a ha b hb => n3 a ha b (by simp [hb])⟩)
      refine ⟨out, r', e1, e2, e3, fun y hy => ?_⟩
      rcases List.mem_append.1 (e4 y hy) with h | h <;> simp [h]

theorem sampleIter_ok {X : Type} (r : Rng) {l : List X} (hl : l.Nodup) {c : Nat} (hc : c ≤ l.length) :
    ∃ out r', sampleIter r l c = .ok (some out, r') ∧ out.length = c ∧ out.Nodup ∧ ∀ x ∈ out, x ∈ l := by
  unfold sampleIter
  have h0 : (l.take c).length = c := by rw [List.length_take]; omega
  rw [if_pos h0]
  obtain ⟨out, r', e1, e2, e3, e4⟩ := sampleLoop_ok c (l.drop c) (l.take c) 0 r (by rwa [List.take_append_drop])
  refine ⟨out, r', by rw [e1]; rfl, e2.trans h0, e3, fun x hx => ?_⟩
  have := e4 x hx
  rwa [List.take_append_drop] at this

theorem sampleIter_few {X : Type} (r : Rng) {l : List X} {c : Nat} (hc : l.length < c) :
    sampleIter r l c = .ok (none, r) := by
  unfold sampleIter
  rw [if_neg (by rw [List.length_take]; omega)]
  rfl

/-! ### Streams that lead to a given result -/

/-- The draw 0. -/
def draw0 : Draw := ⟨0, 0, le_refl _, by decide⟩

/-- Only draws of 0. -/
def zeros : Rng := fun _ => draw0

/-- A draw followed by a stream. -/
def after (x : Draw) (r : Rng) : Rng
  | 0 => x
  | i + 1 => r i

theorem after_rest (x : Draw) (r : Rng) : (after x r).rest = r := rfl

/-- A stream with which `randomItem` leaves the given one. -/
theorem randomItem_any {X : Type} (s : SetMap X) : ∃ f : Rng → Rng, ∃ l, ∀ r,
    randomItem (f r) s = .ok (l, r) := by
  unfold randomItem Rng.range
  by_cases h : s.len = 0
  · exact ⟨fun r => r, none, fun r => by rw [if_pos h]; rfl⟩
  · refine ⟨after draw0, s.getItem 0, fun r => ?_⟩
    rw [if_neg h, if_neg h, pure_ok, bind_ok]
    show Except.ok (s.getItem (0 % s.len), r) = _
    rw [Nat.zero_mod]

theorem addRandomNode_any (H : Holding d N L ns es g) (i : Nat) :
    ∃ f : Rng → Rng, ∃ g', (∀ r, addRandomNode (g, f r) i = .ok (g', r)) ∧
      Holding d N L (ns ++ [Id.new i]) es g' := by
  obtain ⟨f, l, hf⟩ := randomItem_any g.nodeLabels
  obtain ⟨g', r', h1, H1⟩ := addRandomNode_ok H (f zeros) i
  refine ⟨f, g', fun r => ?_, H1⟩
  unfold addRandomNode at h1 ⊢
  simp only [hf, bind_ok] at h1 ⊢
  obtain ⟨q, h2, h3⟩ := bind_eq_ok h1
  rw [h2, bind_ok]
  cases h3; rfl

theorem addRandomEdge_any (H : Holding d N L ns es g) (e : Nat × Nat) (h1 : Id.new e.1 ∈ ns)
    (h2 : Id.new e.2 ∈ ns) :
    ∃ f : Rng → Rng, ∃ g', (∀ r, addRandomEdge (g, f r) e = .ok (g', r)) ∧
      Holding d N L ns (es ++ [(Id.new e.1, Id.new e.2)]) g' := by
  obtain ⟨f, l, hf⟩ := randomItem_any g.edgeLabels
  obtain ⟨g', r', h1, H1⟩ := addRandomEdge_ok H (f zeros) e h1 h2
  refine ⟨f, g', fun r => ?_, H1⟩
  unfold addRandomEdge at h1 ⊢
  simp only [hf, bind_ok] at h1 ⊢
  obtain ⟨q, h2, h3⟩ := bind_eq_ok h1
  rw [h2, bind_ok]
  cases h3; rfl

theorem addNodes_any : ∀ (is : List Nat) (ns : List (Id m)) (g : GraphMap m k NL EL),
    Holding d N L ns es g → ∃ f : Rng → Rng, ∃ g', (∀ r, is.foldlM addRandomNode (g, f r) = .ok (g', r)) ∧
      Holding d N L (ns ++ is.map Id.new) es g' := by
  intro is
  induction is with
  | nil => intro ns g H; exact ⟨fun r => r, g, fun r => rfl, by simpa using H⟩
  | cons i is ih =>
    intro ns g H
    obtain ⟨f, g1, h1, H1⟩ := addRandomNode_any H i
    obtain ⟨f2, g2, h2, H2⟩ := ih _ g1 H1
    refine ⟨fun r => f (f2 r), g2, fun r => ?_, by simpa using H2⟩
    rw [List.foldlM_cons, h1, bind_ok, h2]

theorem emptyGraph_any (d : Bool) (n : Nat) (nl : List NL) (el : List EL) (r' : Rng) :
    ∃ (r : Rng) (g : GraphMap m k NL EL), emptyGraph d n nl el r = .ok (g, r') ∧
      Holding d (SetMap.fromVec nl) (SetMap.fromVec el) ((List.range n).map Id.new) [] g := by
  obtain ⟨f, g, h1, h2⟩ := addNodes_any (List.range n) [] _ (holding_start (m := m) (k := k) d nl el)
  exact ⟨f r', g, h1 r', by simpa using h2⟩

/-- A stream of tosses that selects exactly the pairs in `P`. It can be fixed before the graph is known, as
only the number of labels matters. -/
theorem toss_any {p : ℚ} (h0 : 0 < p) (h1 : p < 1) (P : Nat × Nat → Bool) :
    ∀ (ps : List (Nat × Nat)) (N : SetMap NL) (L : SetMap EL) (ns : List (Id m)),
    (∀ p ∈ ps, Id.new p.1 ∈ ns ∧ Id.new p.2 ∈ ns) →
    ∃ r : Rng, ∀ (es : List (Id m × Id m)) (g : GraphMap m k NL EL), Holding d N L ns es g →
      ∃ g' r', ps.foldlM (tossEdge (.fin p)) (g, r) = .ok (g', r') ∧
        Holding d N L ns (es ++ (ps.filter P).map (fun p => (Id.new p.1, Id.new p.2))) g' := by
  intro ps
  induction ps with
  | nil => intro N L ns _; exact ⟨zeros, fun es g H => ⟨g, zeros, rfl, by simpa using H⟩⟩
  | cons q ps ih =>
    intro N L ns hp
    obtain ⟨r1, hr1⟩ := ih N L ns (fun q hq => hp q (by simp [hq]))
    by_cases hP : P q = true
    · obtain ⟨f, l, hf⟩ := randomItem_any L
      refine ⟨after draw0 (f r1), fun es g H => ?_⟩
      obtain ⟨g1, r', e1, H1⟩ := addRandomEdge_ok H (f r1) q (hp q (by simp)).1 (hp q (by simp)).2
      have hr : r' = r1 := by
        unfold addRandomEdge at e1
        simp only [H.el, hf, bind_ok] at e1
        obtain ⟨_, _, e3⟩ := bind_eq_ok e1
        cases e3; rfl
      subst hr
      obtain ⟨g2, r2, e2, H2⟩ := hr1 _ g1 H1
      refine ⟨g2, r2, ?_, by simpa [hP] using H2⟩
      have ht : tossEdge (.fin p) (g, after draw0 (f r')) q = addRandomEdge (g, f r') q :=
        if_pos (show F32.lt (.fin 0) (.fin p) = true from decide_eq_true h0)
      rw [List.foldlM_cons, ht, e1, bind_ok]; exact e2
    · refine ⟨after ⟨0, p, h0.le, h1⟩ r1, fun es g H => ?_⟩
      obtain ⟨g2, r2, e2, H2⟩ := hr1 _ g H
      refine ⟨g2, r2, ?_, by simpa [hP] using H2⟩
      have ht : tossEdge (.fin p) (g, after ⟨0, p, h0.le, h1⟩ r1) q = .ok (g, r1) :=
        if_neg (show ¬ F32.lt (.fin p) (.fin p) = true by simp [F32.lt])
      rw [List.foldlM_cons, ht, bind_ok]; exact e2

theorem sampleLoop_any {X : Type} [DecidableEq X] (amount : Nat) : ∀ (xs res T : List X) (i : Nat),
    (res ++ xs).Nodup → T.Nodup → (∀ x ∈ T, x ∈ res ++ xs) → T.length = res.length →
    res.length = amount → ∀ r0 : Rng,
    ∃ r out, sampleLoop amount i xs res r = .ok (out, r0) ∧ out.Perm T := by
  intro xs
  induction xs with
  | nil =>
    intro res T i h hT hs hl _ r0
    refine ⟨r0, res, rfl, ?_⟩
    exact ((List.subperm_of_subset hT (fun x hx => by simpa using hs x hx)).perm_of_length_le
      (le_of_eq hl.symm)).symm
  | cons x xs ih =>
    intro res T i h hT hs hl ha r0
    obtain ⟨n1, n2, n3⟩ := List.nodup_append.1 h
    obtain ⟨n4, n5⟩ := List.nodup_cons.1 n2
    by_cases hx : x ∈ T
    · -- some entry of the reservoir is not wanted
      obtain ⟨y, hy, hyT⟩ : ∃ y ∈ res, y ∉ T := by
        by_contra hc
        have hsub : ∀ y ∈ x :: res, y ∈ T := by
          intro y hy
          rcases List.mem_cons.1 hy with rfl | hy
          · exact hx
          · by_contra hn; exact hc ⟨y, hy, hn⟩
        have := nodup_length_le (List.nodup_cons.2 ⟨fun hr => n3 x hr x (by simp) rfl, n1⟩) hsub
        simp only [List.length_cons] at this
        omega
      obtain ⟨j, hj, rfl⟩ := List.getElem_of_mem hy
      have hmem : ∀ z ∈ T, z ∈ res → z ∈ res.set j x := by
        intro z hz hzr
        obtain ⟨l, hl', rfl⟩ := List.getElem_of_mem hzr
        have hne : j ≠ l := by rintro rfl; exact hyT hz
        have : (res.set j x)[l]'(by simpa using hl') = res[l] := List.getElem_set_of_ne hne _ _
        rw [← this]; exact List.getElem_mem _
      have hsetmem : ∀ y ∈ res.set j x, y ∈ res ∨ y = x := fun y hy => List.mem_or_eq_of_mem_set hy
      obtain ⟨r, out, e1, e2⟩ := ih (res.set j x) T (i + 1) (by
          rw [List.nodup_append]
          refine ⟨n1.set (fun hx => n3 x hx x (by simp) rfl), n5, ?_⟩
          intro a ha b hb hab
          subst hab
          rcases hsetmem a ha with h | h
          · exact n3 a h a (by simp [hb]) rfl
          · subst h; exact n4 hb) hT (by
          intro z hz
          rcases List.mem_append.1 (hs z hz) with h | h
          · exact List.mem_append_left _ (hmem z hz h)
          · rcases List.mem_cons.1 h with rfl | h
            · exact List.mem_append_left _ (List.mem_set hj _)
            · exact List.mem_append_right _ h) (by rw [List.length_set]; exact hl)
          (by rw [List.length_set]; exact ha) r0
      refine ⟨after ⟨j, 0, le_refl _, by decide⟩ r, out, ?_, e2⟩
      unfold sampleLoop Rng.range
      rw [if_neg (by omega), pure_ok, bind_ok]
      show sampleLoop amount (i + 1) xs (if j % (i + 1 + amount) < res.length then
        res.set (j % (i + 1 + amount)) x else res) r = _
      rw [Nat.mod_eq_of_lt (by omega), if_pos hj]
      exact e1
    · obtain ⟨r, out, e1, e2⟩ := ih res T (i + 1) (by
          rw [List.nodup_append]
          exact ⟨n1, n5, fun a ha b hb => n3 a ha b (by simp [hb])⟩) hT (by
          intro z hz
          rcases List.mem_append.1 (hs z hz) with h | h
          · exact List.mem_append_left _ h
          · rcases List.mem_cons.1 h with rfl | h
            · exact absurd hz hx
            · exact List.mem_append_right _ h) hl ha r0
      refine ⟨after ⟨amount, 0, le_refl _, by decide⟩ r, out, ?_, e2⟩
      unfold sampleLoop Rng.range
      rw [if_neg (by omega), pure_ok, bind_ok]
      show sampleLoop amount (i + 1) xs (if amount % (i + 1 + amount) < res.length then
        res.set (amount % (i + 1 + amount)) x else res) r = _
      rw [Nat.mod_eq_of_lt (by omega), if_neg (by omega)]
      exact e1

theorem sampleIter_any {X : Type} [DecidableEq X] {l T : List X} (hl : l.Nodup) (hT : T.Nodup)
    (hs : ∀ x ∈ T, x ∈ l) (r0 : Rng) :
    ∃ r out r', sampleIter r l T.length = .ok (some out, r') ∧ out.Perm T := by
  have hle := nodup_length_le hT hs
  have h0 : (l.take T.length).length = T.length := by rw [List.length_take]; omega
  obtain ⟨r, out, e1, e2⟩ := sampleLoop_any T.length (l.drop T.length) (l.take T.length) T 0
    (by rwa [List.take_append_drop]) hT (by rwa [List.take_append_drop]) h0.symm h0 r0
  refine ⟨r, out, r0, ?_, e2⟩
  unfold sampleIter
  rw [if_pos h0, e1]
  rfl

/-! ### What the finished graph shows -/

theorem drawn_taken {X : Type} [DecidableEq X] {l : List X} {o : Option (Id k)}
    (h : Drawn (SetMap.fromVec l) o) :
    TakenFrom l (o.bind (fun i => (SetMap.fromVec l).getItem i.val)) := by
  rcases h with ⟨h1, rfl⟩ | ⟨i, rfl, hi⟩
  · left
    refine ⟨?_, rfl⟩
    rw [List.eq_nil_iff_forall_not_mem]
    intro x hx
    rw [← SetMap.mem_fromVec] at hx
    have : (SetMap.fromVec l).labels = [] := List.length_eq_zero_iff.1 h1
    rw [this] at hx; cases hx
  · right
    refine ⟨(SetMap.fromVec l).labels[i.val]'hi, ?_, ?_⟩
    · rw [← SetMap.mem_fromVec]; exact List.getElem_mem _
    · show (SetMap.fromVec l).labels[i.val]? = _
      rw [List.getElem?_eq_getElem hi]

theorem Holding.shows {nl : List NL} {el : List EL} {ns : List (Id m)} {es : List (Id m × Id m)}
    (H : Holding d (SetMap.fromVec nl) (SetMap.fromVec el) ns es g) :
    Shows g.view g.abs ∧ (∀ x, (g.abs.node x).isSome ↔ x ∈ ns) ∧
    (∀ s t, (g.abs.edge s t).isSome ↔ (s, t) ∈ es ∨ (d = false ∧ (t, s) ∈ es)) ∧
    g.abs.LabelledFrom nl el := by
  have hedge : ∀ s t, (g.abs.edge s t).isSome ↔ (s, t) ∈ es ∨ (d = false ∧ (t, s) ∈ es) := by
    intro s t
    show (if g.directed = true ∨ s ≤ t then g.decode.edge s t else g.decode.edge t s).isSome ↔ _
    split
    · rw [← (GraphMap.shape_decode g).2]; exact H.edge s t
    · rename_i hc
      have hd : d = false := by
        rw [H.dir] at hc
        cases d
        · rfl
        · exact absurd (.inl rfl) hc
      rw [← (GraphMap.shape_decode g).2]
      refine (H.edge t s).trans ?_
      simp only [hd, true_and]
      exact or_comm
  have hlab : ∀ s t l, g.decode.edge s t = some l → TakenFrom el l := by
    intro s t l h
    have h : (g.outE s t).map (fun o => o.bind (fun l => g.edgeLabels.getItem l.val)) = some l := h
    rw [Option.map_eq_some_iff] at h
    obtain ⟨o, h1, rfl⟩ := h
    rw [H.el]
    exact drawn_taken (H.edgeLab s t o h1)
  refine ⟨GraphMap.inv_shows H.reach.inv, ?_, hedge, ?_, ?_⟩
  · intro x
    show (g.decode.node x).isSome ↔ _
    rw [← (GraphMap.shape_decode g).1]
    exact H.node x
  · intro x l h
    have h : (g.labE x).map (fun o => o.bind (fun l => g.nodeLabels.getItem l.val)) = some l := h
    rw [Option.map_eq_some_iff] at h
    obtain ⟨o, h1, rfl⟩ := h
    rw [H.nl]
    exact drawn_taken (H.nodeLab x o h1)
  · intro s t l h
    have h : (if g.directed = true ∨ s ≤ t then g.decode.edge s t else g.decode.edge t s) = some l := h
    split at h <;> exact hlab _ _ l h

/-- The pairs `qs` are distinct and none of them is a loop or, if undirected, descending. -/
def Simple (d : Bool) (n : Nat) (qs : List (Nat × Nat)) : Prop :=
  qs.Nodup ∧ ∀ q ∈ qs, q ∈ completeEdgePairs d n

/-- A graph filled with pairs of distinct ids: everything but the choice of pairs. -/
theorem Holding.simple {n : Nat} {nl : List NL} {el : List EL} {qs : List (Nat × Nat)} (hn : n ≤ m + 1)
    (hq : Simple d n qs)
    (H : Holding d (SetMap.fromVec nl) (SetMap.fromVec el) ((List.range n).map Id.new)
      (qs.map (fun p => (Id.new p.1, Id.new p.2))) g) :
    (∀ x, (g.abs.node x).isSome ↔ x.val < n) ∧
    (∀ s t : Id m, (g.abs.edge s t).isSome ↔ (s.val, t.val) ∈ qs ∨ (d = false ∧ (t.val, s.val) ∈ qs)) ∧
    (∀ s, g.abs.edge s s = none) ∧
    g.nodeCount = n ∧ g.edgeCount = qs.length ∧ g.edgeIndices.length = qs.length := by
  obtain ⟨S, h1, h2, -⟩ := H.shows
  have hval : ∀ i, i < n → (Id.new i : Id m).val = i := fun i hi => Id_new_lt (by omega)
  have hnode : ∀ x, (g.abs.node x).isSome ↔ x.val < n := by
    intro x
    rw [h1, List.mem_map]
    constructor
    · rintro ⟨i, hi, rfl⟩
      rw [List.mem_range] at hi
      rw [hval i hi]; exact hi
    · intro h
      exact ⟨x.val, List.mem_range.2 h, GraphMap.Id_new_self x⟩
  have hmem : ∀ s t : Id m, (s, t) ∈ qs.map (fun p => ((Id.new p.1, Id.new p.2) : Id m × Id m)) ↔
      (s.val, t.val) ∈ qs := by
    intro s t
    rw [List.mem_map]
    constructor
    · rintro ⟨⟨a, b⟩, hp, he⟩
      obtain ⟨k1, k2, _⟩ := mem_pairs.1 (hq.2 _ hp)
      simp only [Prod.mk.injEq] at he
      obtain ⟨rfl, rfl⟩ := he
      rw [hval a k1, hval b k2]; exact hp
    · intro h
      exact ⟨_, h, by simp only [GraphMap.Id_new_self]⟩
  have hedge : ∀ s t : Id m, (g.abs.edge s t).isSome ↔
      (s.val, t.val) ∈ qs ∨ (d = false ∧ (t.val, s.val) ∈ qs) := by
    intro s t; rw [h2, hmem, hmem]
  refine ⟨hnode, hedge, ?_, ?_, ?_, ?_⟩
  · intro s
    rw [← Option.not_isSome_iff_eq_none, hedge]
    rintro (h | ⟨_, h⟩) <;> exact (mem_pairs.1 (hq.2 _ h)).2.2.1 rfl
  · have e : g.nodeCount = g.nodeIndices.length := S.nodeCount
    have e2 : g.nodeIndices.length = ((List.range n).map (Id.new : Nat → Id m)).length := by
      apply List.Perm.length_eq
      have hnd : g.nodeIndices.Nodup := S.nodesNodup
      rw [List.perm_ext_iff_of_nodup hnd]
      · intro x
        rw [← h1]; exact S.memNodes x
      · refine List.Nodup.map_on ?_ List.nodup_range
        intro a ha b hb hab
        rw [List.mem_range] at ha hb
        rw [← hval a ha, ← hval b hb, hab]
    rw [e, e2, List.length_map, List.length_range]
  · show g.numEdges = _
    rw [H.count, List.length_map]
  · have e2 : g.edgeIndices.length = (qs.map (fun p => ((Id.new p.1, Id.new p.2) : Id m × Id m))).length := by
      apply List.Perm.length_eq
      have hnd : g.edgeIndices.Nodup := S.edgesNodup
      rw [List.perm_ext_iff_of_nodup hnd]
      · rintro ⟨s, t⟩
        rw [hmem]
        refine (S.memEdges s t).trans ?_
        unfold AGraph.Listed
        rw [hedge]
        have hd : g.view.directed = d := H.dir
        rw [hd]
        constructor
        · rintro ⟨h | ⟨h3, h⟩, hl⟩
          · exact h
          · have := mem_pairs.1 (hq.2 _ h)
            subst h3
            have h4 := this.2.2.2
            simp only [Bool.false_eq_true, false_or] at h4 hl
            exact absurd (Fin.le_def.1 hl) (by omega)
        · intro h
          refine ⟨.inl h, ?_⟩
          rcases (mem_pairs.1 (hq.2 _ h)).2.2.2 with h' | h'
          · exact .inl h'
          · exact .inr (Fin.le_def.2 (Nat.le_of_lt h'))
      · refine List.Nodup.map_on ?_ hq.1
        rintro ⟨a, b⟩ ha ⟨a', b'⟩ hb hab
        obtain ⟨k1, k2, _⟩ := mem_pairs.1 (hq.2 _ ha)
        obtain ⟨k3, k4, _⟩ := mem_pairs.1 (hq.2 _ hb)
        simp only [Prod.mk.injEq] at hab
        rw [← hval a k1, ← hval a' k3, ← hval b k2, ← hval b' k4, hab.1, hab.2]
    rw [e2, List.length_map]

end Verif.Gen
