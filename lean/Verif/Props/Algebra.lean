import Verif.Props.SetOps
import Verif.Props.Equality2

/-! C135: the laws of `graph_union` and `graph_minus`. -/

namespace Verif.Props

open Verif Verif.GraphMap Verif.Spec

variable {m k : Nat} {NL EL : Type} [DecidableEq NL] [DecidableEq EL]

/-- The node labels `nl` and the edge labels `el` cover a graph. -/
def LabelsIn (A : AGraph (Id m) NL EL) (nl : List NL) (el : List EL) : Prop :=
  (∀ n x, A.node n = some (some x) → x ∈ nl) ∧ (∀ s t x, A.edge s t = some (some x) → x ∈ el)

/-- The number of edges the first graph lists that the second lists too. -/
def sharedEdges (g h : GView m k NL EL) : Nat := (g.edgeIndices.filter (· ∈ h.edgeIndices)).length

omit [DecidableEq NL] [DecidableEq EL] in
theorem LabelsIn.union {A B : AGraph (Id m) NL EL} {nl : List NL} {el : List EL} (ha : LabelsIn A nl el)
    (hb : LabelsIn B nl el) : LabelsIn (A.union B) nl el := by
  refine ⟨fun n x h => ?_, fun s t x h => ?_⟩
  · simp only [AGraph.union] at h
    split at h
    · rename_i l hl; exact hb.1 n x (hl.trans h)
    · exact ha.1 n x h
  · simp only [AGraph.union] at h
    split at h
    · rename_i l hl; exact hb.2 s t x (hl.trans h)
    · exact ha.2 s t x h

theorem union_ok {g0 g1 : GView m k NL EL} {A B : AGraph (Id m) NL EL} (S0 : Shows g0 A)
    (S1 : Shows g1 B) (hd : g0.directed = g1.directed) {nl : List NL} {el : List EL}
    (hnl : nl.length ≤ k + 1) (hel : el.length ≤ k + 1) (ha : LabelsIn A nl el) (hb : LabelsIn B nl el) :
    ∃ g, graphUnion g0 g1 = .ok g ∧ g.view.directed = g0.directed ∧ Shows g.view (A.union B) ∧
      g.view.edgeCount = g0.edgeIndices.length + g1.edgeIndices.length := by
  obtain ⟨g, h1, h2, _, h4, h5⟩ := graphUnion_ok S0 S1 hd hnl hel
    (fun n x h => h.elim (ha.1 n x) (hb.1 n x)) (fun s t x h => h.elim (ha.2 s t x) (hb.2 s t x))
  exact ⟨g, h1, h2, h4, h5⟩

omit [DecidableEq NL] [DecidableEq EL] in
theorem union_assoc (A B C : AGraph (Id m) NL EL) : (A.union B).union C = A.union (B.union C) := by
  apply AGraph_ext
  · intro n
    simp only [AGraph.union]
    cases C.node n <;> rfl
  · intro s t
    simp only [AGraph.union]
    cases C.edge s t <;> rfl

omit [DecidableEq NL] [DecidableEq EL] in
theorem listed_union {A B : AGraph (Id m) NL EL} {d : Bool} {s t : Id m} :
    (A.union B).Listed d s t ↔ A.Listed d s t ∨ B.Listed d s t := by
  simp only [AGraph.Listed, AGraph.union]
  cases B.edge s t <;> simp

omit [DecidableEq NL] [DecidableEq EL] in
/-- A union lists what both list, the shared edges once. -/
theorem union_length {g0 g1 g : GView m k NL EL} {A B : AGraph (Id m) NL EL} (S0 : Shows g0 A)
    (S1 : Shows g1 B) (S : Shows g (A.union B)) (hd : g0.directed = g1.directed)
    (hg : g.directed = g0.directed) :
    g.edgeIndices.length + sharedEdges g0 g1 = g0.edgeIndices.length + g1.edgeIndices.length := by
  have hp : g.edgeIndices.Perm (g0.edgeIndices.filter (fun e => !decide (e ∈ g1.edgeIndices)) ++
      g1.edgeIndices) := by
    rw [List.perm_ext_iff_of_nodup S.edgesNodup]
    · rintro ⟨s, t⟩
      simp only [List.mem_append, List.mem_filter, S.memEdges, S0.memEdges, S1.memEdges, listed_union, hg, hd,
        Bool.not_eq_true', decide_eq_false_iff_not]
      tauto
    · refine List.Nodup.append (S0.edgesNodup.filter _) S1.edgesNodup ?_
      intro e h1 h2
      simp only [List.mem_filter, Bool.not_eq_true', decide_eq_false_iff_not] at h1
      exact h1.2 h2
  rw [hp.length_eq, List.length_append]
  have := List.length_eq_length_filter_add (l := g0.edgeIndices) (fun e => decide (e ∈ g1.edgeIndices))
  unfold sharedEdges
  omega

omit [DecidableEq NL] [DecidableEq EL] in
theorem same_nodeCount {g h : GView m k NL EL} {A : AGraph (Id m) NL EL} (hg : Shows g A)
    (hh : Shows h A) : g.nodeCount = h.nodeCount := by
  rw [hg.nodeCount, hh.nodeCount]
  apply List.Perm.length_eq
  rw [List.perm_ext_iff_of_nodup hg.nodesNodup hh.nodesNodup]
  intro n
  rw [hg.memNodes, hh.memNodes]

/-- Graphs with the same answers are `equal` exactly if their counters agree. -/
theorem equal_same {g h : GView m k NL EL} {A : AGraph (Id m) NL EL} (hg : Shows g A)
    (hh : Shows h A) (hd : g.directed = h.directed) :
    g.equal h = .ok (decide (g.edgeCount = h.edgeCount)) := by
  obtain ⟨b, h1, h2⟩ := c84_equal_exact hg hh
  rw [h1]
  congr 1
  have hs : A.Sub A := ⟨fun _ _ h => h, fun _ _ _ h => h⟩
  have hn := same_nodeCount hg hh
  cases b <;> simp_all

/-- **C135.** Union is associative in what the results contain; the library's `equal` sees this exactly if
the first two graphs share as many edges as the last two, because `edge_count` counts shared edges twice. -/
theorem c135_union_assoc {g0 g1 g2 : GView m k NL EL} {A B C : AGraph (Id m) NL EL} (S0 : Shows g0 A)
    (S1 : Shows g1 B) (S2 : Shows g2 C) (h01 : g0.directed = g1.directed) (h12 : g1.directed = g2.directed)
    {nl : List NL} {el : List EL} (hnl : nl.length ≤ k + 1) (hel : el.length ≤ k + 1)
    (ha : LabelsIn A nl el) (hb : LabelsIn B nl el) (hc : LabelsIn C nl el) :
    ∃ a b l r : GraphMap m k NL EL, graphUnion g0 g1 = .ok a ∧ graphUnion a.view g2 = .ok l ∧
      graphUnion g1 g2 = .ok b ∧ graphUnion g0 b.view = .ok r ∧ SameGraph l.view r.view ∧
      l.view.equal r.view = .ok (decide (sharedEdges g0 g1 = sharedEdges g1 g2)) := by
  obtain ⟨a, a1, a2, a3, a4⟩ := union_ok S0 S1 h01 hnl hel ha hb
  obtain ⟨b, b1, b2, b3, b4⟩ := union_ok S1 S2 h12 hnl hel hb hc
  obtain ⟨l, l1, l2, l3, l4⟩ := union_ok a3 S2 (a2.trans (h01.trans h12)) hnl hel (ha.union hb) hc
  obtain ⟨r, r1, r2, r3, r4⟩ := union_ok S0 b3 (h01.trans b2.symm) hnl hel ha (hb.union hc)
  rw [← union_assoc] at r3
  have hd : l.view.directed = r.view.directed := by rw [l2, r2, a2]
  refine ⟨a, b, l, r, a1, l1, b1, r1, (sameGraph_iff l3 r3).2 ⟨hd, rfl⟩, ?_⟩
  rw [equal_same l3 r3 hd]
  have e1 := union_length S0 S1 a3 h01 a2
  have e2 := union_length S1 S2 b3 h12 b2
  congr 1
  apply decide_eq_decide.2
  omega

/-- **C135.** Joining a graph with itself changes nothing but `edge_count`, which becomes twice the number of
edges. -/
theorem c135_union_self {g : GView m k NL EL} {A : AGraph (Id m) NL EL} (S : Shows g A) :
    ∃ u : GraphMap m k NL EL, graphUnion g g = .ok u ∧ SameGraph u.view g ∧
      u.edgeCount = 2 * g.edgeIndices.length ∧
      u.view.equal g = .ok (decide (2 * g.edgeIndices.length = g.edgeCount)) := by
  obtain ⟨⟨nl, hnl, h1⟩, el, hel, h2⟩ := shows_fits S
  obtain ⟨u, u1, u2, u3, u4⟩ := union_ok S S rfl hnl hel ⟨h1, h2⟩ ⟨h1, h2⟩
  have hu : A.union A = A := by
    apply AGraph_ext
    · intro n; simp only [AGraph.union]; cases A.node n <;> rfl
    · intro s t; simp only [AGraph.union]; cases A.edge s t <;> rfl
  rw [hu] at u3
  have hc : u.view.edgeCount = 2 * g.edgeIndices.length := by omega
  refine ⟨u, u1, (sameGraph_iff u3 S).2 ⟨u2, rfl⟩, hc, ?_⟩
  rw [equal_same u3 S u2, hc]

/-- **C135.** Union is commutative exactly if the labels of shared nodes and edges agree; `equal` sees it. -/
theorem c135_union_comm {g0 g1 : GView m k NL EL} {A B : AGraph (Id m) NL EL} (S0 : Shows g0 A)
    (S1 : Shows g1 B) (h01 : g0.directed = g1.directed)
    {nl : List NL} {el : List EL} (hnl : nl.length ≤ k + 1) (hel : el.length ≤ k + 1)
    (ha : LabelsIn A nl el) (hb : LabelsIn B nl el) :
    ∃ l r : GraphMap m k NL EL, graphUnion g0 g1 = .ok l ∧ graphUnion g1 g0 = .ok r ∧
      (SameGraph l.view r.view ↔ (∀ n x y, A.node n = some x → B.node n = some y → x = y) ∧
        (∀ s t x y, A.edge s t = some x → B.edge s t = some y → x = y)) ∧
      (l.view.equal r.view = .ok true ↔ SameGraph l.view r.view) := by
  obtain ⟨l, l1, l2, l3, l4⟩ := union_ok S0 S1 h01 hnl hel ha hb
  obtain ⟨r, r1, r2, r3, r4⟩ := union_ok S1 S0 h01.symm hnl hel hb ha
  have hd : l.view.directed = r.view.directed := by rw [l2, r2, h01]
  have hx : A.union B = B.union A ↔ (∀ n x y, A.node n = some x → B.node n = some y → x = y) ∧
      (∀ s t x y, A.edge s t = some x → B.edge s t = some y → x = y) := by
    constructor
    · intro h
      refine ⟨fun n x y h1 h2 => ?_, fun s t x y h1 h2 => ?_⟩
      · have := congrArg (fun G => G.node n) h
        simp only [AGraph.union, h1, h2] at this
        injection this with this
        exact this.symm
      · have := congrArg (fun G => G.edge s t) h
        simp only [AGraph.union, h1, h2] at this
        injection this with this
        exact this.symm
    · rintro ⟨h1, h2⟩
      apply AGraph_ext
      · intro n
        simp only [AGraph.union]
        cases hA : A.node n <;> cases hB : B.node n <;> simp
        exact (h1 n _ _ hA hB).symm
      · intro s t
        simp only [AGraph.union]
        cases hA : A.edge s t <;> cases hB : B.edge s t <;> simp
        exact (h2 s t _ _ hA hB).symm
  have hs : SameGraph l.view r.view ↔ A.union B = B.union A := by
    rw [sameGraph_iff l3 r3]; exact ⟨fun h => h.2, fun h => ⟨hd, h⟩⟩
  refine ⟨l, r, l1, r1, hs.trans hx, ?_⟩
  obtain ⟨b, e1, e2⟩ := c84_equal_exact l3 r3
  rw [e1, hs]
  constructor
  · intro h
    injection h with h
    have hsub := (e2.1 h).2.2.2
    rw [hx]
    refine ⟨fun n x y h1 h2 => ?_, fun s t x y h1 h2 => ?_⟩
    · have := hsub.1 n y (by simp only [AGraph.union, h2])
      simp only [AGraph.union, h1] at this
      injection this
    · have := hsub.2 s t y (by simp only [AGraph.union, h2])
      simp only [AGraph.union, h1] at this
      injection this
  · intro h
    congr 1
    rw [e2]
    have r3' := r3
    rw [← h] at r3'
    refine ⟨hd, same_nodeCount l3 r3', by omega, ?_⟩
    rw [h]
    exact ⟨fun _ _ h => h, fun _ _ _ h => h⟩

theorem minus_ok {g0 g1 : GView m k NL EL} {A B : AGraph (Id m) NL EL} (S0 : Shows g0 A)
    (S1 : Shows g1 B) (h : ¬ A.SharedLoop B) : ∃ g, graphMinus g0 g1 = .ok g ∧
      g.view.directed = g0.directed ∧ Shows g.view (A.restrict (fun n => B.node n = none)) ∧
      g.view.edgeCount = g.view.edgeIndices.length := by
  obtain ⟨g, h1, h2, _, h4, h5⟩ := (c41_minus S0 S1).2 h
  exact ⟨g, h1, h2, h4, h5⟩

omit [DecidableEq NL] [DecidableEq EL] in
theorem same_edgeCount {g h : GView m k NL EL} {A : AGraph (Id m) NL EL} (hg : Shows g A) (hh : Shows h A)
    (hd : g.directed = h.directed) (cg : g.edgeCount = g.edgeIndices.length)
    (ch : h.edgeCount = h.edgeIndices.length) : g.edgeCount = h.edgeCount := by
  rw [cg, ch]
  apply List.Perm.length_eq
  rw [List.perm_ext_iff_of_nodup hg.edgesNodup hh.edgesNodup]
  rintro ⟨s, t⟩
  rw [hg.memEdges, hh.memEdges, hd]

omit [DecidableEq NL] [DecidableEq EL] in
theorem union_node_none {B C : AGraph (Id m) NL EL} {n : Id m} :
    (B.union C).node n = none ↔ B.node n = none ∧ C.node n = none := by
  simp only [AGraph.union]
  cases C.node n <;> simp

/-- **C135.** Subtracting two graphs one after the other is subtracting their union: both ways panic, on a
self loop at a node that is taken away, or both give the same graph, which `equal` recognises. -/
theorem c135_minus_minus {g0 g1 g2 : GView m k NL EL} {A B C : AGraph (Id m) NL EL} (S0 : Shows g0 A)
    (S1 : Shows g1 B) (S2 : Shows g2 C) (h12 : g1.directed = g2.directed)
    {nl : List NL} {el : List EL} (hnl : nl.length ≤ k + 1) (hel : el.length ≤ k + 1)
    (hb : LabelsIn B nl el) (hc : LabelsIn C nl el) :
    ∃ b : GraphMap m k NL EL, graphUnion g1 g2 = .ok b ∧
      ((graphMinus g0 b.view = .error .unwrapNone ∧
        (graphMinus g0 g1 >>= fun a => graphMinus a.view g2) = .error .unwrapNone) ∨
      ∃ l r : GraphMap m k NL EL, graphMinus g0 b.view = .ok r ∧
        (graphMinus g0 g1 >>= fun a => graphMinus a.view g2) = .ok l ∧
        SameGraph l.view r.view ∧ l.view.equal r.view = .ok true) := by
  obtain ⟨b, b1, b2, b3, b4⟩ := union_ok S1 S2 h12 hnl hel hb hc
  refine ⟨b, b1, ?_⟩
  by_cases hs : A.SharedLoop (B.union C)
  · left
    refine ⟨(c41_minus S0 b3).1 hs, ?_⟩
    by_cases hB : A.SharedLoop B
    · rw [(c41_minus S0 S1).1 hB]; rfl
    · obtain ⟨a, a1, a2, a3, a4⟩ := minus_ok S0 S1 hB
      rw [a1]
      refine (c41_minus a3 S2).1 ?_
      obtain ⟨n, h1, h2⟩ := hs
      have hn : B.node n = none := by
        cases hx : B.node n with
        | none => rfl
        | some x => exact absurd ⟨n, by simp [hx], h2⟩ hB
      refine ⟨n, ?_, ?_⟩
      · simp only [AGraph.union] at h1
        cases hx : C.node n with
        | none => simp [hx, hn] at h1
        | some x => rfl
      · simp only [AGraph.restrict, hn, and_self, if_true]
        exact h2
  · right
    have hB : ¬ A.SharedLoop B := by
      rintro ⟨n, h1, h2⟩
      refine hs ⟨n, ?_, h2⟩
      simp only [AGraph.union]
      cases C.node n <;> simp [h1]
    obtain ⟨a, a1, a2, a3, a4⟩ := minus_ok S0 S1 hB
    have hC : ¬ (A.restrict (fun n => B.node n = none)).SharedLoop C := by
      rintro ⟨n, h1, h2⟩
      refine hs ⟨n, ?_, ?_⟩
      · simp only [AGraph.union]
        cases hx : C.node n with
        | none => simp [hx] at h1
        | some x => rfl
      · simp only [AGraph.restrict] at h2
        split at h2
        · exact h2
        · cases h2
    obtain ⟨l, l1, l2, l3, l4⟩ := minus_ok a3 S2 hC
    obtain ⟨r, r1, r2, r3, r4⟩ := minus_ok S0 b3 hs
    have he : (A.restrict (fun n => B.node n = none)).restrict (fun n => C.node n = none) =
        A.restrict (fun n => (B.union C).node n = none) := by
      apply AGraph_ext
      · intro n
        simp only [AGraph.restrict, union_node_none]
        by_cases h1 : B.node n = none <;> by_cases h2 : C.node n = none <;> simp [h1, h2]
      · intro s t
        simp only [AGraph.restrict, union_node_none]
        by_cases h1 : B.node s = none <;> by_cases h2 : C.node s = none <;>
          by_cases h3 : B.node t = none <;> by_cases h4 : C.node t = none <;> simp [h1, h2, h3, h4]
    rw [he] at l3
    have hd : l.view.directed = r.view.directed := by rw [l2, r2, a2]
    refine ⟨l, r, r1, by rw [a1]; exact l1, (sameGraph_iff l3 r3).2 ⟨hd, rfl⟩, ?_⟩
    rw [equal_same l3 r3 hd, same_edgeCount l3 r3 hd l4 r4]
    simp

/-- **C135.** A graph without self loops minus itself is empty; with one, the call panics. -/
theorem c135_minus_self {g : GView m k NL EL} {A : AGraph (Id m) NL EL} (S : Shows g A) :
    ((∃ n, (A.edge n n).isSome) → graphMinus g g = .error .unwrapNone) ∧
    ((∀ n, A.edge n n = none) → ∃ r : GraphMap m k NL EL, graphMinus g g = .ok r ∧
      (∀ n, r.hasNode n = false) ∧ r.nodeCount = 0 ∧ r.edgeCount = 0) := by
  constructor
  · rintro ⟨n, h⟩
    exact (c41_minus S S).1 ⟨n, (S.ends n n h).1, h⟩
  · intro h
    obtain ⟨r, r1, r2, r3, r4⟩ := minus_ok S S (by rintro ⟨n, _, h2⟩; rw [h n] at h2; cases h2)
    have hn : ∀ n, (A.restrict (fun n => A.node n = none)).node n = none := by
      intro n
      simp only [AGraph.restrict]
      split
      · assumption
      · rfl
    have hN : r.view.nodeIndices = [] := by
      rw [List.eq_nil_iff_forall_not_mem]
      intro n hm
      have := (r3.memNodes n).1 hm
      rw [hn n] at this
      cases this
    have hE : r.view.edgeIndices = [] := by
      rw [List.eq_nil_iff_forall_not_mem]
      rintro ⟨s, t⟩ hm
      have h1 := (r3.memEdges s t).1 hm
      have h2 := (r3.ends s t h1.1).1
      rw [hn s] at h2
      cases h2
    refine ⟨r, r1, fun n => ?_, ?_, ?_⟩
    · have : r.hasNode n = _ := r3.hasNode n
      rw [this, hn n]; rfl
    · have : r.nodeCount = _ := r3.nodeCount
      rw [this, hN]; rfl
    · have : r.edgeCount = _ := r4
      rw [this, hE]; rfl

/-- **C135.** Adding a graph and taking it away again gives the difference, unless the added graph has a self
loop: then the call panics. -/
theorem c135_union_minus {g0 g1 : GView m k NL EL} {A B : AGraph (Id m) NL EL} (S0 : Shows g0 A)
    (S1 : Shows g1 B) (h01 : g0.directed = g1.directed)
    {nl : List NL} {el : List EL} (hnl : nl.length ≤ k + 1) (hel : el.length ≤ k + 1)
    (ha : LabelsIn A nl el) (hb : LabelsIn B nl el) :
    ∃ u : GraphMap m k NL EL, graphUnion g0 g1 = .ok u ∧
      ((∃ n, (B.edge n n).isSome) → graphMinus u.view g1 = .error .unwrapNone) ∧
      ((∀ n, B.edge n n = none) →
        (graphMinus u.view g1 = .error .unwrapNone ∧ graphMinus g0 g1 = .error .unwrapNone) ∨
        ∃ l r : GraphMap m k NL EL, graphMinus u.view g1 = .ok l ∧ graphMinus g0 g1 = .ok r ∧
          SameGraph l.view r.view ∧ l.view.equal r.view = .ok true) := by
  obtain ⟨u, u1, u2, u3, u4⟩ := union_ok S0 S1 h01 hnl hel ha hb
  refine ⟨u, u1, ?_, ?_⟩
  · rintro ⟨n, h⟩
    refine (c41_minus u3 S1).1 ⟨n, (S1.ends n n h).1, ?_⟩
    simp only [AGraph.union]
    cases hx : B.edge n n with
    | none => rw [hx] at h; cases h
    | some x => rfl
  · intro h
    have hs : (A.union B).SharedLoop B ↔ A.SharedLoop B := by
      unfold AGraph.SharedLoop
      simp only [AGraph.union, h]
    by_cases hA : A.SharedLoop B
    · exact .inl ⟨(c41_minus u3 S1).1 (hs.2 hA), (c41_minus S0 S1).1 hA⟩
    · right
      obtain ⟨l, l1, l2, l3, l4⟩ := minus_ok u3 S1 (fun h => hA (hs.1 h))
      obtain ⟨r, r1, r2, r3, r4⟩ := minus_ok S0 S1 hA
      have he : (A.union B).restrict (fun n => B.node n = none) = A.restrict (fun n => B.node n = none) := by
        apply AGraph_ext
        · intro n
          simp only [AGraph.restrict, AGraph.union]
          split
          · rename_i h1; rw [h1]
          · rfl
        · intro s t
          simp only [AGraph.restrict, AGraph.union]
          split
          · rename_i h1
            cases hx : B.edge s t with
            | none => rfl
            | some x =>
              have := (S1.ends s t (by simp [hx])).1
              rw [h1.1] at this
              cases this
          · rfl
      rw [he] at l3
      have hd : l.view.directed = r.view.directed := by rw [l2, r2, u2]
      refine ⟨l, r, l1, r1, (sameGraph_iff l3 r3).2 ⟨hd, rfl⟩, ?_⟩
      rw [equal_same l3 r3 hd, same_edgeCount l3 r3 hd l4 r4]
      simp

/-- **C135.** Taking a graph away and adding it again gives the union exactly if every edge of the first graph
at a node of the second is an edge of the second too; `equal` accepts the two as equal only if there is no
such edge at all, since the union counts it twice. -/
theorem c135_minus_union {g0 g1 : GView m k NL EL} {A B : AGraph (Id m) NL EL} (S0 : Shows g0 A)
    (S1 : Shows g1 B) (h01 : g0.directed = g1.directed)
    {nl : List NL} {el : List EL} (hnl : nl.length ≤ k + 1) (hel : el.length ≤ k + 1)
    (ha : LabelsIn A nl el) (hb : LabelsIn B nl el) :
    (A.SharedLoop B ∧ graphMinus g0 g1 = .error .unwrapNone) ∨
    ∃ d l u : GraphMap m k NL EL, graphMinus g0 g1 = .ok d ∧ graphUnion d.view g1 = .ok l ∧
      graphUnion g0 g1 = .ok u ∧
      (SameGraph l.view u.view ↔ ∀ s t, (A.edge s t).isSome → (B.node s).isSome ∨ (B.node t).isSome →
        (B.edge s t).isSome) ∧
      (l.view.equal u.view = .ok true ↔ ∀ s t, (A.edge s t).isSome → B.node s = none ∧ B.node t = none) := by
  by_cases hA : A.SharedLoop B
  · exact .inl ⟨hA, (c41_minus S0 S1).1 hA⟩
  right
  obtain ⟨d, d1, d2, d3, d4⟩ := minus_ok S0 S1 hA
  have hda : LabelsIn (A.restrict (fun n => B.node n = none)) nl el := by
    refine ⟨fun n x h => ha.1 n x ?_, fun s t x h => ha.2 s t x ?_⟩
    · simp only [AGraph.restrict] at h
      split at h
      · exact h
      · cases h
    · simp only [AGraph.restrict] at h
      split at h
      · exact h
      · cases h
  obtain ⟨l, l1, l2, l3, l4⟩ := union_ok d3 S1 (d2.trans h01) hnl hel hda hb
  obtain ⟨u, u1, u2, u3, u4⟩ := union_ok S0 S1 h01 hnl hel ha hb
  have hd : l.view.directed = u.view.directed := by rw [l2, u2, d2]
  have hedge : ∀ s t, (A.restrict (fun n => B.node n = none)).edge s t =
      if B.node s = none ∧ B.node t = none then A.edge s t else none := fun _ _ => by
    simp only [AGraph.restrict]
    congr
  have hsame : SameGraph l.view u.view ↔ ∀ s t, (A.edge s t).isSome → (B.node s).isSome ∨ (B.node t).isSome →
      (B.edge s t).isSome := by
    rw [sameGraph_iff l3 u3]
    constructor
    · rintro ⟨-, h⟩ s t h1 h2
      have := congrArg (fun X => X.edge s t) h
      simp only [AGraph.union, hedge] at this
      cases hB : B.edge s t with
      | some x => rfl
      | none =>
        rw [hB, if_neg (by rintro ⟨h3, h4⟩; rw [h3, h4] at h2; simp at h2)] at this
        simp only at this
        rw [← this] at h1
        cases h1
    · intro h
      refine ⟨hd, ?_⟩
      apply AGraph_ext
      · intro n
        simp only [AGraph.union, AGraph.restrict]
        split
        · rfl
        · rename_i hB
          rw [if_pos hB]
      · intro s t
        simp only [AGraph.union, hedge]
        cases hB : B.edge s t with
        | some x => rfl
        | none =>
          simp only
          split
          · rfl
          · rename_i h2
            cases hx : A.edge s t with
            | none => rfl
            | some x =>
              have := h s t (by simp [hx]) (by
                by_contra hc
                apply h2
                simpa using hc)
              rw [hB] at this
              cases this
  refine ⟨d, l, u, d1, l1, u1, hsame, ?_⟩
  have hsub : ∀ e, e ∈ d.view.edgeIndices ↔ e ∈ g0.edgeIndices ∧ B.node e.1 = none ∧ B.node e.2 = none := by
    rintro ⟨s, t⟩
    rw [d3.memEdges, S0.memEdges, d2]
    unfold AGraph.Listed
    rw [hedge]
    split <;> simp_all
  constructor
  · intro he
    have hcount : l.view.edgeCount = u.view.edgeCount := by
      obtain ⟨b, h1, h2⟩ := c84_equal_exact l3 u3
      rw [he] at h1
      exact (h2.1 (Except.ok.inj h1).symm).2.2.1
    rw [l4, u4] at hcount
    have hlen : d.view.edgeIndices.length = g0.edgeIndices.length := by omega
    have hperm : d.view.edgeIndices.Perm g0.edgeIndices :=
      (List.subperm_of_subset d3.edgesNodup (fun e h => ((hsub e).1 h).1)).perm_of_length_le (by omega)
    have key : ∀ s t, (s, t) ∈ g0.edgeIndices → B.node s = none ∧ B.node t = none := fun s t h =>
      ((hsub (s, t)).1 (hperm.mem_iff.2 h)).2
    intro s t h
    by_cases hst : g0.directed = true ∨ s ≤ t
    · exact key s t ((S0.memEdges s t).2 ⟨h, hst⟩)
    · have hdir : g0.directed = false := by
        cases hq : g0.directed with
        | false => rfl
        | true => exact absurd (.inl hq) hst
      have hle : t ≤ s := by
        rcases le_total s t with h | h
        · exact absurd (.inr h) hst
        · exact h
      rw [S0.sym hdir] at h
      exact (key t s ((S0.memEdges t s).2 ⟨h, .inr hle⟩)).symm
  · intro h
    have hs : SameGraph l.view u.view := hsame.2 (fun s t h1 h2 => by
      obtain ⟨h3, h4⟩ := h s t h1
      rw [h3, h4] at h2
      simp at h2)
    have hX := ((sameGraph_iff l3 u3).1 hs).2
    rw [hX] at l3
    rw [equal_same l3 u3 hd]
    have hlen : d.view.edgeIndices.length = g0.edgeIndices.length := by
      apply List.Perm.length_eq
      rw [List.perm_ext_iff_of_nodup d3.edgesNodup S0.edgesNodup]
      rintro ⟨s, t⟩
      rw [hsub]
      refine ⟨fun h => h.1, fun h1 => ⟨h1, h s t ((S0.memEdges s t).1 h1).1⟩⟩
    rw [l4, u4, hlen]
    simp

/-- Non-vacuity: `left`, `right` and `left` again meet the hypotheses; they share one edge each way, so
`equal` accepts; with `right`, `left`, and an empty graph it does not. -/
example : Shows left.view left.abs ∧ Shows right.view right.abs ∧
    LabelsIn left.abs ["a", "b"] ["x"] ∧ LabelsIn right.abs ["a", "b"] ["x"] ∧
    sharedEdges left.view right.view = 1 ∧ sharedEdges right.view left.view = 1 ∧
    sharedEdges left.view (new false : GraphMap 9 3 String String).view = 0 := by
  refine ⟨reachable_shows left_reachable, reachable_shows right_reachable, ?_, ?_, by decide, by decide,
    by decide⟩
  · have hl : ∀ n, left.abs.node n ∈ [none, some none, some (some "a")] := by decide
    have hl' : ∀ s t, left.abs.edge s t ∈ [none, some none, some (some "x")] := by decide
    refine ⟨fun n x h => ?_, fun s t x h => ?_⟩
    · have := hl n; rw [h] at this; simpa using .inl (by simpa using this)
    · have := hl' s t; rw [h] at this; simpa using this
  · have hr : ∀ n, right.abs.node n ∈ [none, some none, some (some "b")] := by decide
    have hr' : ∀ s t, right.abs.edge s t ∈ [none, some none] := by decide
    refine ⟨fun n x h => ?_, fun s t x h => ?_⟩
    · have := hr n; rw [h] at this; simpa using .inr (by simpa using this)
    · have := hr' s t; rw [h] at this; simp at this

/-- The library's `equal` rejects the associative law. -/
example : ∃ a b l r : GraphMap 9 3 String String, graphUnion right.view left.view = .ok a ∧
    graphUnion a.view (new false : GraphMap 9 3 String String).view = .ok l ∧
    graphUnion left.view (new false : GraphMap 9 3 String String).view = .ok b ∧
    graphUnion right.view b.view = .ok r ∧ l.view.equal r.view = .ok false := by
  obtain ⟨a, ha⟩ : ∃ a, graphUnion right.view left.view = .ok a := ⟨_, rfl⟩
  obtain ⟨b, hb⟩ : ∃ b, graphUnion left.view (new false : GraphMap 9 3 String String).view = .ok b := ⟨_, rfl⟩
  cases ha
  cases hb
  refine ⟨_, _, _, _, rfl, rfl, rfl, rfl, by decide⟩

end Verif.Props
