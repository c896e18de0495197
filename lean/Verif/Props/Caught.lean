import Verif.Proof.Caught
import Verif.Props.GraphState
import Verif.Props.Traversal

/-! Property theorems about graphs on which a panic was caught: C122, C123. -/

namespace Verif.Props

open GraphMap Spec

variable {m k : Nat} {NL EL : Type}

/-- `s` is among the in-neighbours of `t`. -/
def InNb (g : GraphMap m k NL EL) (t s : Id m) : Prop := ∃ l, g.inNeighbors t = .ok l ∧ s ∈ l

theorem inNb_iff (g : GraphMap m k NL EL) (t s : Id m) : InNb g t s ↔ g.inE t s := by
  unfold InNb inNeighbors inE
  cases h : g.getNode t with
  | none => simp
  | some nd => simp [pure_ok, NodeMap.inNeighborIds]

theorem reach_eq (g : GraphMap m k NL EL) (a b : Id m) :
    (g.outE a b).isSome = true ↔ g.hasEdge a b = true := by rw [hasEdge_eq_outE]

section
variable [DecidableEq NL] [DecidableEq EL]

/-! ### C122 -/

/-- **C122.** Catching panics changes nothing about calls that do not panic, nor about which do. -/
theorem c122_same_call (g g' : GraphMap m k NL EL) (op : Op m k NL EL) (p : Panic) :
    (g.apply op = .ok g' ↔ g.applyCaught op = (g', .ok ())) ∧
    (g.apply op = .error p ↔ (g.applyCaught op).2 = .error p) := by
  rw [apply_landed]
  rcases g.applyCaught op with ⟨g1, q | u⟩ <;> simp [Landed, Except.map]

/-- **C122.** On a graph without an earlier panic only `remove_node` of a node with a self loop panics,
apart from writing through a handle to something absent, which changes nothing. -/
theorem c122_only_remove_node {g : GraphMap m k NL EL} (hg : Reachable g) {op : Op m k NL EL}
    {p : Panic} (h : (g.applyCaught op).2 = .error p) :
    (∃ n, op = .removeNode n ∧ g.hasEdge n n = true ∧ p = .unwrapNone) ∨
    (p = .explicit ∧ (g.applyCaught op).1 = g ∧
      ((∃ n l, op = .setNodeLabelId n l ∧ g.hasNode n = false) ∨
        ∃ s t l, op = .setEdgeLabelId s t l ∧ g.hasEdge s t = false)) := by
  have hop := h
  rw [← (c122_same_call g g op p).2] at h
  have hk : (∀ n, op ≠ .removeNode n) → (∀ n l, op ≠ .setNodeLabelId n l) →
      (∀ s t l, op ≠ .setEdgeLabelId s t l) → ∃ g', g.apply op = .ok g' := fun h1 h2 h3 =>
    c13_mutators_partial hg op (fun n e => absurd e (h1 n)) (fun n l e => absurd e (h2 n l))
      (fun s t l e => absurd e (h3 s t l))
  cases op with
  | removeNode n =>
    left
    refine ⟨n, rfl, ?_⟩
    have hr : g.removeNode n = .error p := by
      cases hx : g.removeNode n with
      | ok r => simp [apply, hx, bind_ok, pure_ok] at h
      | error q => simpa [apply, hx, bind_error] using h
    cases he : g.hasEdge n n with
    | false =>
      obtain ⟨r, hr'⟩ := (c59_remove_node_panics_iff hg n).2.2 he
      rw [hr'] at hr; cases hr
    | true =>
      rw [(c59_remove_node_panics_iff hg n).1.2 he] at hr
      cases hr; exact ⟨rfl, rfl⟩
  | setNodeLabelId n l =>
    right
    cases hn : g.hasNode n with
    | true =>
      obtain ⟨g', e, -⟩ := setNodeLabelId_spec hg.inv.toNWF n l hn
      simp [apply, e] at h
    | false =>
      have hget : AL.get g.nodeMap n = none := by simpa [hasNode] using hn
      have e : g.setNodeLabelId n l = .error .explicit := by simp [setNodeLabelId, hget]
      simp only [apply, e, Except.error.injEq] at h
      exact ⟨h.symm, by simp [applyCaught, apply, e], Or.inl ⟨n, l, rfl, hn⟩⟩
  | setEdgeLabelId s t l =>
    right
    cases hn : g.hasEdge s t with
    | true =>
      obtain ⟨g', e, -⟩ := setEdgeLabelId_spec hg.inv.toNWF s t l hn
      simp [apply, e] at h
    | false =>
      have e : g.setEdgeLabelId s t l = .error .explicit := by simp [setEdgeLabelId, hn]
      simp only [apply, e, Except.error.injEq] at h
      exact ⟨h.symm, by simp [applyCaught, apply, e], Or.inr ⟨s, t, l, rfl, hn⟩⟩
  | _ =>
    exfalso
    obtain ⟨g', e⟩ := hk (by simp) (by simp) (by simp)
    rw [e] at h; cases h

/-- **C122.** `remove_node` of a node `n` with a self loop: the node and its record are gone, its
neighbours below `n` have been told, the others have not, and nothing has been counted. -/
theorem c122_first_panic {g : GraphMap m k NL EL} (hg : Reachable g) {n : Id m}
    (hl : g.hasEdge n n = true) :
    (g.removeNodeCaught n).2 = .error .unwrapNone ∧
    (∀ x, (g.removeNodeCaught n).1.hasNode x = true ↔ x ≠ n ∧ g.hasNode x = true) ∧
    (∀ x, x ≠ n → (g.removeNodeCaught n).1.getNodeLabel x = g.getNodeLabel x) ∧
    (∀ a b, (g.removeNodeCaught n).1.hasEdge a b = true ↔
      g.hasEdge a b = true ∧ a ≠ n ∧ (b = n → g.isDirected = true ∨ n < a)) ∧
    (∀ a b, (g.removeNodeCaught n).1.hasEdge a b = true →
      (g.removeNodeCaught n).1.getEdgeLabel a b = g.getEdgeLabel a b) ∧
    (∀ b a, InNb (g.removeNodeCaught n).1 b a ↔ InNb g b a ∧ b ≠ n ∧ (a = n → n < b)) ∧
    (g.removeNodeCaught n).1.edgeCount = g.edgeCount ∧
    (g.removeNodeCaught n).1.maxSeenId = g.maxSeenId ∧
    (g.removeNodeCaught n).1.nodeLabels = g.nodeLabels ∧
    (g.removeNodeCaught n).1.edgeLabels = g.edgeLabels ∧
    (g.removeNodeCaught n).1.isDirected = g.isDirected := by
  have hi := hg.inv
  have hlo : (g.outE n n).isSome = true := by rw [reach_eq]; exact hl
  obtain ⟨node, hnd⟩ := (hasNode_iff g n).1 (outE_hasNode hlo)
  obtain ⟨g2, h1, h2, h3, h4, h5, h6, h7, h8, h9, h10, h11⟩ := removeNodeCaught_spec hi.cinv hnd
  rw [h1]
  have hno : ¬ g.OutOk n := fun h => (h n hlo).1 rfl
  have hreach : ∀ t, g.OutReach n t ↔ (g.outE n t).isSome = true ∧ t < n := by
    intro t
    constructor
    · rintro ⟨a, b⟩
      refine ⟨a, lt_of_not_ge fun hge => (b n hge hlo).1 rfl⟩
    · rintro ⟨a, b⟩
      refine ⟨a, fun u hu hs => ⟨?_, hi.target n u hs⟩⟩
      rintro rfl
      exact absurd b (not_lt.2 hu)
  have hout : ∀ a b, g2.outE a b = if a = n ∨ (b = n ∧ g.directed = false ∧
      (g.outE n a).isSome = true ∧ a < n) then none else g.outE a b := by
    intro a b
    rw [h10]
    cases hd : g.directed with
    | true => simp [hno]
    | false => simp [hreach]
  have hedge : ∀ a b, g2.hasEdge a b = true ↔
      g.hasEdge a b = true ∧ a ≠ n ∧ (b = n → g.isDirected = true ∨ n < a) := by
    intro a b
    rw [← reach_eq, ← reach_eq, hout]
    by_cases ha : a = n
    · simp [ha]
    · by_cases hb : b = n
      · subst hb
        unfold isDirected
        cases hd : g.directed with
        | true => simp [ha]
        | false =>
          by_cases hab : (g.outE a b).isSome = true
          · have hba : (g.outE b a).isSome = true := hi.sym hd a b hab
            simp only [ha, false_or, true_and, hba, hab, ne_eq, not_false_eq_true, true_imp_iff,
              Bool.false_eq_true]
            by_cases hlt : a < b
            · simp [hlt, not_lt.2 hlt.le]
            · have : b < a := lt_of_le_of_ne (not_lt.1 hlt) (Ne.symm ha)
              simp [hlt, this, hab]
          · have : ¬ (g.outE b a).isSome = true := fun h => hab (hi.sym hd b a h)
            simp only [Option.not_isSome_iff_eq_none] at hab this
            simp [hab, this]
      · simp [ha, hb]
  refine ⟨?_, ?_, ?_, hedge, ?_, ?_, ?_, h7, h5, h6, h4⟩
  · rw [h2, if_pos (fun h => hno h.1)]
  · intro x
    rw [hasNode_eq_labE, hasNode_eq_labE, h9]
    by_cases hx : x = n <;> simp [hx]
  · intro x hx
    rw [getNodeLabel_eq, getNodeLabel_eq, decode, decode]
    simp only [h9, if_neg hx, h5]
  · intro a b hab
    rw [← reach_eq] at hab
    have e : g2.outE a b = g.outE a b := by
      rw [hout] at hab ⊢
      split
      · rename_i hc; rw [if_pos hc] at hab; cases hab
      · rfl
    unfold getEdgeLabel
    rw [getEdge_eq_outE, getEdge_eq_outE, e, h6]
  · intro b a
    rw [inNb_iff, inNb_iff, h11, hreach]
    constructor
    · rintro ⟨e1, e2, e3⟩
      refine ⟨e3, e1, ?_⟩
      rintro rfl
      cases hd : g.directed with
      | true =>
        have := (hi.inSpec hd a b).1 e3
        exact lt_of_le_of_ne (not_lt.1 fun hlt => e2 ⟨rfl, this, hlt⟩) (Ne.symm e1)
      | false => exact absurd e3 (hi.inNil hd b a)
    · rintro ⟨e1, e2, e3⟩
      refine ⟨e2, ?_, e1⟩
      rintro ⟨rfl, -, e4⟩
      exact absurd (e3 rfl) (not_lt.2 e4.le)
  · show g2.numEdges = g.numEdges
    rw [h8, if_neg (fun h => hno h.1)]

/-! ### C123 -/

/-- **C123.** `remove_node` of a present node, on any graph on which panics may have been caught: it
panics if a neighbour is the node itself or no node, or if the edge count is too low; the node is gone
in any case; the loops tell the neighbours in ascending order until one is the node itself or no node. -/
theorem c123_remove_node {g0 g : GraphMap m k NL EL} (h0 : Reachable g0) {ops}
    (hg : Caught g0 ops g) {n : Id m} (hn : g.hasNode n = true) :
    ∃ d e, g.degree n = .ok d ∧ g.inDegree n = .ok e ∧ (g.isDirected = false → e = 0) ∧
    ((g.removeNodeCaught n).2 = .error .unwrapNone ↔
      ∃ u, (g.hasEdge n u = true ∨ InNb g n u) ∧ (u = n ∨ g.hasNode u = false)) ∧
    ((∀ u, g.hasEdge n u = true ∨ InNb g n u → u ≠ n ∧ g.hasNode u = true) →
      (g.removeNodeCaught n).2 =
        if g.edgeCount < d + e then .error .underflow else .ok (g.getNode n)) ∧
    (∀ r, (g.removeNodeCaught n).2 = .ok r →
      (g.removeNodeCaught n).1.edgeCount + (d + e) = g.edgeCount) ∧
    (∀ p, (g.removeNodeCaught n).2 = .error p → (g.removeNodeCaught n).1.edgeCount = g.edgeCount) ∧
    (∀ x, (g.removeNodeCaught n).1.hasNode x = true ↔ x ≠ n ∧ g.hasNode x = true) ∧
    (∀ a b, (g.removeNodeCaught n).1.hasEdge a b = true ↔ g.hasEdge a b = true ∧ a ≠ n ∧
      (b = n → if g.isDirected = true then
          (∃ u, g.hasEdge n u = true ∧ (u = n ∨ g.hasNode u = false)) ∨ ¬ InNb g n a ∨
            ∃ u, u ≤ a ∧ InNb g n u ∧ (u = n ∨ g.hasNode u = false)
        else g.hasEdge n a = false ∨
            ∃ u, u ≤ a ∧ g.hasEdge n u = true ∧ (u = n ∨ g.hasNode u = false))) ∧
    (∀ b a, InNb (g.removeNodeCaught n).1 b a ↔ InNb g b a ∧ b ≠ n ∧
      (a = n → g.hasEdge n b = false ∨
            ∃ u, u ≤ b ∧ g.hasEdge n u = true ∧ (u = n ∨ g.hasNode u = false))) := by
  obtain ⟨hc, -⟩ := caught_cinv h0.inv.cinv hg
  obtain ⟨node, hnd⟩ := (hasNode_iff g n).1 hn
  obtain ⟨g2, h1, h2, h3, h4, h5, h6, h7, h8, h9, h10, h11⟩ := removeNodeCaught_spec hc hnd
  have hbad : ∀ u, ¬ (u ≠ n ∧ g.hasNode u = true) ↔ (u = n ∨ g.hasNode u = false) := by
    intro u
    rw [not_and_or, not_ne_iff, Bool.not_eq_true]
  have hok : (g.OutOk n ∧ g.InOk n) ↔
      ∀ u, g.hasEdge n u = true ∨ InNb g n u → u ≠ n ∧ g.hasNode u = true := by
    unfold OutOk InOk
    simp only [reach_eq, inNb_iff]
    exact ⟨fun h u hu => hu.elim (h.1 u) (h.2 u), fun h => ⟨fun u hu => h u (Or.inl hu),
      fun u hu => h u (Or.inr hu)⟩⟩
  have hnreach : ∀ t, ¬ g.OutReach n t ↔ (g.hasEdge n t = false ∨
      ∃ u, u ≤ t ∧ g.hasEdge n u = true ∧ (u = n ∨ g.hasNode u = false)) := by
    intro t
    unfold OutReach
    rw [not_and_or, reach_eq, Bool.not_eq_true]
    refine or_congr Iff.rfl ?_
    rw [not_forall]
    refine exists_congr fun u => ?_
    rw [reach_eq, Classical.not_imp, Classical.not_imp, hbad]
  have hnin : ∀ t, ¬ g.InReach n t ↔ (¬ InNb g n t ∨
      ∃ u, u ≤ t ∧ InNb g n u ∧ (u = n ∨ g.hasNode u = false)) := by
    intro t
    unfold InReach
    rw [not_and_or, inNb_iff]
    refine or_congr Iff.rfl ?_
    rw [not_forall]
    refine exists_congr fun u => ?_
    rw [inNb_iff, Classical.not_imp, Classical.not_imp, hbad]
  have hnout : ¬ g.OutOk n ↔ ∃ u, g.hasEdge n u = true ∧ (u = n ∨ g.hasNode u = false) := by
    unfold OutOk
    rw [not_forall]
    refine exists_congr fun u => ?_
    rw [reach_eq, Classical.not_imp, hbad]
  refine ⟨node.degree, node.inDegree, by simp [degree, hnd, pure_ok], by simp [inDegree, hnd, pure_ok],
    ?_, ?_, ?_, ?_, ?_, ?_, ?_, ?_⟩
  · intro hd
    unfold NodeMap.inDegree
    rw [List.length_eq_zero_iff, List.eq_nil_iff_forall_not_mem]
    exact fun s hs => hc.inNil hd n s ⟨node, hnd, hs⟩
  · rw [h2]
    constructor
    · intro h
      have : ¬ (g.OutOk n ∧ g.InOk n) := by
        intro hh
        rw [if_neg (not_not.2 hh)] at h
        split at h <;> cases h
      rw [hok, not_forall] at this
      obtain ⟨u, hu⟩ := this
      rw [Classical.not_imp, hbad] at hu
      exact ⟨u, hu⟩
    · rintro ⟨u, hu1, hu2⟩
      rw [if_pos]
      rw [hok]
      exact fun h => (hbad u).2 hu2 (h u hu1)
  · intro h
    rw [h2, if_neg (not_not.2 (hok.2 h)), hnd]; rfl
  · intro r hr
    rw [h1]
    show g2.numEdges + _ = g.numEdges
    by_cases hh : g.OutOk n ∧ g.InOk n
    · rw [h2, if_neg (not_not.2 hh)] at hr
      by_cases hlt : g.numEdges < node.degree + node.inDegree
      · rw [if_pos hlt] at hr; cases hr
      · rw [h8, if_pos ⟨hh.1, hh.2, not_lt.1 hlt⟩]; omega
    · rw [h2, if_pos hh] at hr; cases hr
  · intro p hp
    rw [h1]
    show g2.numEdges = g.numEdges
    rw [h8, if_neg]
    rintro ⟨e1, e2, e3⟩
    rw [h2, if_neg (not_not.2 ⟨e1, e2⟩), if_neg (not_lt.2 e3)] at hp
    cases hp
  · intro x
    rw [h1, hasNode_eq_labE, hasNode_eq_labE, h9]
    by_cases hx : x = n <;> simp [hx]
  · intro a b
    rw [h1, ← reach_eq, ← reach_eq, h10]
    by_cases ha : a = n
    · simp [ha]
    · by_cases hb : b = n
      · unfold isDirected
        cases hd : g.directed with
        | true =>
          simp only [if_true, ha, false_or, hb, true_and, true_imp_iff]
          rw [← hnout, ← hnin, ← not_and_or]
          by_cases hx : g.OutOk n ∧ g.InReach n a
          · simp [hx, hb]
          · simp [hx, ha]
        | false =>
          simp only [Bool.false_eq_true, if_false, ha, false_or, hb, true_and, true_imp_iff]
          rw [← hnreach]
          by_cases hx : g.OutReach n a
          · simp [hx, hb]
          · simp [hx, ha]
      · simp [ha, hb]
  · intro b a
    rw [h1, inNb_iff, inNb_iff, h11, ← hnreach]
    constructor
    · rintro ⟨e1, e2, e3⟩
      exact ⟨e3, e1, fun e h => e2 ⟨e, h⟩⟩
    · rintro ⟨e1, e2, e3⟩
      exact ⟨e2, fun h => e3 h.1 h.2, e1⟩

/-- **C123.** `remove_edge` of a present edge: it panics if the target is no node or nothing is counted;
the edge is gone in any case, on an undirected graph in both directions. -/
theorem c123_remove_edge {g0 g : GraphMap m k NL EL} (h0 : Reachable g0) {ops}
    (hg : Caught g0 ops g) {s t : Id m} (he : g.hasEdge s t = true) :
    (g.removeEdgeCaught s t).2 = (if g.hasNode t = false then .error .unwrapNone else
        if g.edgeCount = 0 then .error .underflow else g.getEdge s t) ∧
    (g.removeEdgeCaught s t).1.edgeCount =
      (if g.hasNode t = true then g.edgeCount - 1 else g.edgeCount) ∧
    (∀ x, (g.removeEdgeCaught s t).1.hasNode x = g.hasNode x) ∧
    (∀ a b, (g.removeEdgeCaught s t).1.hasEdge a b = true ↔ g.hasEdge a b = true ∧
      ¬ (a = s ∧ b = t) ∧ ¬ (g.isDirected = false ∧ a = t ∧ b = s)) ∧
    (∀ b a, InNb (g.removeEdgeCaught s t).1 b a ↔ InNb g b a ∧
      ¬ (g.isDirected = true ∧ b = t ∧ a = s)) := by
  obtain ⟨hc, -⟩ := caught_cinv h0.inv.cinv hg
  rw [← reach_eq] at he
  obtain ⟨l, hl⟩ := Option.isSome_iff_exists.1 he
  obtain ⟨g2, h1, h2, h3, h4, h5, h6, h7, h8, h9, h10, h11⟩ := removeEdgeCaught_spec hc hl
  rw [h1]
  refine ⟨?_, h8, ?_, ?_, ?_⟩
  · rw [h2, getEdge_eq_outE, hl]; rfl
  · intro x; rw [hasNode_eq_labE, hasNode_eq_labE, h9]
  · intro a b
    rw [← reach_eq, ← reach_eq, h10]
    unfold AGraph.same isDirected
    by_cases e1 : a = s ∧ b = t
    · simp [e1]
    · by_cases e2 : g.directed = false ∧ a = t ∧ b = s
      · simp [e2]
      · simp only [e1, e2, or_self, if_false, not_false_eq_true, and_true]
  · intro b a
    rw [inNb_iff, inNb_iff, h11]
    exact and_comm

/-- **C123.** Which calls panic on a graph on which panics may have been caught. -/
theorem c123_panics {g0 g : GraphMap m k NL EL} (h0 : Reachable g0) {ops} (hg : Caught g0 ops g)
    (op : Op m k NL EL) :
    (∃ p, g.apply op = .error p) ↔
      (∃ n, op = .removeNode n ∧ g.hasNode n = true ∧
        ((∃ u, (g.hasEdge n u = true ∨ InNb g n u) ∧ (u = n ∨ g.hasNode u = false)) ∨
          ∃ d e, g.degree n = .ok d ∧ g.inDegree n = .ok e ∧ g.edgeCount < d + e)) ∨
      (∃ s t, op = .removeEdge s t ∧ g.hasEdge s t = true ∧
        (g.hasNode t = false ∨ g.edgeCount = 0)) ∨
      (∃ n l, op = .setNodeLabelId n l ∧ g.hasNode n = false) ∨
      (∃ s t l, op = .setEdgeLabelId s t l ∧ g.hasEdge s t = false) := by
  obtain ⟨hc, -⟩ := caught_cinv h0.inv.cinv hg
  have hw := hc.toNWF
  have hcall : (∃ p, g.apply op = .error p) ↔ ∃ p, (g.applyCaught op).2 = .error p :=
    exists_congr fun p => (c122_same_call g g op p).2
  cases op with
  | removeNode n =>
    simp only [reduceCtorEq, Op.removeNode.injEq, false_and, exists_false, or_false, exists_eq_left']
    rw [hcall]
    have hmap : (∃ p, (g.applyCaught (.removeNode n)).2 = .error p) ↔
        ∃ p, (g.removeNodeCaught n).2 = .error p := by
      refine exists_congr fun p => ?_
      simp only [applyCaught]
      cases (g.removeNodeCaught n).2 <;> simp [Except.map]
    rw [hmap]
    cases hn : g.hasNode n with
    | false =>
      have : AL.get g.nodeMap n = none := by simpa [hasNode] using hn
      simp [removeNodeCaught, this]
    | true =>
      obtain ⟨d, e, h1, h2, -, h3, h4, -⟩ := c123_remove_node h0 hg hn
      simp only [true_and]
      constructor
      · rintro ⟨p, hp⟩
        by_cases hb : ∃ u, (g.hasEdge n u = true ∨ InNb g n u) ∧ (u = n ∨ g.hasNode u = false)
        · exact Or.inl hb
        · refine Or.inr ⟨d, e, h1, h2, ?_⟩
          rw [h4] at hp
          · by_contra hlt
            rw [if_neg hlt] at hp; cases hp
          · intro u hu
            by_contra hbad
            refine hb ⟨u, hu, ?_⟩
            rwa [not_and_or, not_ne_iff, Bool.not_eq_true] at hbad
      · rintro (hb | ⟨d', e', f1, f2, hlt⟩)
        · exact ⟨_, h3.2 hb⟩
        · rw [h1] at f1; rw [h2] at f2; cases f1; cases f2
          by_cases hb : ∃ u, (g.hasEdge n u = true ∨ InNb g n u) ∧ (u = n ∨ g.hasNode u = false)
          · exact ⟨_, h3.2 hb⟩
          · refine ⟨.underflow, ?_⟩
            rw [h4, if_pos hlt]
            intro u hu
            by_contra hbad
            refine hb ⟨u, hu, ?_⟩
            rwa [not_and_or, not_ne_iff, Bool.not_eq_true] at hbad
  | removeEdge s t =>
    simp only [reduceCtorEq, Op.removeEdge.injEq, false_and, exists_false, or_false, false_or]
    rw [hcall]
    have hmap : (∃ p, (g.applyCaught (.removeEdge s t)).2 = .error p) ↔
        ∃ p, (g.removeEdgeCaught s t).2 = .error p := by
      refine exists_congr fun p => ?_
      simp only [applyCaught]
      cases (g.removeEdgeCaught s t).2 <;> simp [Except.map]
    rw [hmap]
    cases he : g.hasEdge s t with
    | false =>
      constructor
      · rintro ⟨p, hp⟩; simp [removeEdgeCaught, he] at hp
      · rintro ⟨s', t', ⟨rfl, rfl⟩, h, -⟩; rw [he] at h; cases h
    | true =>
      obtain ⟨h1, -⟩ := c123_remove_edge h0 hg he
      rw [h1, getEdge_eq_outE]
      constructor
      · rintro ⟨p, hp⟩
        refine ⟨s, t, ⟨rfl, rfl⟩, he, ?_⟩
        by_contra hb
        rw [not_or] at hb
        rw [if_neg hb.1, if_neg hb.2] at hp
        cases hp
      · rintro ⟨s', t', ⟨rfl, rfl⟩, -, h⟩
        by_cases ht : g.hasNode t = false
        · exact ⟨_, if_pos ht⟩
        · rw [if_neg ht, if_pos (h.resolve_left ht)]; exact ⟨_, rfl⟩
  | setNodeLabelId n l =>
    cases hn : g.hasNode n with
    | true =>
      obtain ⟨g', e, -⟩ := setNodeLabelId_spec hw n l hn
      simp [apply, e, hn]
    | false =>
      have hget : AL.get g.nodeMap n = none := by simpa [hasNode] using hn
      simp [apply, setNodeLabelId, hget, hn]
  | setEdgeLabelId s t l =>
    cases hn : g.hasEdge s t with
    | true =>
      obtain ⟨g', e, -⟩ := setEdgeLabelId_spec hw s t l hn
      simp only [apply, e, reduceCtorEq, exists_false, false_and, false_or, Op.setEdgeLabelId.injEq,
        false_iff]
      rintro ⟨s', t', l', ⟨rfl, rfl, rfl⟩, h⟩
      rw [hn] at h; cases h
    | false =>
      have e : g.setEdgeLabelId s t l = .error .explicit := by simp [setEdgeLabelId, hn]
      refine ⟨fun _ => Or.inr (Or.inr (Or.inr ⟨s, t, l, rfl, hn⟩)), fun _ => ⟨_, e⟩⟩
  | addNode n l =>
    obtain ⟨g', nl, lid, -, h, -⟩ := addNode_spec hw n l
    simp [apply, h, bind_ok, pure_ok]
  | addEdge s t l =>
    obtain ⟨g', nl, lid, -, h, -⟩ := addEdge_spec hw s t l
    simp [apply, h, bind_ok, pure_ok]
  | updateNodeLabel n l =>
    obtain ⟨g', nl, lid, -, h, -⟩ := addNode_spec hw n l
    cases hn : g.hasNode n <;> simp [apply, updateNodeLabel, hn, h, bind_ok, pure_ok]
  | updateEdgeLabel s t l =>
    obtain ⟨g', nl, lid, -, h, -⟩ := addEdge_spec hw s t l
    cases hn : g.hasEdge s t <;> simp [apply, updateEdgeLabel, hn, h, bind_ok, pure_ok]
  | addNodeLabel l =>
    obtain ⟨s', lid, e1, -⟩ := intern_ok (k := k) g.nodeLabels l
    simp [apply, addNodeLabel, e1, bind_ok, pure_ok]
  | addEdgeLabel l =>
    obtain ⟨s', lid, e1, -⟩ := intern_ok (k := k) g.edgeLabels l
    simp [apply, addEdgeLabel, e1, bind_ok, pure_ok]
  | refineEdgeCount => simp [apply, pure_ok]
  | mapNodeLabelIds f => simp [apply, pure_ok]
  | mapEdgeLabelIds f => simp [apply, pure_ok]

/-- **C123.** Lookups and enumerations still agree with each other, label tables still list distinct
labels, and `max_seen_id` still bounds the nodes. -/
theorem c123_enumerations {g0 g : GraphMap m k NL EL} (h0 : Reachable g0) {ops}
    (hg : Caught g0 ops g) :
    g.nodeIndices.Nodup ∧ (∀ n, n ∈ g.nodeIndices ↔ g.hasNode n = true) ∧
    g.nodeCount = g.nodeIndices.length ∧
    g.edgeIndices.Nodup ∧
    (∀ s t, (s, t) ∈ g.edgeIndices ↔ g.hasEdge s t = true ∧ (g.isDirected = true ∨ s ≤ t)) ∧
    (∀ n, g.hasNode n = true → ∃ l, g.neighbors n = .ok l ∧ l.Pairwise (· < ·) ∧
      ∀ t, t ∈ l ↔ g.hasEdge n t = true) ∧
    (∀ s t, g.hasEdge s t = true → g.hasNode s = true) ∧
    g.nodeLabels.items.Nodup ∧ g.edgeLabels.items.Nodup ∧
    (∀ n, g.hasNode n = true → ∃ M, g.maxSeenId = some M ∧ n ≤ M) ∧
    g.isDirected = g0.isDirected := by
  obtain ⟨hc, hd⟩ := caught_cinv h0.inv.cinv hg
  have hw := hc.toNWF
  refine ⟨hw.keys, mem_nodeIndices g, by simp [nodeCount, nodeIndices, AL.keys],
    edgeIndices_nodup hw, ?_, ?_, ?_, hc.nlNodup, hc.elNodup, hc.maxBound, hd⟩
  · intro s t; rw [mem_edgeIndices hw, hasEdge_eq_outE]; rfl
  · intro n hn
    obtain ⟨nd, hnd⟩ := (hasNode_iff g n).1 hn
    refine ⟨nd.neighborIds, by simp [neighbors, hnd, pure_ok], hw.sortedOut n nd hnd, fun t => ?_⟩
    rw [mem_neighborIds_iff hnd, hasEdge_eq_outE]
  · intro s t h
    rw [hasEdge_eq_outE] at h; exact outE_hasNode h

/-- The structure of a graph after one call, seen from the abstract graph before it. -/
theorem caught_keeps {g : GraphMap m k NL EL} (hc : g.CInv) (A : AGraph (Id m) NL EL)
    (op : Op m k NL EL)
    (hn : ∀ n, (A.node n).isSome = true → g.hasNode n = true)
    (he : ∀ s t, (A.edge s t).isSome = true → g.hasEdge s t = true) :
    (∀ n, ((Spec.step g.directed A op).node n).isSome = true → (g.applyCaught op).1.hasNode n = true) ∧
    (∀ s t, ((Spec.step g.directed A op).edge s t).isSome = true →
      (g.applyCaught op).1.hasEdge s t = true) ∧
    ((∀ s t l, op ≠ .updateEdgeLabel s t l) →
      (∀ n, g.hasNode n = true → (A.node n).isSome = true) →
      ∀ n, (g.applyCaught op).1.hasNode n = true → ((Spec.step g.directed A op).node n).isSome = true) := by
  have hw := hc.toNWF
  have same : ∀ (g' : GraphMap m k NL EL) (A' : AGraph (Id m) NL EL), SameStruct g g' →
      (∀ n, (A'.node n).isSome = (A.node n).isSome) →
      (∀ s t, (A'.edge s t).isSome = (A.edge s t).isSome) →
      (∀ n, (A'.node n).isSome = true → g'.hasNode n = true) ∧
      (∀ s t, (A'.edge s t).isSome = true → g'.hasEdge s t = true) ∧
      ((∀ s t l, op ≠ .updateEdgeLabel s t l) →
        (∀ n, g.hasNode n = true → (A.node n).isSome = true) →
        ∀ n, g'.hasNode n = true → (A'.node n).isSome = true) := by
    intro g' A' h e1 e2
    refine ⟨fun n h' => ?_, fun s t h' => ?_, fun _ h2 n h' => ?_⟩
    · rw [h.hasNode]; rw [e1] at h'; exact hn n h'
    · rw [hasEdge_eq_outE, h.out, ← hasEdge_eq_outE]; rw [e2] at h'; exact he s t h'
    · rw [h.hasNode] at h'; rw [e1]; exact h2 n h'
  have refl : ∀ (x : GraphMap m k NL EL), x.nodeMap = g.nodeMap → x.directed = g.directed →
      (∀ n, x.hasNode n = g.hasNode n) ∧ (∀ s t, x.hasEdge s t = g.hasEdge s t) := by
    intro x hx _
    constructor
    · intro n; simp only [hasNode, hx]
    · intro s t; simp only [hasEdge, getNode, hx]
  -- adding a node
  have hAddNode : ∀ (n : Id m) (l : Option NL) (g' : GraphMap m k NL EL) b,
      g.addNode n l = .ok (g', b) →
      (∀ x, g'.hasNode x = true ↔ x = n ∨ g.hasNode x = true) ∧
      (∀ s t, g'.hasEdge s t = g.hasEdge s t) := by
    intro n l g' b h
    obtain ⟨g1, nl, lid, -, h1, -, -, -, -, -, -, h8, -⟩ := addNode_spec hw n l
    rw [h1] at h
    obtain rfl : g1 = g' := by cases h; rfl
    have hout : ∀ a b, g1.outE a b = g.outE a b := fun a b => congrArg (fun r => r.edge a b) h8
    have hlab : ∀ x, g1.labE x = if x = n then some lid else g.labE x :=
      fun x => congrArg (fun r => r.node x) h8
    refine ⟨fun x => ?_, fun s t => by rw [hasEdge_eq_outE, hasEdge_eq_outE, hout]⟩
    rw [hasNode_eq_labE, hasNode_eq_labE, hlab]
    by_cases hx : x = n <;> simp [hx]
  have hAddEdge : ∀ (s t : Id m) (l : Option EL) (g' : GraphMap m k NL EL) b,
      g.addEdge s t l = .ok (g', b) →
      (∀ x, g'.hasNode x = true ↔ x = s ∨ x = t ∨ g.hasNode x = true) ∧
      (∀ a b, g'.hasEdge a b = true ↔ AGraph.same g.directed s t a b ∨ g.hasEdge a b = true) := by
    intro s t l g' b h
    obtain ⟨g1, nl, lid, -, h1, -, -, -, -, -, -, h8, -⟩ := addEdge_spec hw s t l
    rw [h1] at h
    obtain rfl : g1 = g' := by cases h; rfl
    have hout : ∀ a b, g1.outE a b = if AGraph.same g.directed s t a b then some lid else g.outE a b :=
      fun a b => congrArg (fun r => r.edge a b) h8
    have hlab : ∀ x, g1.labE x = if (x = s ∨ x = t) ∧ g.labE x = none then some none else g.labE x :=
      fun x => congrArg (fun r => r.node x) h8
    refine ⟨fun x => ?_, fun a b => ?_⟩
    · rw [hasNode_eq_labE, hasNode_eq_labE, hlab]
      cases hx : g.labE x with
      | none =>
        by_cases h1 : x = s <;> by_cases h2 : x = t <;> simp [h1, h2]
      | some l => simp
    · rw [hasEdge_eq_outE, hasEdge_eq_outE, hout]
      by_cases h : AGraph.same g.directed s t a b <;> simp [h]
  cases op with
  | addNode n l =>
    obtain ⟨g', nl, lid, -, h, -⟩ := addNode_spec hw n l
    obtain ⟨e1, e2⟩ := hAddNode n l g' _ h
    simp only [applyCaught, apply, h, bind_ok, pure_ok, Spec.step, AGraph.addNode]
    refine ⟨fun x hx => ?_, fun s t hst => by rw [e2]; exact he s t hst, fun _ h2 x hx => ?_⟩
    · rw [e1]
      by_cases hxn : x = n
      · exact Or.inl hxn
      · rw [if_neg hxn] at hx; exact Or.inr (hn x hx)
    · rw [e1] at hx
      by_cases hxn : x = n
      · simp [hxn]
      · rw [if_neg hxn]; exact h2 x (hx.resolve_left hxn)
  | addEdge s t l =>
    obtain ⟨g', nl, lid, -, h, -⟩ := addEdge_spec hw s t l
    obtain ⟨e1, e2⟩ := hAddEdge s t l g' _ h
    simp only [applyCaught, apply, h, bind_ok, pure_ok, Spec.step, AGraph.addEdge]
    refine ⟨fun x hx => ?_, fun a b hab => ?_, fun _ h2 x hx => ?_⟩
    · rw [e1]
      split at hx
      · rename_i hc; exact hc.1.elim Or.inl (fun h => Or.inr (Or.inl h))
      · exact Or.inr (Or.inr (hn x hx))
    · rw [e2]
      split at hab
      · rename_i hs; exact Or.inl hs
      · exact Or.inr (he a b hab)
    · rw [e1] at hx
      split
      · rfl
      · rename_i hc
        rw [not_and_or] at hc
        rcases hx with hx | hx | hx
        · exact Option.isSome_iff_ne_none.2 (hc.resolve_left (fun h => h (Or.inl hx)))
        · exact Option.isSome_iff_ne_none.2 (hc.resolve_left (fun h => h (Or.inr hx)))
        · exact h2 x hx
  | updateNodeLabel n l =>
    cases hx : g.hasNode n with
    | false =>
      have hA : (A.node n).isSome = false := by
        cases h : (A.node n).isSome with
        | false => rfl
        | true => have := hn n h; rw [hx] at this; cases this
      simp only [applyCaught, apply, updateNodeLabel, hx, Bool.not_false, if_true, bind_ok, pure_ok,
        Spec.step, AGraph.updateNodeLabel, hA, Bool.false_eq_true, if_false]
      exact ⟨hn, he, fun _ h2 => h2⟩
    | true =>
      obtain ⟨g', nl, lid, -, h, -⟩ := addNode_spec hw n l
      obtain ⟨e1, e2⟩ := hAddNode n l g' _ h
      simp only [applyCaught, apply, updateNodeLabel, hx, Bool.not_true, Bool.false_eq_true, if_false,
        bind_ok, pure_ok, Spec.step, AGraph.updateNodeLabel, h]
      refine ⟨fun x h' => ?_, fun s t h' => ?_, fun _ h2 x h' => ?_⟩
      · rw [e1]
        by_cases hxn : x = n
        · exact Or.inl hxn
        · right
          split at h'
          · simp only [AGraph.addNode, if_neg hxn] at h'; exact hn x h'
          · exact hn x h'
      · rw [e2]
        split at h' <;> exact he s t h'
      · rw [if_pos (h2 n hx)]
        rw [e1] at h'
        by_cases hxn : x = n
        · simp [AGraph.addNode, hxn]
        · simp only [AGraph.addNode, if_neg hxn]; exact h2 x (h'.resolve_left hxn)
  | updateEdgeLabel s t l =>
    refine ⟨?_, ?_, fun h => absurd rfl (h s t l)⟩
    · intro x h'
      have h' : (A.node x).isSome = true := by
        simp only [Spec.step, AGraph.updateEdgeLabel] at h'
        split at h' <;> exact h'
      cases hx : g.hasEdge s t with
      | false =>
        simp only [applyCaught, apply, updateEdgeLabel, hx, Bool.not_false, if_true, bind_ok, pure_ok]
        exact hn x h'
      | true =>
        obtain ⟨g', nl, lid, -, h, -⟩ := addEdge_spec hw s t l
        obtain ⟨e1, e2⟩ := hAddEdge s t l g' _ h
        simp only [applyCaught, apply, updateEdgeLabel, hx, Bool.not_true, Bool.false_eq_true, if_false,
          bind_ok, pure_ok, h]
        rw [e1]; exact Or.inr (Or.inr (hn x h'))
    · intro a b h'
      simp only [Spec.step, AGraph.updateEdgeLabel] at h'
      cases hx : g.hasEdge s t with
      | false =>
        simp only [applyCaught, apply, updateEdgeLabel, hx, Bool.not_false, if_true, bind_ok, pure_ok]
        have : ¬ (A.edge s t).isSome = true := fun h => by
          have := he s t h; rw [hx] at this; cases this
        rw [if_neg this] at h'
        exact he a b h'
      | true =>
        obtain ⟨g', nl, lid, -, h, -⟩ := addEdge_spec hw s t l
        obtain ⟨e1, e2⟩ := hAddEdge s t l g' _ h
        simp only [applyCaught, apply, updateEdgeLabel, hx, Bool.not_true, Bool.false_eq_true, if_false,
          bind_ok, pure_ok, h]
        rw [e2]
        split at h'
        · dsimp only at h'
          split at h'
          · rename_i hs; exact Or.inl hs
          · exact Or.inr (he a b h')
        · exact Or.inr (he a b h')
  | removeNode n =>
    simp only [applyCaught, Spec.step, AGraph.removeNode]
    cases hnd : g.getNode n with
    | none =>
      have hnd' : AL.get g.nodeMap n = none := hnd
      simp only [removeNodeCaught, hnd']
      refine ⟨fun x hx => ?_, fun s t h' => ?_, fun _ h2 x hx => ?_⟩
      · split at hx
        · cases hx
        · exact hn x hx
      · split at h'
        · cases h'
        · exact he s t h'
      · split
        · rename_i hxn; subst hxn; simp [hasNode, hnd'] at hx
        · exact h2 x hx
    | some node =>
      obtain ⟨g2, h1, h2, h3, h4, h5, h6, h7, h8, h9, h10, h11⟩ := removeNodeCaught_spec hc hnd
      rw [h1]
      have hh : ∀ x, g2.hasNode x = true ↔ x ≠ n ∧ g.hasNode x = true := by
        intro x
        rw [hasNode_eq_labE, hasNode_eq_labE, h9]
        by_cases hx : x = n <;> simp [hx]
      refine ⟨fun x hx => ?_, fun s t h' => ?_, fun _ h2 x hx => ?_⟩
      · split at hx
        · cases hx
        · rename_i hxn; exact (hh x).2 ⟨hxn, hn x hx⟩
      · split at h'
        · cases h'
        · rename_i hst
          rw [not_or] at hst
          rw [hasEdge_eq_outE, h10, if_neg, ← hasEdge_eq_outE]
          · exact he s t h'
          · rintro (h | h)
            · exact hst.1 h
            · exact hst.2 h.1
      · rw [hh] at hx
        rw [if_neg hx.1]; exact h2 x hx.2
  | removeEdge s t =>
    simp only [applyCaught, Spec.step, AGraph.removeEdge]
    cases hl : g.outE s t with
    | none =>
      have hf : g.hasEdge s t = false := by rw [hasEdge_eq_outE, hl]; rfl
      simp only [removeEdgeCaught, hf, Bool.not_false, if_true]
      refine ⟨hn, fun a b h' => ?_, fun _ h2 => h2⟩
      split at h'
      · cases h'
      · exact he a b h'
    | some l =>
      obtain ⟨g2, h1, h2, h3, h4, h5, h6, h7, h8, h9, h10, h11⟩ := removeEdgeCaught_spec hc hl
      rw [h1]
      refine ⟨fun x hx => ?_, fun a b h' => ?_, fun _ h2 x hx => ?_⟩
      · rw [hasNode_eq_labE, h9, ← hasNode_eq_labE]; exact hn x hx
      · rw [hasEdge_eq_outE, h10]
        split at h'
        · cases h'
        · rename_i hs; rw [if_neg hs, ← hasEdge_eq_outE]; exact he a b h'
      · rw [hasNode_eq_labE, h9, ← hasNode_eq_labE] at hx; exact h2 x hx
  | addNodeLabel l =>
    obtain ⟨s', lid, e1, -⟩ := intern_ok (k := k) g.nodeLabels l
    simp only [applyCaught, apply, addNodeLabel, e1, bind_ok, pure_ok, Spec.step]
    obtain ⟨f1, f2⟩ := refl { g with nodeLabels := s' } rfl rfl
    exact ⟨fun n h => (f1 n).trans (hn n h), fun s t h => (f2 s t).trans (he s t h),
      fun _ h2 n h => h2 n ((f1 n).symm.trans h)⟩
  | addEdgeLabel l =>
    obtain ⟨s', lid, e1, -⟩ := intern_ok (k := k) g.edgeLabels l
    simp only [applyCaught, apply, addEdgeLabel, e1, bind_ok, pure_ok, Spec.step]
    obtain ⟨f1, f2⟩ := refl { g with edgeLabels := s' } rfl rfl
    exact ⟨fun n h => (f1 n).trans (hn n h), fun s t h => (f2 s t).trans (he s t h),
      fun _ h2 n h => h2 n ((f1 n).symm.trans h)⟩
  | refineEdgeCount =>
    obtain ⟨f1, f2⟩ := refl g.refineEdgeCount rfl rfl
    exact ⟨fun n h => (f1 n).trans (hn n h), fun s t h => (f2 s t).trans (he s t h),
      fun _ h2 n h => h2 n ((f1 n).symm.trans h)⟩
  | setNodeLabelId n l =>
    cases hx : g.hasNode n with
    | true =>
      obtain ⟨g', e, -, e3, -⟩ := setNodeLabelId_spec hw n l hx
      simp only [applyCaught, apply, e, Spec.step]
      exact same g' A e3 (fun _ => rfl) (fun _ _ => rfl)
    | false =>
      have hget : AL.get g.nodeMap n = none := by simpa [hasNode] using hx
      simp only [applyCaught, apply, setNodeLabelId, hget, Spec.step]
      exact ⟨hn, he, fun _ h2 => h2⟩
  | setEdgeLabelId s t l =>
    cases hx : g.hasEdge s t with
    | true =>
      obtain ⟨g', e, -, e3, -⟩ := setEdgeLabelId_spec hw s t l hx
      simp only [applyCaught, apply, e, Spec.step]
      exact same g' A e3 (fun _ => rfl) (fun _ _ => rfl)
    | false =>
      simp only [applyCaught, apply, setEdgeLabelId, hx, Spec.step, Bool.not_false, if_true]
      exact ⟨hn, he, fun _ h2 => h2⟩
  | mapNodeLabelIds f =>
    exact same _ A (mapNodeLabelIds_spec hw f).2.1 (fun _ => rfl) (fun _ _ => rfl)
  | mapEdgeLabelIds f =>
    exact same _ A (mapEdgeLabelIds_spec hw f).2.1 (fun _ => rfl) (fun _ _ => rfl)

/-- **C123.** Whatever panics were caught, every node and edge the history calls for is there. -/
theorem c123_nothing_lost {d : Bool} {nl : SetMap NL} {el : SetMap EL} (hn : nl.labels.Nodup)
    (he : el.labels.Nodup) {ops : List (Op m k NL EL)} {g : GraphMap m k NL EL}
    (h : Caught (withLabelMap d nl el) ops g) :
    (∀ n, ((Spec.run d ops).node n).isSome = true → g.hasNode n = true) ∧
    ∀ s t, ((Spec.run d ops).edge s t).isSome = true → g.hasEdge s t = true := by
  induction h with
  | nil =>
    constructor
    · intro n h; cases h
    · intro s t h; cases h
  | @step ops g op hr ih =>
    obtain ⟨hc, hd⟩ := caught_cinv (inv_withLabelMap d nl el hn he).cinv hr
    obtain ⟨e1, e2, -⟩ := caught_keeps hc (Spec.run d ops) op ih.1 ih.2
    have hd : g.directed = d := hd
    rw [hd] at e1 e2
    rw [Spec.run, List.foldl_append]
    exact ⟨e1, e2⟩
  | @rehash ops g nm hr hp ih =>
    obtain ⟨hc, -⟩ := caught_cinv (inv_withLabelMap d nl el hn he).cinv hr
    have hget := fun x => getNode_rehash hc.toNWF hp x
    refine ⟨fun n hx => ?_, fun s t hx => ?_⟩
    · rw [hasNode_iff, hget, ← hasNode_iff]; exact ih.1 n hx
    · have := ih.2 s t hx
      unfold hasEdge at this ⊢
      rw [hget]; exact this

/-- **C123.** As long as `update_edge_label` is not called, the nodes are exactly those the history calls
for, panics or not. -/
theorem c123_nodes {d : Bool} {nl : SetMap NL} {el : SetMap EL} (hn : nl.labels.Nodup)
    (he : el.labels.Nodup) {ops : List (Op m k NL EL)} {g : GraphMap m k NL EL}
    (h : Caught (withLabelMap d nl el) ops g) (hu : ∀ s t l, .updateEdgeLabel s t l ∉ ops) (n : Id m) :
    g.hasNode n = ((Spec.run d ops).node n).isSome := by
  rw [Bool.eq_iff_iff]
  refine ⟨fun hx => ?_, (c123_nothing_lost hn he h).1 n⟩
  revert n
  induction h with
  | nil => intro n h; cases h
  | @step ops g op hr ih =>
    obtain ⟨hc, hd⟩ := caught_cinv (inv_withLabelMap d nl el hn he).cinv hr
    obtain ⟨f1, f2⟩ := c123_nothing_lost hn he hr
    obtain ⟨-, -, e3⟩ := caught_keeps hc (Spec.run d ops) op f1 f2
    have hd : g.directed = d := hd
    rw [hd] at e3
    rw [Spec.run, List.foldl_append]
    exact e3 (fun s t l e => hu s t l (by simp [e]))
      (ih (fun s t l h => hu s t l (List.mem_append_left _ h)))
  | @rehash ops g nm hr hp ih =>
    obtain ⟨hc, -⟩ := caught_cinv (inv_withLabelMap d nl el hn he).cinv hr
    have hget := fun x => getNode_rehash hc.toNWF hp x
    intro n hx
    rw [hasNode_iff, hget, ← hasNode_iff] at hx
    exact ih hu n hx

end

/-! ### What goes wrong -/

/-- A history whose third node has a self loop, and the removal of that node. -/
def loopOps : List (Op 9 3 String String) :=
  [.addNode 1 (some "a"), .addEdge 1 2 none, .addEdge 2 2 (some "x"), .addEdge 2 3 none, .addEdge 3 2 none]

/-- Running a history with panics caught. -/
def execCaught [DecidableEq NL] [DecidableEq EL] (g : GraphMap m k NL EL)
    (ops : List (Op m k NL EL)) : GraphMap m k NL EL :=
  ops.foldl (fun g op => (g.applyCaught op).1) g

theorem execCaught_caught [DecidableEq NL] [DecidableEq EL] (g : GraphMap m k NL EL)
    (ops : List (Op m k NL EL)) : Caught g ops (execCaught g ops) := by
  induction ops using List.reverseRecOn with
  | nil => exact .nil
  | append_singleton l a ih =>
    rw [execCaught, List.foldl_append]
    exact .step a ih

/-- The graph of the history, before anything is removed. -/
def selfLooped (d : Bool) : GraphMap 9 3 String String :=
  execCaught (withLabelMap d SetMap.empty SetMap.empty) loopOps

/-- The same graph after the panic. -/
def wrecked (d : Bool) : GraphMap 9 3 String String := ((selfLooped d).applyCaught (.removeNode 2)).1

theorem selfLooped_reachable (d : Bool) : Reachable (selfLooped d) := by
  have h : (withLabelMap d SetMap.empty SetMap.empty : GraphMap 9 3 String String).exec loopOps =
      .ok (selfLooped d) := by cases d <;> decide
  exact (exec_run h).reachable (List.nodup_nil) (List.nodup_nil)

theorem wrecked_caught (d : Bool) :
    Caught (withLabelMap d SetMap.empty SetMap.empty) (loopOps ++ [.removeNode 2]) (wrecked d) := by
  unfold wrecked selfLooped
  exact Caught.step _ (execCaught_caught _ _)

/-- The hypotheses of the theorems above are met. -/
example (d : Bool) : (selfLooped d).hasEdge 2 2 = true ∧ (selfLooped d).hasNode 3 = true ∧
    ((selfLooped d).removeNodeCaught 2).2 = .error .unwrapNone := by cases d <;> decide

/-- **C123, C10.** An edge to a node that is gone: directed graphs list it, undirected ones do not. -/
theorem c123_dangling : (wrecked true).hasNode 2 = false ∧ (wrecked true).hasEdge 1 2 = true ∧
    (1, 2) ∈ (wrecked true).edgeIndices ∧ (wrecked true).edgeCount = 4 ∧
    (wrecked true).edgeIndices.length = 2 ∧
    (wrecked false).hasNode 2 = false ∧ (wrecked false).hasEdge 1 2 = false ∧
    (wrecked false).hasEdge 3 2 = true ∧ (wrecked false).edgeIndices = [] ∧
    (wrecked false).edgeCount = 4 := by decide

/-- **C123.** One panic leads to others: a neighbour cannot be removed, nor its edge, and a search panics. -/
theorem c123_cascade :
    (wrecked true).removeNode 1 = .error .unwrapNone ∧
    (wrecked true).removeEdge 1 2 = .error .unwrapNone ∧
    (wrecked false).removeNode 3 = .error .unwrapNone ∧
    (do let st ← Traversal.new (wrecked true).view (some 1)
        drain (Bfs.next (wrecked true).view) 9 st) = .error .nodeMissing := by decide

/-- **C123, C08.** Adding the node again revives the edges of one side. -/
theorem c123_one_sided : ∃ g : GraphMap 9 3 String String,
    (wrecked false).addNode 2 none = .ok (g, true) ∧ g.hasEdge 3 2 = true ∧ g.hasEdge 2 3 = false := by
  obtain ⟨g, h⟩ : ∃ g, (wrecked false).addNode 2 none = .ok (g, true) := ⟨_, rfl⟩
  refine ⟨g, h, ?_⟩
  cases h; decide

/-- **C123.** After `refine_edge_count` the revived edge cannot be removed: the count underflows. -/
theorem c123_underflow : ∃ g : GraphMap 9 3 String String,
    (wrecked false).addNode 2 none = .ok (g, true) ∧ g.refineEdgeCount.edgeCount = 0 ∧
    g.refineEdgeCount.removeEdge 3 2 = .error .underflow ∧
    g.refineEdgeCount.removeNode 3 = .error .underflow := by
  obtain ⟨g, h⟩ : ∃ g, (wrecked false).addNode 2 none = .ok (g, true) := ⟨_, rfl⟩
  refine ⟨g, h, ?_⟩
  cases h; decide

/-- **C123.** `update_edge_label` of an edge to a node that is gone brings the node back, which the
history does not call for. -/
theorem c123_update_revives : ∃ g : GraphMap 9 3 String String,
    (wrecked true).updateEdgeLabel 1 2 none = .ok (g, true) ∧ g.hasNode 2 = true ∧
    ((Spec.run true (loopOps ++ [.removeNode 2, .updateEdgeLabel 1 2 none])).node 2).isSome = false := by
  obtain ⟨g, h⟩ : ∃ g, (wrecked true).updateEdgeLabel 1 2 none = .ok (g, true) := ⟨_, rfl⟩
  refine ⟨g, h, ?_⟩
  cases h; decide

end Verif.Props
