import Verif.Proof.GraphRefine
import Verif.Proof.Reorder
import Verif.Spec.History
import Verif.Model.Reach

/-! Counting and high-water mark along a history; reachable graphs satisfy the invariant. -/

namespace Verif

open Spec

theorem spec_symmetric {m k : Nat} {NL EL : Type} (ops : List (Op m k NL EL)) (s t : Id m) :
    (Spec.run false ops).edge s t = (Spec.run false ops).edge t s := by
  unfold Spec.run
  suffices H : ∀ a : AGraph (Id m) NL EL, (∀ s t, a.edge s t = a.edge t s) →
      ∀ s t, (ops.foldl (Spec.step false) a).edge s t = (ops.foldl (Spec.step false) a).edge t s from
    H AGraph.empty (fun _ _ => rfl) s t
  have hsame : ∀ (s t a b : Id m), AGraph.same false s t a b ↔ AGraph.same false s t b a := by
    intro s t a b; unfold AGraph.same; simp only [true_and]; tauto
  induction ops with
  | nil => intro a ha s t; exact ha s t
  | cons op ops ih =>
    intro a ha
    apply ih
    intro x y
    cases op with
    | addEdge s t l => simp only [Spec.step, AGraph.addEdge, hsame s t x y, ha x y]
    | removeEdge s t => simp only [Spec.step, AGraph.removeEdge, hsame s t x y, ha x y]
    | removeNode n => simp only [Spec.step, AGraph.removeNode, ha x y, or_comm]
    | updateEdgeLabel s t l =>
      simp only [Spec.step, AGraph.updateEdgeLabel]
      split
      · simp only [hsame s t x y, ha x y]
      · exact ha x y
    | addNode n l => exact ha x y
    | updateNodeLabel n l =>
      simp only [Spec.step, AGraph.updateNodeLabel]
      split <;> exact ha x y
    | addNodeLabel | addEdgeLabel | refineEdgeCount | setNodeLabelId | setEdgeLabelId
    | mapNodeLabelIds | mapEdgeLabelIds => exact ha x y

theorem Spec.surplus_fst {m k : Nat} {NL EL : Type} (d : Bool) (ops : List (Op m k NL EL))
    (st : AGraph (Id m) NL EL × Nat) :
    (ops.foldl (surplusStep d) st).1 = ops.foldl (step d) st.1 := by
  induction ops generalizing st with
  | nil => rfl
  | cons o ops ih => rw [List.foldl_cons, ih]; rfl

theorem Spec.surplus_snoc {m k : Nat} {NL EL : Type} (d : Bool) (ops : List (Op m k NL EL)) (op) :
    surplus d (ops ++ [op]) = (surplusStep d (run d ops, surplus d ops) op).2 := by
  unfold surplus
  rw [List.foldl_append]
  have h := Spec.surplus_fst d ops (AGraph.empty, 0)
  simp only [List.foldl_cons, List.foldl_nil]
  unfold run
  rw [show ops.foldl (surplusStep d) (AGraph.empty, 0) =
    (ops.foldl (step d) AGraph.empty, (ops.foldl (surplusStep d) (AGraph.empty, 0)).2) from
    Prod.ext h rfl]

theorem Spec.SameShape.edgeNumber {I A B C D : Type} [LinearOrder I] [Fintype I]
    {g : AGraph I A B} {h : AGraph I C D} (hs : SameShape g h) (d : Bool) :
    g.edgeNumber d = h.edgeNumber d := by
  unfold AGraph.edgeNumber
  congr 1
  ext p
  simp [hs.2]

namespace GraphMap

variable {m k : Nat} {NL EL : Type} [DecidableEq NL] [DecidableEq EL]

theorem Reachable.inv {g : GraphMap m k NL EL} (h : Reachable g) : g.Inv := by
  induction h with
  | start d nl el h1 h2 => exact inv_withLabelMap d nl el h1 h2
  | step _ h ih => exact inv_apply ih h
  | reorder idm nlm elm _ hid h ih => exact inv_reorder ih hid h
  | rehash _ hp ih => exact inv_rehash ih hp

theorem Run.reachable {d : Bool} {nl : SetMap NL} {el : SetMap EL} (hn : nl.labels.Nodup)
    (he : el.labels.Nodup) {ops : List (Op m k NL EL)} {g : GraphMap m k NL EL}
    (h : Run (withLabelMap d nl el) ops g) : Reachable g := by
  induction h with
  | nil => exact .start d nl el hn he
  | step _ h ih => exact .step ih h
  | rehash _ hp ih => exact .rehash ih hp

/-- How one call changes the edge counter and the number of edges. -/
theorem count_apply {g g' : GraphMap m k NL EL} (hg : g.Inv)
    {op : Op m k NL EL} (h : g.apply op = .ok g') (c : Nat) (hc : g.numEdges = g.edgeNum + c) :
    g'.numEdges = g'.edgeNum + (surplusStep g.directed (g.decode, c) op).2 := by
  have hdec : ∀ s t, (g.decode.edge s t).isSome = g.hasEdge s t := by
    intro s t; rw [hasEdge_eq_outE]; simp [decode]
  have hadd : ∀ s t l g1 b, g.addEdge s t l = .ok (g1, b) →
      g1.numEdges = g1.edgeNum + if g.hasEdge s t = true then c + 1 else c := by
    intro s t l g1 b h
    obtain ⟨g1', el, lid, hi, h1, h2, h3, h4, h5, h6, h7, h8, h9⟩ := addEdge_spec hg.toNWF s t l
    rw [h1] at h
    obtain rfl : g1' = g1 := by cases h; rfl
    unfold edgeNum
    rw [h3, h8, h4, AGraph.edgeNumber_addEdge _ _ hg.sym]
    have : (g.rep.edge s t).isSome = g.hasEdge s t := (hasEdge_eq_outE g s t).symm
    rw [this, hc]
    unfold edgeNum
    split <;> omega
  cases op with
  | addNode n l =>
    obtain ⟨r, h1, h2⟩ := bind_eq_ok h
    cases h2
    obtain ⟨g1, nl, lid, hi, a1, a2, a3, a4, a5, a6, a7, a8, a9⟩ := addNode_spec hg.toNWF n l
    rw [a1] at h1
    obtain rfl : g1 = r.1 := by cases h1; rfl
    unfold edgeNum
    rw [a3, a8, edgeNum_addNode, a4, hc]; rfl
  | removeNode n =>
    obtain ⟨r, h0, h2⟩ := bind_eq_ok h
    cases h2
    obtain ⟨g1, h1, h2, h3, h4, h5, h6, h7, h8, h9, h10⟩ :=
      removeNode_spec hg n (removeNode_ok_noloop h0)
    rw [h1] at h0
    obtain rfl : g1 = r.1 := by cases h0; rfl
    simp only [surplusStep]
    omega
  | addEdge s t l =>
    obtain ⟨r, h1, h2⟩ := bind_eq_ok h
    cases h2
    simp only [surplusStep, hdec]
    exact hadd s t l r.1 r.2 h1
  | removeEdge s t =>
    obtain ⟨r, h0, h00⟩ := bind_eq_ok h
    cases h00
    obtain ⟨g1, h1, h2, h3, h4, h5, h6, h7, h8, h9, h10⟩ := removeEdge_spec hg s t
    rw [h1] at h0
    obtain rfl : g1 = r.1 := by cases h0; rfl
    simp only [surplusStep]
    by_cases he : g.hasEdge s t = true
    · have e := AGraph.edgeNumber_removeEdge g.directed g.rep hg.sym s t
        (by rw [hasEdge_eq_outE] at he; exact he)
      unfold edgeNum at hc ⊢
      rw [h3, h9]
      rw [if_pos he] at h7
      omega
    · rw [h8 (by simpa using he)]; exact hc
  | updateNodeLabel n l =>
    obtain ⟨r, h1, h2⟩ := bind_eq_ok h
    cases h2
    unfold updateNodeLabel at h1
    simp only [surplusStep]
    split at h1
    · cases h1; exact hc
    · obtain ⟨r, h3, h2⟩ := bind_eq_ok h1
      cases h2
      obtain ⟨g1, nl, lid, hi, a1, a2, a3, a4, a5, a6, a7, a8, a9⟩ := addNode_spec hg.toNWF n l
      rw [a1] at h3
      obtain rfl : g1 = r.1 := by cases h3; rfl
      unfold edgeNum
      rw [a3, a8, edgeNum_addNode, a4, hc]; rfl
  | updateEdgeLabel s t l =>
    obtain ⟨r, h1, h2⟩ := bind_eq_ok h
    cases h2
    unfold updateEdgeLabel at h1
    simp only [surplusStep, hdec]
    split at h1
    · rename_i hn
      cases h1
      rw [if_neg (by simpa using hn)]; exact hc
    · obtain ⟨r, h3, h2⟩ := bind_eq_ok h1
      cases h2
      exact hadd s t l r.1 r.2 h3
  | addNodeLabel l =>
    obtain ⟨r, h1, h2⟩ := bind_eq_ok h
    cases h2
    obtain ⟨r', h3, h4⟩ := bind_eq_ok h1
    cases h4
    exact hc
  | addEdgeLabel l =>
    obtain ⟨r, h1, h2⟩ := bind_eq_ok h
    cases h2
    obtain ⟨r', h3, h4⟩ := bind_eq_ok h1
    cases h4
    exact hc
  | refineEdgeCount =>
    cases h
    exact edgeIndices_length hg.toNWF
  | setNodeLabelId n l =>
    by_cases hn : g.hasNode n = true
    · obtain ⟨g1, h1, h2, h3, -⟩ := setNodeLabelId_spec hg.toNWF n l hn
      have h : g.setNodeLabelId n l = .ok g' := h
      rw [h1] at h; cases h
      rw [h3.edgeNum, h3.rest.numEdges]; exact hc
    · exfalso
      have hn : AL.get g.nodeMap n = none := by simpa [hasNode] using hn
      simp [apply, setNodeLabelId, hn] at h
  | setEdgeLabelId s t l =>
    by_cases hn : g.hasEdge s t = true
    · obtain ⟨g1, h1, h2, h3, -⟩ := setEdgeLabelId_spec hg.toNWF s t l hn
      have h : g.setEdgeLabelId s t l = .ok g' := h
      rw [h1] at h; cases h
      rw [h3.edgeNum, h3.rest.numEdges]; exact hc
    · exfalso
      simp [apply, setEdgeLabelId, hn] at h
  | mapNodeLabelIds f =>
    cases h
    obtain ⟨h1, h3, -⟩ := mapNodeLabelIds_spec hg.toNWF f
    rw [h3.edgeNum, h3.rest.numEdges]; exact hc
  | mapEdgeLabelIds f =>
    cases h
    obtain ⟨h1, h3, -⟩ := mapEdgeLabelIds_spec hg.toNWF f
    rw [h3.edgeNum, h3.rest.numEdges]; exact hc

theorem run_count {d : Bool} {nl : SetMap NL} {el : SetMap EL} (hn : nl.labels.Nodup)
    (he : el.labels.Nodup) {ops : List (Op m k NL EL)} {g : GraphMap m k NL EL}
    (h : Run (withLabelMap d nl el) ops g) : g.numEdges = g.edgeNum + surplus d ops := by
  induction h with
  | nil =>
    have := (inv_withLabelMap (m := m) (k := k) d nl el hn he).count
    have h0 : (withLabelMap d nl el : GraphMap m k NL EL).numEdges = 0 := rfl
    simp only [surplus, List.foldl_nil]
    omega
  | @step ops op g g' hr h ih =>
    have hg := inv_run (inv_withLabelMap d nl el hn he) hr
    obtain ⟨rfl, hsh⟩ := run_shape hn he hr
    rw [count_apply hg h _ ih, surplus_snoc]
    congr 1
    have hde : ∀ s t, (g.decode.edge s t).isSome = ((Spec.run g.directed ops).edge s t).isSome :=
      fun s t => ((shape_decode g).2 s t).symm.trans (hsh.2 s t)
    cases op <;> simp only [surplusStep, hde]
  | @rehash ops g nm hr hp ih =>
    have hg := inv_run (inv_withLabelMap d nl el hn he) hr
    have : ({ g with nodeMap := nm } : GraphMap m k NL EL).edgeNum = g.edgeNum := by
      unfold edgeNum; rw [rep_rehash hg.toNWF hp]
    rw [this]; exact ih

/-! ### High-water mark -/

/-- `M` is the maximum of `l`. -/
def IsMax (M : Option (Id m)) (l : List (Id m)) : Prop :=
  (M = none → l = []) ∧ ∀ x, M = some x → x ∈ l ∧ ∀ y ∈ l, y ≤ x

theorem isMax_bump {mx : Option (Id m)} {l : List (Id m)} (h : IsMax mx l) (n : Id m) :
    IsMax (bumpMax mx n) (l ++ [n]) := by
  unfold bumpMax
  cases mx with
  | none =>
    obtain rfl := h.1 rfl
    refine ⟨by simp, ?_⟩
    rintro x ⟨⟩; simp
  | some i =>
    obtain ⟨h1, h2⟩ := h.2 i rfl
    by_cases hi : i < n
    · simp only [hi, if_true]
      refine ⟨by simp, ?_⟩
      rintro x ⟨⟩
      refine ⟨by simp, ?_⟩
      intro y hy
      rcases List.mem_append.1 hy with hy | hy
      · exact le_trans (h2 y hy) hi.le
      · simp at hy; exact hy.le
    · simp only [hi, if_false]
      refine ⟨by simp, ?_⟩
      rintro x ⟨⟩
      refine ⟨by simp [h1], ?_⟩
      intro y hy
      rcases List.mem_append.1 hy with hy | hy
      · exact h2 y hy
      · simp at hy; rw [hy]; exact not_lt.1 hi

omit [DecidableEq NL] [DecidableEq EL] in
theorem isMax_seen {mx : Option (Id m)} {l : List (Id m)} (h : IsMax mx l) (g : GraphMap m k NL EL)
    (n : Id m) (hb : g.hasNode n = true → ∃ M, mx = some M ∧ n ≤ M) :
    IsMax (g.seen mx n) (l ++ [n]) := by
  unfold seen
  split
  · rename_i hn
    obtain ⟨M, rfl, hM⟩ := hb hn
    obtain ⟨h1, h2⟩ := h.2 M rfl
    refine ⟨by simp, ?_⟩
    rintro x ⟨⟩
    refine ⟨by simp [h1], ?_⟩
    intro y hy
    rcases List.mem_append.1 hy with hy | hy
    · exact h2 y hy
    · simp at hy; rw [hy]; exact hM
  · exact isMax_bump h n

omit [DecidableEq EL] in
theorem isMax_addNode {g g' : GraphMap m k NL EL} (hg : g.Inv) {n l b} {ids : List (Id m)}
    (h : g.addNode n l = .ok (g', b)) (hm : IsMax g.maxId ids) : IsMax g'.maxId (ids ++ [n]) := by
  obtain ⟨g1, nl, lid, hi, a1, a2, a3, a4, a5, a6, a7, a8, a9⟩ := addNode_spec hg.toNWF n l
  rw [a1] at h
  obtain rfl : g1 = g' := by cases h; rfl
  rw [a7]
  have := isMax_seen hm g n (hg.maxBound n)
  unfold seen at this
  exact this

theorem isMax_addEdge {g g' : GraphMap m k NL EL} (hg : g.Inv) {s t l b} {ids : List (Id m)}
    (h : g.addEdge s t l = .ok (g', b)) (hm : IsMax g.maxId ids) :
    IsMax g'.maxId (ids ++ [s, t]) := by
  obtain ⟨g1, el, lid, hi, h1, h2, h3, h4, h5, h6, h7, h8, h9⟩ := addEdge_spec hg.toNWF s t l
  rw [h1] at h
  obtain rfl : g1 = g' := by cases h; rfl
  rw [h7]
  have e1 := isMax_seen hm g s (hg.maxBound s)
  have e2 := isMax_seen e1 g t (by
    intro ht
    obtain ⟨M, hM, hle⟩ := hg.maxBound t ht
    cases hs : g.seen g.maxId s with
    | none => exact absurd (e1.1 hs) (by simp)
    | some M' =>
      refine ⟨M', rfl, ?_⟩
      obtain ⟨-, f2⟩ := e1.2 M' hs
      have : M ∈ ids := (hm.2 M hM).1
      exact le_trans hle (f2 M (by simp [this])))
  split
  · rename_i hts
    subst hts
    refine ⟨fun h => absurd (e1.1 h) (by simp), ?_⟩
    intro x hx
    obtain ⟨f1, f2⟩ := e1.2 x hx
    refine ⟨?_, ?_⟩
    · simp only [List.mem_append, List.mem_singleton] at f1
      rcases f1 with f1 | f1 <;> simp [f1]
    · intro y hy
      apply f2
      simpa using hy
  · rw [List.append_assoc] at e2; exact e2

theorem isMax_apply {g g' : GraphMap m k NL EL} (hg : g.Inv)
    {op : Op m k NL EL} (h : g.apply op = .ok g') {ids : List (Id m)} (hm : IsMax g.maxId ids) :
    IsMax g'.maxId (ids ++ touched op) := by
  cases op with
  | addNode n l =>
    obtain ⟨r, h1, h2⟩ := bind_eq_ok h
    cases h2; exact isMax_addNode hg h1 hm
  | addEdge s t l =>
    obtain ⟨r, h1, h2⟩ := bind_eq_ok h
    cases h2; exact isMax_addEdge hg h1 hm
  | removeNode n =>
    obtain ⟨r, h0, h2⟩ := bind_eq_ok h
    cases h2
    obtain ⟨g1, h1, h2, h3, h4, h5, h6, -⟩ := removeNode_spec hg n (removeNode_ok_noloop h0)
    rw [h1] at h0
    obtain rfl : g1 = r.1 := by cases h0; rfl
    simp only [touched, List.append_nil, h6]; exact hm
  | removeEdge s t =>
    obtain ⟨r, h0, h00⟩ := bind_eq_ok h
    cases h00
    obtain ⟨g1, h1, h2, h3, h4, h5, h6, -⟩ := removeEdge_spec hg s t
    rw [h1] at h0
    obtain rfl : g1 = r.1 := by cases h0; rfl
    simp only [touched, List.append_nil, h6]; exact hm
  | updateNodeLabel n l =>
    obtain ⟨r, h1, h2⟩ := bind_eq_ok h
    cases h2
    unfold updateNodeLabel at h1
    simp only [touched, List.append_nil]
    split at h1
    · cases h1; exact hm
    · rename_i hn
      obtain ⟨r, h3, h2⟩ := bind_eq_ok h1
      cases h2
      obtain ⟨g1, nl, lid, hi, a1, a2, a3, a4, a5, a6, a7, a8, a9⟩ := addNode_spec hg.toNWF n l
      rw [a1] at h3
      obtain rfl : g1 = r.1 := by cases h3; rfl
      rw [if_pos (by simpa using hn)] at a7
      rw [a7]; exact hm
  | updateEdgeLabel s t l =>
    obtain ⟨r, h1, h2⟩ := bind_eq_ok h
    cases h2
    unfold updateEdgeLabel at h1
    simp only [touched, List.append_nil]
    split at h1
    · cases h1; exact hm
    · rename_i hn
      have hn : g.hasEdge s t = true := by simpa using hn
      obtain ⟨r, h3, h2⟩ := bind_eq_ok h1
      cases h2
      obtain ⟨g1, el, lid, hi, a1, a2, a3, a4, a5, a6, a7, a8, a9⟩ := addEdge_spec hg.toNWF s t l
      rw [a1] at h3
      obtain rfl : g1 = r.1 := by cases h3; rfl
      have ho : (g.outE s t).isSome := by rw [← hasEdge_eq_outE]; exact hn
      have hs := outE_hasNode ho
      have ht := hg.target s t ho
      simp only [seen, hs, ht, if_true, ite_self] at a7
      rw [a7]; exact hm
  | addNodeLabel l =>
    obtain ⟨r, h1, h2⟩ := bind_eq_ok h
    cases h2
    obtain ⟨r', h3, h4⟩ := bind_eq_ok h1
    cases h4
    simpa [touched] using hm
  | addEdgeLabel l =>
    obtain ⟨r, h1, h2⟩ := bind_eq_ok h
    cases h2
    obtain ⟨r', h3, h4⟩ := bind_eq_ok h1
    cases h4
    simpa [touched] using hm
  | refineEdgeCount =>
    cases h
    simp only [touched, List.append_nil]
    exact hm
  | setNodeLabelId n l =>
    by_cases hn : g.hasNode n = true
    · obtain ⟨g1, h1, h2, h3, -⟩ := setNodeLabelId_spec hg.toNWF n l hn
      have h : g.setNodeLabelId n l = .ok g' := h
      rw [h1] at h; cases h
      rw [h3.rest.maxId]; simpa [touched] using hm
    · exfalso
      have hn : AL.get g.nodeMap n = none := by simpa [hasNode] using hn
      simp [apply, setNodeLabelId, hn] at h
  | setEdgeLabelId s t l =>
    by_cases hn : g.hasEdge s t = true
    · obtain ⟨g1, h1, h2, h3, -⟩ := setEdgeLabelId_spec hg.toNWF s t l hn
      have h : g.setEdgeLabelId s t l = .ok g' := h
      rw [h1] at h; cases h
      rw [h3.rest.maxId]; simpa [touched] using hm
    · exfalso
      simp [apply, setEdgeLabelId, hn] at h
  | mapNodeLabelIds f =>
    cases h
    obtain ⟨h1, h3, -⟩ := mapNodeLabelIds_spec hg.toNWF f
    rw [h3.rest.maxId]; simpa [touched] using hm
  | mapEdgeLabelIds f =>
    cases h
    obtain ⟨h1, h3, -⟩ := mapEdgeLabelIds_spec hg.toNWF f
    rw [h3.rest.maxId]; simpa [touched] using hm

theorem run_isMax {d : Bool} {nl : SetMap NL} {el : SetMap EL} (hn : nl.labels.Nodup)
    (he : el.labels.Nodup) {ops : List (Op m k NL EL)} {g : GraphMap m k NL EL}
    (h : Run (withLabelMap d nl el) ops g) : IsMax g.maxId (ops.flatMap touched) := by
  induction h with
  | nil => exact ⟨fun _ => rfl, fun _ h => (by cases h)⟩
  | @step ops op g g' hr h ih =>
    have hg := inv_run (inv_withLabelMap d nl el hn he) hr
    rw [List.flatMap_append]
    have := isMax_apply hg h ih
    simpa using this
  | rehash _ _ ih => exact ih

end GraphMap

end Verif
