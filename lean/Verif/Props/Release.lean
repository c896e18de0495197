import Verif.Proof.Release
import Verif.Props.Mmap
import Verif.Props.Static
import Verif.Props.GraphHistory
import Verif.Props.GraphState

/-! Property theorems about release builds: C117, C118, C119. -/

namespace Verif.Props

open GraphMap Spec

variable {m k : Nat} {NL EL : Type}

section mutable

variable [DecidableEq NL] [DecidableEq EL]

/-! ### C117 -/

/-- Nothing a program can do to a mutable graph makes its edge counter wrap below zero. -/
theorem c117_no_underflow {g : GraphMap m k NL EL} (hg : Reachable g) (n s t : Id m) :
    g.removeNode n ≠ .error .underflow ∧ g.removeEdge s t ≠ .error .underflow := by
  constructor
  · cases h : g.hasEdge n n with
    | true => rw [removeNode_loop n h]; intro h; cases h
    | false =>
      obtain ⟨g', h', -⟩ := c07_remove_node hg n h
      rw [h']; intro h; cases h
  · obtain ⟨g', r, h', -⟩ := c07_remove_edge hg s t
    rw [h']; intro h; cases h

/-- **C117.** The calls whose arithmetic differs return what they return with overflow checks. -/
theorem c117_answers {g : GraphMap m k NL EL} (hg : Reachable g) (n s t : Id m) (l : Option EL) :
    g.wrapped.addEdgeRelease s t l = (g.addEdge s t l).map (fun r => (r.1.wrapped, r.2)) ∧
    g.wrapped.updateEdgeLabelRelease s t l = (g.updateEdgeLabel s t l).map (fun r => (r.1.wrapped, r.2)) ∧
    g.wrapped.removeNodeRelease n = (g.removeNode n).map (fun r => (r.1.wrapped, r.2)) ∧
    g.wrapped.removeEdgeRelease s t = (g.removeEdge s t).map (fun r => (r.1.wrapped, r.2)) := by
  refine ⟨addEdge_release g s t l, ?_, removeNode_release n (c117_no_underflow hg n s t).1,
    removeEdge_release s t (c117_no_underflow hg n s t).2⟩
  unfold updateEdgeLabelRelease updateEdgeLabel
  show (if (!g.hasEdge s t) = true then _ else _) = _
  split
  · rfl
  · rw [addEdge_release]
    cases g.addEdge s t l <;> rfl

/-- Calls that do not underflow, on any graph. -/
theorem step_wrapped {g : GraphMap m k NL EL} (op : Op m k NL EL)
    (h1 : ∀ n, op = .removeNode n → g.removeNode n ≠ .error .underflow)
    (h2 : ∀ s t, op = .removeEdge s t → g.removeEdge s t ≠ .error .underflow) :
    g.wrapped.applyRelease op = (g.apply op).map wrapped := by
  cases op with
  | addNode n l =>
    show (recount (g.numEdges % word) g).addNode n l >>= _ = _
    unfold apply
    dsimp only
    rw [addNode_recount]
    cases h : g.addNode n l with
    | error e => rfl
    | ok r =>
      show Except.ok (recount _ r.1) = Except.ok (recount _ r.1)
      rw [addNode_count h]
  | removeNode n =>
    unfold applyRelease apply
    dsimp only
    rw [removeNode_release n (h1 n rfl)]
    cases g.removeNode n <;> rfl
  | addEdge s t l =>
    unfold applyRelease apply
    dsimp only
    rw [addEdge_release]
    cases g.addEdge s t l <;> rfl
  | removeEdge s t =>
    unfold applyRelease apply
    dsimp only
    rw [removeEdge_release s t (h2 s t rfl)]
    cases g.removeEdge s t <;> rfl
  | updateNodeLabel n l =>
    show (recount (g.numEdges % word) g).updateNodeLabel n l >>= _ = _
    unfold apply
    dsimp only
    unfold updateNodeLabel
    show (if (!g.hasNode n) = true then _ else _) >>= _ = _
    split
    · rfl
    · rw [addNode_recount]
      cases h : g.addNode n l with
      | error e => rfl
      | ok r =>
        show Except.ok (recount _ r.1) = Except.ok (recount _ r.1)
        rw [addNode_count h]
  | updateEdgeLabel s t l =>
    unfold applyRelease apply
    dsimp only
    unfold updateEdgeLabelRelease updateEdgeLabel
    show (if (!g.hasEdge s t) = true then _ else _) >>= _ = _
    split
    · rfl
    · rw [addEdge_release]
      cases g.addEdge s t l <;> rfl
  | addNodeLabel l =>
    show (do let r ← intern (k := k) g.nodeLabels l; pure _) >>= _ = Except.map _
      ((do let r ← intern (k := k) g.nodeLabels l; pure _) >>= _)
    cases intern (k := k) g.nodeLabels l <;> rfl
  | addEdgeLabel l =>
    show (do let r ← intern (k := k) g.edgeLabels l; pure _) >>= _ = Except.map _
      ((do let r ← intern (k := k) g.edgeLabels l; pure _) >>= _)
    cases intern (k := k) g.edgeLabels l <;> rfl
  | refineEdgeCount => rfl
  | setNodeLabelId n l =>
    show (match AL.get g.nodeMap n with | some nd => _ | none => _) =
      Except.map _ (match AL.get g.nodeMap n with | some nd => _ | none => _)
    cases AL.get g.nodeMap n <;> rfl
  | setEdgeLabelId s t l =>
    show (if (!g.hasEdge s t) = true then _ else _) = Except.map _ (if (!g.hasEdge s t) = true then _ else _)
    split
    · rfl
    · show withNode (recount _ g) s _ = _
      rw [withNode_recount]
      cases h : g.withNode s (fun nd => { nd with neighbors := AL.set nd.neighbors t l }) with
      | error e => rfl
      | ok g' =>
        show Except.ok (recount _ g') = Except.ok (recount _ g')
        rw [withNode_count h]
  | mapNodeLabelIds f => rfl
  | mapEdgeLabelIds f =>
    show Except.ok (if g.directed = true then _ else _) = Except.ok (wrapped (if g.directed = true then _ else _))
    split <;> rfl

/-- **C117.** Every call in a release build does what it does with overflow checks, except that the edge counter
is kept modulo 2^64. -/
theorem c117_step {g : GraphMap m k NL EL} (hg : Reachable g) (op : Op m k NL EL) :
    g.wrapped.applyRelease op = (g.apply op).map wrapped :=
  step_wrapped op (fun n _ => (c117_no_underflow hg n n n).1) (fun s t _ => (c117_no_underflow hg s s t).2)

/-- **C117**: so does every program: it panics exactly when it does with overflow checks, and ends with the same
graph but for the counter, which is the exact count of C60 modulo 2^64. -/
theorem c117_run {d : Bool} {nl : SetMap NL} {el : SetMap EL} (hn : nl.labels.Nodup) (he : el.labels.Nodup)
    (ops : List (Op m k NL EL)) :
    (withLabelMap d nl el).execRelease ops = ((withLabelMap d nl el).exec ops).map wrapped ∧
    ∀ g, (withLabelMap d nl el).exec ops = .ok g →
      g.wrapped.edgeCount = ((Spec.run d ops).edgeNumber d + surplus d ops) % 2 ^ 64 := by
  constructor
  · have key : ∀ (ops : List (Op m k NL EL)) (g : GraphMap m k NL EL), Reachable g →
        g.wrapped.execRelease ops = (g.exec ops).map wrapped := by
      intro ops
      induction ops with
      | nil => intro g _; rfl
      | cons op ops ih =>
        intro g hg
        unfold execRelease exec
        rw [List.foldlM_cons, List.foldlM_cons, c117_step hg]
        cases h : g.apply op with
        | error e => rfl
        | ok g' => exact ih g' (hg.step h)
    exact key ops _ (.start d nl el hn he)
  · intro g hg
    show g.numEdges % word = _
    rw [← (c60_edge_count_exact hn he (exec_run hg)).1]
    rfl

/-- One call adds at most one to the counter. -/
theorem apply_count_le {g g' : GraphMap m k NL EL} (hg : Reachable g) {op : Op m k NL EL}
    (h : g.apply op = .ok g') : g'.numEdges ≤ g.numEdges + 1 := by
  have hadd : ∀ {s t : Id m} {l : Option EL} {r}, g.addEdge s t l = .ok r → r.1.numEdges = g.numEdges + 1 := by
    intro s t l r h
    unfold addEdge at h
    obtain ⟨g1, h1, h⟩ := bind_eq_ok h
    obtain ⟨g2, h2, h⟩ := bind_eq_ok h
    obtain ⟨r1, h3, h⟩ := bind_eq_ok h
    obtain ⟨nd, h4, h⟩ := bind_eq_ok h
    obtain ⟨g3, h5, h⟩ := bind_eq_ok h
    obtain ⟨g4, h6, h⟩ := bind_eq_ok h
    cases h
    have e5 := withNode_count h5
    show g4.numEdges + 1 = _
    rw [addEdgeTarget_count h6, e5]
    show g2.numEdges + 1 = _
    rw [ensureNode_count h2, ensureNode_count h1]
  cases op with
  | addNode n l =>
    obtain ⟨r, h1, h⟩ := bind_eq_ok h
    cases h
    rw [addNode_count h1]; omega
  | removeNode n =>
    obtain ⟨r, h1, h⟩ := bind_eq_ok h
    cases h
    unfold removeNode at h1
    split at h1
    · obtain ⟨g1, h2, h1⟩ := bind_eq_ok h1
      have e := unlink_count h2
      split at h1
      · cases h1
      · cases h1
        show g1.numEdges - _ ≤ _
        rw [e]
        show g.numEdges - _ ≤ _
        omega
    · cases h1; simp
  | addEdge s t l =>
    obtain ⟨r, h1, h⟩ := bind_eq_ok h
    cases h
    rw [hadd h1]
  | removeEdge s t =>
    obtain ⟨r, h1, h⟩ := bind_eq_ok h
    cases h
    unfold removeEdge at h1
    split at h1
    · cases h1; simp
    · obtain ⟨nd, -, h1⟩ := bind_eq_ok h1
      obtain ⟨g1, h2, h1⟩ := bind_eq_ok h1
      obtain ⟨g2, h3, h1⟩ := bind_eq_ok h1
      split at h1
      · cases h1
      · cases h1
        show g2.numEdges - 1 ≤ _
        rw [removeEdgeTarget_count h3, withNode_count h2]
        omega
  | updateNodeLabel n l =>
    obtain ⟨r, h1, h⟩ := bind_eq_ok h
    cases h
    unfold updateNodeLabel at h1
    split at h1
    · cases h1; simp
    · obtain ⟨r, h2, h1⟩ := bind_eq_ok h1
      cases h1
      show r.1.numEdges ≤ _
      rw [addNode_count h2]; omega
  | updateEdgeLabel s t l =>
    obtain ⟨r, h1, h⟩ := bind_eq_ok h
    cases h
    unfold updateEdgeLabel at h1
    split at h1
    · cases h1; simp
    · obtain ⟨r, h2, h1⟩ := bind_eq_ok h1
      cases h1
      show r.1.numEdges ≤ _
      rw [hadd h2]
  | addNodeLabel l =>
    obtain ⟨r, h1, h⟩ := bind_eq_ok h
    cases h
    obtain ⟨q, -, h1⟩ := bind_eq_ok h1
    cases h1; simp
  | addEdgeLabel l =>
    obtain ⟨r, h1, h⟩ := bind_eq_ok h
    cases h
    obtain ⟨q, -, h1⟩ := bind_eq_ok h1
    cases h1; simp
  | refineEdgeCount =>
    cases h
    show g.edgeIndices.length ≤ _
    rw [edgeIndices_length hg.inv.toNWF]
    have := hg.inv.count
    omega
  | setNodeLabelId n l =>
    unfold apply setNodeLabelId at h
    dsimp only at h
    split at h
    · cases h; simp
    · cases h
  | setEdgeLabelId s t l =>
    unfold apply setEdgeLabelId at h
    dsimp only at h
    split at h
    · cases h
    · rw [withNode_count h]; omega
  | mapNodeLabelIds f => cases h; simp [mapNodeLabelIds]
  | mapEdgeLabelIds f =>
    cases h
    unfold mapEdgeLabelIds
    split <;> simp

/-- **C117**: a program that makes fewer than 2^64 calls does not notice the difference. -/
theorem c117_same {d : Bool} {nl : SetMap NL} {el : SetMap EL} (hn : nl.labels.Nodup) (he : el.labels.Nodup)
    (ops : List (Op m k NL EL)) (hl : ops.length < 2 ^ 64) :
    (withLabelMap d nl el).execRelease ops = (withLabelMap d nl el).exec ops := by
  have key : ∀ (ops : List (Op m k NL EL)) (g g' : GraphMap m k NL EL), Reachable g → g.exec ops = .ok g' →
      g'.numEdges ≤ g.numEdges + ops.length := by
    intro ops
    induction ops with
    | nil => intro g g' _ h; cases h; simp
    | cons op ops ih =>
      intro g g' hg h
      unfold exec at h
      rw [List.foldlM_cons] at h
      obtain ⟨g1, h1, h2⟩ := bind_eq_ok h
      have := ih g1 g' (hg.step h1) h2
      have := apply_count_le hg h1
      rw [List.length_cons]
      omega
  rw [(c117_run hn he ops).1]
  cases h : (withLabelMap d nl el : GraphMap m k NL EL).exec ops with
  | error e => rfl
  | ok g =>
    have := key ops _ g (.start d nl el hn he) h
    have e0 : (withLabelMap d nl el : GraphMap m k NL EL).numEdges = 0 := rfl
    have e : g.numEdges % word = g.numEdges := Nat.mod_eq_of_lt (by unfold word; omega)
    show Except.ok (recount (g.numEdges % word) g) = _
    rw [e]
    rfl

example : ∃ g : GraphMap 9 3 String String,
    (withLabelMap true SetMap.empty SetMap.empty).execRelease
      [.addEdge 1 2 (some "x"), .addEdge 1 2 none, .addEdge 2 3 none, .removeNode 3, .removeEdge 1 2] = .ok g ∧
    g.edgeCount = 1 ∧ g.edgeIndices = [] := by
  obtain ⟨g, h⟩ : ∃ g : GraphMap 9 3 String String,
    (withLabelMap true SetMap.empty SetMap.empty).execRelease
      [.addEdge 1 2 (some "x"), .addEdge 1 2 none, .addEdge 2 3 none, .removeNode 3, .removeEdge 1 2] = .ok g :=
    ⟨_, rfl⟩
  refine ⟨g, h, ?_⟩
  cases h
  decide

end mutable

/-! ### C118 -/

theorem freeze_loop_release (M : Id m) (hM : M.val < m) : ∀ (a b : Nat) (nid : Id m) (st : Freeze m k),
    nid.val ≤ M.val + 1 → M.val + 1 < nid.val + a → M.val + 1 < nid.val + b →
    Freeze.loopRelease a nid M st = Freeze.loop b nid M st := by
  intro a
  induction a with
  | zero => intro b nid st h1 h2 h3; omega
  | succ a ih =>
    intro b nid st h1 h2 h3
    cases b with
    | zero => omega
    | succ b =>
      unfold Freeze.loopRelease Freeze.loop
      by_cases h : nid ≤ M
      · have h' : nid.val ≤ M.val := h
        have e : nid.incrementRelease = ⟨nid.val + 1, by omega⟩ := by
          unfold Id.incrementRelease Id.new
          apply Fin.ext
          exact Nat.mod_eq_of_lt (by omega)
        rw [if_pos h, if_pos h, increment_lt (by omega), e]
        simp only [bind_ok]
        exact ih b _ _ (by simp; omega) (by simp; omega) (by simp; omega)
      · rw [if_neg h, if_neg h]

/-- **C118.** In a release build `into_static` does the same on a graph that has a node and not the largest id;
it still panics on the empty graph; but on a graph with the largest id it never ends: however many turns its
loop takes, it is not done. -/
theorem c118_into_static (g : GraphMap m k NL EL) :
    (g.nodeCount = 0 → ∀ fuel, g.intoStaticRelease fuel = .error .unwrapNone) ∧
    (g.nodeCount ≠ 0 → g.hasNode Id.maxValue = false → ∀ fuel, m + 2 ≤ fuel →
      g.intoStaticRelease fuel = g.intoStatic) ∧
    (g.hasNode Id.maxValue = true → ∀ fuel, g.intoStaticRelease fuel = .error .diverge) := by
  refine ⟨?_, ?_, ?_⟩
  · intro h fuel
    unfold intoStaticRelease nodeIndices
    rw [List.length_eq_zero_iff.1 h]
    rfl
  · intro h0 h1 fuel hf
    obtain ⟨M, hM, hlt⟩ := exists_max h0 h1
    unfold intoStaticRelease intoStatic
    rw [hM]
    simp only [unwrap, bind_ok]
    have e0 : (Id.new 0 : Id m).val = 0 := by simp [Id.new]
    rw [freeze_loop_release M hlt fuel (m + 2) (Id.new 0) _ (by omega) (by omega) (by omega)]
  · intro h fuel
    cases hM : g.nodeIndices.max? with
    | none =>
      rw [List.max?_eq_none_iff] at hM
      unfold hasNode at h
      rw [AL.get_isSome_iff] at h
      unfold nodeIndices at hM
      rw [hM] at h; cases h
    | some M =>
      have hv : M.val = m := by
        have := (max_spec hM).2 _ h
        have h2 : m ≤ M.val := this
        have := M.isLt
        omega
      have key : ∀ fuel (nid : Id m) (st : Freeze m k), Freeze.loopRelease fuel nid M st = .error .diverge := by
        intro fuel
        induction fuel with
        | zero => intro _ _; rfl
        | succ f ih =>
          intro nid st
          unfold Freeze.loopRelease
          have := nid.isLt
          rw [if_pos (show nid ≤ M from Fin.le_def.2 (by omega))]
          exact ih _ _
      unfold intoStaticRelease
      rw [hM]
      simp only [unwrap, bind_ok]
      rw [key]
      rfl

theorem wrapSub_le {a b : Nat} (h : b ≤ a) (ha : a < 2 ^ 64) : wrapSub a b = a - b := by
  have e : a % word = a := Nat.mod_eq_of_lt ha
  have := wrapSub_mod h
  rw [e] at this
  rw [this]
  exact Nat.mod_eq_of_lt (by unfold word; omega)

theorem wrapSub_gt {a b : Nat} (h : a < b) (hb : b < 2 ^ 64) : wrapSub a b = 2 ^ 64 - (b - a) := by
  unfold wrapSub word
  rw [Nat.mod_eq_of_lt hb]
  rw [Nat.mod_eq_of_lt (by omega)]
  omega

/-- **C118.** On an adjacency with at least one offset, where all offsets are `usize`, a release build gives the
same answers; only a degree that would be negative does not panic. -/
theorem c118_adjacency (ev : EdgeVec m k) (h0 : ev.offsets ≠ []) (hl : ev.offsets.length < 2 ^ 64)
    (ho : ∀ o ∈ ev.offsets, o < 2 ^ 64) (s t : Id m) :
    ev.numNodes = .ok ev.numNodesRelease ∧ ev.hasNode s = .ok (ev.hasNodeRelease s) ∧
    ev.neighborsRelease s = ev.neighbors s ∧ ev.hasEdgeRelease s t = ev.hasEdge s t ∧
    ev.findEdgeIndexRelease s t = (ev.findEdgeIndex s t).map (Option.map (· % 2 ^ 64)) ∧
    (ev.degree s ≠ .error .underflow → ev.degreeRelease s = ev.degree s) := by
  have hpos : 0 < ev.offsets.length := List.length_pos_iff.2 h0
  have e1 : ev.numNodes = .ok ev.numNodesRelease := by
    unfold EdgeVec.numNodes EdgeVec.numNodesRelease
    rw [if_neg (by omega), wrapSub_le (by omega) hl]
    rfl
  have e2 : ∀ n, ev.hasNode n = .ok (ev.hasNodeRelease n) := by
    intro n
    unfold EdgeVec.hasNode EdgeVec.hasNodeRelease
    rw [e1]
    rfl
  have e3 : ev.neighborsRelease s = ev.neighbors s := by
    unfold EdgeVec.neighbors EdgeVec.neighborsRelease
    rw [e2, bind_ok]
  have e4 : ev.findEdgeIndexRelease s t = (ev.findEdgeIndex s t).map (Option.map (· % 2 ^ 64)) := by
    unfold EdgeVec.findEdgeIndexRelease EdgeVec.findEdgeIndex EdgeVec.searchRow
    rw [e2, e2, bind_ok, bind_ok, e3]
    split
    · rfl
    · cases ev.neighbors s with
      | error e => rfl
      | ok nb =>
        rw [bind_ok, bind_ok]
        cases binarySearch nb t with
        | error e => rfl
        | ok r =>
          rw [bind_ok, bind_ok]
          cases r with
          | missing i => rfl
          | found i =>
            dsimp only
            cases index ev.offsets s.val <;> rfl
  refine ⟨e1, e2 s, e3, ?_, e4, ?_⟩
  · unfold EdgeVec.hasEdgeRelease EdgeVec.hasEdge
    rw [e4]
    cases ev.findEdgeIndex s t with
    | error e => rfl
    | ok r => cases r <;> rfl
  · intro hd
    unfold EdgeVec.degreeRelease
    unfold EdgeVec.degree at hd ⊢
    rw [e2, bind_ok] at hd ⊢
    split
    · rename_i hs
      rw [if_pos hs] at hd
      unfold EdgeVec.rowLength at hd ⊢
      cases h1 : index ev.offsets s.val with
      | error e => rfl
      | ok a =>
        cases h2 : index ev.offsets (s.val + 1) with
        | error e => rfl
        | ok b =>
          rw [h1, h2, bind_ok, bind_ok] at hd
          rw [bind_ok, bind_ok, bind_ok, bind_ok]
          split
          · rename_i hlt
            rw [if_pos hlt] at hd
            exact absurd rfl hd
          · rename_i hlt
            have hb : b ∈ ev.offsets := by
              unfold index at h2
              split at h2
              · rename_i x hx
                cases h2
                exact List.mem_of_getElem? hx
              · cases h2
            rw [wrapSub_le (by omega) (ho b hb)]
    · rfl

/-- **C118.** Where the offsets go down, `neighbors` panics in both builds, but `degree` panics only with overflow
checks: without them it returns a number close to 2^64. -/
theorem c118_degree_wraps (ev : EdgeVec m k) (hl : ev.offsets.length < 2 ^ 64)
    (n : Id m) {a b : Nat} (ha : ev.offsets[n.val]? = some a) (hb : ev.offsets[n.val + 1]? = some b)
    (hlt : b < a) (ha' : a < 2 ^ 64) :
    ev.degree n = .error .underflow ∧ ev.neighbors n = .error .indexOutOfBounds ∧
    ev.neighborsRelease n = .error .indexOutOfBounds ∧ ev.degreeRelease n = .ok (2 ^ 64 - (a - b)) := by
  have hn : n.val + 1 < ev.offsets.length := (List.getElem?_eq_some_iff.1 hb).1
  have i1 : index ev.offsets n.val = .ok a := by unfold index; rw [ha]; rfl
  have i2 : index ev.offsets (n.val + 1) = .ok b := by unfold index; rw [hb]; rfl
  have hnodes : ev.hasNode n = .ok true := by
    unfold EdgeVec.hasNode EdgeVec.numNodes
    rw [if_neg (by omega), pure_ok, bind_ok, pure_ok, decide_eq_true (by omega)]
  have hrel : ev.hasNodeRelease n = true := by
    unfold EdgeVec.hasNodeRelease EdgeVec.numNodesRelease
    rw [wrapSub_le (by omega) hl, decide_eq_true (by omega)]
  have hrow : ev.row n = .error .indexOutOfBounds := by
    unfold EdgeVec.row
    rw [i1, i2, bind_ok, bind_ok]
    unfold EdgeVec.slice
    rw [if_neg (by omega)]
  refine ⟨?_, ?_, ?_, ?_⟩
  · unfold EdgeVec.degree EdgeVec.rowLength
    rw [hnodes, bind_ok, if_pos rfl, i1, i2, bind_ok, bind_ok, if_pos hlt]
  · unfold EdgeVec.neighbors
    rw [hnodes, bind_ok, if_pos rfl, hrow]
  · unfold EdgeVec.neighborsRelease
    rw [if_pos hrel, hrow]
  · unfold EdgeVec.degreeRelease
    rw [if_pos hrel, i1, i2, bind_ok, bind_ok, wrapSub_gt hlt ha']
    rfl

/-- **C118.** Without offsets (`EdgeVec::default`, or after `clear`) a release build claims to have every node
(but the largest `usize`), and then fails on the array. -/
theorem c118_no_offsets (ev : EdgeVec m k) (h : ev.offsets = []) (s t : Id m) :
    ev.numNodesRelease = 2 ^ 64 - 1 ∧ (ev.hasNodeRelease s = true ↔ s.val < 2 ^ 64 - 1) ∧
    ev.neighborsRelease s = .error (if s.val < 2 ^ 64 - 1 then .indexOutOfBounds else .explicit) ∧
    ev.degreeRelease s = .error (if s.val < 2 ^ 64 - 1 then .indexOutOfBounds else .explicit) ∧
    ev.hasEdgeRelease s t =
      (if s.val < 2 ^ 64 - 1 ∧ t.val < 2 ^ 64 - 1 then .error .indexOutOfBounds else .ok false) := by
  have h0 : ev.numNodesRelease = 2 ^ 64 - 1 := by
    unfold EdgeVec.numNodesRelease; rw [h]; rfl
  have h1 : ∀ s : Id m, ev.hasNodeRelease s = true ↔ s.val < 2 ^ 64 - 1 := by
    intro s
    unfold EdgeVec.hasNodeRelease; rw [h0, decide_eq_true_iff]
  have h2 : ∀ s : Id m, index ev.offsets s.val = .error .indexOutOfBounds := by
    intro s
    unfold index; rw [h]; rfl
  have h3 : ev.neighborsRelease s = .error (if s.val < 2 ^ 64 - 1 then .indexOutOfBounds else .explicit) := by
    unfold EdgeVec.neighborsRelease EdgeVec.row
    by_cases hs : s.val < 2 ^ 64 - 1
    · rw [if_pos ((h1 s).2 hs), h2, if_pos hs]; rfl
    · rw [if_neg (fun hc => hs ((h1 s).1 hc)), if_neg hs]
  refine ⟨h0, h1 s, h3, ?_, ?_⟩
  · unfold EdgeVec.degreeRelease
    by_cases hs : s.val < 2 ^ 64 - 1
    · rw [if_pos ((h1 s).2 hs), h2, if_pos hs]; rfl
    · rw [if_neg (fun hc => hs ((h1 s).1 hc)), if_neg hs]
  · unfold EdgeVec.hasEdgeRelease EdgeVec.findEdgeIndexRelease
    by_cases hc : s.val < 2 ^ 64 - 1 ∧ t.val < 2 ^ 64 - 1
    · rw [(h1 s).2 hc.1, (h1 t).2 hc.2, h3, if_pos hc, if_pos hc.1]
      rfl
    · rw [if_neg hc, if_pos]
      · rfl
      · cases ha : ev.hasNodeRelease s with
        | false => rfl
        | true =>
          cases hb : ev.hasNodeRelease t with
          | false => rfl
          | true => exact absurd ⟨(h1 s).1 ha, (h1 t).1 hb⟩ hc

/-- **C118.** `max_seen_id` of a frozen or mapped graph with nodes is the same in both builds; without nodes a
release build returns the largest id (of every integer type: those have `m + 1 = 2^8, 2^16, 2^32, 2^64`) where one
with overflow checks panics. -/
theorem c118_max_seen (g : StaticGraph m k NL EL) (hl : g.numNodes < 2 ^ 64) :
    (g.numNodes ≠ 0 → g.maxSeenId = .ok g.maxSeenIdRelease) ∧
    (g.numNodes = 0 → g.maxSeenId = .error .underflow) ∧
    (g.numNodes = 0 → (m + 1) ∣ 2 ^ 64 → g.maxSeenIdRelease = some Id.maxValue) := by
  refine ⟨?_, ?_, ?_⟩
  · intro h
    unfold StaticGraph.maxSeenId StaticGraph.maxSeenIdRelease
    rw [if_neg h, wrapSub_le (by omega) hl]
    rfl
  · intro h
    unfold StaticGraph.maxSeenId
    rw [if_pos h]
  · rintro h ⟨c, hc⟩
    unfold StaticGraph.maxSeenIdRelease
    rw [h, show wrapSub 0 1 = 2 ^ 64 - 1 from rfl]
    congr 1
    apply Fin.ext
    show (2 ^ 64 - 1) % (m + 1) = m
    have hcpos : 0 < c := by
      rcases Nat.eq_zero_or_pos c with rfl | h
      · simp at hc
      · exact h
    obtain ⟨c, rfl⟩ : ∃ d, c = d + 1 := ⟨c - 1, by omega⟩
    rw [hc, Nat.mul_add, Nat.mul_one, Nat.add_sub_assoc (by omega), Nat.add_sub_cancel,
      Nat.mul_add_mod, Nat.mod_eq_of_lt (by omega)]

/-- **C118.** `map[i..]` beyond the length of a mapped file, which panics with overflow checks (C49), in a release
build makes a slice that reaches beyond the file. -/
theorem c118_range_from {w : Nat} (hw : 0 < w) {path : String} {x : World} {t : TypedMap}
    (ht : TypedMap.new w path x = .ok t) (hs : t.data.length < 2 ^ 64) {i : Nat} (hi : i < 2 ^ 64) :
    (i ≤ t.len → t.rangeFrom i = .ok (t.rangeFromRelease i)) ∧
    (t.Inside (t.rangeFromRelease i) ↔ i ≤ t.len) := by
  have hlen : t.len = t.data.length / t.width ∧ 0 < t.width := by
    unfold TypedMap.new at ht
    split at ht
    · cases ht
    · split at ht
      · cases ht
      · unfold TypedMap.withMmap at ht
        rw [if_neg (by omega)] at ht
        cases ht
        exact ⟨rfl, hw⟩
  have h1 : t.len * t.width ≤ t.data.length := by rw [hlen.1]; exact Nat.div_mul_le_self _ _
  have h2 : t.data.length < (t.len + 1) * t.width := by
    rw [hlen.1, Nat.mul_comm]; exact Nat.lt_mul_div_succ _ hlen.2
  have h3 : t.len ≤ t.len * t.width := Nat.le_mul_of_pos_right _ hlen.2
  have same : i ≤ t.len → t.rangeFrom i = .ok (t.rangeFromRelease i) := by
    intro h
    unfold TypedMap.rangeFrom TypedMap.rangeFromRelease
    have : i * t.width ≤ t.len * t.width := Nat.mul_le_mul_right _ h
    rw [if_neg (by omega), wrapSub_le h (by omega), Nat.mod_eq_of_lt (by unfold word; omega)]
    rfl
  refine ⟨same, ?_⟩
  constructor
  · intro hin
    by_contra hc
    have hc : t.len < i := by omega
    unfold TypedMap.Inside TypedMap.rangeFromRelease at hin
    rw [wrapSub_gt hc hi] at hin
    dsimp only at hin
    have : (t.len + 1) * t.width ≤ (2 ^ 64 - (i - t.len)) * t.width := Nat.mul_le_mul_right _ (by omega)
    omega
  · intro h
    exact ((c49_range_from hw ht i).2 _ (same h)).1

/-- A directed graph with the largest id, frozen in a release build. -/
example : ∃ g : GraphMap 9 3 String String, Reachable g ∧ g.hasNode Id.maxValue = true ∧
    g.intoStatic = .error .overflow ∧ ∀ fuel, g.intoStaticRelease fuel = .error .diverge := by
  obtain ⟨g, h⟩ : ∃ g : GraphMap 9 3 String String,
    (withLabelMap true SetMap.empty SetMap.empty).exec [.addEdge 1 9 none] = .ok g := ⟨_, rfl⟩
  have h9 : g.hasNode Id.maxValue = true := by cases h; decide
  exact ⟨g, (exec_run h).reachable List.nodup_nil List.nodup_nil, h9, (c26_failures g).2 h9,
    (c118_into_static g).2.2 h9⟩

example : (⟨[0, 2, 1], [3, 4], none⟩ : EdgeVec 9 3).degreeRelease 1 = .ok (2 ^ 64 - 1) ∧
    (⟨[0, 2, 1], [3, 4], none⟩ : EdgeVec 9 3).degreeRelease 0 = .ok 2 := by decide

end Verif.Props
