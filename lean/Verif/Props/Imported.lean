import Verif.Proof.Imported
import Verif.Proof.Checked
import Verif.Props.CaughtCopies
import Verif.Props.Makeable

/-! Property theorems about graphs imported from any file: C155. -/

namespace Verif.Props

open GraphMap Spec Traversal

variable {m k wd v : Nat} {NL EL : Type} [DecidableEq NL] [DecidableEq EL]

/-- **C155.** Which calls panic, on any graph value whatever, so on whatever a file was read into. -/
theorem c155_panics (g : GraphMap m k NL EL) (op : Op m k NL EL) :
    (∃ p, (g.applyChecked op).2 = .error p) ↔
      (∃ n, op = .removeNode n ∧ g.hasNode n = true ∧
        ((∃ u, (g.hasEdge n u = true ∨ g.isDirected = true ∧ InNb g n u) ∧ (u = n ∨ g.hasNode u = false)) ∨
          ∃ d e, g.degree n = .ok d ∧ g.inDegree n = .ok e ∧ g.edgeCount < d + e)) ∨
      (∃ s t, op = .removeEdge s t ∧ g.hasEdge s t = true ∧ (g.hasNode t = false ∨ g.edgeCount = 0)) ∨
      (∃ s t l, op = .addEdge s t l ∧ 2 ^ 64 ≤ g.edgeCount + 1) ∨
      (∃ s t l, op = .updateEdgeLabel s t l ∧ g.hasEdge s t = true ∧ 2 ^ 64 ≤ g.edgeCount + 1) ∨
      (∃ n l, op = .setNodeLabelId n l ∧ g.hasNode n = false) ∨
      (∃ s t l, op = .setEdgeLabelId s t l ∧ g.hasEdge s t = false) := by
  cases op with
  | removeNode n =>
    simp only [reduceCtorEq, Op.removeNode.injEq, false_and, exists_false, or_false, exists_eq_left']
    have hmap : (∃ p, (g.applyChecked (.removeNode n)).2 = .error p) ↔
        ∃ p, (g.removeNodeCaught n).2 = .error p := by
      refine exists_congr fun p => ?_
      simp only [applyChecked, applyCaught]
      cases (g.removeNodeCaught n).2 <;> simp [Except.map]
    rw [hmap]
    cases hn : g.getNode n with
    | none =>
      have h1 : AL.get g.nodeMap n = none := hn
      have h2 : g.hasNode n = false := by simp [hasNode, h1]
      simp [removeNodeCaught, h1, h2]
    | some node =>
      have h2 : g.hasNode n = true := (hasNode_iff g n).2 ⟨node, hn⟩
      obtain ⟨h3, h4, h5⟩ := removeNode_panics hn
      have hdeg : g.degree n = .ok node.degree := by simp [degree, hn, pure_ok]
      have hin : g.inDegree n = .ok node.inDegree := by simp [inDegree, hn, pure_ok]
      have hbad : (∃ u, (u ∈ node.neighborIds ∨ g.directed = true ∧ u ∈ node.inNeighbors) ∧
            (u = n ∨ g.hasNode u = false)) ↔
          ∃ u, (g.hasEdge n u = true ∨ g.isDirected = true ∧ InNb g n u) ∧ (u = n ∨ g.hasNode u = false) := by
        refine exists_congr fun u => and_congr_left fun _ => or_congr ?_ (and_congr_right fun _ => ?_)
        · rw [hasEdge_eq_outE]; exact mem_neighborIds_iff hn u
        · rw [inNb_iff]; simp [inE, hn]
      rw [hbad] at h3 h4
      simp only [h2, true_and, hdeg, hin]
      constructor
      · rintro ⟨p, hp⟩
        rcases h5 p hp with rfl | rfl
        · exact .inl (h3.1 hp)
        · exact .inr ⟨_, _, rfl, rfl, (h4.1 hp).2⟩
      · intro h
        by_cases hb : ∃ u, (g.hasEdge n u = true ∨ g.isDirected = true ∧ InNb g n u) ∧
            (u = n ∨ g.hasNode u = false)
        · exact ⟨_, h3.2 hb⟩
        · obtain ⟨d, e, e1, e2, hlt⟩ := h.resolve_left hb
          cases e1; cases e2
          exact ⟨_, h4.2 ⟨hb, hlt⟩⟩
  | removeEdge s t =>
    have hmap : (∃ p, (g.applyChecked (.removeEdge s t)).2 = .error p) ↔
        ∃ p, (g.removeEdgeCaught s t).2 = .error p := by
      refine exists_congr fun p => ?_
      simp only [applyChecked, applyCaught]
      cases (g.removeEdgeCaught s t).2 <;> simp [Except.map]
    rw [hmap]
    simp only [reduceCtorEq, Op.removeEdge.injEq, false_and, exists_false, or_false, false_or]
    cases he : g.hasEdge s t with
    | false =>
      constructor
      · rintro ⟨p, hp⟩; simp [removeEdgeCaught, he] at hp
      · rintro ⟨s', t', ⟨rfl, rfl⟩, h, -⟩; rw [he] at h; cases h
    | true =>
      rw [removeEdge_panics he]
      constructor
      · intro h; exact ⟨s, t, ⟨rfl, rfl⟩, he, h⟩
      · rintro ⟨s', t', ⟨rfl, rfl⟩, -, h⟩; exact h
  | addEdge s t l =>
    obtain ⟨h1, -⟩ := addEdgeChecked_total g s t l
    simp only [reduceCtorEq, false_and, exists_false, or_false, false_or, applyChecked, h1]
    have : (∃ p, Except.map (fun _ : Bool => ()) (if word ≤ g.numEdges + 1 then .error .overflow
        else .ok (!g.hasEdge s t) : Res Bool) = .error p) ↔ word ≤ g.numEdges + 1 := by
      split <;> rename_i h <;> simp [Except.map, h]
    rw [this]
    constructor
    · intro h; exact ⟨s, t, l, rfl, h⟩
    · rintro ⟨s', t', l', -, h⟩; exact h
  | updateEdgeLabel s t l =>
    obtain ⟨h1, -⟩ := addEdgeChecked_total g s t l
    simp only [reduceCtorEq, false_and, exists_false, or_false, false_or, applyChecked,
      updateEdgeLabelChecked, Op.updateEdgeLabel.injEq]
    cases he : g.hasEdge s t with
    | false =>
      simp only [Bool.not_false, if_true, Except.map, reduceCtorEq, exists_false, false_iff]
      rintro ⟨s', t', l', ⟨rfl, rfl, rfl⟩, h, -⟩; rw [he] at h; cases h
    | true =>
      simp only [Bool.not_true, Bool.false_eq_true, if_false, h1, he]
      have : (∃ p, Except.map (fun _ : Bool => ()) (Except.map (fun _ : Bool => true)
          (if word ≤ g.numEdges + 1 then .error .overflow else .ok false : Res Bool)) = .error p) ↔
          word ≤ g.numEdges + 1 := by
        split <;> rename_i h <;> simp [Except.map, h]
      rw [this]
      constructor
      · intro h; exact ⟨s, t, l, ⟨rfl, rfl, rfl⟩, he, h⟩
      · rintro ⟨s', t', l', -, -, h⟩; exact h
  | setNodeLabelId n l =>
    simp only [reduceCtorEq, false_and, exists_false, false_or, or_false, applyChecked, applyCaught,
      GraphMap.apply, setNodeLabelId, Op.setNodeLabelId.injEq]
    cases hn : AL.get g.nodeMap n with
    | none =>
      have h2 : g.hasNode n = false := by simp [hasNode, hn]
      exact ⟨fun _ => ⟨n, l, ⟨rfl, rfl⟩, h2⟩, fun _ => ⟨_, rfl⟩⟩
    | some nd =>
      have h2 : g.hasNode n = true := by simp [hasNode, hn]
      constructor
      · rintro ⟨p, h⟩; cases h
      · rintro ⟨n', l', ⟨rfl, rfl⟩, h⟩; rw [h2] at h; cases h
  | setEdgeLabelId s t l =>
    simp only [reduceCtorEq, false_and, exists_false, false_or, applyChecked, applyCaught,
      GraphMap.apply, setEdgeLabelId, Op.setEdgeLabelId.injEq]
    cases he : g.hasEdge s t with
    | false =>
      exact ⟨fun _ => ⟨s, t, l, ⟨rfl, rfl, rfl⟩, he⟩, fun _ => ⟨_, rfl⟩⟩
    | true =>
      obtain ⟨nd, hnd⟩ : ∃ nd, AL.get g.nodeMap s = some nd := by
        unfold hasEdge getNode at he
        cases h : AL.get g.nodeMap s with
        | none => rw [h] at he; cases he
        | some nd => exact ⟨nd, rfl⟩
      simp only [Bool.not_true, Bool.false_eq_true, if_false, withNode, hnd, unwrap, bind_ok, pure_ok]
      constructor
      · rintro ⟨p, h⟩; cases h
      · rintro ⟨s', t', l', ⟨rfl, rfl, rfl⟩, h⟩; rw [he] at h; cases h
  | addNode n l =>
    obtain ⟨g', h, -⟩ := addNode_total g n l
    simp [applyChecked, applyCaught, GraphMap.apply, h, bind_ok, pure_ok]
  | updateNodeLabel n l =>
    obtain ⟨g', h, -⟩ := addNode_total g n l
    cases hn : g.hasNode n <;>
      simp [applyChecked, applyCaught, GraphMap.apply, updateNodeLabel, hn, h, bind_ok, pure_ok]
  | addNodeLabel l =>
    obtain ⟨s', lid, e1, -⟩ := intern_ok (k := k) g.nodeLabels l
    simp [applyChecked, applyCaught, GraphMap.apply, addNodeLabel, e1, bind_ok, pure_ok]
  | addEdgeLabel l =>
    obtain ⟨s', lid, e1, -⟩ := intern_ok (k := k) g.edgeLabels l
    simp [applyChecked, applyCaught, GraphMap.apply, addEdgeLabel, e1, bind_ok, pure_ok]
  | refineEdgeCount => simp [applyChecked, applyCaught, GraphMap.apply, pure_ok]
  | mapNodeLabelIds f => simp [applyChecked, applyCaught, GraphMap.apply, pure_ok]
  | mapEdgeLabelIds f => simp [applyChecked, applyCaught, GraphMap.apply, pure_ok]

/-- **C155.** Below the limit of the counter the calls are those of the other properties. -/
theorem c155_below (g : GraphMap m k NL EL) (h : g.edgeCount + 1 < 2 ^ 64) (op : Op m k NL EL) :
    g.applyChecked op = g.applyCaught op := by
  have hw : ¬ word ≤ g.numEdges + 1 := not_le.2 h
  cases op with
  | addEdge s t l =>
    obtain ⟨g', h1, -⟩ := addEdge_total g s t l
    simp [applyChecked, addEdgeChecked, applyCaught, GraphMap.apply, h1, hw, bind_ok, pure_ok, Except.map]
  | updateEdgeLabel s t l =>
    obtain ⟨g', h1, -⟩ := addEdge_total g s t l
    cases he : g.hasEdge s t <;>
      simp [applyChecked, updateEdgeLabelChecked, addEdgeChecked, applyCaught, GraphMap.apply, updateEdgeLabel,
        h1, hw, he, bind_ok, pure_ok, Except.map]
  | _ => rfl

/-- **C155.** The collections stay proper, whatever calls are made and whatever panics are caught. -/
theorem c155_proper {g : GraphMap m k NL EL} (h : Proper g) (ops : List (Op m k NL EL)) :
    Proper (g.execChecked ops) := by
  unfold execChecked
  induction ops generalizing g with
  | nil => exact h
  | cons op ops ih =>
    rw [List.foldl_cons]
    exact ih ((fair_iff _).2 (((fair_iff g).1 h).apply op))

/-- **C155.** When a search can be made: a maximal id is recorded and the start node exists and is not above
it. -/
theorem c155_new (g : GraphMap m k NL EL) (start : Option (Id m)) :
    (∃ st, Traversal.new g.view start = .ok st) ↔
      ∃ s M, g.hasNode s = true ∧ g.maxSeenId = some M ∧ s ≤ M ∧
        (start = some s ∨ (start = none ∧ g.nodeIndices.head? = some s)) := by
  have key : ∀ s, startNode g.view start = .ok s ↔
      g.hasNode s = true ∧ (start = some s ∨ (start = none ∧ g.nodeIndices.head? = some s)) := by
    intro s
    cases start with
    | some x =>
      show (if (!g.hasNode x) = true then _ else _) = _ ↔ _
      cases hx : g.hasNode x with
      | false =>
        simp only [Bool.not_false, if_true, reduceCtorEq, Option.some.injEq, false_and, or_false, false_iff]
        rintro ⟨h, rfl⟩; rw [hx] at h; cases h
      | true =>
        simp only [Bool.not_true, Bool.false_eq_true, if_false, pure_ok, Except.ok.injEq, Option.some.injEq,
          reduceCtorEq, false_and, or_false]
        exact ⟨fun h => ⟨h ▸ hx, h⟩, fun h => h.2⟩
    | none =>
      show (if g.nodeMap.length = 0 then _ else unwrap g.nodeIndices.head?) = _ ↔ _
      simp only [reduceCtorEq, false_or, true_and]
      cases hm : g.nodeMap with
      | nil => simp [nodeIndices, hm, AL.keys]
      | cons p l =>
        have hh : g.nodeIndices.head? = some p.1 := by simp [nodeIndices, hm, AL.keys]
        have hp : g.hasNode p.1 = true := by simp [hasNode, hm, AL.get]
        rw [hh]
        simp only [List.length_cons, Nat.add_one_ne_zero, if_false, unwrap, Option.some.injEq]
        constructor
        · intro h; cases h; exact ⟨hp, rfl⟩
        · rintro ⟨-, rfl⟩; rfl
  have hmx : g.view.maxSeenId = .ok g.maxId := rfl
  unfold Traversal.new withCapacity
  rw [hmx, bind_ok]
  cases hM : g.maxId with
  | none =>
    simp [unwrap, bind_error, maxSeenId, hM]
  | some M =>
    simp only [unwrap, bind_ok, pure_ok, moveTo]
    have hput : ∀ s : Id m, s ≤ M →
        BitSet.put (BitSet.full (M.val + 1)) s.val false = .ok ((BitSet.full (M.val + 1)).set s.val false) :=
      fun s hs => BitSet.put_ok (by rw [Fin.le_def] at hs; simp [BitSet.full]; omega)
    constructor
    · rintro ⟨st, h⟩
      obtain ⟨s, e1, e2⟩ := bind_eq_ok h
      obtain ⟨h1, h2⟩ := (key s).1 e1
      refine ⟨s, M, h1, by simp [maxSeenId, hM], ?_, h2⟩
      by_contra hle
      have : ¬ s.val < (BitSet.full (M.val + 1)).length := by
        rw [Fin.le_def] at hle; simp [BitSet.full]; omega
      simp [BitSet.put, this, bind_error] at e2
    · rintro ⟨s, M', h1, h2, h3, h4⟩
      obtain rfl : M = M' := by rw [maxSeenId, hM] at h2; cases h2; rfl
      rw [(key s).2 ⟨h1, h4⟩, bind_ok, hput s h3, bind_ok]
      exact ⟨_, rfl⟩

omit [DecidableEq NL] [DecidableEq EL] in
theorem new_starts {g : GraphMap m k NL EL} {start : Option (Id m)} {s M : Id m} (hs : g.hasNode s = true)
    (hM : g.maxSeenId = some M) (hle : s ≤ M)
    (h : start = some s ∨ (start = none ∧ g.nodeIndices.head? = some s)) :
    Traversal.new g.view start = .ok ⟨[s], (BitSet.full (M.val + 1)).set s.val false⟩ := by
  have hst : startNode g.view start = .ok s := by
    rcases h with rfl | ⟨rfl, hh⟩
    · show (if (!g.hasNode s) = true then _ else _) = _
      rw [hs]; rfl
    · show (if g.nodeMap.length = 0 then _ else unwrap g.nodeIndices.head?) = _
      rw [if_neg, hh]; rfl
      intro h0
      rw [nodeIndices, List.length_eq_zero_iff.1 h0] at hh; cases hh
  unfold Traversal.new withCapacity
  have hmx : g.view.maxSeenId = .ok (some M) := by
    show Except.ok g.maxId = _
    rw [← hM]; rfl
  rw [hmx, bind_ok]
  simp only [unwrap, bind_ok, pure_ok, moveTo, hst]
  rw [BitSet.put_ok (by rw [Fin.le_def] at hle; simp [BitSet.full]; omega)]; rfl

omit [DecidableEq NL] [DecidableEq EL] in
theorem within_start {s M : Id m} (hle : s ≤ M) :
    Within M (⟨[s], (BitSet.full (M.val + 1)).set s.val false⟩ : Traversal m) := by
  refine ⟨by simp [BitSet.full], ?_⟩
  intro x hx
  rw [List.mem_singleton.1 hx]; exact hle

theorem trim_facts (g : GraphMap m k NL EL) (M : Id m) :
    ((∃ a b, (g.trim M).hasEdge a b = true ∧ (g.trim M).hasNode b = false) ↔
      ∃ a b, a ≤ M ∧ b ≤ M ∧ g.hasEdge a b = true ∧ g.hasNode b = false) ∧
    (∀ a b, ((g.trim M).decode.edge a b).isSome = (decide (a ≤ M) && decide (b ≤ M) && g.hasEdge a b)) ∧
    (∀ n, ((g.trim M).decode.node n).isSome = (g.hasNode n && decide (n ≤ M))) := by
  have he : ∀ a b, (g.trim M).hasEdge a b = (decide (a ≤ M) && decide (b ≤ M) && g.hasEdge a b) := by
    intro a b
    rw [Bool.eq_iff_iff, hasEdge_eq_outE, outE_trim]
    by_cases e : a ≤ M ∧ b ≤ M
    · simp [e.1, e.2, hasEdge_eq_outE]
    · rw [if_neg e]
      simp only [Option.isSome_none, Bool.false_eq_true, Bool.and_eq_true, decide_eq_true_eq, false_iff]
      exact fun h => e h.1
  refine ⟨?_, fun a b => ?_, fun n => ?_⟩
  · constructor
    · rintro ⟨a, b, h1, h2⟩
      rw [he] at h1
      rw [hasNode_trim] at h2
      simp only [Bool.and_eq_true, decide_eq_true_eq] at h1
      refine ⟨a, b, h1.1.1, h1.1.2, h1.2, ?_⟩
      simpa [h1.1.2] using h2
    · rintro ⟨a, b, h1, h2, h3, h4⟩
      exact ⟨a, b, by rw [he]; simp [h1, h2, h3], by rw [hasNode_trim]; simp [h4]⟩
  · rw [decode_edge, he]
  · rw [decode_node, hasNode_trim]

/-- **C155.** A breadth-first search of a graph read from any file panics exactly if an edge between ids up to
the recorded maximum ends at no node; otherwise it visits the nodes up to the maximum, each once, in the order
of C66 along the edges among them. Nothing above the maximum is visited or noticed. -/
theorem c155_bfs {g : GraphMap m k NL EL} (hp : Proper g) {start : Option (Id m)} {s M : Id m}
    (hs : g.hasNode s = true) (hM : g.maxSeenId = some M) (hle : s ≤ M)
    (h : start = some s ∨ (start = none ∧ g.nodeIndices.head? = some s)) :
    ∃ st, Traversal.new g.view start = .ok st ∧
      ((∃ a b, a ≤ M ∧ b ≤ M ∧ g.hasEdge a b = true ∧ g.hasNode b = false) →
        ∃ N, ∀ f, N ≤ f → drain (Bfs.next g.view) f st = .error .nodeMissing) ∧
      ((∀ a b, a ≤ M → b ≤ M → g.hasEdge a b = true → g.hasNode b = true) →
        ∃ l st', Yields (Bfs.next g.view) st l st' ∧ l.Nodup ∧ (∀ n, n ∈ l ↔ g.hasNode n = true ∧ n ≤ M) ∧
          ∃ A : AGraph (Id m) NL EL, (∀ n, (A.node n).isSome = (g.hasNode n && decide (n ≤ M))) ∧
            (∀ a b, (A.edge a b).isSome = (decide (a ≤ M) && decide (b ≤ M) && g.hasEdge a b)) ∧
            A.Sweep s A.FirstIn l) := by
  obtain ⟨t1, t2, t3⟩ := trim_facts g M
  have hb : BeginsAt (g.trim M).view (g.trim M).decode (some s) s := ⟨by rw [t3]; simp [hs, hle], .inl rfl⟩
  obtain ⟨st, e1, e2, e3⟩ := bound_bfs (trim_cinv hp M) (trim_targets g M) hb
  have hst := new_starts (g := g.trim M) (start := some s) (by rw [hasNode_trim]; simp [hs, hle]) rfl hle (.inl rfl)
  rw [hst] at e1; cases e1
  have hd := fun f => drain_trim (g := g) (M := M) pops_front f (within_start hle)
  refine ⟨_, new_starts hs hM hle h, ?_, ?_⟩
  · intro hbad
    obtain ⟨N, hN⟩ := e2 (t1.2 hbad)
    refine ⟨N, fun f hf => ?_⟩
    have := hN f hf
    rw [bfs_next] at this ⊢
    rw [← hd]; exact this
  · intro hok
    obtain ⟨l, st', ⟨f, a1⟩, a2, a3, a4⟩ := e3 (by
      intro a b h1
      by_contra h2
      obtain ⟨a', b', c1, c2, c3, c4⟩ := t1.1 ⟨a, b, h1, by simpa using h2⟩
      rw [hok a' b' c1 c2 c3] at c4; cases c4)
    refine ⟨l, st', ⟨f, ?_⟩, a3, ?_, (g.trim M).decode, t3, t2, a2⟩
    · rw [bfs_next] at a1 ⊢
      rw [← hd]; exact a1
    · intro n
      rw [a4, hasNode_trim]; simp

/-- **C155.** The same for a depth-first search. -/
theorem c155_dfs {g : GraphMap m k NL EL} (hp : Proper g) {start : Option (Id m)} {s M : Id m}
    (hs : g.hasNode s = true) (hM : g.maxSeenId = some M) (hle : s ≤ M)
    (h : start = some s ∨ (start = none ∧ g.nodeIndices.head? = some s)) :
    ∃ st, Traversal.new g.view start = .ok st ∧
      ((∃ a b, a ≤ M ∧ b ≤ M ∧ g.hasEdge a b = true ∧ g.hasNode b = false) →
        ∃ N, ∀ f, N ≤ f → drain (Dfs.next g.view) f st = .error .nodeMissing) ∧
      ((∀ a b, a ≤ M → b ≤ M → g.hasEdge a b = true → g.hasNode b = true) →
        ∃ l st', Yields (Dfs.next g.view) st l st' ∧ l.Nodup ∧ (∀ n, n ∈ l ↔ g.hasNode n = true ∧ n ≤ M) ∧
          ∃ A : AGraph (Id m) NL EL, (∀ n, (A.node n).isSome = (g.hasNode n && decide (n ≤ M))) ∧
            (∀ a b, (A.edge a b).isSome = (decide (a ≤ M) && decide (b ≤ M) && g.hasEdge a b)) ∧
            A.Sweep s A.LastIn l) := by
  obtain ⟨t1, t2, t3⟩ := trim_facts g M
  have hb : BeginsAt (g.trim M).view (g.trim M).decode (some s) s := ⟨by rw [t3]; simp [hs, hle], .inl rfl⟩
  obtain ⟨st, e1, e2, e3⟩ := bound_dfs (trim_cinv hp M) (trim_targets g M) hb
  have hst := new_starts (g := g.trim M) (start := some s) (by rw [hasNode_trim]; simp [hs, hle]) rfl hle (.inl rfl)
  rw [hst] at e1; cases e1
  have hd := fun f => drain_trim (g := g) (M := M) pops_back f (within_start hle)
  refine ⟨_, new_starts hs hM hle h, ?_, ?_⟩
  · intro hbad
    obtain ⟨N, hN⟩ := e2 (t1.2 hbad)
    refine ⟨N, fun f hf => ?_⟩
    have := hN f hf
    rw [dfs_next] at this ⊢
    rw [← hd]; exact this
  · intro hok
    obtain ⟨l, st', ⟨f, a1⟩, a2, a3, a4⟩ := e3 (by
      intro a b h1
      by_contra h2
      obtain ⟨a', b', c1, c2, c3, c4⟩ := t1.1 ⟨a, b, h1, by simpa using h2⟩
      rw [hok a' b' c1 c2 c3] at c4; cases c4)
    refine ⟨l, st', ⟨f, ?_⟩, a3, ?_, (g.trim M).decode, t3, t2, a2⟩
    · rw [dfs_next] at a1 ⊢
      rw [← hd]; exact a1
    · intro n
      rw [a4, hasNode_trim]; simp

/-- **C155.** All of this is so for whatever `import` reads, whoever wrote the file, and after any calls on
it. -/
theorem c155_import {nl : Codec NL} {el : Codec EL} (hnl : nl.Closed) (hel : el.Closed)
    (hw : m + 1 = 256 ^ wd) (hv : k + 1 = 256 ^ v) {d : Bool} {path : String} {w : World}
    {g : GraphMap m k NL EL} (h : w.import (.graphMap wd v nl el d) path = some g)
    (ops : List (Op m k NL EL)) : Proper (g.execChecked ops) :=
  c155_proper (c154_import hnl hel hw hv h).2.1 ops

/-- A graph as a file may give it: an edge above the recorded maximum, one to no node, a counter at its limit,
a record under another id. -/
def forged : GraphMap 9 3 String String :=
  ⟨true, [(1, ⟨1, none, [(2, none), (7, none)], []⟩), (2, ⟨5, none, [(1, none)], []⟩), (6, ⟨6, none, [], []⟩)],
    2 ^ 64 - 1, ⟨[]⟩, ⟨[]⟩, some 3⟩

example : Proper forged ∧ forged.hasNode 1 = true ∧ forged.maxSeenId = some 3 ∧ (1 : Id 9) ≤ 3 ∧
    (∀ a b, a ≤ 3 → b ≤ 3 → forged.hasEdge a b = true → forged.hasNode b = true) ∧
    ¬ Reachable forged := by
  refine ⟨⟨by decide, by decide, by decide, by decide, by decide⟩, by decide, rfl, by decide, by decide, ?_⟩
  intro h
  exact absurd ((c154_reachable _).1 h).2.targets (by decide)

/-- **C155.** On such a graph the search skips node 6 and the edge to 7; `edge_indices` lists an edge `has_edge`
denies; and `add_edge` panics, having added the edge. -/
theorem c155_forged :
    (∃ st st', Traversal.new forged.view (some 1) = .ok st ∧ Yields (Bfs.next forged.view) st [1, 2] st') ∧
    (5, 1) ∈ forged.edgeIndices ∧ forged.hasEdge 5 1 = false ∧
    (forged.applyChecked (.addEdge 6 1 none)).2 = .error .overflow ∧
    (forged.applyChecked (.addEdge 6 1 none)).1.hasEdge 6 1 = true ∧
    (forged.applyChecked (.removeNode 1)).2 = .error .unwrapNone := by
  refine ⟨⟨_, _, rfl, 5, rfl⟩, by decide, by decide, by decide, by decide, by decide⟩

end Verif.Props
