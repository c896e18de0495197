import Verif.Proof.CaughtSearch
import Verif.Props.Caught
import Verif.Props.Lists

/-! C129: copying, freezing and searching graphs on which panics were caught. -/

namespace Verif.Props

open GraphMap Spec Traversal

variable {m k : Nat} {NL EL : Type} [DecidableEq NL] [DecidableEq EL]

omit [DecidableEq NL] [DecidableEq EL] in
theorem abs_listed {g : GraphMap m k NL EL} {s t : Id m} :
    g.abs.Listed g.directed s t ↔ (g.outE s t).isSome = true ∧ (g.directed = true ∨ s ≤ t) := by
  unfold AGraph.Listed
  constructor
  · rintro ⟨h1, h2⟩
    refine ⟨?_, h2⟩
    simpa [GraphMap.abs, h2, decode] using h1
  · rintro ⟨h1, h2⟩
    refine ⟨?_, h2⟩
    simpa [GraphMap.abs, h2, decode] using h1

omit [DecidableEq NL] [DecidableEq EL] in
theorem nwf_lists {g : GraphMap m k NL EL} (hw : g.NWF) : Lists g.view g.abs := by
  have hnode : ∀ n, (g.abs.node n).isSome = g.hasNode n := by
    intro n; rw [hasNode_eq_labE]; simp [GraphMap.abs, decode]
  refine ⟨⟨?_, ?_, edgeIndices_nodup hw, ?_⟩, ?_, ?_⟩
  · intro hd s t
    have hd : g.directed = false := hd
    simp only [GraphMap.abs, hd, Bool.false_eq_true, false_or]
    rcases lt_trichotomy s t with h | rfl | h
    · rw [if_pos h.le, if_neg (not_le.2 h)]
    · rfl
    · rw [if_pos h.le, if_neg (not_le.2 h)]
  · intro n; rw [hnode]; exact mem_nodeIndices g n
  · intro s t
    show (s, t) ∈ g.edgeIndices ↔ _
    rw [mem_edgeIndices hw]
    exact abs_listed.symm
  · intro n l h
    rw [view_getNodeLabel, getNodeLabel_eq]
    have h : g.decode.node n = some l := h
    rw [h]; rfl
  · intro s t l h hst
    rw [view_getEdgeLabel, getEdgeLabel_eq]
    have hst : g.directed = true ∨ s ≤ t := hst
    have h : g.decode.edge s t = some l := by simpa [GraphMap.abs, hst] using h
    rw [h]; rfl

/-- **C129.** A graph on which panics were caught still lists nodes and edges with their labels, as
described in C128: unions with it, differences and CSV files of it are those of what it lists. -/
theorem c129_lists {g0 g : GraphMap m k NL EL} (h0 : Reachable g0) {ops} (hg : Caught g0 ops g) :
    Lists g.view g.abs :=
  nwf_lists (caught_cinv h0.inv.cinv hg).1.toNWF

omit [DecidableEq NL] [DecidableEq EL] in
theorem shows_label {c : GraphMap m k NL EL} {A : AGraph (Id m) NL EL} (T : Shows c.view A) (n : Id m) :
    c.getNodeLabel n = (A.node n).join := by
  cases ha : A.node n with
  | some l =>
    have : .ok (c.getNodeLabel n) = Except.ok (ε := Panic) l := by
      rw [← view_getNodeLabel]; exact T.nodeLabel n l ha
    exact Except.ok.inj this
  | none =>
    have hno : c.hasNode n = false := by
      have := T.hasNode n
      rw [ha] at this
      exact this
    have : c.getNode n = none := by
      cases hq : c.getNode n with
      | none => rfl
      | some nd => rw [(hasNode_iff c n).2 ⟨nd, hq⟩] at hno; cases hno
    unfold GraphMap.getNodeLabel
    rw [this]
    rfl

omit [DecidableEq NL] [DecidableEq EL] in
theorem shows_edge {c : GraphMap m k NL EL} {A : AGraph (Id m) NL EL} (T : Shows c.view A) (s t : Id m) :
    c.hasEdge s t = (A.edge s t).isSome := by
  cases hs : (A.node s).isSome with
  | true => exact Except.ok.inj (T.hasEdge s t hs)
  | false =>
    have hno : c.hasNode s = false := by
      have := T.hasNode s
      rw [hs] at this
      exact this
    have h3 : (A.edge s t).isSome = false := by
      cases hq : (A.edge s t).isSome with
      | false => rfl
      | true => rw [(T.ends s t hq).1] at hs; cases hs
    rw [h3]
    cases hq : c.hasEdge s t with
    | false => rfl
    | true =>
      rw [hasEdge_eq_outE] at hq
      rw [outE_hasNode hq] at hno
      cases hno

/-- **C129.** Cloning repairs the graph: the clone is one that no panic ever touched; the nodes that are
gone but still the target of a listed edge come back without a label, edges the graph does not list are
gone, everything else is as it was, and `edge_count` is exact. -/
theorem c129_clone {g0 g : GraphMap m k NL EL} (h0 : Reachable g0) {ops} (hg : Caught g0 ops g) :
    ∃ c, cloneBox g.view = .ok c ∧ Reachable c ∧ c.isDirected = g.isDirected ∧
      (∀ n, c.hasNode n = true ↔ g.hasNode n = true ∨ ∃ s, (s, n) ∈ g.edgeIndices) ∧
      (∀ n, c.getNodeLabel n = g.getNodeLabel n) ∧
      (∀ s t, c.hasEdge s t = true ↔
        (s, t) ∈ g.edgeIndices ∨ (g.isDirected = false ∧ (t, s) ∈ g.edgeIndices)) ∧
      (∀ s t, (s, t) ∈ g.edgeIndices → c.getEdgeLabel s t = g.getEdgeLabel s t) ∧
      c.edgeCount = g.edgeIndices.length ∧ c.edgeIndices.Perm g.edgeIndices := by
  have hw := (caught_cinv h0.inv.cinv hg).1.toNWF
  have L := nwf_lists hw
  obtain ⟨c, a1, a2, a3, T, a5⟩ := c128_clone L
  have a2 : c.directed = g.directed := a2
  have hnode : ∀ n, (g.abs.node n).isSome = g.hasNode n := by
    intro n; rw [hasNode_eq_labE]; simp [GraphMap.abs, decode]
  have hsym : g.directed = false → ∀ s t, g.abs.edge s t = g.abs.edge t s := L.sym
  have hE : ∀ s t, (s, t) ∈ g.edgeIndices ↔ g.abs.Listed g.directed s t := L.memEdges
  have hsrc : ∀ s t, (s, t) ∈ g.edgeIndices → g.hasNode s = true := by
    intro s t h
    rw [hE, abs_listed] at h
    exact outE_hasNode h.1
  have hedge : ∀ s t, c.hasEdge s t = true ↔
      (s, t) ∈ g.edgeIndices ∨ (g.isDirected = false ∧ (t, s) ∈ g.edgeIndices) := by
    intro s t
    rw [shows_edge T, hE, hE]
    show (g.abs.edge s t).isSome = true ↔ _ ∨ (g.directed = false ∧ _)
    unfold AGraph.Listed
    cases hd : g.directed with
    | true => simp
    | false =>
      rw [hsym hd t s]
      rcases le_total s t with h | h
      · simp [h]; tauto
      · simp [h]; tauto
  have hperm : c.edgeIndices.Perm g.edgeIndices := by
    show c.view.edgeIndices.Perm g.view.edgeIndices
    rw [List.perm_ext_iff_of_nodup T.edgesNodup L.edgesNodup]
    rintro ⟨s, t⟩
    rw [L.memEdges, T.memEdges]
    show AGraph.Listed c.directed g.abs.closed s t ↔ AGraph.Listed g.directed g.abs s t
    rw [a2]
    rfl
  refine ⟨c, a1, a3, a2, ?_, ?_, hedge, ?_, a5.trans hperm.length_eq, hperm⟩
  · intro n
    have h1 : c.hasNode n = (g.abs.closed.node n).isSome := T.hasNode n
    have h2 : g.abs.Touched n → g.hasNode n = true ∨ ∃ s, (s, n) ∈ g.edgeIndices := by
      rintro ⟨t, ht | ht⟩
      · have h := (hedge n t).1 (by rw [shows_edge T]; exact ht)
        rcases h with h | ⟨-, h⟩
        · exact .inl (hsrc n t h)
        · exact .inr ⟨t, h⟩
      · have h := (hedge t n).1 (by rw [shows_edge T]; exact ht)
        rcases h with h | ⟨-, h⟩
        · exact .inr ⟨t, h⟩
        · exact .inl (hsrc n t h)
    have h3 : (∃ s, (s, n) ∈ g.edgeIndices) → g.abs.Touched n := by
      rintro ⟨s, h⟩
      exact ⟨s, .inr ((hE s n).1 h).1⟩
    rw [h1, ← hnode]
    simp only [AGraph.closed]
    cases hn : g.abs.node n with
    | some l => simp
    | none =>
      simp only [Option.isSome_none, Bool.false_eq_true, false_or]
      rw [← hnode, hn] at h2
      by_cases ht : g.abs.Touched n
      · simp only [if_pos ht, Option.isSome_some, true_iff]
        rcases h2 ht with h | h
        · cases h
        · exact h
      · simp only [if_neg ht, Option.isSome_none, Bool.false_eq_true, false_iff]
        exact fun h => ht (h3 h)
  · intro n
    rw [shows_label T, getNodeLabel_eq]
    show (g.abs.closed.node n).join = (g.abs.node n).join
    simp only [AGraph.closed]
    cases hn : g.abs.node n with
    | some l => rfl
    | none => simp only; split <;> rfl
  · intro s t h
    rw [← view_getEdgeLabel, ← view_getEdgeLabel]
    have h1 := (hE s t).1 h
    obtain ⟨l, hl⟩ := Option.isSome_iff_exists.1 h1.1
    rw [L.edgeLabel s t l hl h1.2, T.edgeLabel s t l hl (by show c.directed = true ∨ _; rw [a2]; exact h1.2)]

omit [DecidableEq NL] [DecidableEq EL] in
/-- The graph read as a directed one, if no edge leads to an id that is no node. -/
theorem shows_directed {g : GraphMap m k NL EL} (hg : g.CInv)
    (ht : ∀ s t, g.hasEdge s t = true → g.hasNode t = true) :
    Shows ({ g with directed := true } : GraphMap m k NL EL).view g.decode := by
  have hnode : ∀ n, (g.decode.node n).isSome = g.hasNode n := by
    intro n; rw [hasNode_eq_labE]; simp [decode]
  have hedge : ∀ s t, (g.decode.edge s t).isSome = g.hasEdge s t := by
    intro s t; rw [hasEdge_eq_outE]; simp [decode]
  have hw : ({ g with directed := true } : GraphMap m k NL EL).NWF :=
    ⟨hg.keys, hg.ids, hg.sortedOut, hg.sortedIn⟩
  refine ⟨?_, (fun h => by cases h), fun n => (hnode n).symm, hg.keys, ?_, ?_, ?_, edgeIndices_nodup hw, ?_,
    (GraphMap.edgeIndices_eq ({ g with directed := true } : GraphMap m k NL EL)).symm, ?_, ?_, ?_, ?_⟩
  · intro s t h
    rw [hedge] at h
    rw [hnode, hnode]
    refine ⟨outE_hasNode (t := t) ?_, ht s t h⟩
    rw [← hasEdge_eq_outE]; exact h
  · intro n; rw [hnode]; exact mem_nodeIndices g n
  · show g.nodeMap.length = (AL.keys g.nodeMap).length
    simp [AL.keys]
  · intro s t _
    show Except.ok (g.hasEdge s t) = _
    rw [hedge]
  · intro s t
    show (s, t) ∈ ({ g with directed := true } : GraphMap m k NL EL).edgeIndices ↔ _
    rw [mem_edgeIndices hw]
    unfold AGraph.Listed
    rw [hedge, hasEdge_eq_outE]
    rfl
  · intro n l h
    rw [view_getNodeLabel, getNodeLabel_eq]
    show Except.ok (g.decode.node n).join = _
    rw [h]; rfl
  · intro s t l h _
    rw [view_getEdgeLabel, getEdgeLabel_eq]
    show Except.ok (g.decode.edge s t).join = _
    rw [h]; rfl
  · intro n hn
    rw [hnode] at hn
    obtain ⟨nd, hnd⟩ := (hasNode_iff _ _).1 hn
    have hnd' : ({ g with directed := true } : GraphMap m k NL EL).getNode n = some nd := hnd
    refine ⟨nd.neighborIds, by simp [view, neighbors, hnd', pure_ok], hg.sortedOut n nd hnd, ?_, ?_⟩
    · intro t; rw [hedge, hasEdge_eq_outE]; exact mem_neighborIds_iff hnd t
    · simp [view, degree, hnd', pure_ok, NodeMap.degree, NodeMap.neighborIds, AL.keys]
  · rintro ⟨n, hn⟩
    rw [hnode] at hn
    obtain ⟨M, hM, -⟩ := hg.maxBound n hn
    refine ⟨M, by simp [view, maxSeenId, hM, pure_ok], ?_⟩
    intro x hx
    rw [hnode] at hx
    obtain ⟨M', hM', hle⟩ := hg.maxBound x hx
    rw [hM] at hM'; cases hM'; exact hle

omit [DecidableEq NL] [DecidableEq EL] in
theorem new_caught {g : GraphMap m k NL EL} (hg : g.CInv) {start : Option (Id m)} {s : Id m}
    (h : BeginsAt g.view g.decode start s) :
    ∃ M : Id m, g.maxId = some M ∧ s ≤ M ∧
      Traversal.new g.view start = .ok ⟨[s], (BitSet.full (M.val + 1)).set s.val false⟩ := by
  have hn : g.hasNode s = true := by
    have := h.1
    rw [hasNode_eq_labE]; simpa [decode] using this
  obtain ⟨M, hM, hle⟩ := hg.maxBound s hn
  refine ⟨M, hM, hle, ?_⟩
  have hst : startNode g.view start = .ok s := by
    rcases h.2 with rfl | ⟨rfl, hh⟩
    · show (if (!g.hasNode s) = true then _ else _) = _
      rw [hn]; rfl
    · unfold startNode
      have : g.view.nodeCount ≠ 0 := by
        intro hc
        have hc : g.nodeMap.length = 0 := hc
        have : g.view.nodeIndices = [] := by
          show AL.keys g.nodeMap = []
          rw [List.length_eq_zero_iff.1 hc]; rfl
        rw [this] at hh; cases hh
      simp only [this, if_false, hh, unwrap]
  unfold Traversal.new withCapacity
  have hmx : g.view.maxSeenId = .ok (some M) := by simp [view, maxSeenId, hM, pure_ok]
  rw [hmx, bind_ok]
  show moveTo g.view start ⟨[], BitSet.full (M.val + 1)⟩ = _
  unfold moveTo
  rw [hst, bind_ok, BitSet.put_ok (by rw [Fin.le_def] at hle; simp [BitSet.full]; omega)]; rfl

omit [DecidableEq NL] [DecidableEq EL] in
theorem search_panics {g : GraphMap m k NL EL} (hg : g.CInv) (hb : g.TargetsBound)
    {pop : List (Id m) → Option (Id m × List (Id m))} (hp : Pops pop) {start : Option (Id m)} {s : Id m}
    (h : BeginsAt g.view g.decode start s) {st} (hst : Traversal.new g.view start = .ok st) {a b : Id m}
    (he : g.hasEdge a b = true) (hn : g.hasNode b = false) :
    ∃ N, ∀ f, N ≤ f → drain (nextWith pop g.view) f st = .error .nodeMissing := by
  obtain ⟨M, hM, hle, h1⟩ := new_caught hg h
  rw [h1] at hst; cases hst
  have hsn : g.hasNode s = true := by
    have := h.1
    rw [hasNode_eq_labE]; simpa [decode] using this
  have hw : Walkable g.view := by
    constructor
    · intro n hn
      have hn : g.hasNode n = true := hn
      obtain ⟨nd, hnd⟩ := (hasNode_iff _ _).1 hn
      exact ⟨nd.neighborIds, by simp [view, neighbors, hnd, pure_ok],
        (hg.sortedOut n nd hnd).imp (fun h => ne_of_lt h)⟩
    · intro n hn
      have hn : g.hasNode n = false := hn
      have : g.getNode n = none := by
        cases hq : g.getNode n with
        | none => rfl
        | some nd => rw [(hasNode_iff g n).2 ⟨nd, hq⟩] at hn; cases hn
      simp [view, neighbors, this]
  have hlen : ((BitSet.full (M.val + 1)).set s.val false).length ≤ m + 1 := by
    have := M.isLt
    rw [List.length_set]; simp [BitSet.full]; omega
  have hbit : ∀ n : Id m, n ≠ s → n ≤ M →
      BitSet.contains ((BitSet.full (M.val + 1)).set s.val false) n.val = true := by
    intro n hne hnM
    rw [Fin.le_def] at hle hnM
    rw [BitSet.contains_set (by simp [BitSet.full]; omega), if_neg (fun e => hne (Fin.ext e.symm)),
      BitSet.contains_full]
    simp; omega
  refine ⟨Traversal.left (⟨[s], (BitSet.full (M.val + 1)).set s.val false⟩ : Traversal m) + 1, fun f hf => ?_⟩
  rcases drain_ends hp hw f ⟨[s], (BitSet.full (M.val + 1)).set s.val false⟩ hlen (by omega) with ⟨⟨l, st'⟩, hr⟩ | hr
  · exfalso
    obtain ⟨c1, c2, c3, c4⟩ := drain_covers hp hw f _ hlen l st' hr
    rw [hasEdge_eq_outE] at he
    have ha := outE_hasNode he
    have hal : a ∈ l := by
      by_cases e : a = s
      · rw [e]; exact c1 s (List.mem_singleton.2 rfl)
      · obtain ⟨M', hM', hle'⟩ := hg.maxBound a ha
        rw [hM] at hM'; cases hM'
        exact c2 a (hbit a e hle') ha
    obtain ⟨nd, hnd⟩ := (hasNode_iff _ _).1 ha
    obtain ⟨M', hM', hle'⟩ := hb a b he
    rw [hM] at hM'; cases hM'
    have hbs : b ≠ s := by intro e; rw [e, hsn] at hn; cases hn
    have hbl := c4 a hal nd.neighborIds (by simp [view, neighbors, hnd, pure_ok]) b
      ((mem_neighborIds_iff hnd b).2 he) (hbit b hbs hle')
    have : g.hasNode b = true := c3 b hbl
    rw [hn] at this; cases this
  · exact hr

theorem bound_bfs {g : GraphMap m k NL EL} (hc : g.CInv) (hb : g.TargetsBound)
    {start : Option (Id m)} {s : Id m} (h : BeginsAt g.view g.decode start s) :
    ∃ st, Traversal.new g.view start = .ok st ∧
      ((∃ a b, g.hasEdge a b = true ∧ g.hasNode b = false) →
        ∃ N, ∀ f, N ≤ f → drain (Bfs.next g.view) f st = .error .nodeMissing) ∧
      ((∀ a b, g.hasEdge a b = true → g.hasNode b = true) →
        ∃ l st', Yields (Bfs.next g.view) st l st' ∧ g.decode.Sweep s g.decode.FirstIn l ∧ l.Nodup ∧
          ∀ n, n ∈ l ↔ g.hasNode n = true) := by
  obtain ⟨M, hM, hle, h1⟩ := new_caught hc h
  refine ⟨_, h1, ?_, ?_⟩
  · rintro ⟨a, b, he, hn⟩
    rw [bfs_next]
    exact search_panics hc hb pops_front h h1 he hn
  · intro ht
    have S := shows_directed hc ht
    obtain ⟨st, l, st', e1, e2, -, e3⟩ := c66_bfs_order S (start := start) (s := s) h
    have e1 : Traversal.new g.view start = .ok st := e1
    rw [h1] at e1; cases e1
    refine ⟨l, st', e2, e3, e3.1, fun n => ?_⟩
    rw [e3.2.1, hasNode_eq_labE]
    simp [decode]

theorem caught_bfs {g0 g : GraphMap m k NL EL} (h0 : Reachable g0) {ops} (hg : Caught g0 ops g)
    {start : Option (Id m)} {s : Id m} (h : BeginsAt g.view g.decode start s) :
    ∃ st, Traversal.new g.view start = .ok st ∧
      ((∃ a b, g.hasEdge a b = true ∧ g.hasNode b = false) →
        ∃ N, ∀ f, N ≤ f → drain (Bfs.next g.view) f st = .error .nodeMissing) ∧
      ((∀ a b, g.hasEdge a b = true → g.hasNode b = true) →
        ∃ l st', Yields (Bfs.next g.view) st l st' ∧ g.decode.Sweep s g.decode.FirstIn l ∧ l.Nodup ∧
          ∀ n, n ∈ l ↔ g.hasNode n = true) :=
  bound_bfs (caught_cinv h0.inv.cinv hg).1 (caught_targets h0.inv hg) h

theorem bound_dfs {g : GraphMap m k NL EL} (hc : g.CInv) (hb : g.TargetsBound)
    {start : Option (Id m)} {s : Id m} (h : BeginsAt g.view g.decode start s) :
    ∃ st, Traversal.new g.view start = .ok st ∧
      ((∃ a b, g.hasEdge a b = true ∧ g.hasNode b = false) →
        ∃ N, ∀ f, N ≤ f → drain (Dfs.next g.view) f st = .error .nodeMissing) ∧
      ((∀ a b, g.hasEdge a b = true → g.hasNode b = true) →
        ∃ l st', Yields (Dfs.next g.view) st l st' ∧ g.decode.Sweep s g.decode.LastIn l ∧ l.Nodup ∧
          ∀ n, n ∈ l ↔ g.hasNode n = true) := by
  obtain ⟨M, hM, hle, h1⟩ := new_caught hc h
  refine ⟨_, h1, ?_, ?_⟩
  · rintro ⟨a, b, he, hn⟩
    rw [dfs_next]
    exact search_panics hc hb pops_back h h1 he hn
  · intro ht
    have S := shows_directed hc ht
    obtain ⟨st, l, st', e1, e2, -, e3⟩ := c66_dfs_order S (start := start) (s := s) h
    have e1 : Traversal.new g.view start = .ok st := e1
    rw [h1] at e1; cases e1
    refine ⟨l, st', e2, e3, e3.1, fun n => ?_⟩
    rw [e3.2.1, hasNode_eq_labE]
    simp [decode]

theorem caught_dfs {g0 g : GraphMap m k NL EL} (h0 : Reachable g0) {ops} (hg : Caught g0 ops g)
    {start : Option (Id m)} {s : Id m} (h : BeginsAt g.view g.decode start s) :
    ∃ st, Traversal.new g.view start = .ok st ∧
      ((∃ a b, g.hasEdge a b = true ∧ g.hasNode b = false) →
        ∃ N, ∀ f, N ≤ f → drain (Dfs.next g.view) f st = .error .nodeMissing) ∧
      ((∀ a b, g.hasEdge a b = true → g.hasNode b = true) →
        ∃ l st', Yields (Dfs.next g.view) st l st' ∧ g.decode.Sweep s g.decode.LastIn l ∧ l.Nodup ∧
          ∀ n, n ∈ l ↔ g.hasNode n = true) :=
  bound_dfs (caught_cinv h0.inv.cinv hg).1 (caught_targets h0.inv hg) h

theorem decode_node (g : GraphMap m k NL EL) (n : Id m) : (g.decode.node n).isSome = g.hasNode n := by
  rw [hasNode_eq_labE]
  simp [decode]

theorem decode_edge (g : GraphMap m k NL EL) (a b : Id m) : (g.decode.edge a b).isSome = g.hasEdge a b := by
  rw [hasEdge_eq_outE]
  simp [decode]

/-- **C129.** Whatever panics were caught, a breadth-first search of the whole graph panics exactly if
some edge leads to a node that is gone; otherwise it visits every node once, in the order of C66 along the
edges `has_edge` knows. -/
theorem c129_bfs {g0 g : GraphMap m k NL EL} (h0 : Reachable g0) {ops} (hg : Caught g0 ops g)
    {start : Option (Id m)} {s : Id m} (hs : g.hasNode s = true)
    (h : start = some s ∨ (start = none ∧ g.nodeIndices.head? = some s)) :
    ∃ st, Traversal.new g.view start = .ok st ∧
      ((∃ a b, g.hasEdge a b = true ∧ g.hasNode b = false) →
        ∃ N, ∀ f, N ≤ f → drain (Bfs.next g.view) f st = .error .nodeMissing) ∧
      ((∀ a b, g.hasEdge a b = true → g.hasNode b = true) →
        ∃ l st', Yields (Bfs.next g.view) st l st' ∧ l.Nodup ∧ (∀ n, n ∈ l ↔ g.hasNode n = true) ∧
          ∃ A : AGraph (Id m) NL EL, (∀ n, (A.node n).isSome = g.hasNode n) ∧
            (∀ a b, (A.edge a b).isSome = g.hasEdge a b) ∧ A.Sweep s A.FirstIn l) := by
  have hb : BeginsAt g.view g.decode start s := ⟨by rw [decode_node]; exact hs, h⟩
  obtain ⟨st, e1, e2, e3⟩ := caught_bfs h0 hg hb
  refine ⟨st, e1, e2, fun ht => ?_⟩
  obtain ⟨l, st', a1, a2, a3, a4⟩ := e3 ht
  exact ⟨l, st', a1, a3, a4, g.decode, decode_node g, decode_edge g, a2⟩

/-- **C129.** The same for a depth-first search. -/
theorem c129_dfs {g0 g : GraphMap m k NL EL} (h0 : Reachable g0) {ops} (hg : Caught g0 ops g)
    {start : Option (Id m)} {s : Id m} (hs : g.hasNode s = true)
    (h : start = some s ∨ (start = none ∧ g.nodeIndices.head? = some s)) :
    ∃ st, Traversal.new g.view start = .ok st ∧
      ((∃ a b, g.hasEdge a b = true ∧ g.hasNode b = false) →
        ∃ N, ∀ f, N ≤ f → drain (Dfs.next g.view) f st = .error .nodeMissing) ∧
      ((∀ a b, g.hasEdge a b = true → g.hasNode b = true) →
        ∃ l st', Yields (Dfs.next g.view) st l st' ∧ l.Nodup ∧ (∀ n, n ∈ l ↔ g.hasNode n = true) ∧
          ∃ A : AGraph (Id m) NL EL, (∀ n, (A.node n).isSome = g.hasNode n) ∧
            (∀ a b, (A.edge a b).isSome = g.hasEdge a b) ∧ A.Sweep s A.LastIn l) := by
  have hb : BeginsAt g.view g.decode start s := ⟨by rw [decode_node]; exact hs, h⟩
  obtain ⟨st, e1, e2, e3⟩ := caught_dfs h0 hg hb
  refine ⟨st, e1, e2, fun ht => ?_⟩
  obtain ⟨l, st', a1, a2, a3, a4⟩ := e3 ht
  exact ⟨l, st', a1, a3, a4, g.decode, decode_node g, decode_edge g, a2⟩

/-- **C129.** Frozen, the graph answers as before about its nodes' neighbours and lists the same edges, but
`has_edge` and `get_edge_label` no longer know an edge whose target is above the largest node. -/
theorem c129_frozen {g0 g : GraphMap m k NL EL} (h0 : Reachable g0) {ops} (hg : Caught g0 ops g)
    {M : Id m} (hmax : g.nodeIndices.max? = some M) (hlt : M.val < m) :
    ∃ r v, g.intoStatic = .ok r ∧ r.view = .ok v ∧
      v.directed = g.isDirected ∧ v.nodeCount = g.nodeCount ∧ v.edgeCount = g.edgeCount ∧
      (∀ s t, v.hasEdge s t = .ok (g.hasEdge s t && decide (t ≤ M))) ∧
      v.edgeIndices.Perm g.edgeIndices ∧
      (∀ n, g.hasNode n = true → v.neighbors n = g.neighbors n ∧ v.degree n = g.degree n) ∧
      (∀ n, v.hasNode n = decide (n.val < g.nodeCount)) := by
  have hw := (caught_cinv h0.inv.cinv hg).1.toNWF
  obtain ⟨r, hr, hf⟩ := intoStatic_ok hw hmax hlt
  have hM := (max_spec hmax).2
  obtain ⟨v, hv, e1, e2, e3, e4, e5, e6, e7, e8, e9, e10, e11, e12, e13, e14, e15, e16⟩ :=
    StaticGraph.view_ok hf.out (by simp; omega)
  refine ⟨r, v, hr, hv, by rw [e1, hf.directed]; rfl, by rw [e2, hf.numNodes], by rw [e3, hf.numEdges],
    ?_, ?_, ?_, ?_⟩
  · intro s t
    rw [e5]
    obtain ⟨b, h1, h2⟩ := EdgeVec.hasEdge_spec hf.out s t
    unfold StaticGraph.hasEdge
    rw [h1]
    congr 1
    rw [Bool.eq_iff_iff, h2, Bool.and_eq_true, hasEdge_eq_outE, decide_eq_true_eq]
    simp only [rows_length, rows_getElem]
    rw [outE_rows, Fin.le_def]
    constructor
    · rintro ⟨h3, -, h⟩; exact ⟨h, by omega⟩
    · rintro ⟨h, h4⟩
      have h3 := hM s (outE_hasNode h)
      rw [Fin.le_def] at h3
      exact ⟨by omega, by omega, h⟩
  · obtain ⟨es, h3, h4, h5⟩ := frozen_edgeIndices hM hlt hf
    rw [h3] at e9
    obtain rfl := Except.ok.inj e9
    rw [List.perm_ext_iff_of_nodup h4 (edgeIndices_nodup hw)]
    rintro ⟨s, t⟩
    rw [h5, mem_edgeIndices hw]
  · intro n hn
    obtain ⟨nd, hnd⟩ := (hasNode_iff _ _).1 hn
    obtain ⟨h3, h4⟩ := frozen_neighbors hM hf hnd
    rw [e12, e13, h3, h4]
    simp [neighbors, degree, hnd, pure_ok, NodeMap.degree, NodeMap.neighborIds, AL.keys]
  · intro n; rw [e4]; simp [StaticGraph.hasNode, hf.numNodes]

/-! ### Examples -/

/-- The hypotheses are met by the wrecked graphs of C123, which have an edge to a node that is gone. -/
example : BeginsAt (wrecked true).view (wrecked true).decode none 1 ∧ (wrecked true).hasEdge 1 2 = true ∧
    (wrecked true).hasNode 2 = false := by
  refine ⟨⟨by decide, .inr ⟨rfl, by decide⟩⟩, by decide, by decide⟩

set_option maxRecDepth 8000 in
/-- Cloning the directed one brings node 2 back; cloning the undirected one loses the rest of its edges. -/
example : (∃ c, cloneBox (wrecked true).view = .ok c ∧ c.hasNode 2 = true ∧ c.hasEdge 1 2 = true ∧
      c.edgeCount = 2) ∧
    (∃ c, cloneBox (wrecked false).view = .ok c ∧ c.hasNode 2 = false ∧ c.hasEdge 3 2 = false ∧
      c.edgeCount = 0) := by
  constructor
  · obtain ⟨c, h⟩ : ∃ c, cloneBox (wrecked true).view = .ok c := ⟨_, rfl⟩
    refine ⟨c, h, ?_⟩
    cases h; decide
  · obtain ⟨c, h⟩ : ∃ c, cloneBox (wrecked false).view = .ok c := ⟨_, rfl⟩
    refine ⟨c, h, ?_⟩
    cases h; decide

/-- Node 5 with a self loop and an edge from node 1, and its removal. -/
def wreckedHigh : GraphMap 9 3 String String :=
  execCaught (withLabelMap true SetMap.empty SetMap.empty)
    [.addEdge 1 5 none, .addEdge 5 5 none, .removeNode 5]

set_option maxRecDepth 8000 in
/-- **C129.** Frozen, the edge to the node that is gone is listed and denied. -/
theorem c129_listed_and_denied : wreckedHigh.nodeIndices.max? = some 1 ∧ wreckedHigh.hasEdge 1 5 = true ∧
    ∃ (r : StaticGraph 9 3 String String) (v : GView 9 3 String String), wreckedHigh.intoStatic = .ok r ∧
      r.view = .ok v ∧ (1, 5) ∈ v.edgeIndices ∧ v.hasEdge 1 5 = .ok false := by
  refine ⟨by decide, by decide, ?_⟩
  obtain ⟨r, h⟩ : ∃ r, wreckedHigh.intoStatic = .ok r := ⟨_, rfl⟩
  obtain ⟨v, hv⟩ : ∃ v, r.view = .ok v := by cases h; exact ⟨_, rfl⟩
  refine ⟨r, v, h, hv, ?_⟩
  cases h; cases hv; decide

set_option maxRecDepth 8000 in
/-- A graph with an edge known at one end only, on which a search ends (in an order no undirected graph
has: node 2 is not discovered from node 3). -/
example : ∃ g : GraphMap 9 3 String String, (wrecked false).addNode 2 none = .ok (g, true) ∧
    (∀ a b, g.hasEdge a b = true → g.hasNode b = true) ∧ g.hasEdge 3 2 = true ∧ g.hasEdge 2 3 = false ∧
    BeginsAt g.view g.decode (some 2) 2 := by
  obtain ⟨g, h⟩ : ∃ g, (wrecked false).addNode 2 none = .ok (g, true) := ⟨_, rfl⟩
  refine ⟨g, h, ?_⟩
  cases h
  refine ⟨by decide, by decide, by decide, by decide, .inl rfl⟩

end Verif.Props
