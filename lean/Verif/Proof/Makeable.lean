import Verif.Proof.History
import Verif.Proof.SerdeClosed
import Verif.Spec.Sound

/-! Every graph that satisfies the invariant can be made by calls. -/

set_option linter.unusedSectionVars false

namespace Verif.GraphMap

open Verif.Spec

variable {m k : Nat} {NL EL : Type}

theorem neighbors_ext {l l' : List (Id m × Option (Id k))} (h : (AL.keys l).Pairwise (· < ·))
    (h' : (AL.keys l').Pairwise (· < ·)) (hg : ∀ t, AL.get l t = AL.get l' t) : l = l' := by
  have hn := sorted_nodup h
  have hn' := sorted_nodup h'
  have hp : l.Perm l' := by
    refine (List.perm_ext_iff_of_nodup hn.of_map hn'.of_map).2 fun p => ?_
    obtain ⟨a, b⟩ := p
    rw [AL.mem_iff_get hn, AL.mem_iff_get hn', hg]
  have h1 : l.Pairwise (fun a b => a.1 < b.1) := List.pairwise_map.1 h
  have h2 : l'.Pairwise (fun a b => a.1 < b.1) := List.pairwise_map.1 h'
  exact hp.eq_of_pairwise (fun a b _ _ h1 h2 => absurd (lt_trans h1 h2) (lt_irrefl _)) h1 h2

/-- Two graphs in which the same lookups succeed differ at most in the order of the hash map. -/
theorem perm_of_same {g g' : GraphMap m k NL EL} (hg : g.NWF) (hg' : g'.NWF) (hr : g'.rep = g.rep)
    (hi : ∀ b a, g'.inE b a ↔ g.inE b a) : g'.nodeMap.Perm g.nodeMap := by
  have hlab : ∀ x, g'.labE x = g.labE x := fun x => congrArg (fun r => r.node x) hr
  have hout : ∀ a b, g'.outE a b = g.outE a b := fun a b => congrArg (fun r => r.edge a b) hr
  have key : ∀ n, g'.getNode n = g.getNode n := by
    intro n
    have h1 := hlab n
    unfold labE at h1
    cases h : g.getNode n with
    | none =>
      rw [h] at h1
      cases h2 : g'.getNode n with
      | none => rfl
      | some nd => rw [h2] at h1; cases h1
    | some nd =>
      rw [h] at h1
      cases h2 : g'.getNode n with
      | none => rw [h2] at h1; cases h1
      | some nd' =>
        rw [h2] at h1
        have e1 : nd'.label = nd.label := by simpa using h1
        have e2 : nd'.id = nd.id := (hg'.ids n nd' h2).trans (hg.ids n nd h).symm
        have e3 : nd'.neighbors = nd.neighbors := by
          refine neighbors_ext (hg'.sortedOut n nd' h2) (hg.sortedOut n nd h) fun t => ?_
          have := hout n t
          unfold outE at this
          rw [h, h2] at this
          exact this
        have e4 : nd'.inNeighbors = nd.inNeighbors := by
          refine sorted_ext (hg'.sortedIn n nd' h2) (hg.sortedIn n nd h) fun t => ?_
          have := hi n t
          unfold inE at this
          rw [h, h2] at this
          simpa using this
        cases nd; cases nd'
        simp only at e1 e2 e3 e4
        rw [e1, e2, e3, e4]
  refine (List.perm_ext_iff_of_nodup hg'.keys.of_map hg.keys.of_map).2 fun p => ?_
  obtain ⟨a, b⟩ := p
  rw [AL.mem_iff_get hg'.keys, AL.mem_iff_get hg.keys]
  exact Eq.congr_left (key a)

variable [DecidableEq NL] [DecidableEq EL]

/-- Some calls on a new graph make `g`. -/
def Made (g : GraphMap m k NL EL) : Prop := ∃ ops, Run (new g.directed) ops g

theorem Made.step {g g' : GraphMap m k NL EL} (h : Made g) {op : Op m k NL EL}
    (ha : g.apply op = .ok g') (hd : g'.directed = g.directed) : Made g' := by
  obtain ⟨ops, h⟩ := h
  exact ⟨ops ++ [op], hd ▸ .step h ha⟩

theorem Made.same {g g' : GraphMap m k NL EL} (h : Made g') (hg : g.NWF) (hg' : g'.NWF)
    (h1 : g'.directed = g.directed) (h2 : g'.numEdges = g.numEdges) (h3 : g'.nodeLabels = g.nodeLabels)
    (h4 : g'.edgeLabels = g.edgeLabels) (h5 : g'.maxId = g.maxId) (hr : g'.rep = g.rep)
    (hi : ∀ b a, g'.inE b a ↔ g.inE b a) : Made g := by
  obtain ⟨ops, h⟩ := h
  have hp := perm_of_same hg hg' hr hi
  refine ⟨ops, ?_⟩
  have := h.rehash hp
  have e : ({ g' with nodeMap := g.nodeMap } : GraphMap m k NL EL) = g := by
    cases g; cases g'
    simp only at h1 h2 h3 h4 h5
    rw [h1, h2, h3, h4, h5]
  rw [e, h1] at this
  exact this

theorem addItem_new {X : Type} [DecidableEq X] (l : List X) (x : X) (h : x ∉ l) :
    (⟨l⟩ : SetMap X).addItem x = .ok (⟨l ++ [x]⟩, l.length) := by
  simp [SetMap.addItem, SetMap.contains, SetMap.findIndex, SetMap.insert, SetMap.len, h, pure_ok]

theorem made_tables (d : Bool) : ∀ (nl : List NL) (el : List EL), nl.Nodup → el.Nodup →
    Made (withLabelMap d ⟨nl⟩ ⟨el⟩ : GraphMap m k NL EL) := by
  have hnode : ∀ (nl : List NL), nl.Nodup → Made (withLabelMap d ⟨nl⟩ ⟨[]⟩ : GraphMap m k NL EL) := by
    intro nl
    induction nl using List.reverseRecOn with
    | nil => exact fun _ => ⟨[], .nil⟩
    | append_singleton l x ih =>
      intro h
      have h1 := List.nodup_append.1 h
      refine (ih h1.1).step (op := .addNodeLabel (some x)) ?_ rfl
      have hx : x ∉ l := fun hx => h1.2.2 x hx x (by simp) rfl
      simp only [apply, addNodeLabel, intern]
      simp only [withLabelMap, addItem_new l x hx, bind_ok, pure_ok]
  intro nl el hn
  induction el using List.reverseRecOn with
  | nil => exact fun _ => hnode nl hn
  | append_singleton l x ih =>
    intro h
    have h1 := List.nodup_append.1 h
    refine (ih h1.1).step (op := .addEdgeLabel (some x)) ?_ rfl
    have hx : x ∉ l := fun hx => h1.2.2 x hx x (by simp) rfl
    simp only [apply, addEdgeLabel, intern]
    simp only [withLabelMap, addItem_new l x hx, bind_ok, pure_ok]

/-- A graph without nodes can have counted any number of edges, once it has seen a node. -/
theorem made_empty (d : Bool) (nl : SetMap NL) (el : SetMap EL) (hn : nl.labels.Nodup)
    (he : el.labels.Nodup) (M : Id m) (c : Nat) :
    Made (⟨d, [], c, nl, el, some M⟩ : GraphMap m k NL EL) := by
  have add : ∀ c mx, bumpMax mx M = some M →
      (⟨d, [], c, nl, el, mx⟩ : GraphMap m k NL EL).apply (.addNode M none) =
        .ok ⟨d, [(M, NodeMap.new M none)], c, nl, el, some M⟩ := by
    intro c mx h
    simp [apply, addNode, intern, hasNode, AL.get, AL.hinsert, pure_ok, bind_ok, h]
  have rem : ∀ c, (⟨d, [(M, NodeMap.new M none)], c, nl, el, some M⟩ : GraphMap m k NL EL).apply
      (.removeNode M) = .ok ⟨d, [], c, nl, el, some M⟩ := by
    intro c
    cases d <;>
      simp [apply, removeNode, unlink, AL.get, AL.erase, pure_ok, bind_ok, NodeMap.new, NodeMap.neighborIds,
        NodeMap.inNeighborIds, NodeMap.degree, NodeMap.inDegree, AL.keys]
  induction c with
  | zero =>
    have h0 : Made (withLabelMap d nl el : GraphMap m k NL EL) := made_tables d nl.labels el.labels hn he
    exact (h0.step (add 0 none rfl) rfl).step (rem 0) rfl
  | succ c ih =>
    have e1 : bumpMax (some M) M = some M := by simp [bumpMax]
    have h1 := ih.step (add c _ e1) rfl
    obtain ⟨g1, g2, a1, a2, a3, a4, a5⟩ : ∃ g1 g2 : GraphMap m k NL EL,
        (⟨d, [(M, NodeMap.new M none)], c, nl, el, some M⟩ : GraphMap m k NL EL).apply
          (.addEdge M M none) = .ok g1 ∧ g1.apply (.addEdge M M none) = .ok g2 ∧ g1.directed = d ∧
          g2.directed = d ∧ g2.apply (.removeEdge M M) =
            .ok ⟨d, [(M, NodeMap.new M none)], c + 1, nl, el, some M⟩ := by
      cases d <;>
        simp [apply, addEdge, ensureNode, intern, hasNode, hasEdge, getNode, AL.get, AL.set, AL.erase, pure_ok, bind_ok,
          withNode, addEdgeTarget, removeEdge, removeEdgeTarget, unwrap, NodeMap.new, NodeMap.addEdge,
          NodeMap.addInEdge, NodeMap.removeEdge, NodeMap.removeInEdge, NodeMap.hasNeighbor,
          NodeMap.hasInNeighbor, AL.binsert, BSet.sinsert, BSet.erase, BSet.contains]
    exact (((h1.step a1 a3).step a2 (a4.trans a3.symm)).step a5 a4.symm).step (rem (c + 1)) rfl

omit [DecidableEq NL] [DecidableEq EL] in
theorem get_nil_of_no_node {g : GraphMap m k NL EL} (h : ∀ n, g.hasNode n = false) : g.nodeMap = [] := by
  cases hm : g.nodeMap with
  | nil => rfl
  | cons p l =>
    have := h p.1
    simp [hasNode, hm, AL.get] at this

open Classical in
/-- Every graph that satisfies the invariant can be made by calls on a new graph, except that a graph that
has seen no node has counted no edge. -/
theorem made_of_inv : ∀ (N : Nat) {g : GraphMap m k NL EL}, g.Inv → (g.maxId = none → g.numEdges = 0) →
    g.edgeNum + (Finset.univ.filter (fun n => g.hasNode n = true)).card = N → Made g := by
  intro N
  induction N using Nat.strong_induction_on with
  | _ N ih =>
  intro g hg hz hN
  by_cases hE : ∃ s t, g.hasEdge s t = true
  · obtain ⟨s, t, he⟩ := hE
    have ho := he
    rw [hasEdge_eq_outE] at ho
    obtain ⟨l, hl⟩ := Option.isSome_iff_exists.1 ho
    obtain ⟨g0, h1, h2, h3, h4, h5, h6, h7, h8, h9, h10⟩ := removeEdge_spec hg s t
    have hi0 := inv_removeEdge hg h1
    have hnum := AGraph.edgeNumber_removeEdge g.directed g.rep hg.sym s t ho
    have e0 : g0.edgeNum + 1 = g.edgeNum := by unfold edgeNum; rw [h9, h3]; exact hnum
    have hlab0 : ∀ x, g0.labE x = g.labE x := fun x => congrArg (fun r => r.node x) h9
    have hhas0 : ∀ x, g0.hasNode x = g.hasNode x := by
      intro x; rw [hasNode_eq_labE, hasNode_eq_labE, hlab0]
    have hs := outE_hasNode ho
    have ht := hg.target s t ho
    have hm0 : g.maxId ≠ none := by
      obtain ⟨M, hM, -⟩ := hg.maxBound s hs
      rw [hM]; exact Option.some_ne_none M
    have m0 : Made g0 := by
      refine ih _ ?_ hi0 (fun h => absurd (h6 ▸ h) hm0) rfl
      simp only [hhas0]
      omega
    obtain ⟨g1, el, lid, i1, i2, i3, i4, i5, i6, i7, i8, i9, i10⟩ := addEdge_spec h2 s t none
    cases i1
    rw [if_pos he] at h7
    have d1 : g1.directed = g.directed := i4.trans h3
    have m1 : Made g1 := m0.step (op := .addEdge s t none) (by simp [apply, i2, bind_ok, pure_ok]) i4
    have hmax : g1.maxId = g.maxId := by
      rw [i8]; unfold seen; rw [hhas0, hhas0, hs, ht]; simp [h6]
    have hedge1 : ∀ a b, g1.outE a b = if AGraph.same g.directed s t a b then some none else g.outE a b := by
      intro a b
      have e1 : g1.outE a b = _ := congrArg (fun r => r.edge a b) i9
      rw [e1]
      have e2 : g0.outE a b = _ := congrArg (fun r => r.edge a b) h9
      have e2' : g0.rep.edge a b = if AGraph.same g.directed s t a b then none else g.outE a b := e2
      simp only [AGraph.addEdge, e2', h3]
      split_ifs <;> rfl
    have hlab1 : ∀ x, g1.labE x = g.labE x := by
      intro x
      have e1 : g1.labE x = _ := congrArg (fun r => r.node x) i9
      rw [e1]
      have e2 : g0.rep.node x = g.labE x := hlab0 x
      simp only [AGraph.addEdge, e2]
      rw [if_neg]
      rintro ⟨h, hno⟩
      rw [hasNode_eq_labE] at hs ht
      rcases h with rfl | rfl
      · rw [hno] at hs; cases hs
      · rw [hno] at ht; cases ht
    have hin1 : ∀ b a, g1.inE b a ↔ g.inE b a := by
      intro b a
      rw [i10, h10, h3]
      constructor
      · rintro (⟨hd, rfl, rfl⟩ | h)
        · exact (hg.inSpec hd _ _).2 ho
        · exact h.2
      · intro h
        by_cases hx : g.directed = true ∧ b = t ∧ a = s
        · exact .inl hx
        · exact .inr ⟨hx, h⟩
    -- the labels
    have he1 : g1.hasEdge s t = true := by
      rw [hasEdge_eq_outE, hedge1, if_pos (.inl ⟨rfl, rfl⟩)]; rfl
    obtain ⟨g2, j1, j2, j3, j4, j5⟩ := setEdgeLabelId_spec i3 s t l he1
    have m2 : Made g2 := m1.step (op := .setEdgeLabelId s t l) j1 j3.rest.directed
    cases hd : g.directed with
    | true =>
      refine m2.same hg.toNWF j2 (j3.rest.directed.trans d1) ?_ ?_ ?_ ?_ ?_ ?_
      · rw [j3.rest.numEdges, i5]; omega
      · rw [j3.rest.nodeLabels, i6, h4]
      · rw [j3.rest.edgeLabels, i7, h5]
      · rw [j3.rest.maxId, hmax]
      · apply AGraph_ext
        · intro x; exact (j4 x).trans (hlab1 x)
        · intro a b
          refine (j5 a b).trans ?_
          by_cases hab : a = s ∧ b = t
          · rw [if_pos hab, hab.1, hab.2]; exact hl.symm
          · rw [if_neg hab, hedge1, if_neg]
            · rfl
            · rintro (h | ⟨h, -⟩)
              · exact hab h
              · rw [hd] at h; cases h
      · intro b a; rw [j3.inn, hin1]
    | false =>
      obtain ⟨l2, hl2⟩ := Option.isSome_iff_exists.1 (hg.sym hd s t ho)
      have hl2 : g.outE t s = some l2 := hl2
      have he2 : g2.hasEdge t s = true := by
        rw [hasEdge_eq_outE, j3.out, hedge1, if_pos (.inr ⟨hd, rfl, rfl⟩)]; rfl
      obtain ⟨g3, k1, k2, k3, k4, k5⟩ := setEdgeLabelId_spec j2 t s l2 he2
      have m3 : Made g3 := m2.step (op := .setEdgeLabelId t s l2) k1 k3.rest.directed
      refine m3.same hg.toNWF k2 (k3.rest.directed.trans (j3.rest.directed.trans d1)) ?_ ?_ ?_ ?_ ?_ ?_
      · rw [k3.rest.numEdges, j3.rest.numEdges, i5]; omega
      · rw [k3.rest.nodeLabels, j3.rest.nodeLabels, i6, h4]
      · rw [k3.rest.edgeLabels, j3.rest.edgeLabels, i7, h5]
      · rw [k3.rest.maxId, j3.rest.maxId, hmax]
      · apply AGraph_ext
        · intro x; exact (k4 x).trans ((j4 x).trans (hlab1 x))
        · intro a b
          refine (k5 a b).trans ?_
          by_cases hba : a = t ∧ b = s
          · rw [if_pos hba, hba.1, hba.2]; exact hl2.symm
          · rw [if_neg hba, j5]
            by_cases hab : a = s ∧ b = t
            · rw [if_pos hab, hab.1, hab.2]; exact hl.symm
            · rw [if_neg hab, hedge1, if_neg]
              · rfl
              · rintro (h | ⟨-, h⟩)
                · exact hab h
                · exact hba h
      · intro b a; rw [k3.inn, j3.inn, hin1]
  · have hE : ∀ s t, g.outE s t = none := by
      intro s t
      by_contra h
      exact hE ⟨s, t, by rw [hasEdge_eq_outE]; exact Option.isSome_iff_ne_none.2 h⟩
    by_cases hV : ∃ n, g.hasNode n = true
    · obtain ⟨n, hn⟩ := hV
      have hloop : g.hasEdge n n = false := by rw [hasEdge_eq_outE, hE]; rfl
      obtain ⟨g0, h1, h2, h3, h4, h5, h6, h7, h8, h9, h10⟩ := removeNode_spec hg n hloop
      have hi0 := inv_removeNode hg h1
      have hout0 : ∀ a b, g0.outE a b = none := by
        intro a b
        have e : g0.outE a b = _ := congrArg (fun r => r.edge a b) h9
        have e' : g0.outE a b = if a = n ∨ b = n then none else g.outE a b := e
        rw [e', hE]; simp
      have hlab0 : ∀ x, g0.labE x = if x = n then none else g.labE x :=
        fun x => congrArg (fun r => r.node x) h9
      have z : ∀ {g' : GraphMap m k NL EL}, (∀ a b, g'.outE a b = none) → g'.edgeNum = 0 := by
        intro g' h
        unfold edgeNum
        rw [AGraph.edgeNumber_eq, Finset.card_eq_zero, Finset.eq_empty_iff_forall_notMem]
        intro p hp
        rw [AGraph.mem_edgeSet] at hp
        have : g'.rep.edge p.1 p.2 = none := h _ _
        rw [this] at hp
        cases hp.1
      have z0 := z hout0
      have z1 := z hE
      have hm0 : g.maxId ≠ none := by
        obtain ⟨M, hM, -⟩ := hg.maxBound n hn
        rw [hM]; exact Option.some_ne_none M
      have m0 : Made g0 := by
        refine ih _ ?_ hi0 (fun h => absurd (h6 ▸ h) hm0) rfl
        rw [← hN, z0, z1, Nat.zero_add, Nat.zero_add]
        apply Finset.card_lt_card
        rw [Finset.ssubset_iff_of_subset]
        · refine ⟨n, by simp [hn], ?_⟩
          simp [hasNode_eq_labE, hlab0]
        · intro x
          simp only [Finset.mem_filter, Finset.mem_univ, true_and, hasNode_eq_labE, hlab0]
          split <;> simp
      have hn0 : g0.hasNode n = false := by rw [hasNode_eq_labE, hlab0, if_pos rfl]; rfl
      obtain ⟨g1, nl, lid, i1, i2, i3, i4, i5, i6, i7, i8, i9, i10⟩ := addNode_spec h2 n none
      cases i1
      have m1 : Made g1 := m0.step (op := .addNode n none) (by simp [apply, i2, bind_ok, pure_ok]) i4
      have hn1 : g1.hasNode n = true := by
        rw [hasNode_eq_labE]
        have e : g1.labE n = _ := congrArg (fun r => r.node n) i9
        rw [e]; simp [AGraph.addNode]
      rw [hasNode_eq_labE] at hn
      obtain ⟨l, hl⟩ := Option.isSome_iff_exists.1 hn
      obtain ⟨g2, j1, j2, j3, j4⟩ := setNodeLabelId_spec i3 n l hn1
      have m2 : Made g2 := m1.step (op := .setNodeLabelId n l) j1 j3.rest.directed
      have hin : ∀ b a, ¬ g.inE b a := by
        intro b a h
        cases hd : g.directed with
        | true => have := (hg.inSpec hd a b).1 h; rw [hE] at this; cases this
        | false => exact hg.inNil hd b a h
      refine m2.same hg.toNWF j2 (j3.rest.directed.trans (i4.trans h3)) ?_ ?_ ?_ ?_ ?_ ?_
      · rw [j3.rest.numEdges, i5]; omega
      · rw [j3.rest.nodeLabels, i6, h4]
      · rw [j3.rest.edgeLabels, i7, h5]
      · rw [j3.rest.maxId, i8, hn0, h6]
        obtain ⟨M, hM, hle⟩ := hg.maxBound n (by rw [hasNode_eq_labE]; exact hn)
        rw [hM]
        simp [bumpMax, not_lt.2 hle]
      · rw [j4, i9, h9]
        apply AGraph_ext
        · intro x
          by_cases hx : x = n
          · subst hx
            simp only [AGraph.addNode, if_true]
            exact hl.symm
          · simp [AGraph.addNode, AGraph.removeNode, hx]
        · intro a b
          have e : g.rep.edge a b = none := hE a b
          simp [AGraph.addNode, AGraph.removeNode, e]
      · intro b a
        rw [j3.inn, i10, h10]
        exact ⟨fun h => h.2.2, fun h => absurd h (hin b a)⟩
    · have hnil := get_nil_of_no_node (g := g) (fun n => by
        by_contra h; exact hV ⟨n, by simpa using h⟩)
      obtain ⟨d, nm, c, nl, el, mx⟩ := g
      simp only at hnil hz
      subst hnil
      cases mx with
      | some M => exact made_empty d nl el hg.nlNodup hg.elNodup M c
      | none =>
        rw [hz rfl]
        exact made_tables d nl.labels el.labels hg.nlNodup hg.elNodup

theorem Made.reachable {g : GraphMap m k NL EL} (h : Made g) : Reachable g := by
  obtain ⟨ops, h⟩ := h
  exact h.reachable List.nodup_nil List.nodup_nil

/-- The invariant says exactly which graphs there are. -/
theorem reachable_iff (g : GraphMap m k NL EL) : Reachable g ↔ g.Inv := by
  refine ⟨Reachable.inv, fun hg => ?_⟩
  cases hm : g.maxId with
  | some M => exact (made_of_inv _ hg (fun h => by rw [hm] at h; cases h) rfl).reachable
  | none =>
    have hnil := get_nil_of_no_node (g := g) (fun n => by
      by_contra h
      obtain ⟨M, hM, -⟩ := hg.maxBound n (by simpa using h)
      rw [hm] at hM; cases hM)
    obtain ⟨d, nm, c, nl, el, mx⟩ := g
    simp only at hnil hm
    subst hnil hm
    have h0 := (made_empty (m := m) (k := k) d nl el hg.nlNodup hg.elNodup 0 c).reachable
    exact .reorder (some SetMap.empty) none none h0 (fun s hs => by cases hs; simp [SetMap.len, SetMap.empty])
      (by simp [reorderIdWith, AL.values, newLabelMap, pure_ok, bind_ok, AL.keys])

/-- A call leaves a graph that has seen no node without counted edges. -/
theorem unseen_apply {g g' : GraphMap m k NL EL} (hg : g.Inv) {op : Op m k NL EL}
    (h : g.apply op = .ok g') (hz : g.maxId = none → g.numEdges = 0) :
    g'.maxId = none → g'.numEdges = 0 := by
  have hg' := inv_apply hg h
  have some : ∀ n, g'.hasNode n = true → g'.maxId = none → g'.numEdges = 0 := by
    intro n hn hm
    obtain ⟨M, hM, -⟩ := hg'.maxBound n hn
    rw [hm] at hM; cases hM
  have rest : SameRest g g' → g'.maxId = none → g'.numEdges = 0 := by
    intro hr hm
    rw [hr.numEdges]; rw [hr.maxId] at hm; exact hz hm
  have node : ∀ n l r, g.addNode n l = .ok r → g' = r.1 → g'.maxId = none → g'.numEdges = 0 := by
    intro n l r h1 h2
    obtain ⟨g1, nl, lid, i1, i2, i3, i4, i5, i6, i7, i8, i9, i10⟩ := addNode_spec hg.toNWF n l
    rw [i2] at h1; cases h1
    simp only at h2
    refine some n ?_
    rw [h2, hasNode_eq_labE]
    have e : g1.labE n = _ := congrArg (fun r => r.node n) i9
    rw [e]; simp [AGraph.addNode]
  have edge : ∀ s t l r, g.addEdge s t l = .ok r → g' = r.1 → g'.maxId = none → g'.numEdges = 0 := by
    intro s t l r h1 h2
    obtain ⟨g1, el, lid, i1, i2, i3, i4, i5, i6, i7, i8, i9, i10⟩ := addEdge_spec hg.toNWF s t l
    rw [i2] at h1; cases h1
    simp only at h2
    refine some s ?_
    have e : g1.outE s t = _ := congrArg (fun r => r.edge s t) i9
    rw [h2]
    refine outE_hasNode (t := t) ?_
    rw [e]; simp [AGraph.addEdge, AGraph.same]
  cases op with
  | addNode n l =>
    obtain ⟨r, h1, h2⟩ := bind_eq_ok h
    cases h2; exact node n l r h1 rfl
  | removeNode n =>
    obtain ⟨r, h1, h2⟩ := bind_eq_ok h
    cases h2
    obtain ⟨g1, i1, i2, i3, i4, i5, i6, i7, -⟩ := removeNode_spec hg n (removeNode_ok_noloop h1)
    rw [i1] at h1; cases h1
    intro hm
    have h0 := hz (i6 ▸ hm)
    have h1 := hg.count
    have h2 := hg'.count
    simp only at h2 ⊢
    have hnil := get_nil_of_no_node (g := g1) (fun n => by
      by_contra h
      obtain ⟨M, hM, -⟩ := hg'.maxBound n (by simpa using h)
      rw [hm] at hM; cases hM)
    have : g1.edgeNum = 0 := by
      rw [← edgeIndices_length i2]; simp [edgeIndices, hnil, AL.values]
    omega
  | addEdge s t l =>
    obtain ⟨r, h1, h2⟩ := bind_eq_ok h
    cases h2; exact edge s t l r h1 rfl
  | removeEdge s t =>
    obtain ⟨r, h1, h2⟩ := bind_eq_ok h
    cases h2
    obtain ⟨g1, i1, i2, i3, i4, i5, i6, i7, -⟩ := removeEdge_spec hg s t
    rw [i1] at h1; cases h1
    intro hm
    have h0 := hz (i6 ▸ hm)
    simp only
    omega
  | updateNodeLabel n l =>
    obtain ⟨r, h1, h2⟩ := bind_eq_ok h
    cases h2
    unfold updateNodeLabel at h1
    split at h1
    · cases h1; exact hz
    · obtain ⟨r, h3, h2⟩ := bind_eq_ok h1
      cases h2; exact node n l r h3 rfl
  | updateEdgeLabel s t l =>
    obtain ⟨r, h1, h2⟩ := bind_eq_ok h
    cases h2
    unfold updateEdgeLabel at h1
    split at h1
    · cases h1; exact hz
    · obtain ⟨r, h3, h2⟩ := bind_eq_ok h1
      cases h2; exact edge s t l r h3 rfl
  | addNodeLabel l =>
    obtain ⟨r, h1, h2⟩ := bind_eq_ok h
    cases h2
    obtain ⟨s', lid, e1, -⟩ := intern_ok (k := k) g.nodeLabels l
    simp only [addNodeLabel, e1, bind_ok, pure_ok] at h1
    cases h1
    exact hz
  | addEdgeLabel l =>
    obtain ⟨r, h1, h2⟩ := bind_eq_ok h
    cases h2
    obtain ⟨s', lid, e1, -⟩ := intern_ok (k := k) g.edgeLabels l
    simp only [addEdgeLabel, e1, bind_ok, pure_ok] at h1
    cases h1
    exact hz
  | refineEdgeCount =>
    cases h
    intro hm
    have hm : g.maxId = none := hm
    have hnil := get_nil_of_no_node (g := g) (fun n => by
      by_contra h
      obtain ⟨M, hM, -⟩ := hg.maxBound n (by simpa using h)
      rw [hm] at hM; cases hM)
    simp [refineEdgeCount, edgeIndices, hnil, AL.values]
  | setNodeLabelId n l =>
    by_cases hn : g.hasNode n = true
    · obtain ⟨g1, h1, h2, h3, -⟩ := setNodeLabelId_spec hg.toNWF n l hn
      have h : g.setNodeLabelId n l = .ok g' := h
      rw [h1] at h; cases h
      exact rest h3.rest
    · exfalso
      have hn : AL.get g.nodeMap n = none := by simpa [hasNode] using hn
      simp [apply, setNodeLabelId, hn] at h
  | setEdgeLabelId s t l =>
    by_cases hn : g.hasEdge s t = true
    · obtain ⟨g1, h1, h2, h3, -⟩ := setEdgeLabelId_spec hg.toNWF s t l hn
      have h : g.setEdgeLabelId s t l = .ok g' := h
      rw [h1] at h; cases h
      exact rest h3.rest
    · exfalso
      simp [apply, setEdgeLabelId, hn] at h
  | mapNodeLabelIds f =>
    cases h
    exact rest (mapNodeLabelIds_spec hg.toNWF f).2.1.rest
  | mapEdgeLabelIds f =>
    cases h
    exact rest (mapEdgeLabelIds_spec hg.toNWF f).2.1.rest

/-- The graphs that calls on a new graph make. -/
theorem made_iff (g : GraphMap m k NL EL) : Made g ↔ g.Inv ∧ (g.maxId = none → g.numEdges = 0) := by
  refine ⟨?_, fun h => made_of_inv _ h.1 h.2 rfl⟩
  rintro ⟨ops, h⟩
  generalize hd : g.directed = d at h
  clear hd
  induction h with
  | nil => exact ⟨inv_withLabelMap d _ _ List.nodup_nil List.nodup_nil, fun _ => rfl⟩
  | step _ h ih => exact ⟨inv_apply ih.1 h, unseen_apply ih.1 h ih.2⟩
  | rehash _ hp ih => exact ⟨inv_rehash ih.1 hp, ih.2⟩

end Verif.GraphMap

namespace Verif.Codec

open Verif.Spec

variable {m k w v : Nat} {NL EL : Type} [DecidableEq NL] [DecidableEq EL]

/-- What is read as a graph has proper collections. -/
theorem graphMap_proper (hw : m + 1 = 256 ^ w) (hv : k + 1 = 256 ^ v) {nl : Codec NL} {el : Codec EL}
    (hnl : nl.Closed) (hel : el.Closed) {d : Bool} {p : List Byte} {x : GraphMap m k NL EL} {r : List Byte}
    (h : (graphMap (m := m) (k := k) w v nl el d).get p = some (x, r)) : x.directed = d ∧ Proper x := by
  simp only [graphMap, Option.bind_eq_bind, Option.bind_eq_some_iff, Option.pure_def, Option.some.injEq,
    Prod.mk.injEq] at h
  obtain ⟨a, ha, b, hb, c, hc, e, he, f, hf, rfl, -⟩ := h
  obtain ⟨a1, a2, a3⟩ := hmap_get (ident_closed hw) (nodeMap_closed hw hv) ha
  have key : ∀ q ∈ a.1, (AL.keys q.2.neighbors).Pairwise (· < ·) ∧ q.2.inNeighbors.Pairwise (· < ·) := by
    intro q hq
    have h := (a2 q hq).2 []
    simp only [nodeMap, Option.bind_eq_bind, Option.bind_eq_some_iff, Option.pure_def, Option.some.injEq,
      Prod.mk.injEq] at h
    obtain ⟨_, -, _, -, c, hc, d, hd, h, -⟩ := h
    rw [← h]
    exact ⟨(bmap_get (ident_closed hw) (opt_closed (ident_closed hv)) hc).2.2,
      (bset_get (ident_closed hw) hd).2.2⟩
  exact ⟨rfl, a3, fun q hq => (key q hq).1, fun q hq => (key q hq).2, (setMap_get hnl hc).2.2,
    (setMap_get hel he).2.2⟩

end Verif.Codec
