import Verif.Proof.GraphMap
import Verif.Proof.SpecGraph

/-! The effect of each `GraphMap` mutator on the flat views, and the invariant. -/

namespace Verif

open Spec

namespace GraphMap

variable {m k : Nat} {NL EL : Type}

/-- The graph with label ids for labels, as an abstract graph. -/
def rep (g : GraphMap m k NL EL) : AGraph (Id m) (Id k) (Id k) := ⟨g.labE, g.outE⟩

theorem AGraph_ext {I A B : Type} {g h : AGraph I A B} (h1 : ∀ n, g.node n = h.node n)
    (h2 : ∀ s t, g.edge s t = h.edge s t) : g = h := by
  cases g; cases h
  simp only [AGraph.mk.injEq]
  exact ⟨funext h1, funext fun s => funext (h2 s)⟩

/-- The number of edges of the graph, seen abstractly. -/
def edgeNum (g : GraphMap m k NL EL) : Nat := g.rep.edgeNumber g.directed

theorem addNode_spec [DecidableEq NL] {g : GraphMap m k NL EL} (hg : g.NWF) (id : Id m)
    (label : Option NL) :
    ∃ g' nl lid, intern (k := k) g.nodeLabels label = .ok (nl, lid) ∧
      g.addNode id label = .ok (g', !g.hasNode id) ∧ g'.NWF ∧
      g'.directed = g.directed ∧ g'.numEdges = g.numEdges ∧ g'.nodeLabels = nl ∧
      g'.edgeLabels = g.edgeLabels ∧
      g'.maxId = (if g.hasNode id then g.maxId else bumpMax g.maxId id) ∧
      g'.rep = g.rep.addNode id lid ∧ (∀ b a, g'.inE b a ↔ g.inE b a) := by
  obtain ⟨nl, lid, hi, -⟩ := intern_ok (k := k) g.nodeLabels label
  have hg1 : NWF { g with nodeLabels := nl } := ⟨hg.keys, hg.ids, hg.sortedOut, hg.sortedIn⟩
  by_cases h : g.hasNode id = true
  · have h1 : ({ g with nodeLabels := nl } : GraphMap m k NL EL).hasNode id = true := h
    refine ⟨({ g with nodeLabels := nl } : GraphMap m k NL EL).modNode id
      (fun nd => nd.setLabelId lid), nl, lid, hi, ?_, ?_, ?_, ?_, ?_, ?_, ?_, ?_, ?_⟩
    · simp only [addNode, hi, bind_ok, h1, if_true, withNode_eq _ h1, pure_ok, h, Bool.not_true]
    · exact nwf_modNode hg1 id (fun _ => rfl) (fun _ h => h) (fun _ h => h)
    · simp
    · simp
    · simp
    · simp
    · simp [h]
    · apply AGraph_ext
      · intro x
        simp only [rep, AGraph.addNode, labE, getNode_modNode]
        by_cases hx : id = x
        · subst hx
          obtain ⟨nd, hnd⟩ := (hasNode_iff _ _).1 h1
          simp [hnd, NodeMap.setLabelId]
        · simp [hx, Ne.symm hx]; rfl
      · intro a b
        exact outE_modNode _ id (f := fun nd => nd.setLabelId lid) (fun _ => rfl) a b
    · intro b a
      exact inE_modNode _ id (f := fun nd => nd.setLabelId lid) (fun _ => rfl) b a
  · have h := Bool.eq_false_iff.2 h
    have h1 : ({ g with nodeLabels := nl } : GraphMap m k NL EL).hasNode id = false := h
    refine ⟨({ g with nodeLabels := nl } : GraphMap m k NL EL).insNode id lid,
      nl, lid, hi, ?_, nwf_insNode hg1 id lid, rfl, rfl, rfl, rfl, ?_, ?_, ?_⟩
    · simp only [addNode, hi, bind_ok, h1, pure_ok, h, Bool.not_false]
      rfl
    · simp [h, insNode]
    · apply AGraph_ext
      · intro x
        exact labE_insNode _ id lid x
      · intro a b
        exact outE_insNode _ id lid h1 a b
    · intro b a
      exact inE_insNode _ id lid h1 b a

theorem ensureNode_spec [DecidableEq NL] {g : GraphMap m k NL EL} (hg : g.NWF) (n : Id m) :
    ∃ g', g.ensureNode n = .ok g' ∧ g'.NWF ∧
      g'.directed = g.directed ∧ g'.numEdges = g.numEdges ∧ g'.nodeLabels = g.nodeLabels ∧
      g'.edgeLabels = g.edgeLabels ∧
      g'.maxId = (if g.hasNode n then g.maxId else bumpMax g.maxId n) ∧
      (∀ x, g'.labE x = if x = n ∧ g.labE x = none then some none else g.labE x) ∧
      (∀ a b, g'.outE a b = g.outE a b) ∧ (∀ b a, g'.inE b a ↔ g.inE b a) ∧
      (∀ x, g'.hasNode x = (g.hasNode x || decide (x = n))) := by
  have hlast : ∀ (g' : GraphMap m k NL EL),
      (∀ x, g'.labE x = if x = n ∧ g.labE x = none then some none else g.labE x) →
      (∀ x, g'.hasNode x = (g.hasNode x || decide (x = n))) := by
    intro g' h x
    rw [hasNode_eq_labE, hasNode_eq_labE, h]
    by_cases hx : x = n
    · subst hx; cases g.labE x <;> simp
    · simp [hx]
  by_cases h : g.hasNode n = true
  · have hl : ∀ x, g.labE x = if x = n ∧ g.labE x = none then some none else g.labE x := by
      intro x
      split
      · rename_i hx
        obtain ⟨rfl, hx⟩ := hx
        rw [hasNode_eq_labE, hx] at h
        simp at h
      · rfl
    exact ⟨g, by simp [ensureNode, h, pure_ok], hg, rfl, rfl, rfl, rfl, by simp [h], hl,
      fun _ _ => rfl, fun _ _ => Iff.rfl, hlast g hl⟩
  · have h := Bool.eq_false_iff.2 h
    obtain ⟨g', nl, lid, hi, h1, h2, h3, h4, h5, h6, h7, h8, h9⟩ := addNode_spec hg n none
    rw [intern_none] at hi
    cases hi
    have hl : ∀ x, g'.labE x = if x = n ∧ g.labE x = none then some none else g.labE x := by
      intro x
      have := congrArg (fun r => r.node x) h8
      simp only [rep, AGraph.addNode] at this
      rw [this]
      by_cases hx : x = n
      · subst hx
        rw [hasNode_eq_labE] at h
        have : g.labE x = none := by simpa using h
        simp [this]
      · simp [hx]
    refine ⟨g', by simp [ensureNode, h, h1, bind_ok, pure_ok], h2, h3, h4, h5, h6, h7, hl, ?_, h9,
      hlast g' hl⟩
    intro a b
    exact congrArg (fun r => r.edge a b) h8

/-- The high-water mark after ensuring that `n` is present. -/
def seen (g : GraphMap m k NL EL) (mx : Option (Id m)) (n : Id m) : Option (Id m) :=
  if g.hasNode n then mx else bumpMax mx n

theorem addEdge_spec [DecidableEq NL] [DecidableEq EL] {g : GraphMap m k NL EL} (hg : g.NWF)
    (s t : Id m) (label : Option EL) :
    ∃ g' el lid, intern (k := k) g.edgeLabels label = .ok (el, lid) ∧
      g.addEdge s t label = .ok (g', !g.hasEdge s t) ∧ g'.NWF ∧
      g'.directed = g.directed ∧ g'.numEdges = g.numEdges + 1 ∧ g'.nodeLabels = g.nodeLabels ∧
      g'.edgeLabels = el ∧
      g'.maxId = (if t = s then g.seen g.maxId s else g.seen (g.seen g.maxId s) t) ∧
      g'.rep = g.rep.addEdge g.directed s t lid ∧
      (∀ b a, g'.inE b a ↔ (g.directed = true ∧ b = t ∧ a = s) ∨ g.inE b a) := by
  obtain ⟨g1, a1, a2, a3, a4, a5, a6, a7, a8, a9, a10, a11⟩ := ensureNode_spec hg s
  obtain ⟨g2, b1, b2, b3, b4, b5, b6, b7, b8, b9, b10, b11⟩ := ensureNode_spec a2 t
  have hel : g2.edgeLabels = g.edgeLabels := b6.trans a6
  obtain ⟨el, lid, hi, -⟩ := intern_ok (k := k) g.edgeLabels label
  -- the graph with the new label map
  have hg3 : NWF ({ g2 with edgeLabels := el } : GraphMap m k NL EL) :=
    ⟨b2.keys, b2.ids, b2.sortedOut, b2.sortedIn⟩
  have hs3 : ({ g2 with edgeLabels := el } : GraphMap m k NL EL).hasNode s = true := by
    show g2.hasNode s = true
    simp [b11, a11]
  have ht3 : ({ g2 with edgeLabels := el } : GraphMap m k NL EL).hasNode t = true := by
    show g2.hasNode t = true
    simp [b11]
  have hout3 : ∀ a b, ({ g2 with edgeLabels := el } : GraphMap m k NL EL).outE a b = g.outE a b := by
    intro a b
    show g2.outE a b = _
    rw [b9, a9]
  have hin3 : ∀ a b, ({ g2 with edgeLabels := el } : GraphMap m k NL EL).inE a b ↔ g.inE a b := by
    intro a b
    show g2.inE a b ↔ _
    rw [b10, a10]
  have hlab3 : ∀ x, ({ g2 with edgeLabels := el } : GraphMap m k NL EL).labE x =
      if (x = s ∨ x = t) ∧ g.labE x = none then some none else g.labE x := by
    intro x
    show g2.labE x = _
    rw [b8, a8]
    by_cases hxs : x = s <;> by_cases hxt : x = t <;> cases h : g.labE x <;> simp [hxs, hxt]
  have hdir3 : ({ g2 with edgeLabels := el } : GraphMap m k NL EL).directed = g.directed :=
    b3.trans a3
  have hmax3 : ({ g2 with edgeLabels := el } : GraphMap m k NL EL).maxId =
      (if t = s then g.seen g.maxId s else g.seen (g.seen g.maxId s) t) := by
    show g2.maxId = _
    rw [b7, a7, a11]
    by_cases h : t = s
    · simp [h, seen]
    · simp [h, seen]
  have hnum3 : ({ g2 with edgeLabels := el } : GraphMap m k NL EL).numEdges = g.numEdges :=
    b4.trans a4
  have hnl3 : ({ g2 with edgeLabels := el } : GraphMap m k NL EL).nodeLabels = g.nodeLabels :=
    b5.trans a5
  have hunf : g.addEdge s t label = (do
      let nd ← unwrap (AL.get ({ g2 with edgeLabels := el } : GraphMap m k NL EL).nodeMap s)
      let g ← ({ g2 with edgeLabels := el } : GraphMap m k NL EL).withNode s
        (fun nd => (nd.addEdge t lid).1)
      let g ← g.addEdgeTarget s t lid
      pure ({ g with numEdges := g.numEdges + 1 }, (nd.addEdge t lid).2)) := by
    simp only [addEdge, a1, bind_ok, b1, hel, hi]
  generalize hG : ({ g2 with edgeLabels := el } : GraphMap m k NL EL) = g3 at *
  have hel3 : g3.edgeLabels = el := by rw [← hG]
  obtain ⟨nd, hnd⟩ := (hasNode_iff _ _).1 hs3
  have hnd' : AL.get g3.nodeMap s = some nd := hnd
  have hres : (nd.addEdge t lid).2 = !g.hasEdge s t := by
    have : g.hasEdge s t = g3.hasEdge s t := by rw [hasEdge_eq_outE, hasEdge_eq_outE, hout3]
    rw [this]
    simp [NodeMap.addEdge, hasEdge, hnd]
  rw [hunf, hnd']
  simp only [unwrap, bind_ok, withNode_eq _ hs3, hres]
  have hg4 := nwf_mAddEdge hg3 s t lid
  have hout4 := outE_mAddEdge g3 s t lid hs3
  have hlab4 := labE_modNode g3 s (f := fun nd => (nd.addEdge t lid).1) (fun _ => rfl)
  have hin4 := inE_modNode g3 s (f := fun nd => (nd.addEdge t lid).1) (fun _ => rfl)
  have hsame4 := sameRest_modNode g3 s (fun nd => (nd.addEdge t lid).1)
  have ht4 : (g3.modNode s (fun nd => (nd.addEdge t lid).1)).hasNode t = true := by
    rw [hasNode_modNode]; exact ht3
  generalize g3.modNode s (fun nd => (nd.addEdge t lid).1) = g4 at *
  -- the last step
  have last : ∃ g5 : GraphMap m k NL EL,
      g4.addEdgeTarget s t lid = .ok g5 ∧ g5.NWF ∧ SameRest g4 g5 ∧
      (∀ x, g5.labE x = g4.labE x) ∧
      (∀ a b, g5.outE a b = if AGraph.same g.directed s t a b then some lid else g.outE a b) ∧
      (∀ b a, g5.inE b a ↔ (g.directed = true ∧ b = t ∧ a = s) ∨ g.inE b a) := by
    unfold addEdgeTarget
    rw [show g4.directed = g.directed from hsame4.directed.trans hdir3]
    cases hd : g.directed with
    | true =>
      refine ⟨_, by rw [if_pos rfl, withNode_eq _ ht4], nwf_mAddIn hg4 t s,
        sameRest_modNode _ _ _, ?_, ?_, ?_⟩
      · intro x
        apply labE_modNode
        intro nd; unfold NodeMap.addInEdge; split <;> rfl
      · intro a b
        rw [outE_modNode, hout4, hout3]
        · simp [AGraph.same]
        · intro nd; unfold NodeMap.addInEdge; split <;> rfl
      · intro b a
        rw [inE_mAddIn _ _ _ ht4, hin4, hin3]
        simp
    | false =>
      by_cases hst : s = t
      · subst hst
        refine ⟨g4, by simp [pure_ok], hg4, SameRest.rfl _, fun _ => rfl, ?_, ?_⟩
        · intro a b
          rw [hout4, hout3]
          simp [AGraph.same]
        · intro b a
          rw [hin4, hin3]; simp
      · refine ⟨_, by rw [if_neg (by simp), if_pos hst, withNode_eq _ ht4],
          nwf_mAddEdge hg4 t s lid, sameRest_modNode _ _ _, ?_, ?_, ?_⟩
        · intro x
          apply labE_modNode
          intro nd; rfl
        · intro a b
          rw [outE_mAddEdge _ _ _ _ ht4, hout4, hout3]
          simp only [AGraph.same, true_and]
          by_cases h1 : a = s ∧ b = t <;> by_cases h2 : a = t ∧ b = s <;> simp [h1, h2]
        · intro b a
          rw [inE_modNode, hin4, hin3]
          · simp
          · intro nd; rfl
  obtain ⟨g5, w0, w1, w2, w3, w4, w5⟩ := last
  rw [w0, bind_ok]
  have w2 := hsame4.trans w2
  refine ⟨_, el, lid, hi, rfl, ⟨w1.keys, w1.ids, w1.sortedOut, w1.sortedIn⟩,
    w2.directed.trans hdir3, ?_, w2.nodeLabels.trans hnl3, w2.edgeLabels.trans hel3,
    w2.maxId.trans hmax3, ?_, w5⟩
  · show g5.numEdges + 1 = _
    rw [w2.numEdges, hnum3]
  · apply AGraph_ext
    · intro x
      show g5.labE x = _
      rw [w3, hlab4, hlab3]; rfl
    · intro a b
      exact w4 a b

/-! ### Invariant -/

/-- The representation invariant of a `GraphMap`. -/
structure Inv (g : GraphMap m k NL EL) : Prop extends NWF g where
  target : ∀ s t, (g.outE s t).isSome → g.hasNode t = true
  inSpec : g.directed = true → ∀ s t, g.inE t s ↔ (g.outE s t).isSome
  inNil : g.directed = false → ∀ t s, ¬ g.inE t s
  sym : g.rep.Sym g.directed
  count : g.edgeNum ≤ g.numEdges
  nlNodup : g.nodeLabels.labels.Nodup
  elNodup : g.edgeLabels.labels.Nodup
  maxBound : ∀ n, g.hasNode n = true → ∃ M, g.maxId = some M ∧ n ≤ M

theorem removeEdge_spec {g : GraphMap m k NL EL} (hg : g.Inv) (s t : Id m) :
    ∃ g', g.removeEdge s t = .ok (g', (g.outE s t).map (fun l => ⟨s, t, l⟩)) ∧ g'.NWF ∧
      g'.directed = g.directed ∧ g'.nodeLabels = g.nodeLabels ∧ g'.edgeLabels = g.edgeLabels ∧
      g'.maxId = g.maxId ∧
      g'.numEdges + (if g.hasEdge s t then 1 else 0) = g.numEdges ∧
      (g.hasEdge s t = false → g' = g) ∧
      g'.rep = g.rep.removeEdge g.directed s t ∧
      (∀ b a, g'.inE b a ↔ ¬ (g.directed = true ∧ b = t ∧ a = s) ∧ g.inE b a) := by
  by_cases h : g.hasEdge s t = true
  · have ho : (g.outE s t).isSome := by rw [← hasEdge_eq_outE]; exact h
    have hs := outE_hasNode ho
    have ht := hg.target s t ho
    obtain ⟨nd, hnd⟩ := (hasNode_iff _ _).1 hs
    have hnd' : AL.get g.nodeMap s = some nd := hnd
    have hedge : (nd.removeEdge t).2 = (g.outE s t).map (fun l => ⟨s, t, l⟩) := by
      have : g.outE s t = AL.get nd.neighbors t := by simp [outE, hnd]
      rw [this]
      unfold NodeMap.removeEdge
      rw [hg.ids s nd hnd]
      cases AL.get nd.neighbors t <;> rfl
    have hpos : 1 ≤ g.numEdges := by
      have := AGraph.edgeNumber_removeEdge g.directed g.rep hg.sym s t ho
      have := hg.count
      unfold edgeNum at this
      omega
    have hg1 := nwf_mRemEdge hg.toNWF s t
    have hlab1 := labE_modNode g s (f := fun nd => (nd.removeEdge t).1)
      (fun nd => by rw [NodeMap_removeEdge_fst])
    have hout1 := outE_mRemEdge g s t
    have hin1 := inE_modNode g s (f := fun nd => (nd.removeEdge t).1)
      (fun nd => by rw [NodeMap_removeEdge_fst])
    have hsame1 := sameRest_modNode g s (fun nd => (nd.removeEdge t).1)
    have ht1 : (g.modNode s (fun nd => (nd.removeEdge t).1)).hasNode t = true := by
      rw [hasNode_modNode]; exact ht
    have hunf : g.removeEdge s t = (do
        let g' ← (g.modNode s (fun nd => (nd.removeEdge t).1)).removeEdgeTarget s t
        if g'.numEdges < 1 then .error .underflow
        else pure ({ g' with numEdges := g'.numEdges - 1 }, (nd.removeEdge t).2)) := by
      simp only [removeEdge, h, Bool.not_true, Bool.false_eq_true, if_false, hnd', unwrap, bind_ok,
        withNode_eq _ hs]
    rw [hunf, hedge]
    clear hunf
    generalize g.modNode s (fun nd => (nd.removeEdge t).1) = g1 at *
    have last : ∃ g2 : GraphMap m k NL EL, g1.removeEdgeTarget s t = .ok g2 ∧ g2.NWF ∧
        SameRest g1 g2 ∧ (∀ x, g2.labE x = g1.labE x) ∧
        (∀ a b, g2.outE a b = if AGraph.same g.directed s t a b then none else g.outE a b) ∧
        (∀ b a, g2.inE b a ↔ ¬ (g.directed = true ∧ b = t ∧ a = s) ∧ g.inE b a) := by
      unfold removeEdgeTarget
      rw [hsame1.directed]
      cases hd : g.directed with
      | true =>
        refine ⟨_, by rw [if_pos rfl, withNode_eq _ ht1], nwf_mRemIn hg1 t s,
          sameRest_modNode _ _ _, ?_, ?_, ?_⟩
        · intro x; apply labE_modNode; intro nd; rfl
        · intro a b
          rw [outE_modNode, hout1]
          · simp [AGraph.same]
          · intro nd; rfl
        · intro b a
          rw [inE_mRemIn, hin1]; simp
      | false =>
        refine ⟨_, by rw [if_neg (by simp), withNode_eq _ ht1], nwf_mRemEdge hg1 t s,
          sameRest_modNode _ _ _, ?_, ?_, ?_⟩
        · intro x; apply labE_modNode; intro nd; rw [NodeMap_removeEdge_fst]
        · intro a b
          rw [outE_mRemEdge, hout1]
          simp only [AGraph.same, true_and]
          by_cases h1 : a = s ∧ b = t <;> by_cases h2 : a = t ∧ b = s <;> simp [h1, h2]
        · intro b a
          rw [inE_modNode, hin1]
          · simp
          · intro nd; rw [NodeMap_removeEdge_fst]
    obtain ⟨g2, w0, w1, w2, w3, w4, w5⟩ := last
    have w2 := hsame1.trans w2
    have hlt : ¬ g2.numEdges < 1 := by rw [w2.numEdges]; omega
    rw [w0, bind_ok, if_neg hlt]
    refine ⟨_, rfl, ⟨w1.keys, w1.ids, w1.sortedOut, w1.sortedIn⟩, w2.directed, w2.nodeLabels,
      w2.edgeLabels, w2.maxId, ?_, by simp [h], ?_, w5⟩
    · have := w2.numEdges
      simp only [h, if_true]
      omega
    · apply AGraph_ext
      · intro x
        show g2.labE x = _
        rw [w3, hlab1]; rfl
      · intro a b
        exact w4 a b
  · have h := Bool.eq_false_iff.2 h
    have ho : g.outE s t = none := by rw [hasEdge_eq_outE] at h; simpa using h
    refine ⟨g, by simp [removeEdge, h, ho, pure_ok], hg.toNWF, rfl, rfl, rfl, rfl, by simp [h],
      fun _ => rfl, ?_, ?_⟩
    · apply AGraph_ext
      · intro x; rfl
      · intro a b
        show g.outE a b = if AGraph.same g.directed s t a b then none else g.outE a b
        split
        · rename_i hs
          rcases hs with ⟨rfl, rfl⟩ | ⟨hd, rfl, rfl⟩
          · exact ho
          · by_contra hne
            have h1 : (g.outE a b).isSome := by
              cases hx : g.outE a b with
              | none => exact absurd hx hne
              | some l => simp
            have h2 := hg.sym hd a b h1
            have h2 : (g.outE b a).isSome := h2
            rw [ho] at h2; simp at h2
        · rfl
    · intro b a
      constructor
      · intro hin
        refine ⟨?_, hin⟩
        rintro ⟨hd, rfl, rfl⟩
        have := (hg.inSpec hd a b).1 hin
        rw [ho] at this; simp at this
      · exact fun h => h.2

theorem mem_neighborIds_iff {g : GraphMap m k NL EL} {n : Id m} {nd : NodeMap m k}
    (hnd : g.getNode n = some nd) (t : Id m) : t ∈ nd.neighborIds ↔ (g.outE n t).isSome := by
  rw [NodeMap.neighborIds, ← AL.get_isSome_iff]
  simp [outE, hnd]

theorem mem_inNeighbors_iff {g : GraphMap m k NL EL} {n : Id m} {nd : NodeMap m k}
    (hnd : g.getNode n = some nd) (s : Id m) : s ∈ nd.inNeighborIds ↔ g.inE n s := by
  simp [inE, hnd, NodeMap.inNeighborIds]

theorem length_eq_card {I : Type} [DecidableEq I] [Fintype I] (l : List I) (hn : l.Nodup)
    (p : I → Prop) [DecidablePred p] (h : ∀ x, x ∈ l ↔ p x) :
    l.length = (Finset.univ.filter p).card := by
  rw [← List.toFinset_card_of_nodup hn]
  congr 1
  ext x
  simp [h]

theorem degree_eq {g : GraphMap m k NL EL} (hg : g.NWF) {n : Id m} {nd : NodeMap m k}
    (hnd : g.getNode n = some nd) :
    nd.degree = (Finset.univ.filter (fun t => (g.outE n t).isSome)).card := by
  have : nd.degree = nd.neighborIds.length := by simp [NodeMap.degree, NodeMap.neighborIds, AL.keys]
  rw [this]
  exact length_eq_card _ (sorted_nodup (hg.sortedOut n nd hnd)) _ (mem_neighborIds_iff hnd)

theorem inDegree_eq {g : GraphMap m k NL EL} (hg : g.Inv) {n : Id m} {nd : NodeMap m k}
    (hnd : g.getNode n = some nd) :
    nd.inDegree = if g.directed = true then
      (Finset.univ.filter (fun s => (g.outE s n).isSome)).card else 0 := by
  cases hd : g.directed with
  | true =>
    rw [if_pos rfl]
    exact length_eq_card _ (sorted_nodup (hg.sortedIn n nd hnd)) _
      (fun s => (mem_inNeighbors_iff hnd s).trans (hg.inSpec hd s n))
  | false =>
    rw [if_neg (by simp)]
    unfold NodeMap.inDegree
    rw [List.length_eq_zero_iff, List.eq_nil_iff_forall_not_mem]
    intro s hs
    exact hg.inNil hd n s ⟨nd, hnd, hs⟩

/-- `remove_node` on a node without self loop. -/
theorem removeNode_spec {g : GraphMap m k NL EL} (hg : g.Inv) (id : Id m)
    (hloop : g.hasEdge id id = false) :
    ∃ g', g.removeNode id = .ok (g', g.getNode id) ∧ g'.NWF ∧
      g'.directed = g.directed ∧ g'.nodeLabels = g.nodeLabels ∧ g'.edgeLabels = g.edgeLabels ∧
      g'.maxId = g.maxId ∧
      g'.numEdges + g.edgeNum = g.numEdges + g'.edgeNum ∧
      (g.hasNode id = false → g' = g) ∧
      g'.rep = g.rep.removeNode id ∧
      (∀ b a, g'.inE b a ↔ b ≠ id ∧ a ≠ id ∧ g.inE b a) := by
  cases hnd : g.getNode id with
  | none =>
    have hnd' : AL.get g.nodeMap id = none := hnd
    have hh : g.hasNode id = false := by simp [hasNode, hnd']
    refine ⟨g, by simp [removeNode, hnd', pure_ok], hg.toNWF, rfl, rfl, rfl, rfl, rfl, fun _ => rfl, ?_, ?_⟩
    · apply AGraph_ext
      · intro x
        show g.labE x = if x = id then none else g.labE x
        split
        · rename_i h; subst h; simp [labE, hnd]
        · rfl
      · intro a b
        show g.outE a b = if a = id ∨ b = id then none else g.outE a b
        split
        · rename_i h
          rcases h with rfl | rfl
          · simp [outE, hnd]
          · by_contra hne
            have : (g.outE a b).isSome := by
              cases hx : g.outE a b with
              | none => exact absurd hx hne
              | some l => simp
            have := hg.target a b this
            rw [hh] at this; cases this
        · rfl
    · intro b a
      constructor
      · intro hin
        refine ⟨?_, ?_, hin⟩
        · rintro rfl
          obtain ⟨nd, h, -⟩ := hin
          rw [hnd] at h; cases h
        · rintro rfl
          cases hd : g.directed with
          | true =>
            have := outE_hasNode ((hg.inSpec hd a b).1 hin)
            rw [hh] at this; cases this
          | false => exact hg.inNil hd b a hin
      · exact fun h => h.2.2
  | some node =>
    have hnd' : AL.get g.nodeMap id = some node := hnd
    have hhas : g.hasNode id = true := (hasNode_iff g id).2 ⟨node, hnd⟩
    have hloop' : (g.outE id id).isSome = false := by rw [← hasEdge_eq_outE]; exact hloop
    have hdeg := degree_eq hg.toNWF hnd
    have hind := inDegree_eq hg hnd
    have hout := mem_neighborIds_iff hnd
    have hin := mem_inNeighbors_iff hnd
    have hg1 := nwf_delNode hg.toNWF id
    have hlab1 := labE_delNode g id
    have hout1 := outE_delNode g id
    have hin1 := inE_delNode g id
    have hhas1 : ∀ x, x ≠ id → (g.delNode id).hasNode x = g.hasNode x := by
      intro x hx
      rw [hasNode_eq_labE, hasNode_eq_labE, hlab1, if_neg hx]
    have hnb : ∀ t ∈ node.neighborIds, (g.delNode id).hasNode t = true := by
      intro t ht
      have h1 := (hout t).1 ht
      rw [hhas1]
      · exact hg.target id t h1
      · rintro rfl; rw [hloop'] at h1; cases h1
    have last : ∃ g2 : GraphMap m k NL EL, (g.delNode id).unlink node id = .ok g2 ∧ g2.NWF ∧
        SameRest (g.delNode id) g2 ∧ (∀ x, g2.labE x = (g.delNode id).labE x) ∧
        (∀ a b, g2.outE a b = if a = id ∨ b = id then none else g.outE a b) ∧
        (∀ b a, g2.inE b a ↔ b ≠ id ∧ a ≠ id ∧ g.inE b a) := by
      unfold unlink
      rw [show (g.delNode id).directed = g.directed from rfl]
      cases hd : g.directed with
      | true =>
        rw [if_pos rfl, foldlM_withNode _ _ hnb, bind_ok]
        obtain ⟨u1, u2, u3, u4⟩ := remIn_foldl id node.neighborIds _ hg1
        have u5 := sameRest_foldl node.neighborIds (fun nd => nd.removeInEdge id) (g.delNode id)
        have u6 := hasNode_foldl node.neighborIds (fun nd => nd.removeInEdge id) (g.delNode id)
        generalize node.neighborIds.foldl (fun g n => g.modNode n (fun nd => nd.removeInEdge id))
          (g.delNode id) = g1 at *
        have hnb2 : ∀ t ∈ node.inNeighborIds, g1.hasNode t = true := by
          intro t ht
          have h1 := (hg.inSpec hd t id).1 ((hin t).1 ht)
          rw [u6, hhas1]
          · exact outE_hasNode h1
          · rintro rfl; rw [hloop'] at h1; cases h1
        rw [foldlM_withNode _ _ hnb2]
        obtain ⟨v1, v2, v3, v4⟩ := remOut_foldl id node.inNeighborIds _ u1
        have v5 := sameRest_foldl node.inNeighborIds (fun nd => (nd.removeEdge id).1) g1
        refine ⟨_, rfl, v1, u5.trans v5, ?_, ?_, ?_⟩
        · intro x; rw [v2, u2]
        · intro a b
          rw [v3, u3, hout1]
          by_cases ha : a = id
          · simp [ha]
          · by_cases hb : b = id
            · subst hb
              by_cases hm : a ∈ node.inNeighborIds
              · simp [hm]
              · have : ¬ (g.outE a b).isSome := fun h' =>
                  hm ((hin a).2 ((hg.inSpec hd a b).2 h'))
                simp only [Option.not_isSome_iff_eq_none] at this
                simp [this]
            · simp [ha, hb]
        · intro b a
          rw [v4, u4, hin1]
          constructor
          · rintro ⟨h1, h2, h3⟩
            refine ⟨h2, ?_, h3⟩
            rintro rfl
            exact h1 ⟨(hout b).2 ((hg.inSpec hd a b).1 h3), rfl⟩
          · rintro ⟨h1, h2, h3⟩
            exact ⟨fun h => h2 h.2, h1, h3⟩
      | false =>
        rw [if_neg (by simp), foldlM_withNode _ _ hnb]
        obtain ⟨v1, v2, v3, v4⟩ := remOut_foldl id node.neighborIds _ hg1
        have v5 := sameRest_foldl node.neighborIds (fun nd => (nd.removeEdge id).1) (g.delNode id)
        refine ⟨_, rfl, v1, v5, v2, ?_, ?_⟩
        · intro a b
          rw [v3, hout1]
          by_cases ha : a = id
          · simp [ha]
          · by_cases hb : b = id
            · subst hb
              by_cases hm : a ∈ node.neighborIds
              · simp [hm]
              · have : ¬ (g.outE a b).isSome := fun h' => hm ((hout a).2 (hg.sym hd a b h'))
                simp only [Option.not_isSome_iff_eq_none] at this
                simp [this]
            · simp [ha, hb]
        · intro b a
          rw [v4, hin1]
          constructor
          · rintro ⟨h1, h2⟩
            exact absurd h2 (hg.inNil hd b a)
          · rintro ⟨h1, h2, h3⟩
            exact ⟨h1, h3⟩
    obtain ⟨g2, w0, w1, w2, w3, w4, w5⟩ := last
    have hrep : g2.rep = g.rep.removeNode id := by
      apply AGraph_ext
      · intro x
        show g2.labE x = _
        rw [w3, hlab1]; rfl
      · intro a b
        exact w4 a b
    have hnum := AGraph.edgeNumber_removeNode g.directed g.rep hg.sym id hloop'
    have e1 : g2.edgeNum = AGraph.edgeNumber g.directed (g.rep.removeNode id) := by
      unfold edgeNum
      rw [hrep, show g2.directed = g.directed from w2.directed]
    have e2 : g.edgeNum = g.rep.edgeNumber g.directed := rfl
    have hnum : g2.edgeNum + (node.degree + node.inDegree) = g.edgeNum := by
      rw [e1, e2, hdeg, hind, ← hnum, ← add_assoc]
      rfl
    have hcount := hg.count
    have hne : g2.numEdges = g.numEdges := w2.numEdges
    have hlt : ¬ g2.numEdges < node.degree + node.inDegree := by omega
    have hunf : g.removeNode id = (do
        let g ← (g.delNode id).unlink node id
        if g.numEdges < node.degree + node.inDegree then .error .underflow
        else pure ({ g with numEdges := g.numEdges - (node.degree + node.inDegree) },
          some node)) := by
      simp only [removeNode, hnd']
      rfl
    rw [hunf, w0, bind_ok, if_neg hlt]
    refine ⟨_, rfl, ⟨w1.keys, w1.ids, w1.sortedOut, w1.sortedIn⟩, w2.directed, w2.nodeLabels,
      w2.edgeLabels, w2.maxId, ?_, by simp [hhas], hrep, w5⟩
    show g2.numEdges - _ + g.edgeNum = g.numEdges + g2.edgeNum
    omega

/-- `remove_node` panics on a self loop. -/
theorem removeNode_loop {g : GraphMap m k NL EL} (id : Id m)
    (hloop : g.hasEdge id id = true) : g.removeNode id = .error .unwrapNone := by
  have ho : (g.outE id id).isSome := by rw [← hasEdge_eq_outE]; exact hloop
  obtain ⟨node, hnd⟩ := (hasNode_iff _ _).1 (outE_hasNode ho)
  have hnd' : AL.get g.nodeMap id = some node := hnd
  have hm : id ∈ node.neighborIds := (mem_neighborIds_iff hnd id).2 ho
  have hno : (g.delNode id).hasNode id = false := by
    rw [hasNode_eq_labE, labE_delNode]; simp
  have hunf : g.removeNode id = (do
      let g ← (g.delNode id).unlink node id
      if g.numEdges < node.degree + node.inDegree then .error .underflow
      else pure ({ g with numEdges := g.numEdges - (node.degree + node.inDegree) },
        some node)) := by
    simp only [removeNode, hnd']
    rfl
  rw [hunf]
  have : (g.delNode id).unlink node id = .error .unwrapNone := by
    unfold unlink
    split
    · rw [foldlM_withNode_error _ _ ⟨id, hm, hno⟩, bind_error]
    · rw [foldlM_withNode_error _ _ ⟨id, hm, hno⟩]
  rw [this, bind_error]

end GraphMap

end Verif
