import Verif.Model.Checked
import Verif.Proof.Caught
import Verif.Spec.Sound

/-! Calls on graphs whose records need not fit together. -/

namespace Verif.GraphMap

open Spec

variable {m k : Nat} {NL EL : Type}

/-- Sorted maps and sets in a record. -/
structure RecOk (nd : NodeMap m k) : Prop where
  out : (AL.keys nd.neighbors).Pairwise (· < ·)
  inn : nd.inNeighbors.Pairwise (· < ·)

/-- `Proper`, by lookups. -/
structure Fair (g : GraphMap m k NL EL) : Prop where
  keys : (AL.keys g.nodeMap).Nodup
  recs : ∀ n nd, g.getNode n = some nd → RecOk nd
  nl : g.nodeLabels.labels.Nodup
  el : g.edgeLabels.labels.Nodup

theorem fair_iff (g : GraphMap m k NL EL) : Proper g ↔ g.Fair := by
  constructor
  · intro h
    exact ⟨h.keys, fun n nd e => ⟨h.neighbors _ (AL.get_mem e), h.inNeighbors _ (AL.get_mem e)⟩,
      h.nodeLabels, h.edgeLabels⟩
  · intro h
    have hget : ∀ p ∈ g.nodeMap, g.getNode p.1 = some p.2 := fun p e => AL.get_eq_of_mem h.keys e
    exact ⟨h.keys, fun p e => (h.recs _ _ (hget p e)).out, fun p e => (h.recs _ _ (hget p e)).inn, h.nl, h.el⟩

theorem recOk_addEdge {nd : NodeMap m k} (h : RecOk nd) (t l) : RecOk (nd.addEdge t l).1 :=
  ⟨AL.sorted_binsert h.out t l, h.inn⟩

theorem recOk_addInEdge {nd : NodeMap m k} (h : RecOk nd) (s) : RecOk (nd.addInEdge s) := by
  unfold NodeMap.addInEdge
  split
  · exact h
  · exact ⟨h.out, BSet.sorted_sinsert h.inn s⟩

theorem recOk_removeInEdge {nd : NodeMap m k} (h : RecOk nd) (s) : RecOk (nd.removeInEdge s) :=
  ⟨h.out, BSet.sorted_erase h.inn s⟩

theorem recOk_removeEdge {nd : NodeMap m k} (h : RecOk nd) (s) : RecOk (nd.removeEdge s).1 := by
  unfold NodeMap.removeEdge
  split
  · exact ⟨AL.sorted_erase h.out s, h.inn⟩
  · exact h

theorem Fair.modNode {g : GraphMap m k NL EL} (h : g.Fair) (n : Id m) {f : NodeMap m k → NodeMap m k}
    (hf : ∀ nd, RecOk nd → RecOk (f nd)) : (g.modNode n f).Fair := by
  refine ⟨by rw [keys_modNode]; exact h.keys, ?_, by simpa using h.nl, by simpa using h.el⟩
  intro x nd e
  rw [getNode_modNode] at e
  split at e
  · obtain ⟨nd', e', rfl⟩ := Option.map_eq_some_iff.1 e
    exact hf nd' (h.recs x nd' e')
  · exact h.recs x nd e

theorem Fair.foldMod {f : NodeMap m k → NodeMap m k} (hf : ∀ nd, RecOk nd → RecOk (f nd)) :
    ∀ (ns : List (Id m)) {g : GraphMap m k NL EL}, g.Fair →
      (ns.foldl (fun g n => g.modNode n f) g).Fair
  | [], _, h => h
  | n :: ns, g, h => by
    rw [List.foldl_cons]
    exact Fair.foldMod hf ns (h.modNode n hf)

theorem Fair.withNodes {f : NodeMap m k → NodeMap m k} (hf : ∀ nd, RecOk nd → RecOk (f nd))
    (ns : List (Id m)) {g : GraphMap m k NL EL} (h : g.Fair) : (withNodesCaught f ns g).1.Fair := by
  rw [withNodesCaught_eq]
  exact Fair.foldMod hf _ h

/-- What a loop over nodes leaves alone, and when it panics. -/
theorem withNodes_rest (f : NodeMap m k → NodeMap m k) (ns : List (Id m)) (g : GraphMap m k NL EL) :
    (∀ x, (withNodesCaught f ns g).1.hasNode x = g.hasNode x) ∧
    SameRest g (withNodesCaught f ns g).1 ∧
    ((withNodesCaught f ns g).2 = .ok () ↔ ∀ n ∈ ns, g.hasNode n = true) ∧
    ∀ p, (withNodesCaught f ns g).2 = .error p → p = .unwrapNone := by
  rw [withNodesCaught_eq]
  refine ⟨fun x => hasNode_foldl _ _ _ _, sameRest_foldl _ _ _, ?_, ?_⟩
  · simp only
    split
    · rename_i h; exact ⟨fun _ => h, fun _ => rfl⟩
    · rename_i h; exact ⟨fun e => (by cases e), fun e => absurd e h⟩
  · intro p hp
    simp only at hp
    split at hp
    · cases hp
    · cases hp; rfl

theorem unlink_rest (g : GraphMap m k NL EL) (node : NodeMap m k) (n : Id m) :
    SameRest g (g.unlinkCaught node n).1 ∧
    ((g.unlinkCaught node n).2 = .ok () ↔
      (∀ u ∈ node.neighborIds, g.hasNode u = true) ∧
      (g.directed = true → ∀ u ∈ node.inNeighbors, g.hasNode u = true)) ∧
    (∀ p, (g.unlinkCaught node n).2 = .error p → p = .unwrapNone) ∧
    (g.Fair → (g.unlinkCaught node n).1.Fair) := by
  unfold unlinkCaught
  cases hd : g.directed with
  | false =>
    simp only [Bool.false_eq_true, if_false, false_implies, and_true]
    obtain ⟨h1, h2, h3, h4⟩ := withNodes_rest (fun nd => (nd.removeEdge n).1) node.neighborIds g
    exact ⟨h2, h3, h4, fun h => h.withNodes (fun nd e => recOk_removeEdge e n) _⟩
  | true =>
    simp only [if_true, true_implies]
    obtain ⟨h1, h2, h3, h4⟩ := withNodes_rest (fun nd => nd.removeInEdge n) node.neighborIds g
    have hf := fun (h : g.Fair) =>
      h.withNodes (f := fun nd => nd.removeInEdge n) (fun nd e => recOk_removeInEdge e n) node.neighborIds
    rcases hw : withNodesCaught (fun nd => nd.removeInEdge n) node.neighborIds g with ⟨g1, p | u⟩
    · rw [hw] at h1 h2 h3 h4 hf
      refine ⟨h2, ?_, fun q e => ?_, hf⟩
      · constructor
        · intro e; cases e
        · rintro ⟨e, -⟩; exact absurd (h3.2 e) (by simp)
      · cases e; exact h4 p rfl
    · rw [hw] at h1 h2 h3 h4 hf
      simp only
      obtain ⟨k1, k2, k3, k4⟩ := withNodes_rest (fun nd => (nd.removeEdge n).1) node.inNeighborIds g1
      refine ⟨h2.trans k2, ?_, k4, fun h => (hf h).withNodes (fun nd e => recOk_removeEdge e n) _⟩
      rw [k3]
      simp only at h1
      have := h3.1 rfl
      simp only [h1]
      exact ⟨fun e => ⟨this, e⟩, fun e => e.2⟩

/-- `remove_node` of a present node panics exactly if a node its loops visit is the node itself or missing, or if
the counter is too low. -/
theorem removeNode_panics {g : GraphMap m k NL EL} {n : Id m} {node : NodeMap m k}
    (hn : g.getNode n = some node) :
    ((g.removeNodeCaught n).2 = .error .unwrapNone ↔
      ∃ u, (u ∈ node.neighborIds ∨ g.directed = true ∧ u ∈ node.inNeighbors) ∧
        (u = n ∨ g.hasNode u = false)) ∧
    ((g.removeNodeCaught n).2 = .error .underflow ↔
      (¬ ∃ u, (u ∈ node.neighborIds ∨ g.directed = true ∧ u ∈ node.inNeighbors) ∧
        (u = n ∨ g.hasNode u = false)) ∧ g.numEdges < node.degree + node.inDegree) ∧
    (∀ p, (g.removeNodeCaught n).2 = .error p → p = .unwrapNone ∨ p = .underflow) := by
  have hn' : AL.get g.nodeMap n = some node := hn
  obtain ⟨h1, h2, h3, -⟩ := unlink_rest ({ g with nodeMap := AL.erase g.nodeMap n } : GraphMap m k NL EL) node n
  have hhas : ∀ u, ({ g with nodeMap := AL.erase g.nodeMap n } : GraphMap m k NL EL).hasNode u = true ↔
      ¬ (u = n ∨ g.hasNode u = false) := by
    intro u
    simp only [hasNode, AL.get_erase]
    by_cases e : n = u
    · simp [e]
    · have e' : u ≠ n := fun h => e h.symm
      simp only [if_neg e, e', false_or, Bool.not_eq_false]
  have hiff : (unlinkCaught ({ g with nodeMap := AL.erase g.nodeMap n } : GraphMap m k NL EL) node n).2 = .ok () ↔
      ¬ ∃ u, (u ∈ node.neighborIds ∨ g.directed = true ∧ u ∈ node.inNeighbors) ∧
        (u = n ∨ g.hasNode u = false) := by
    rw [h2]
    constructor
    · rintro ⟨e1, e2⟩ ⟨u, hu | ⟨hd, hu⟩, hb⟩
      · exact (hhas u).1 (e1 u hu) hb
      · exact (hhas u).1 (e2 hd u hu) hb
    · intro h
      exact ⟨fun u hu => (hhas u).2 fun hb => h ⟨u, .inl hu, hb⟩,
        fun hd u hu => (hhas u).2 fun hb => h ⟨u, .inr ⟨hd, hu⟩, hb⟩⟩
  unfold removeNodeCaught
  rw [hn']
  simp only
  rcases hw : unlinkCaught ({ g with nodeMap := AL.erase g.nodeMap n } : GraphMap m k NL EL) node n with
    ⟨g1, p | u⟩
  · rw [hw] at h3 hiff
    obtain rfl := h3 p rfl
    have : ∃ u, (u ∈ node.neighborIds ∨ g.directed = true ∧ u ∈ node.inNeighbors) ∧
        (u = n ∨ g.hasNode u = false) := by
      by_contra hc; exact absurd (hiff.2 hc) (by simp)
    refine ⟨⟨fun _ => this, fun _ => rfl⟩, ⟨fun e => by simp at e, fun e => absurd this e.1⟩, ?_⟩
    intro p e; cases e; exact .inl rfl
  · rw [hw] at hiff h1
    have hb := hiff.1 rfl
    have hc : g1.numEdges = g.numEdges := h1.numEdges
    simp only
    rw [hc]
    split
    · rename_i hlt
      refine ⟨⟨fun e => by simp at e, fun e => absurd e hb⟩, ⟨fun _ => ⟨hb, hlt⟩, fun _ => rfl⟩, ?_⟩
      intro p e; cases e; exact .inr rfl
    · rename_i hlt
      refine ⟨⟨fun e => by simp at e, fun e => absurd e hb⟩, ⟨fun e => by simp at e, fun e => absurd e.2 hlt⟩, ?_⟩
      intro p e; simp at e

theorem Fair.removeNode {g : GraphMap m k NL EL} (h : g.Fair) (n : Id m) : (g.removeNodeCaught n).1.Fair := by
  unfold removeNodeCaught
  cases hn : AL.get g.nodeMap n with
  | none => exact h
  | some node =>
    have h0 : ({ g with nodeMap := AL.erase g.nodeMap n } : GraphMap m k NL EL).Fair := by
      refine ⟨?_, ?_, h.nl, h.el⟩
      · simp only [AL.keys_erase]; exact h.keys.filter _
      · intro x nd e
        simp only [getNode, AL.get_erase] at e
        split at e
        · cases e
        · exact h.recs x nd e
    obtain ⟨-, -, -, h4⟩ := unlink_rest ({ g with nodeMap := AL.erase g.nodeMap n } : GraphMap m k NL EL) node n
    have h5 := h4 h0
    simp only
    rcases hw : unlinkCaught ({ g with nodeMap := AL.erase g.nodeMap n } : GraphMap m k NL EL) node n with
      ⟨g1, p | u⟩
    · rw [hw] at h5; exact h5
    · rw [hw] at h5
      simp only
      split
      · exact h5
      · exact ⟨h5.keys, h5.recs, h5.nl, h5.el⟩

/-- `remove_edge` of a present edge panics exactly if its target is missing or the counter is 0. -/
theorem removeEdge_panics {g : GraphMap m k NL EL} {s t : Id m} (he : g.hasEdge s t = true) :
    (∃ p, (g.removeEdgeCaught s t).2 = .error p) ↔ g.hasNode t = false ∨ g.edgeCount = 0 := by
  have hs : ∃ nd, AL.get g.nodeMap s = some nd := by
    unfold hasEdge getNode at he
    cases h : AL.get g.nodeMap s with
    | none => rw [h] at he; cases he
    | some nd => exact ⟨nd, rfl⟩
  obtain ⟨nd, hs⟩ := hs
  have ht : ∀ v, (AL.get (AL.set g.nodeMap s v) t).isSome = g.hasNode t := by
    intro v
    rw [AL.get_set, hasNode]
    by_cases e : s = t
    · subst e; simp [hs]
    · simp [e]
  unfold removeEdgeCaught
  simp only [he, Bool.not_true, Bool.false_eq_true, if_false, hs]
  have := ht (nd.removeEdge t).1
  cases hg : AL.get (AL.set g.nodeMap s (nd.removeEdge t).1) t with
  | none =>
    rw [hg] at this
    have this : g.hasNode t = false := this.symm
    simp [this]
  | some nt =>
    rw [hg] at this
    have this : g.hasNode t = true := this.symm
    simp only [this, edgeCount, Bool.true_eq_false, false_or]
    by_cases hc : g.numEdges < 1
    · rw [if_pos hc]
      exact ⟨fun _ => by omega, fun _ => ⟨_, rfl⟩⟩
    · rw [if_neg hc]
      refine ⟨fun ⟨p, e⟩ => (by simp at e), fun e => by omega⟩

theorem Fair.set {g : GraphMap m k NL EL} (h : g.Fair) (n : Id m) {nd : NodeMap m k} (hr : RecOk nd) :
    ({ g with nodeMap := AL.set g.nodeMap n nd } : GraphMap m k NL EL).Fair := by
  refine ⟨by simp only [AL.keys_set]; exact h.keys, ?_, h.nl, h.el⟩
  intro x nd' e
  simp only [getNode, AL.get_set] at e
  split at e
  · obtain ⟨_, -, rfl⟩ := Option.map_eq_some_iff.1 e; exact hr
  · exact h.recs x nd' e

theorem Fair.removeEdge {g : GraphMap m k NL EL} (h : g.Fair) (s t : Id m) :
    (g.removeEdgeCaught s t).1.Fair := by
  unfold removeEdgeCaught
  split
  · exact h
  · cases hs : AL.get g.nodeMap s with
    | none => exact h
    | some nd =>
      have h1 := h.set s (recOk_removeEdge (h.recs s nd hs) t)
      simp only
      cases ht : AL.get (AL.set g.nodeMap s (nd.removeEdge t).1) t with
      | none => exact h1
      | some nt =>
        have hnt := h1.recs t nt ht
        have h2 := h1.set t (nd := if g.directed then nt.removeInEdge s else (nt.removeEdge s).1) (by
          split
          · exact recOk_removeInEdge hnt s
          · exact recOk_removeEdge hnt s)
        simp only
        split
        · exact h2
        · exact ⟨h2.keys, h2.recs, h2.nl, h2.el⟩

variable [DecidableEq NL] [DecidableEq EL]

omit [DecidableEq EL] in
theorem addNode_total (g : GraphMap m k NL EL) (n : Id m) (l : Option NL) :
    ∃ g', g.addNode n l = .ok (g', !g.hasNode n) ∧ (g.Fair → g'.Fair) ∧
      (∀ x, g'.hasNode x = (g.hasNode x || decide (x = n))) ∧ g'.numEdges = g.numEdges ∧
      g'.directed = g.directed ∧ (∀ a b, g'.hasEdge a b = g.hasEdge a b) := by
  obtain ⟨nl, lid, e1, -, e2, -⟩ := intern_ok (k := k) g.nodeLabels l
  unfold addNode
  rw [e1, bind_ok]
  cases hn : g.hasNode n with
  | true =>
    obtain ⟨nd, hnd⟩ := Option.isSome_iff_exists.1 hn
    have hh : ({ g with nodeLabels := nl } : GraphMap m k NL EL).hasNode n = true := hn
    simp only [hh, if_true, withNode, hnd, unwrap, bind_ok, pure_ok]
    refine ⟨_, rfl, fun h => ?_, fun x => ?_, rfl, rfl, fun a b => ?_⟩
    · have := h.set n (nd := nd.setLabelId lid) ⟨(h.recs n nd hnd).out, (h.recs n nd hnd).inn⟩
      exact ⟨this.keys, this.recs, e2 h.nl, this.el⟩
    · simp only [hasNode, AL.get_set]
      by_cases e : n = x
      · subst e; simp [hnd]
      · have e' : x ≠ n := fun h => e h.symm
        simp [e, e']
    · simp only [hasEdge, getNode, AL.get_set]
      by_cases e : n = a
      · subst e; simp [hnd, NodeMap.hasNeighbor, NodeMap.setLabelId]
      · simp [e]
  | false =>
    have hh : ({ g with nodeLabels := nl } : GraphMap m k NL EL).hasNode n = false := hn
    simp only [hh, Bool.false_eq_true, if_false, pure_ok]
    refine ⟨_, rfl, fun h => ?_, fun x => ?_, rfl, rfl, fun a b => ?_⟩
    · refine ⟨AL.keys_hinsert_nodup h.keys _ _, ?_, e2 h.nl, h.el⟩
      intro x nd e
      simp only [getNode, AL.get_hinsert] at e
      split at e
      · cases e; exact ⟨List.Pairwise.nil, List.Pairwise.nil⟩
      · exact h.recs x nd e
    · simp only [hasNode, AL.get_hinsert]
      by_cases e : n = x
      · simp [e]
      · have e' : x ≠ n := fun h => e h.symm
        simp [e, e']
    · simp only [hasEdge, getNode, AL.get_hinsert]
      by_cases e : n = a
      · subst e
        have : AL.get g.nodeMap n = none := by simpa [hasNode] using hn
        simp [this, NodeMap.hasNeighbor, NodeMap.new, AL.get]
      · simp [e]

omit [DecidableEq EL] in
theorem ensureNode_total (g : GraphMap m k NL EL) (n : Id m) :
    ∃ g', g.ensureNode n = .ok g' ∧ (g.Fair → g'.Fair) ∧
      (∀ x, g'.hasNode x = (g.hasNode x || decide (x = n))) ∧ g'.numEdges = g.numEdges ∧
      g'.directed = g.directed ∧ (∀ a b, g'.hasEdge a b = g.hasEdge a b) := by
  unfold ensureNode
  cases hn : g.hasNode n with
  | true =>
    refine ⟨g, by simp [pure_ok], id, fun x => ?_, rfl, rfl, fun _ _ => rfl⟩
    by_cases e : x = n
    · subst e; simp [hn]
    · simp [e]
  | false =>
    obtain ⟨g', h1, h2⟩ := addNode_total g n none
    exact ⟨g', by simp [h1, bind_ok, pure_ok], h2⟩

theorem addEdge_total (g : GraphMap m k NL EL) (s t : Id m) (l : Option EL) :
    ∃ g', g.addEdge s t l = .ok (g', !g.hasEdge s t) ∧ (g.Fair → g'.Fair) ∧ g'.numEdges = g.numEdges + 1 := by
  obtain ⟨g1, a1, a2, a3, a4, a5, a6⟩ := ensureNode_total g s
  obtain ⟨g2, b1, b2, b3, b4, b5, b6⟩ := ensureNode_total g1 t
  obtain ⟨el, lid, e1, -, e2, -⟩ := intern_ok (k := k) g2.edgeLabels l
  have hs : g2.hasNode s = true := by rw [b3, a3]; simp
  have ht : g2.hasNode t = true := by rw [b3]; simp
  obtain ⟨nd, hnd⟩ := Option.isSome_iff_exists.1 hs
  have hflag : (nd.addEdge t lid).2 = !g.hasEdge s t := by
    rw [← a6, ← b6, hasEdge, getNode, hnd]; rfl
  have hf3 : g.Fair → ({ g2 with edgeLabels := el, nodeMap := AL.set g2.nodeMap s (nd.addEdge t lid).1 } :
      GraphMap m k NL EL).Fair := fun h => by
    have h2 := b2 (a2 h)
    have := h2.set s (recOk_addEdge (h2.recs s nd hnd) t lid)
    exact ⟨this.keys, this.recs, this.nl, e2 h2.el⟩
  have ht3 : ∃ nt, AL.get (AL.set g2.nodeMap s (nd.addEdge t lid).1) t = some nt := by
    rw [AL.get_set]
    by_cases e : s = t
    · subst e; simp [hnd]
    · rw [if_neg e]; exact Option.isSome_iff_exists.1 ht
  obtain ⟨nt, hnt⟩ := ht3
  unfold addEdge
  simp only [a1, b1, e1, bind_ok, hnd, unwrap, withNode, pure_ok, hflag, addEdgeTarget]
  cases hd : g2.directed with
  | true =>
    simp only [if_true, hnt, bind_ok]
    refine ⟨_, rfl, fun h => ?_, by rw [b4, a4]⟩
    have h3 := hf3 h
    have := h3.set t (recOk_addInEdge (h3.recs t nt hnt) s)
    exact ⟨this.keys, this.recs, this.nl, this.el⟩
  | false =>
    simp only [Bool.false_eq_true, if_false]
    by_cases e : s = t
    · simp only [e, ne_eq, not_true, if_false, bind_ok]
      refine ⟨_, rfl, fun h => ?_, by rw [b4, a4]⟩
      have := hf3 h
      subst e
      exact ⟨this.keys, this.recs, this.nl, this.el⟩
    · simp only [ne_eq, e, not_false_iff, if_true, hnt, bind_ok]
      refine ⟨_, rfl, fun h => ?_, by rw [b4, a4]⟩
      have h3 := hf3 h
      have := h3.set t (recOk_addEdge (h3.recs t nt hnt) s lid)
      exact ⟨this.keys, this.recs, this.nl, this.el⟩

theorem addEdgeChecked_total (g : GraphMap m k NL EL) (s t : Id m) (l : Option EL) :
    ((g.addEdgeChecked s t l).2 = if word ≤ g.numEdges + 1 then .error .overflow else .ok (!g.hasEdge s t)) ∧
      (g.Fair → (g.addEdgeChecked s t l).1.Fair) := by
  obtain ⟨g', h1, h2, -⟩ := addEdge_total g s t l
  unfold addEdgeChecked
  rw [h1]
  simp only
  split
  · exact ⟨rfl, fun h => ⟨(h2 h).keys, (h2 h).recs, (h2 h).nl, (h2 h).el⟩⟩
  · exact ⟨rfl, h2⟩

omit [DecidableEq NL] [DecidableEq EL] in
theorem Fair.mapVals {g : GraphMap m k NL EL} (h : g.Fair) {f : NodeMap m k → NodeMap m k}
    (hf : ∀ nd, RecOk nd → RecOk (f nd)) :
    ({ g with nodeMap := g.nodeMap.map (fun p => (p.1, f p.2)) } : GraphMap m k NL EL).Fair := by
  refine ⟨?_, ?_, h.nl, h.el⟩
  · have : AL.keys (g.nodeMap.map (fun p => (p.1, f p.2))) = AL.keys g.nodeMap := by
      simp [AL.keys, List.map_map, Function.comp_def]
    rw [this]; exact h.keys
  · intro x nd e
    simp only [getNode] at e
    rw [← fair_get] at e
    obtain ⟨nd', e', rfl⟩ := Option.map_eq_some_iff.1 e
    exact hf nd' (h.recs x nd' e')
where
  fair_get {l : List (Id m × NodeMap m k)} {x : Id m} {f : NodeMap m k → NodeMap m k} :
      (AL.get l x).map f = AL.get (l.map (fun p => (p.1, f p.2))) x := by
    induction l with
    | nil => rfl
    | cons p l ih =>
      simp only [List.map_cons, AL.get]
      split
      · rfl
      · exact ih

theorem Fair.apply {g : GraphMap m k NL EL} (h : g.Fair) (op : Op m k NL EL) : (g.applyChecked op).1.Fair := by
  cases op with
  | removeNode n => exact h.removeNode n
  | removeEdge s t => exact h.removeEdge s t
  | addEdge s t l => exact (addEdgeChecked_total g s t l).2 h
  | updateEdgeLabel s t l =>
    simp only [applyChecked, updateEdgeLabelChecked]
    split
    · exact h
    · exact (addEdgeChecked_total g s t l).2 h
  | addNode n l =>
    obtain ⟨g', h1, h2, -⟩ := addNode_total g n l
    simp only [applyChecked, applyCaught, GraphMap.apply, h1, bind_ok, pure_ok]
    exact h2 h
  | updateNodeLabel n l =>
    obtain ⟨g', h1, h2, -⟩ := addNode_total g n l
    simp only [applyChecked, applyCaught, GraphMap.apply, updateNodeLabel]
    cases g.hasNode n
    · exact h
    · simp only [Bool.not_true, Bool.false_eq_true, if_false, h1, bind_ok, pure_ok]
      exact h2 h
  | addNodeLabel l =>
    obtain ⟨s', lid, e1, -, e2, -⟩ := intern_ok (k := k) g.nodeLabels l
    simp only [applyChecked, applyCaught, GraphMap.apply, addNodeLabel, e1, bind_ok, pure_ok]
    exact ⟨h.keys, h.recs, e2 h.nl, h.el⟩
  | addEdgeLabel l =>
    obtain ⟨s', lid, e1, -, e2, -⟩ := intern_ok (k := k) g.edgeLabels l
    simp only [applyChecked, applyCaught, GraphMap.apply, addEdgeLabel, e1, bind_ok, pure_ok]
    exact ⟨h.keys, h.recs, h.nl, e2 h.el⟩
  | refineEdgeCount => exact ⟨h.keys, h.recs, h.nl, h.el⟩
  | setNodeLabelId n l =>
    simp only [applyChecked, applyCaught, GraphMap.apply, setNodeLabelId]
    cases hn : AL.get g.nodeMap n with
    | none => exact h
    | some nd =>
      have := h.recs n nd hn
      exact h.set n ⟨this.out, this.inn⟩
  | setEdgeLabelId s t l =>
    simp only [applyChecked, applyCaught, GraphMap.apply, setEdgeLabelId]
    by_cases he : g.hasEdge s t = true
    · simp only [he, Bool.not_true, Bool.false_eq_true, if_false, withNode]
      cases hn : AL.get g.nodeMap s with
      | none => exact h
      | some nd =>
        have := h.recs s nd hn
        exact h.set s ⟨by simp only [AL.keys_set]; exact this.out, this.inn⟩
    · simp only [he, Bool.not_false, if_true]
      exact h
  | mapNodeLabelIds f =>
    refine ⟨?_, ?_, h.nl, h.el⟩
    · exact (h.mapVals (f := fun nd => nd.setLabelId (f nd.id nd.label)) (fun nd e => ⟨e.out, e.inn⟩)).keys
    · exact (h.mapVals (f := fun nd => nd.setLabelId (f nd.id nd.label)) (fun nd e => ⟨e.out, e.inn⟩)).recs
  | mapEdgeLabelIds f =>
    simp only [applyChecked, applyCaught, GraphMap.apply, mapEdgeLabelIds, pure_ok]
    split
    · refine h.mapVals (f := fun nd => nd.mapNeighbors f) (fun nd e => ⟨?_, e.inn⟩)
      simpa [NodeMap.mapNeighbors, AL.keys, List.map_map, Function.comp_def] using e.out
    · refine h.mapVals (f := fun nd => nd.mapNonLess f) (fun nd e => ⟨?_, e.inn⟩)
      have : AL.keys (nd.mapNonLess f).neighbors = AL.keys nd.neighbors := by
        simp only [NodeMap.mapNonLess, AL.keys, List.map_map]
        refine List.map_congr_left fun p _ => ?_
        simp only [Function.comp]
        split <;> rfl
      rw [this]; exact e.out

end Verif.GraphMap
