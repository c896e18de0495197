import Verif.Spec.Mirror
import Verif.Proof.History

/-! Two graphs that differ in the direction of their edges. -/

namespace Verif

open Spec

namespace GraphMap

variable {m k : Nat} {NL EL : Type}

/-- `h` is `g` with all edges turned around. -/
structure Mirrored (g h : GraphMap m k NL EL) : Prop where
  left : g.Inv
  right : h.Inv
  dir : h.directed = g.directed
  num : h.numEdges = g.numEdges
  nl : h.nodeLabels = g.nodeLabels
  el : h.edgeLabels = g.edgeLabels
  mx : h.maxId = g.maxId
  lab : ∀ x, h.labE x = g.labE x
  out : ∀ a b, h.outE b a = g.outE a b

variable {g h g' h' : GraphMap m k NL EL}

theorem Mirrored.symm (H : Mirrored g h) : Mirrored h g :=
  ⟨H.right, H.left, H.dir.symm, H.num.symm, H.nl.symm, H.el.symm, H.mx.symm, fun x => (H.lab x).symm,
    fun a b => (H.out b a).symm⟩

theorem Mirrored.hasNode (H : Mirrored g h) (x : Id m) : h.hasNode x = g.hasNode x := by
  rw [hasNode_eq_labE, hasNode_eq_labE, H.lab]

theorem Mirrored.hasEdge (H : Mirrored g h) (a b : Id m) : h.hasEdge b a = g.hasEdge a b := by
  rw [hasEdge_eq_outE, hasEdge_eq_outE, H.out]

theorem mirrored_edgeNum (hg : g.rep.Sym g.directed) (dir : h.directed = g.directed)
    (out : ∀ a b, h.outE b a = g.outE a b) : h.edgeNum = g.edgeNum := by
  unfold edgeNum
  rw [dir, AGraph.edgeNumber_eq, AGraph.edgeNumber_eq]
  cases hd : g.directed with
  | false =>
    rw [hd] at hg
    congr 1
    ext p
    rw [AGraph.mem_edgeSet, AGraph.mem_edgeSet]
    have : (h.outE p.1 p.2).isSome = (g.outE p.1 p.2).isSome := by
      rw [out, Bool.eq_iff_iff]
      exact ⟨hg rfl _ _, hg rfl _ _⟩
    show (h.outE p.1 p.2).isSome ∧ _ ↔ (g.outE p.1 p.2).isSome ∧ _
    rw [this]
  | true =>
    refine Finset.card_bij' (fun p _ => p.swap) (fun p _ => p.swap) ?_ ?_ ?_ ?_
    · intro p hp
      rw [AGraph.mem_edgeSet] at hp ⊢
      refine ⟨?_, .inl rfl⟩
      have := hp.1
      show (g.outE p.2 p.1).isSome = true
      rw [← out]; exact this
    · intro p hp
      rw [AGraph.mem_edgeSet] at hp ⊢
      refine ⟨?_, .inl rfl⟩
      have := hp.1
      show (h.outE p.2 p.1).isSome = true
      rw [out]; exact this
    · intro p _; rfl
    · intro p _; rfl

theorem same_swap (d : Bool) (s t a b : Id m) : AGraph.same d t s b a ↔ AGraph.same d s t a b := by
  unfold AGraph.same
  tauto

theorem bumpMax_comm (mx : Option (Id m)) (s t : Id m) :
    bumpMax (bumpMax mx s) t = bumpMax (bumpMax mx t) s := by
  unfold bumpMax
  cases mx with
  | none =>
    simp only
    split <;> split <;> first | rfl | (congr 1; apply Fin.ext; rename_i a b; rw [Fin.lt_def] at a b; omega)
  | some i =>
    simp only [Fin.lt_def]
    grind

theorem Mirrored.addEdge [DecidableEq NL] [DecidableEq EL] (H : Mirrored g h) (s t : Id m) (l : Option EL) :
    ∃ g' h', g.addEdge s t l = .ok (g', !g.hasEdge s t) ∧ h.addEdge t s l = .ok (h', !g.hasEdge s t) ∧
      Mirrored g' h' := by
  obtain ⟨g', el, lid, a1, a2, a3, a4, a5, a6, a7, a8, a9, -⟩ := addEdge_spec H.left.toNWF s t l
  obtain ⟨h', el', lid', b1, b2, b3, b4, b5, b6, b7, b8, b9, -⟩ := addEdge_spec H.right.toNWF t s l
  rw [H.el, a1] at b1
  cases b1
  rw [H.hasEdge] at b2
  refine ⟨g', h', a2, b2, inv_addEdge H.left a2, inv_addEdge H.right b2, (by rw [a4, b4, H.dir]),
    by rw [a5, b5, H.num], by rw [a6, b6, H.nl], by rw [a7, b7], ?_, ?_, ?_⟩
  · rw [a8, b8]
    unfold seen
    simp only [H.hasNode, H.mx]
    by_cases hst : t = s
    · subst hst; simp
    · rw [if_neg hst, if_neg (Ne.symm hst)]
      split <;> split <;> first | rfl | exact bumpMax_comm _ _ _
  · intro x
    have e1 : g'.labE x = _ := congrArg (fun r => r.node x) a9
    have e2 : h'.labE x = _ := congrArg (fun r => r.node x) b9
    rw [e1, e2]
    show (if (x = t ∨ x = s) ∧ h.labE x = none then some none else h.labE x) =
      if (x = s ∨ x = t) ∧ g.labE x = none then some none else g.labE x
    simp only [H.lab, or_comm (a := x = t)]
  · intro a b
    have e1 : g'.outE a b = _ := congrArg (fun r => r.edge a b) a9
    have e2 : h'.outE b a = _ := congrArg (fun r => r.edge b a) b9
    rw [e1, e2]
    show (if AGraph.same h.directed t s b a then some lid else h.outE b a) =
      if AGraph.same g.directed s t a b then some lid else g.outE a b
    simp only [H.out, H.dir, same_swap]

theorem Mirrored.addNode [DecidableEq NL] (H : Mirrored g h) (n : Id m) (l : Option NL) :
    ∃ g' h', g.addNode n l = .ok (g', !g.hasNode n) ∧ h.addNode n l = .ok (h', !g.hasNode n) ∧
      Mirrored g' h' := by
  obtain ⟨g', nl, lid, a1, a2, a3, a4, a5, a6, a7, a8, a9, -⟩ := addNode_spec H.left.toNWF n l
  obtain ⟨h', nl', lid', b1, b2, b3, b4, b5, b6, b7, b8, b9, -⟩ := addNode_spec H.right.toNWF n l
  rw [H.nl, a1] at b1
  cases b1
  rw [H.hasNode] at b2
  refine ⟨g', h', a2, b2, inv_addNode H.left a2, inv_addNode H.right b2, (by rw [a4, b4, H.dir]),
    by rw [a5, b5, H.num], by rw [a6, b6], by rw [a7, b7, H.el], by rw [a8, b8, H.hasNode, H.mx], ?_, ?_⟩
  · intro x
    have e1 : g'.labE x = _ := congrArg (fun r => r.node x) a9
    have e2 : h'.labE x = _ := congrArg (fun r => r.node x) b9
    rw [e1, e2]
    show (if x = n then some lid else h.labE x) = if x = n then some lid else g.labE x
    rw [H.lab]
  · intro a b
    have e1 : g'.outE a b = g.outE a b := congrArg (fun r => r.edge a b) a9
    have e2 : h'.outE b a = h.outE b a := congrArg (fun r => r.edge b a) b9
    rw [e1, e2, H.out]

theorem Mirrored.removeEdge (H : Mirrored g h) (s t : Id m) :
    ∃ g' h', g.removeEdge s t = .ok (g', (g.outE s t).map (fun l => ⟨s, t, l⟩)) ∧
      h.removeEdge t s = .ok (h', (g.outE s t).map (fun l => ⟨t, s, l⟩)) ∧ Mirrored g' h' := by
  obtain ⟨g', a1, a2, a3, a4, a5, a6, a7, a8, a9, -⟩ := removeEdge_spec H.left s t
  obtain ⟨h', b1, b2, b3, b4, b5, b6, b7, b8, b9, -⟩ := removeEdge_spec H.right t s
  rw [H.out] at b1
  refine ⟨g', h', a1, b1, inv_removeEdge H.left a1, inv_removeEdge H.right b1, (by rw [a3, b3, H.dir]),
    ?_, by rw [a4, b4, H.nl], by rw [a5, b5, H.el], by rw [a6, b6, H.mx], ?_, ?_⟩
  · rw [H.hasEdge] at b7
    have := H.num
    omega
  · intro x
    have e1 : g'.labE x = g.labE x := congrArg (fun r => r.node x) a9
    have e2 : h'.labE x = h.labE x := congrArg (fun r => r.node x) b9
    rw [e1, e2, H.lab]
  · intro a b
    have e1 : g'.outE a b = _ := congrArg (fun r => r.edge a b) a9
    have e2 : h'.outE b a = _ := congrArg (fun r => r.edge b a) b9
    rw [e1, e2]
    show (if AGraph.same h.directed t s b a then none else h.outE b a) =
      if AGraph.same g.directed s t a b then none else g.outE a b
    simp only [H.out, H.dir, same_swap]

theorem Mirrored.removeNode (H : Mirrored g h) (n : Id m) :
    (∃ g' h', g.removeNode n = .ok (g', g.getNode n) ∧ h.removeNode n = .ok (h', h.getNode n) ∧ Mirrored g' h') ∨
    (g.removeNode n = .error .unwrapNone ∧ h.removeNode n = .error .unwrapNone) := by
  by_cases hl : g.hasEdge n n = true
  · exact .inr ⟨removeNode_loop n hl, removeNode_loop n (by rw [H.hasEdge, hl])⟩
  · have hl := Bool.eq_false_iff.2 hl
    left
    obtain ⟨g', a1, a2, a3, a4, a5, a6, a7, -, a9, -⟩ := removeNode_spec H.left n hl
    obtain ⟨h', b1, b2, b3, b4, b5, b6, b7, -, b9, -⟩ := removeNode_spec H.right n (by rw [H.hasEdge, hl])
    have hout : ∀ a b, h'.outE b a = g'.outE a b := by
      intro a b
      have e1 : g'.outE a b = _ := congrArg (fun r => r.edge a b) a9
      have e2 : h'.outE b a = _ := congrArg (fun r => r.edge b a) b9
      rw [e1, e2]
      show (if b = n ∨ a = n then none else h.outE b a) = if a = n ∨ b = n then none else g.outE a b
      simp only [H.out, or_comm (a := b = n)]
    refine ⟨g', h', a1, b1, inv_removeNode H.left a1, inv_removeNode H.right b1, (by rw [a3, b3, H.dir]),
       ?_, by rw [a4, b4, H.nl], by rw [a5, b5, H.el], by rw [a6, b6, H.mx], ?_, hout⟩
    · have e1 := mirrored_edgeNum H.left.sym H.dir H.out
      have e2 := mirrored_edgeNum (inv_removeNode H.left a1).sym (by rw [a3, b3, H.dir]) hout
      have := H.num
      omega
    · intro x
      have e1 : g'.labE x = _ := congrArg (fun r => r.node x) a9
      have e2 : h'.labE x = _ := congrArg (fun r => r.node x) b9
      rw [e1, e2]
      show (if x = n then none else h.labE x) = if x = n then none else g.labE x
      rw [H.lab]

/-- Both calls do the same, or both panic in the same way. -/
theorem Mirrored.apply [DecidableEq NL] [DecidableEq EL] (H : Mirrored g h) (op : Op m k NL EL)
    (hop : g.directed = false → ∀ f, op ≠ .mapEdgeLabelIds f) :
    (∃ g' h', g.apply op = .ok g' ∧ h.apply (flipped op) = .ok h' ∧ Mirrored g' h') ∨
    ∃ p, g.apply op = .error p ∧ h.apply (flipped op) = .error p := by
  cases op with
  | addNode n l =>
    obtain ⟨g', h', a, b, c⟩ := H.addNode n l
    exact .inl ⟨g', h', by simp [GraphMap.apply, a, bind_ok, pure_ok],
      by simp [GraphMap.apply, flipped, b, bind_ok, pure_ok], c⟩
  | removeNode n =>
    rcases H.removeNode n with ⟨g', h', a, b, c⟩ | ⟨a, b⟩
    · exact .inl ⟨g', h', by simp [GraphMap.apply, a, bind_ok, pure_ok],
        by simp [GraphMap.apply, flipped, b, bind_ok, pure_ok], c⟩
    · exact .inr ⟨.unwrapNone, by simp only [GraphMap.apply, a, bind_error],
        by simp only [GraphMap.apply, flipped, b, bind_error]⟩
  | addEdge s t l =>
    obtain ⟨g', h', a, b, c⟩ := H.addEdge s t l
    exact .inl ⟨g', h', by simp [GraphMap.apply, a, bind_ok, pure_ok],
      by simp [GraphMap.apply, flipped, b, bind_ok, pure_ok], c⟩
  | removeEdge s t =>
    obtain ⟨g', h', a, b, c⟩ := H.removeEdge s t
    exact .inl ⟨g', h', by simp [GraphMap.apply, a, bind_ok, pure_ok],
      by simp [GraphMap.apply, flipped, b, bind_ok, pure_ok], c⟩
  | updateNodeLabel n l =>
    left
    by_cases hn : g.hasNode n = true
    · obtain ⟨g', h', a, b, c⟩ := H.addNode n l
      exact ⟨g', h', by simp [GraphMap.apply, updateNodeLabel, hn, a, bind_ok, pure_ok],
        by simp [GraphMap.apply, flipped, updateNodeLabel, H.hasNode, hn, b, bind_ok, pure_ok], c⟩
    · exact ⟨g, h, by simp [GraphMap.apply, updateNodeLabel, hn, bind_ok, pure_ok],
        by simp [GraphMap.apply, flipped, updateNodeLabel, H.hasNode, hn, bind_ok, pure_ok], H⟩
  | updateEdgeLabel s t l =>
    left
    by_cases hn : g.hasEdge s t = true
    · obtain ⟨g', h', a, b, c⟩ := H.addEdge s t l
      exact ⟨g', h', by simp [GraphMap.apply, updateEdgeLabel, hn, a, bind_ok, pure_ok],
        by simp [GraphMap.apply, flipped, updateEdgeLabel, H.hasEdge, hn, b, bind_ok, pure_ok], c⟩
    · exact ⟨g, h, by simp [GraphMap.apply, updateEdgeLabel, hn, bind_ok, pure_ok],
        by simp [GraphMap.apply, flipped, updateEdgeLabel, H.hasEdge, hn, bind_ok, pure_ok], H⟩
  | addNodeLabel l =>
    obtain ⟨s', lid, e1, -⟩ := intern_ok (k := k) g.nodeLabels l
    have a : g.apply (.addNodeLabel l) = .ok { g with nodeLabels := s' } := by
      simp [GraphMap.apply, addNodeLabel, e1, bind_ok, pure_ok]
    have b : h.apply (.addNodeLabel l) = .ok { h with nodeLabels := s' } := by
      simp [GraphMap.apply, addNodeLabel, H.nl, e1, bind_ok, pure_ok]
    exact .inl ⟨_, _, a, b, inv_apply H.left a, inv_apply H.right b, H.dir, H.num, rfl, H.el, H.mx,
      H.lab, H.out⟩
  | addEdgeLabel l =>
    obtain ⟨s', lid, e1, -⟩ := intern_ok (k := k) g.edgeLabels l
    have a : g.apply (.addEdgeLabel l) = .ok { g with edgeLabels := s' } := by
      simp [GraphMap.apply, addEdgeLabel, e1, bind_ok, pure_ok]
    have b : h.apply (.addEdgeLabel l) = .ok { h with edgeLabels := s' } := by
      simp [GraphMap.apply, addEdgeLabel, H.el, e1, bind_ok, pure_ok]
    exact .inl ⟨_, _, a, b, inv_apply H.left a, inv_apply H.right b, H.dir, H.num, H.nl, rfl, H.mx,
      H.lab, H.out⟩
  | refineEdgeCount =>
    have a : g.apply .refineEdgeCount = .ok { g with numEdges := g.edgeIndices.length } := rfl
    have b : h.apply .refineEdgeCount = .ok { h with numEdges := h.edgeIndices.length } := rfl
    refine .inl ⟨_, _, a, b, inv_apply H.left a, inv_apply H.right b, H.dir, ?_, H.nl, H.el, H.mx,
      H.lab, H.out⟩
    show h.edgeIndices.length = g.edgeIndices.length
    rw [edgeIndices_length H.left.toNWF, edgeIndices_length H.right.toNWF]
    exact mirrored_edgeNum H.left.sym H.dir H.out
  | setNodeLabelId n l =>
    by_cases hn : g.hasNode n = true
    · obtain ⟨g', a1, -, a3, a4⟩ := setNodeLabelId_spec H.left.toNWF n l hn
      obtain ⟨h', b1, -, b3, b4⟩ := setNodeLabelId_spec H.right.toNWF n l (by rw [H.hasNode, hn])
      have a : g.apply (.setNodeLabelId n l) = .ok g' := a1
      have b : h.apply (.setNodeLabelId n l) = .ok h' := b1
      refine .inl ⟨_, _, a, b, inv_apply H.left a, inv_apply H.right b, by rw [a3.rest.directed, b3.rest.directed, H.dir], by rw [a3.rest.numEdges, b3.rest.numEdges, H.num],
        by rw [a3.rest.nodeLabels, b3.rest.nodeLabels, H.nl],
        by rw [a3.rest.edgeLabels, b3.rest.edgeLabels, H.el], by rw [a3.rest.maxId, b3.rest.maxId, H.mx], ?_, ?_⟩
      · intro x
        have e1 : g'.labE x = _ := congrArg (fun r => r.node x) a4
        have e2 : h'.labE x = _ := congrArg (fun r => r.node x) b4
        rw [e1, e2]
        show (if x = n then some l else h.labE x) = if x = n then some l else g.labE x
        rw [H.lab]
      · intro x y
        have e1 : g'.outE x y = g.outE x y := congrArg (fun r => r.edge x y) a4
        have e2 : h'.outE y x = h.outE y x := congrArg (fun r => r.edge y x) b4
        rw [e1, e2, H.out]
    · have hh : ¬ h.hasNode n = true := by rw [H.hasNode]; exact hn
      have e1 : AL.get g.nodeMap n = none := by simpa [GraphMap.hasNode] using hn
      have e2 : AL.get h.nodeMap n = none := by simpa [GraphMap.hasNode] using hh
      exact .inr ⟨.explicit, by simp only [GraphMap.apply, setNodeLabelId, e1],
        by simp only [GraphMap.apply, flipped, setNodeLabelId, e2]⟩
  | setEdgeLabelId s t l =>
    by_cases hn : g.hasEdge s t = true
    · obtain ⟨g', a1, -, a3, a4, a5⟩ := setEdgeLabelId_spec H.left.toNWF s t l hn
      obtain ⟨h', b1, -, b3, b4, b5⟩ := setEdgeLabelId_spec H.right.toNWF t s l (by rw [H.hasEdge, hn])
      have a : g.apply (.setEdgeLabelId s t l) = .ok g' := a1
      have b : h.apply (.setEdgeLabelId t s l) = .ok h' := b1
      refine .inl ⟨_, _, a, b, inv_apply H.left a, inv_apply H.right b, by rw [a3.rest.directed, b3.rest.directed, H.dir], by rw [a3.rest.numEdges, b3.rest.numEdges, H.num],
        by rw [a3.rest.nodeLabels, b3.rest.nodeLabels, H.nl],
        by rw [a3.rest.edgeLabels, b3.rest.edgeLabels, H.el], by rw [a3.rest.maxId, b3.rest.maxId, H.mx], ?_, ?_⟩
      · intro x; rw [a4, b4, H.lab]
      · intro x y
        rw [a5, b5, H.out]
        simp [and_comm]
    · exact .inr ⟨.explicit, by simp [GraphMap.apply, setEdgeLabelId, hn],
        by simp [GraphMap.apply, flipped, setEdgeLabelId, H.hasEdge, hn]⟩
  | mapNodeLabelIds f =>
    obtain ⟨-, a3, a4, a5⟩ := mapNodeLabelIds_spec H.left.toNWF f
    obtain ⟨-, b3, b4, b5⟩ := mapNodeLabelIds_spec H.right.toNWF f
    have a : g.apply (.mapNodeLabelIds f) = .ok (g.mapNodeLabelIds f) := rfl
    have b : h.apply (.mapNodeLabelIds f) = .ok (h.mapNodeLabelIds f) := rfl
    exact .inl ⟨_, _, a, b, inv_apply H.left a, inv_apply H.right b, by rw [a3.rest.directed, b3.rest.directed, H.dir], by rw [a3.rest.numEdges, b3.rest.numEdges, H.num],
        by rw [a3.rest.nodeLabels, b3.rest.nodeLabels, H.nl],
        by rw [a3.rest.edgeLabels, b3.rest.edgeLabels, H.el], by rw [a3.rest.maxId, b3.rest.maxId, H.mx],
        fun x => by rw [a4, b4, H.lab], fun x y => by rw [a5, b5, H.out]⟩
  | mapEdgeLabelIds f =>
    have hd : g.directed = true := by
      cases hd : g.directed
      · exact absurd rfl (hop hd f)
      · rfl
    obtain ⟨-, a3, a4, a5⟩ := mapEdgeLabelIds_spec H.left.toNWF f
    obtain ⟨-, b3, b4, b5⟩ := mapEdgeLabelIds_spec H.right.toNWF (fun s t => f t s)
    have a : g.apply (.mapEdgeLabelIds f) = .ok (g.mapEdgeLabelIds f) := rfl
    have b : h.apply (.mapEdgeLabelIds (fun s t => f t s)) = .ok (h.mapEdgeLabelIds (fun s t => f t s)) := rfl
    exact .inl ⟨_, _, a, b, inv_apply H.left a, inv_apply H.right b, by rw [a3.rest.directed, b3.rest.directed, H.dir], by rw [a3.rest.numEdges, b3.rest.numEdges, H.num],
        by rw [a3.rest.nodeLabels, b3.rest.nodeLabels, H.nl],
        by rw [a3.rest.edgeLabels, b3.rest.edgeLabels, H.el], by rw [a3.rest.maxId, b3.rest.maxId, H.mx],
        fun x => by rw [a4, b4, H.lab], fun x y => by rw [a5, b5, H.out, H.dir, hd]; simp⟩

theorem Mirrored.rehash_left (H : Mirrored g h) {nm} (hp : g.nodeMap.Perm nm) :
    Mirrored { g with nodeMap := nm } h := by
  have e := rep_rehash H.left.toNWF hp
  refine ⟨inv_rehash H.left hp, H.right, H.dir, H.num, H.nl, H.el, H.mx, fun x => ?_, fun a b => ?_⟩
  · rw [H.lab]; exact (congrArg (fun r => r.node x) e).symm
  · rw [H.out]; exact (congrArg (fun r => r.edge a b) e).symm

theorem mirrored_start (d : Bool) (nl : SetMap NL) (el : SetMap EL) (hn : nl.labels.Nodup) (he : el.labels.Nodup) :
    Mirrored (withLabelMap d nl el : GraphMap m k NL EL) (withLabelMap d nl el) :=
  ⟨inv_withLabelMap d nl el hn he, inv_withLabelMap d nl el hn he, rfl, rfl, rfl, rfl, rfl,
    fun _ => rfl, fun _ _ => rfl⟩

end GraphMap

end Verif
