import Verif.Proof.Build
import Verif.Spec.SetOps

/-! `graph_union`, `graph_minus` and `clone`. -/

namespace Verif

open Spec

variable {m k : Nat} {NL EL : Type}

namespace Spec

theorem restrict_congr {A : AGraph (Id m) NL EL} {P Q : Id m → Prop} (h : ∀ n, P n ↔ Q n) :
    A.restrict P = A.restrict Q := by
  rw [show P = Q from funext (fun n => propext (h n))]

theorem restrict_node {A : AGraph (Id m) NL EL} {P : Id m → Prop} {n : Id m} (h : P n) :
    (A.restrict P).node n = A.node n := if_pos h

theorem restrict_node_none {A : AGraph (Id m) NL EL} {P : Id m → Prop} {n : Id m} (h : ¬ P n) :
    (A.restrict P).node n = none := if_neg h

theorem restrict_edge {A : AGraph (Id m) NL EL} {P : Id m → Prop} {s t : Id m} (h : P s ∧ P t) :
    (A.restrict P).edge s t = A.edge s t := if_pos h

theorem restrict_edge_none {A : AGraph (Id m) NL EL} {P : Id m → Prop} {s t : Id m} (h : ¬ (P s ∧ P t)) :
    (A.restrict P).edge s t = none := if_neg h

theorem edge_join {g : GView m k NL EL} {A : AGraph (Id m) NL EL} (S : Shows g A) :
    g.directed = false → ∀ s t, (A.edge s t).join = (A.edge t s).join := by
  intro h s t; rw [S.sym h]

/-- Copying a graph onto another of the same directedness. -/
theorem copy_onto {g : GView m k NL EL} {A B : AGraph (Id m) NL EL} (S : Shows g A) :
    (nodeCalls A g).foldl (step g.directed) B =
      ⟨fun n => match A.node n with | some l => some l | none => B.node n, B.edge⟩ := by
  unfold nodeCalls
  rw [run_addNodes]
  congr 1
  funext n
  cases h : A.node n with
  | none => rw [if_neg]; rw [S.memNodes, h]; simp
  | some l => rw [if_pos]; · simp [Option.join]
              · rw [S.memNodes, h]; rfl

theorem copy_edges_onto {g : GView m k NL EL} {A B : AGraph (Id m) NL EL} (S : Shows g A)
    (hB : ∀ n, (A.node n).isSome → (B.node n).isSome) :
    (edgeCalls A g).foldl (step g.directed) B =
      ⟨B.node, fun s t => match A.edge s t with | some l => some l | none => B.edge s t⟩ := by
  unfold edgeCalls
  rw [run_addEdges g.directed (fun s t => (A.edge s t).join) (edge_join S)]
  · congr 1
    funext s t
    simp only [shows_edge_mem S]
    cases h : A.edge s t with
    | none => simp
    | some l => simp [Option.join]
  · rintro ⟨s, t⟩ he
    have := S.ends s t ((S.memEdges s t).1 he).1
    exact ⟨hB s this.1, hB t this.2⟩

theorem nodeCalls_add (A : AGraph (Id m) NL EL) (g : GView m k NL EL) :
    ∀ op ∈ nodeCalls A g, op.isAdd = true := by
  unfold nodeCalls
  simp only [List.mem_map]
  rintro _ ⟨n, _, rfl⟩
  rfl

theorem edgeCalls_add (A : AGraph (Id m) NL EL) (g : GView m k NL EL) :
    ∀ op ∈ edgeCalls A g, op.isAdd = true := by
  unfold edgeCalls
  simp only [List.mem_map]
  rintro _ ⟨n, _, rfl⟩
  rfl

theorem nodeCalls_nodeLab {A : AGraph (Id m) NL EL} {g : GView m k NL EL} {op} (h : op ∈ nodeCalls A g)
    {x : NL} (hx : op.nodeLab = some x) : ∃ n, A.node n = some (some x) := by
  unfold nodeCalls at h
  rw [List.mem_map] at h
  obtain ⟨n, _, rfl⟩ := h
  refine ⟨n, ?_⟩
  simpa [Op.nodeLab, Option.join_eq_some_iff] using hx

theorem nodeCalls_edgeLab {A : AGraph (Id m) NL EL} {g : GView m k NL EL} {op} (h : op ∈ nodeCalls A g) :
    op.edgeLab = none := by
  unfold nodeCalls at h
  rw [List.mem_map] at h
  obtain ⟨n, _, rfl⟩ := h
  rfl

theorem edgeCalls_edgeLab {A : AGraph (Id m) NL EL} {g : GView m k NL EL} {op} (h : op ∈ edgeCalls A g)
    {x : EL} (hx : op.edgeLab = some x) : ∃ s t, A.edge s t = some (some x) := by
  unfold edgeCalls at h
  rw [List.mem_map] at h
  obtain ⟨e, _, rfl⟩ := h
  refine ⟨e.1, e.2, ?_⟩
  simpa [Op.edgeLab, Option.join_eq_some_iff] using hx

theorem edgeCalls_nodeLab {A : AGraph (Id m) NL EL} {g : GView m k NL EL} {op} (h : op ∈ edgeCalls A g) :
    op.nodeLab = none := by
  unfold edgeCalls at h
  rw [List.mem_map] at h
  obtain ⟨n, _, rfl⟩ := h
  rfl

theorem nodeCalls_count (A : AGraph (Id m) NL EL) (g : GView m k NL EL) :
    ((nodeCalls A g).filter Op.addsEdge).length = 0 := by
  unfold nodeCalls
  rw [List.filter_map]
  simp [Op.addsEdge, Function.comp_def]

theorem edgeCalls_count (A : AGraph (Id m) NL EL) (g : GView m k NL EL) :
    ((edgeCalls A g).filter Op.addsEdge).length = g.edgeIndices.length := by
  unfold edgeCalls
  rw [List.filter_map]
  simp [Op.addsEdge, Function.comp_def]

end Spec

namespace GraphMap

variable [DecidableEq NL] [DecidableEq EL]

/-- The calls of `graph_union`. -/
def unionCalls (A B : AGraph (Id m) NL EL) (g0 g1 : GView m k NL EL) : List (Op m k NL EL) :=
  nodeCalls A g0 ++ nodeCalls B g1 ++ edgeCalls A g0 ++ edgeCalls B g1

theorem graphUnion_exec {g0 g1 : GView m k NL EL} {A B : AGraph (Id m) NL EL} (S0 : Shows g0 A)
    (S1 : Shows g1 B) :
    graphUnion g0 g1 = (new g0.directed : GraphMap m k NL EL).exec (unionCalls A B g0 g1) := by
  unfold graphUnion unionCalls
  rw [exec_append, exec_append, exec_append, addNodesOf_exec S0]
  simp only [addNodesOf_exec S1, addEdgesOf_exec S0, addEdgesOf_exec S1]
  simp only [bind_assoc]

omit [DecidableEq NL] [DecidableEq EL] in
theorem run_unionCalls {g0 g1 : GView m k NL EL} {A B : AGraph (Id m) NL EL} (S0 : Shows g0 A)
    (S1 : Shows g1 B) (hd : g0.directed = g1.directed) :
    Spec.run g0.directed (unionCalls A B g0 g1) = A.union B := by
  unfold Spec.run unionCalls
  rw [List.foldl_append, List.foldl_append, List.foldl_append, copy_onto S0]
  rw [hd, copy_onto S1, ← hd, copy_edges_onto S0, hd, copy_edges_onto S1]
  · unfold AGraph.union
    congr 1
    · funext n
      simp only [AGraph.empty]
      cases B.node n <;> cases A.node n <;> rfl
    · funext s t
      simp only [AGraph.empty]
      cases B.edge s t <;> cases A.edge s t <;> rfl
  · intro n hn
    obtain ⟨l, hl⟩ := Option.isSome_iff_exists.1 hn
    simp [hl]
  · intro n hn
    obtain ⟨l, hl⟩ := Option.isSome_iff_exists.1 hn
    simp only [hl]
    cases B.node n <;> rfl

omit [DecidableEq NL] [DecidableEq EL] in
theorem unionCalls_add (A B : AGraph (Id m) NL EL) (g0 g1 : GView m k NL EL) :
    ∀ op ∈ unionCalls A B g0 g1, op.isAdd = true := by
  unfold unionCalls
  simp only [List.mem_append]
  rintro op (((h | h) | h) | h)
  · exact nodeCalls_add _ _ op h
  · exact nodeCalls_add _ _ op h
  · exact edgeCalls_add _ _ op h
  · exact edgeCalls_add _ _ op h

omit [DecidableEq NL] [DecidableEq EL] in
theorem unionCalls_count (A B : AGraph (Id m) NL EL) (g0 g1 : GView m k NL EL) :
    ((unionCalls A B g0 g1).filter Op.addsEdge).length =
      g0.edgeIndices.length + g1.edgeIndices.length := by
  unfold unionCalls
  simp only [List.filter_append, List.length_append, nodeCalls_count, edgeCalls_count]
  omega

theorem graphUnion_ok {g0 g1 : GView m k NL EL} {A B : AGraph (Id m) NL EL} (S0 : Shows g0 A)
    (S1 : Shows g1 B) (hd : g0.directed = g1.directed)
    {nl : List NL} {el : List EL} (hnl : nl.length ≤ k + 1) (hel : el.length ≤ k + 1)
    (h1 : ∀ n x, A.node n = some (some x) ∨ B.node n = some (some x) → x ∈ nl)
    (h2 : ∀ s t x, A.edge s t = some (some x) ∨ B.edge s t = some (some x) → x ∈ el) :
    ∃ g, graphUnion g0 g1 = .ok g ∧ g.directed = g0.directed ∧ Reachable g ∧ Shows g.view (A.union B) ∧
      g.edgeCount = g0.edgeIndices.length + g1.edgeIndices.length := by
  obtain ⟨g, a1, a2, a3, a4, a5, _, _⟩ := build_shows g0.directed (unionCalls A B g0 g1)
    (unionCalls_add A B g0 g1) hnl hel
    (by
      intro op ho x hx
      unfold unionCalls at ho
      simp only [List.mem_append] at ho
      rcases ho with (((h | h) | h) | h)
      · obtain ⟨n, hn⟩ := nodeCalls_nodeLab h hx; exact h1 n x (.inl hn)
      · obtain ⟨n, hn⟩ := nodeCalls_nodeLab h hx; exact h1 n x (.inr hn)
      · rw [edgeCalls_nodeLab h] at hx; cases hx
      · rw [edgeCalls_nodeLab h] at hx; cases hx)
    (by
      intro op ho x hx
      unfold unionCalls at ho
      simp only [List.mem_append] at ho
      rcases ho with (((h | h) | h) | h)
      · rw [nodeCalls_edgeLab h] at hx; cases hx
      · rw [nodeCalls_edgeLab h] at hx; cases hx
      · obtain ⟨s, t, hn⟩ := edgeCalls_edgeLab h hx; exact h2 s t x (.inl hn)
      · obtain ⟨s, t, hn⟩ := edgeCalls_edgeLab h hx; exact h2 s t x (.inr hn))
  refine ⟨g, by rw [graphUnion_exec S0 S1]; exact a1, a2, a3.reachable List.nodup_nil List.nodup_nil, ?_, ?_⟩
  · rw [← run_unionCalls S0 S1 hd]; exact a4
  · rw [a5, unionCalls_count]

/-! ### `graph_minus` -/

/-- `g` holds the labelled graph `A`: invariant, decoded content, valid label ids. -/
structure Holds (d : Bool) (A : AGraph (Id m) NL EL) (g : GraphMap m k NL EL) : Prop where
  inv : g.Inv
  dir : g.directed = d
  dec : g.decode = A
  valid : g.Valid
  nl : g.nodeLabels.len ≤ k + 1
  el : g.edgeLabels.len ≤ k + 1

theorem Holds.apply {d : Bool} {A : AGraph (Id m) NL EL} {g g' : GraphMap m k NL EL} (H : Holds d A g)
    {op : Op m k NL EL} (h : g.apply op = .ok g') (hl : labelOnly op = true)
    (hn : g'.nodeLabels.len ≤ k + 1) (he : g'.edgeLabels.len ≤ k + 1) : Holds d (step d A op) g' := by
  have hf := refines_apply H.inv h
  obtain ⟨e1, e2⟩ := hf.lab hl hn he H.valid
  refine ⟨inv_apply H.inv h, hf.directed.trans H.dir, ?_, e2, hn, he⟩
  rw [e1, H.dir, H.dec]

omit [DecidableEq NL] [DecidableEq EL] in
theorem Holds.shows {d : Bool} {A : AGraph (Id m) NL EL} {g : GraphMap m k NL EL} (H : Holds d A g)
    (hs : d = false → ∀ s t, A.edge s t = A.edge t s) : Shows g.view A := by
  have : g.abs = A := by
    apply AGraph_ext
    · intro n; show g.decode.node n = _; rw [H.dec]
    · intro s t
      show (if g.directed = true ∨ s ≤ t then g.decode.edge s t else g.decode.edge t s) = _
      rw [H.dec]
      split
      · rfl
      · rename_i hc
        rw [not_or, H.dir] at hc
        exact hs (by simpa using hc.1) t s
  rw [← this]
  exact inv_shows H.inv

omit [DecidableEq NL] [DecidableEq EL] in
theorem Holds.hasEdge {d : Bool} {A : AGraph (Id m) NL EL} {g : GraphMap m k NL EL} (H : Holds d A g)
    (s t : Id m) : g.hasEdge s t = (A.edge s t).isSome := by
  rw [hasEdge_eq_outE, ← H.dec]; simp [decode]

/-- Removing a list of nodes. -/
theorem removeNodes_ok {d : Bool} : ∀ (ns : List (Id m)) (A : AGraph (Id m) NL EL) (g : GraphMap m k NL EL),
    Reachable g → Holds d A g → g.numEdges = g.edgeNum →
    (∀ n ∈ ns, (A.edge n n) = none) →
    ∃ g', ns.foldlM (fun g n => do let r ← g.removeNode n; pure r.1) g = .ok g' ∧ Reachable g' ∧
      Holds d (A.restrict (fun n => n ∉ ns)) g' ∧ g'.numEdges = g'.edgeNum := by
  intro ns
  induction ns with
  | nil =>
    intro A g hr H hc _
    refine ⟨g, rfl, hr, ?_, hc⟩
    have : A.restrict (fun n => n ∉ ([] : List (Id m))) = A := by
      unfold AGraph.restrict; simp
    rw [this]; exact H
  | cons n ns ih =>
    intro A g hr H hc hl
    have hloop : g.hasEdge n n = false := by rw [H.hasEdge, hl n (by simp)]; rfl
    obtain ⟨g1, h1, h2, h3, h4, h5, h6, h7, h8, h9, h10⟩ := removeNode_spec H.inv n hloop
    have ha : g.apply (.removeNode n) = .ok g1 := by simp [GraphMap.apply, h1, bind_ok, pure_ok]
    have H1 : Holds d (A.removeNode n) g1 := H.apply ha rfl (by rw [h4]; exact H.nl) (by rw [h5]; exact H.el)
    obtain ⟨g2, b1, b2, b3, b4⟩ := ih _ g1 (.step hr ha) H1 (by omega) (by
      intro x hx
      show (if x = n ∨ x = n then none else A.edge x x) = none
      rw [hl x (by simp [hx])]
      split <;> rfl)
    refine ⟨g2, ?_, b2, ?_, b4⟩
    · rw [List.foldlM_cons, h1]
      simpa [bind_ok, pure_ok] using b1
    · have : (A.removeNode n).restrict (fun x => x ∉ ns) = A.restrict (fun x => x ∉ n :: ns) := by
        unfold AGraph.restrict AGraph.removeNode
        congr 1
        · funext x
          by_cases e1 : x = n <;> by_cases e2 : x ∈ ns <;> simp [e1, e2]
        · funext s t
          by_cases e1 : s = n <;> by_cases e2 : t = n <;> by_cases e3 : s ∈ ns <;>
            by_cases e4 : t ∈ ns <;> simp [e1, e2, e3, e4]
      rw [← this]; exact b3

/-- A self loop at one of the nodes makes the removal panic. -/
theorem removeNodes_loop {d : Bool} : ∀ (ns : List (Id m)) (A : AGraph (Id m) NL EL) (g : GraphMap m k NL EL),
    Holds d A g → (∃ n ∈ ns, (A.edge n n).isSome) →
    ns.foldlM (fun g n => do let r ← g.removeNode n; pure r.1) g = .error .unwrapNone := by
  intro ns
  induction ns with
  | nil => rintro A g H ⟨n, hn, _⟩; simp at hn
  | cons n ns ih =>
    rintro A g H ⟨x, hx, hl⟩
    rw [List.foldlM_cons]
    cases hloop : g.hasEdge n n with
    | true => rw [removeNode_loop n hloop]; rfl
    | false =>
      obtain ⟨g1, h1, h2, h3, h4, h5, h6, h7, h8, h9, h10⟩ := removeNode_spec H.inv n hloop
      have ha : g.apply (.removeNode n) = .ok g1 := by simp [GraphMap.apply, h1, bind_ok, pure_ok]
      have H1 : Holds d (A.removeNode n) g1 :=
        H.apply ha rfl (by rw [h4]; exact H.nl) (by rw [h5]; exact H.el)
      have hxn : x ≠ n := by
        rintro rfl
        rw [H.hasEdge] at hloop
        rw [hloop] at hl; cases hl
      rw [h1]
      refine ih _ g1 H1 ⟨x, ?_, ?_⟩
      · rcases List.mem_cons.1 hx with e | e
        · exact absurd e hxn
        · exact e
      · show (if x = n ∨ x = n then none else A.edge x x).isSome
        simpa [hxn] using hl

omit [DecidableEq NL] [DecidableEq EL] in
/-- Removing absent edges. -/
theorem removeEdges_absent {d : Bool} {A : AGraph (Id m) NL EL} {g : GraphMap m k NL EL} (H : Holds d A g) :
    ∀ (es : List (Id m × Id m)), (∀ e ∈ es, A.edge e.1 e.2 = none) →
    es.foldlM (fun g e => do let r ← g.removeEdge e.1 e.2; pure r.1) g = .ok g := by
  intro es
  induction es with
  | nil => intro _; rfl
  | cons e es ih =>
    intro h
    have h0 : g.hasEdge e.1 e.2 = false := by rw [H.hasEdge, h e (by simp)]; rfl
    rw [List.foldlM_cons]
    have : g.removeEdge e.1 e.2 = .ok (g, none) := by simp [removeEdge, h0, pure_ok]
    rw [this]
    exact ih (fun e he => h e (by simp [he]))

/-- The copy that `graph_minus` starts from. -/
theorem copy_ok {g0 : GView m k NL EL} {A : AGraph (Id m) NL EL} (S0 : Shows g0 A) :
    ∃ g, (do let g ← addNodesOf g0 (new g0.directed); addEdgesOf g0 g) = .ok g ∧ Reachable g ∧
      Holds g0.directed A g ∧ g.numEdges = g.edgeNum := by
  obtain ⟨⟨nl, hnl, h1⟩, el, hel, h2⟩ := shows_fits S0
  have hrun : Spec.run g0.directed (nodeCalls A g0 ++ edgeCalls A g0) = A := by
    unfold Spec.run
    rw [List.foldl_append, copy_onto S0, copy_edges_onto S0]
    · apply AGraph_ext
      · intro n; simp only [AGraph.empty]; cases A.node n <;> rfl
      · intro s t; simp only [AGraph.empty]; cases A.edge s t <;> rfl
    · intro n hn
      obtain ⟨l, hl⟩ := Option.isSome_iff_exists.1 hn
      simp [hl]
  have hadd : ∀ op ∈ nodeCalls A g0 ++ edgeCalls A g0, op.isAdd = true := by
    intro op ho
    rcases List.mem_append.1 ho with h | h
    · exact nodeCalls_add _ _ op h
    · exact edgeCalls_add _ _ op h
  obtain ⟨g, a1, a2, a3, a4, a5, a6, a7⟩ := build_shows g0.directed (nodeCalls A g0 ++ edgeCalls A g0)
    hadd hnl hel
    (by
      intro op ho x hx
      rcases List.mem_append.1 ho with h | h
      · obtain ⟨n, hn⟩ := nodeCalls_nodeLab h hx; exact h1 n x hn
      · rw [edgeCalls_nodeLab h] at hx; cases hx)
    (by
      intro op ho x hx
      rcases List.mem_append.1 ho with h | h
      · rw [nodeCalls_edgeLab h] at hx; cases hx
      · obtain ⟨s, t, hn⟩ := edgeCalls_edgeLab h hx; exact h2 s t x hn)
  have hlo : ∀ op ∈ nodeCalls A g0 ++ edgeCalls A g0, labelOnly op = true := by
    intro op ho
    have := hadd op ho
    cases op <;> simp_all [Op.isAdd, labelOnly]
  have hreach := a3.reachable List.nodup_nil List.nodup_nil
  obtain ⟨d1, d2⟩ := run_decode List.nodup_nil List.nodup_nil a3 hlo a6 a7
  refine ⟨g, ?_, hreach, ⟨hreach.inv, a2, by rw [d1, hrun], d2, a6, a7⟩, ?_⟩
  · rw [addNodesOf_exec S0]
    simp only [addEdgesOf_exec S0]
    rw [← exec_append]
    exact a1
  · have e := edgeIndices_length hreach.inv.toNWF
    have s := a4
    rw [hrun] at s
    have hlen : g.edgeIndices.length = g0.edgeIndices.length := by
      apply List.Perm.length_eq
      have p1 : g.edgeIndices.Nodup := s.edgesNodup
      rw [List.perm_ext_iff_of_nodup p1 S0.edgesNodup]
      rintro ⟨x, y⟩
      have q1 : (x, y) ∈ g.edgeIndices ↔ A.Listed g.view.directed x y := s.memEdges x y
      rw [q1, S0.memEdges]
      have : g.view.directed = g0.directed := a2
      rw [this]
    show g.edgeCount = _
    rw [a5, List.filter_append, List.length_append, nodeCalls_count, edgeCalls_count, ← e, hlen]
    omega

end GraphMap

end Verif
