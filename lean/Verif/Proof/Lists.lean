import Verif.Proof.SetOps
import Verif.Proof.Csv
import Verif.Spec.Lists

/-! Copies of graphs that list edges with missing ends. -/

namespace Verif

open Spec

variable {m k : Nat} {NL EL : Type}

namespace Spec

theorem Shows.lists {g : GView m k NL EL} {A : AGraph (Id m) NL EL} (S : Shows g A) : Lists g A :=
  ⟨⟨S.sym, S.memNodes, S.edgesNodup, S.memEdges⟩, S.nodeLabel, S.edgeLabel⟩

/-- Where every end of an edge is a node nothing is added. -/
theorem closed_self {A : AGraph (Id m) NL EL}
    (h : ∀ s t, (A.edge s t).isSome → (A.node s).isSome ∧ (A.node t).isSome) : A.closed = A := by
  apply GraphMap.AGraph_ext
  · intro n
    simp only [AGraph.closed]
    cases hn : A.node n with
    | some l => rfl
    | none =>
      rw [if_neg]
      rintro ⟨t, ht | ht⟩
      · have := (h n t ht).1; rw [hn] at this; cases this
      · have := (h t n ht).2; rw [hn] at this; cases this
  · intro s t; rfl

theorem lists_edge_mem {g : GView m k NL EL} {A : AGraph (Id m) NL EL} (S : Listing g A) (a b : Id m) :
    ((a, b) ∈ g.edgeIndices ∨ (g.directed = false ∧ (b, a) ∈ g.edgeIndices)) ↔ (A.edge a b).isSome := by
  rw [S.memEdges, S.memEdges]
  unfold AGraph.Listed
  constructor
  · rintro (h | ⟨h1, h2, _⟩)
    · exact h.1
    · rw [S.sym h1]; exact h2
  · intro h
    cases hd : g.directed with
    | true => exact .inl ⟨h, .inl rfl⟩
    | false =>
      rcases le_total a b with hab | hab
      · exact .inl ⟨h, .inr hab⟩
      · exact .inr ⟨rfl, by rw [S.sym hd]; exact h, .inr hab⟩

/-- Adding edges whose ends may be missing. -/
theorem run_addEdges_ends (d : Bool) (lab : Id m → Id m → Option EL)
    (hlab : d = false → ∀ s t, lab s t = lab t s) :
    ∀ (es : List (Id m × Id m)) (A : AGraph (Id m) NL EL),
    (es.map (fun e => (Op.addEdge e.1 e.2 (lab e.1 e.2) : Op m k NL EL))).foldl (step d) A =
      ⟨fun n => if A.node n = none ∧ ∃ e ∈ es, n = e.1 ∨ n = e.2 then some none else A.node n,
       fun a b => if (a, b) ∈ es ∨ (d = false ∧ (b, a) ∈ es) then some (lab a b) else A.edge a b⟩ := by
  intro es
  induction es with
  | nil => intro A; simp
  | cons e es ih =>
    intro A
    obtain ⟨s, t⟩ := e
    rw [List.map_cons, List.foldl_cons, ih _]
    congr 1
    · funext n
      simp only [step, AGraph.addEdge, List.exists_mem_cons_iff]
      cases hn : A.node n with
      | some l => simp
      | none =>
        by_cases h1 : n = s ∨ n = t
        · simp [h1]
        · simp [h1]
    · funext a b
      simp only [step, AGraph.addEdge, List.mem_cons, Prod.mk.injEq]
      by_cases h1 : (a, b) ∈ es ∨ (d = false ∧ (b, a) ∈ es)
      · rw [if_pos h1, if_pos]
        rcases h1 with h1 | ⟨h1, h2⟩
        · exact .inl (.inr h1)
        · exact .inr ⟨h1, .inr h2⟩
      · rw [if_neg h1]
        by_cases h2 : AGraph.same d s t a b
        · rw [if_pos h2, if_pos]
          · congr 1
            rcases h2 with ⟨rfl, rfl⟩ | ⟨h3, rfl, rfl⟩
            · rfl
            · exact hlab h3 _ _
          · rcases h2 with ⟨rfl, rfl⟩ | ⟨h3, rfl, rfl⟩
            · exact .inl (.inl ⟨rfl, rfl⟩)
            · exact .inr ⟨h3, .inl ⟨rfl, rfl⟩⟩
        · rw [if_neg h2, if_neg]
          rintro (h3 | ⟨h3, h4⟩)
          · rcases h3 with h3 | h3
            · exact h2 (.inl h3)
            · exact h1 (.inl h3)
          · rcases h4 with ⟨h4, h5⟩ | h4
            · exact h2 (.inr ⟨h3, h5, h4⟩)
            · exact h1 (.inr ⟨h3, h4⟩)

/-- The ends of the listed edges. -/
theorem lists_ends {g : GView m k NL EL} {A : AGraph (Id m) NL EL} (S : Listing g A) (n : Id m) :
    (∃ e ∈ g.edgeIndices, n = e.1 ∨ n = e.2) ↔ A.Touched n := by
  constructor
  · rintro ⟨⟨s, t⟩, he, rfl | rfl⟩
    · exact ⟨t, .inl ((S.memEdges _ _).1 he).1⟩
    · exact ⟨s, .inr ((S.memEdges _ _).1 he).1⟩
  · rintro ⟨t, h | h⟩
    · rcases (lists_edge_mem S n t).2 h with h | ⟨_, h⟩
      · exact ⟨_, h, .inl rfl⟩
      · exact ⟨_, h, .inr rfl⟩
    · rcases (lists_edge_mem S t n).2 h with h | ⟨_, h⟩
      · exact ⟨_, h, .inr rfl⟩
      · exact ⟨_, h, .inl rfl⟩

theorem lists_nodes_onto {g : GView m k NL EL} {A B : AGraph (Id m) NL EL} (S : Listing g A) (d : Bool) :
    (nodeCalls A g).foldl (step d) B =
      ⟨fun n => match A.node n with | some l => some l | none => B.node n, B.edge⟩ := by
  unfold nodeCalls
  rw [run_addNodes]
  congr 1
  funext n
  cases h : A.node n with
  | none => rw [if_neg]; rw [S.memNodes, h]; simp
  | some l => rw [if_pos]; · simp [Option.join]
              · rw [S.memNodes, h]; rfl

open Classical in
theorem lists_edges_onto {g : GView m k NL EL} {A B : AGraph (Id m) NL EL} (S : Listing g A) :
    (edgeCalls A g).foldl (step g.directed) B =
      ⟨fun n => match B.node n with | some l => some l | none => if A.Touched n then some none else none,
       fun s t => match A.edge s t with | some l => some l | none => B.edge s t⟩ := by
  unfold edgeCalls
  rw [run_addEdges_ends g.directed (fun s t => (A.edge s t).join) (fun h s t => by rw [S.sym h])]
  congr 1
  · funext n
    simp only [lists_ends S]
    cases h : B.node n <;> simp
  · funext s t
    simp only [lists_edge_mem S]
    cases h : A.edge s t with
    | none => simp
    | some l => simp [Option.join]

/-- The labels a graph lists fit its label-id type. -/
theorem lists_fits {g : GView m k NL EL} {A : AGraph (Id m) NL EL} (S : Lists g A) : Fits k A := by
  constructor
  · refine ⟨(List.finRange (k + 1)).filterMap (fun i => g.nodeLabels.getItem i.val), ?_, ?_⟩
    · exact le_trans (List.length_filterMap_le _ _) (by simp)
    · intro n x h
      have h1 := S.nodeLabel n _ h
      unfold GView.getNodeLabel at h1
      obtain ⟨o, h2, h3⟩ := bind_eq_ok h1
      cases o with
      | none => simp [pure_ok] at h3
      | some i =>
        rw [List.mem_filterMap]
        refine ⟨i, List.mem_finRange _, ?_⟩
        simpa [pure_ok] using h3
  · refine ⟨(List.finRange (k + 1)).filterMap (fun i => g.edgeLabels.getItem i.val), ?_, ?_⟩
    · exact le_trans (List.length_filterMap_le _ _) (by simp)
    · have key : ∀ s t x, (g.directed = true ∨ s ≤ t) → A.edge s t = some (some x) →
          x ∈ (List.finRange (k + 1)).filterMap (fun i => g.edgeLabels.getItem i.val) := by
        intro s t x hd h
        have h1 := S.edgeLabel s t _ h hd
        unfold GView.getEdgeLabel at h1
        obtain ⟨o, h2, h3⟩ := bind_eq_ok h1
        cases o with
        | none => simp [pure_ok] at h3
        | some i =>
          rw [List.mem_filterMap]
          refine ⟨i, List.mem_finRange _, ?_⟩
          simpa [pure_ok] using h3
      intro s t x h
      rcases e : g.directed
      · rcases le_total s t with hle | hle
        · exact key s t x (.inr hle) h
        · exact key t s x (.inr hle) (by rw [S.sym e]; exact h)
      · exact key s t x (.inl e) h

/-- The copy has the listed edges, so it lists them too. -/
theorem lists_edges_length {g c : GView m k NL EL} {A B : AGraph (Id m) NL EL} (S : Lists g A) (T : Lists c B)
    (hd : c.directed = g.directed) (he : B.edge = A.edge) : c.edgeIndices.length = g.edgeIndices.length := by
  apply List.Perm.length_eq
  rw [List.perm_ext_iff_of_nodup T.edgesNodup S.edgesNodup]
  rintro ⟨x, y⟩
  rw [T.memEdges, S.memEdges, hd]
  unfold AGraph.Listed
  rw [he]

end Spec

namespace GraphMap

variable [DecidableEq NL] [DecidableEq EL]

theorem addNodesOf_lists {src : GView m k NL EL} {A : AGraph (Id m) NL EL} (S : Lists src A)
    (g : GraphMap m k NL EL) : addNodesOf src g = g.exec (nodeCalls A src) := by
  apply foldlM_exec
  intro n hn g
  obtain ⟨l, hl⟩ := Option.isSome_iff_exists.1 ((S.memNodes n).1 hn)
  rw [S.nodeLabel n l hl, bind_ok, hl]
  rfl

theorem addEdgesOf_lists {src : GView m k NL EL} {A : AGraph (Id m) NL EL} (S : Lists src A)
    (g : GraphMap m k NL EL) : addEdgesOf src g = g.exec (edgeCalls A src) := by
  apply foldlM_exec
  rintro ⟨s, t⟩ hn g
  obtain ⟨h1, h2⟩ := (S.memEdges s t).1 hn
  obtain ⟨l, hl⟩ := Option.isSome_iff_exists.1 h1
  show (src.getEdgeLabel s t >>= _) = _
  rw [S.edgeLabel s t l hl h2, bind_ok]
  show _ = g.apply (Op.addEdge s t (A.edge s t).join)
  rw [hl]
  rfl

theorem graphUnion_lists_exec {g0 g1 : GView m k NL EL} {A B : AGraph (Id m) NL EL} (S0 : Lists g0 A)
    (S1 : Lists g1 B) :
    graphUnion g0 g1 = (new g0.directed : GraphMap m k NL EL).exec (unionCalls A B g0 g1) := by
  unfold graphUnion unionCalls
  rw [exec_append, exec_append, exec_append, addNodesOf_lists S0]
  simp only [addNodesOf_lists S1, addEdgesOf_lists S0, addEdgesOf_lists S1]
  simp only [bind_assoc]

open Classical in
omit [DecidableEq NL] [DecidableEq EL] in
theorem run_unionCalls_lists {g0 g1 : GView m k NL EL} {A B : AGraph (Id m) NL EL} (S0 : Lists g0 A)
    (S1 : Lists g1 B) (hd : g0.directed = g1.directed) :
    Spec.run g0.directed (unionCalls A B g0 g1) = (A.union B).closed := by
  unfold Spec.run unionCalls
  rw [List.foldl_append, List.foldl_append, List.foldl_append, lists_nodes_onto S0.toListing, lists_nodes_onto S1.toListing,
    lists_edges_onto S0.toListing, hd, lists_edges_onto S1.toListing]
  apply AGraph_ext
  · intro n
    have ht : (A.union B).Touched n ↔ A.Touched n ∨ B.Touched n := by
      have key : ∀ s t, ((A.union B).edge s t).isSome ↔ (A.edge s t).isSome ∨ (B.edge s t).isSome := by
        intro s t
        simp only [AGraph.union]
        cases B.edge s t <;> simp
      unfold AGraph.Touched
      simp only [key]
      constructor
      · rintro ⟨t, (h | h) | (h | h)⟩
        · exact .inl ⟨t, .inl h⟩
        · exact .inr ⟨t, .inl h⟩
        · exact .inl ⟨t, .inr h⟩
        · exact .inr ⟨t, .inr h⟩
      · rintro (⟨t, h | h⟩ | ⟨t, h | h⟩)
        · exact ⟨t, .inl (.inl h)⟩
        · exact ⟨t, .inr (.inl h)⟩
        · exact ⟨t, .inl (.inr h)⟩
        · exact ⟨t, .inr (.inr h)⟩
    have e : (A.union B).closed.node n = match (A.union B).node n with
        | some l => some l
        | none => if A.Touched n ∨ B.Touched n then some none else none := by
      simp only [AGraph.closed]
      cases (A.union B).node n with
      | some l => rfl
      | none => simp only [ht]
    rw [e]
    simp only [AGraph.union, AGraph.empty]
    cases B.node n <;> cases A.node n <;> by_cases h1 : A.Touched n <;> by_cases h2 : B.Touched n <;>
      simp [h1, h2]
  · intro s t
    simp only [AGraph.closed, AGraph.union, AGraph.empty]
    cases B.edge s t <;> cases A.edge s t <;> rfl

theorem graphUnion_lists {g0 g1 : GView m k NL EL} {A B : AGraph (Id m) NL EL} (S0 : Lists g0 A)
    (S1 : Lists g1 B) (hd : g0.directed = g1.directed)
    {nl : List NL} {el : List EL} (hnl : nl.length ≤ k + 1) (hel : el.length ≤ k + 1)
    (h1 : ∀ n x, A.node n = some (some x) ∨ B.node n = some (some x) → x ∈ nl)
    (h2 : ∀ s t x, A.edge s t = some (some x) ∨ B.edge s t = some (some x) → x ∈ el) :
    ∃ g, graphUnion g0 g1 = .ok g ∧ g.directed = g0.directed ∧ Reachable g ∧
      Shows g.view (A.union B).closed ∧ g.edgeCount = g0.edgeIndices.length + g1.edgeIndices.length := by
  obtain ⟨g, a1, a2, a3, a4, a5, _, _⟩ := build_shows g0.directed (unionCalls A B g0 g1)
    (unionCalls_add A B g0 g1) hnl hel
    (by
      intro op ho x hx
      unfold unionCalls at ho
      simp only [List.mem_append] at ho
      rcases ho with (((h | h) | h) | h)
      · obtain ⟨n, hn⟩ := nodeCalls_nodeLab h hx; exact h1 n x (.inl hn)
      · obtain ⟨n, hn⟩ := nodeCalls_nodeLab h hx; exact h1 n x (.inr hn)
      · rw [edgeCalls_nodeLab h] at hx; cases hx
      · rw [edgeCalls_nodeLab h] at hx; cases hx)
    (by
      intro op ho x hx
      unfold unionCalls at ho
      simp only [List.mem_append] at ho
      rcases ho with (((h | h) | h) | h)
      · rw [nodeCalls_edgeLab h] at hx; cases hx
      · rw [nodeCalls_edgeLab h] at hx; cases hx
      · obtain ⟨s, t, hn⟩ := edgeCalls_edgeLab h hx; exact h2 s t x (.inl hn)
      · obtain ⟨s, t, hn⟩ := edgeCalls_edgeLab h hx; exact h2 s t x (.inr hn))
  refine ⟨g, by rw [graphUnion_lists_exec S0 S1]; exact a1, a2, a3.reachable List.nodup_nil List.nodup_nil,
    ?_, ?_⟩
  · rw [← run_unionCalls_lists S0 S1 hd]; exact a4
  · rw [a5, unionCalls_count]

/-- The copy that `graph_minus` starts from. -/
theorem copy_lists {g0 : GView m k NL EL} {A : AGraph (Id m) NL EL} (S0 : Lists g0 A) :
    ∃ g, (do let g ← addNodesOf g0 (new g0.directed); addEdgesOf g0 g) = .ok g ∧ Reachable g ∧
      Holds g0.directed A.closed g ∧ g.numEdges = g.edgeNum := by
  obtain ⟨⟨nl, hnl, h1⟩, el, hel, h2⟩ := lists_fits S0
  have hrun : Spec.run g0.directed (nodeCalls A g0 ++ edgeCalls A g0) = A.closed := by
    unfold Spec.run
    rw [List.foldl_append, lists_nodes_onto S0.toListing, lists_edges_onto S0.toListing]
    apply AGraph_ext
    · intro n; simp only [AGraph.empty, AGraph.closed]; cases A.node n <;> rfl
    · intro s t; simp only [AGraph.empty, AGraph.closed]; cases A.edge s t <;> rfl
  have hadd : ∀ op ∈ nodeCalls A g0 ++ edgeCalls A g0, op.isAdd = true := by
    intro op ho
    rcases List.mem_append.1 ho with h | h
    · exact nodeCalls_add _ _ op h
    · exact edgeCalls_add _ _ op h
  obtain ⟨g, a1, a2, a3, a4, a5, a6, a7⟩ := build_shows g0.directed (nodeCalls A g0 ++ edgeCalls A g0)
    hadd hnl hel
    (by
      intro op ho x hx
      rcases List.mem_append.1 ho with h | h
      · obtain ⟨n, hn⟩ := nodeCalls_nodeLab h hx; exact h1 n x hn
      · rw [edgeCalls_nodeLab h] at hx; cases hx)
    (by
      intro op ho x hx
      rcases List.mem_append.1 ho with h | h
      · rw [nodeCalls_edgeLab h] at hx; cases hx
      · obtain ⟨s, t, hn⟩ := edgeCalls_edgeLab h hx; exact h2 s t x hn)
  have hlo : ∀ op ∈ nodeCalls A g0 ++ edgeCalls A g0, labelOnly op = true := by
    intro op ho
    have := hadd op ho
    cases op <;> simp_all [Op.isAdd, labelOnly]
  have hreach := a3.reachable List.nodup_nil List.nodup_nil
  obtain ⟨d1, d2⟩ := run_decode List.nodup_nil List.nodup_nil a3 hlo a6 a7
  refine ⟨g, ?_, hreach, ⟨hreach.inv, a2, by rw [d1, hrun], d2, a6, a7⟩, ?_⟩
  · rw [addNodesOf_lists S0]
    simp only [addEdgesOf_lists S0]
    rw [← exec_append]
    exact a1
  · have e := edgeIndices_length hreach.inv.toNWF
    have s := a4
    rw [hrun] at s
    have hlen : g.edgeIndices.length = g0.edgeIndices.length := lists_edges_length S0 s.lists a2 rfl
    show g.edgeCount = _
    rw [a5, List.filter_append, List.length_append, nodeCalls_count, edgeCalls_count, ← e, hlen]
    omega

/-- Removing a list of edges. -/
theorem removeEdges_ok {d : Bool} : ∀ (es : List (Id m × Id m)) (A : AGraph (Id m) NL EL)
    (g : GraphMap m k NL EL), Reachable g → Holds d A g → g.numEdges = g.edgeNum →
    ∃ g', es.foldlM (fun g e => do let r ← g.removeEdge e.1 e.2; pure r.1) g = .ok g' ∧ Reachable g' ∧
      Holds d ⟨A.node, fun a b => if (a, b) ∈ es ∨ (d = false ∧ (b, a) ∈ es) then none else A.edge a b⟩ g' ∧
      g'.numEdges = g'.edgeNum := by
  intro es
  induction es with
  | nil =>
    intro A g hr H hc
    exact ⟨g, rfl, hr, by simpa using H, hc⟩
  | cons e es ih =>
    obtain ⟨s, t⟩ := e
    intro A g hr H hc
    obtain ⟨g1, h1, h2, h3, h4, h5, h6, h7, h8, h9, h10⟩ := removeEdge_spec H.inv s t
    have ha : g.apply (.removeEdge s t) = .ok g1 := by simp [GraphMap.apply, h1, bind_ok, pure_ok]
    have H1 : Holds d (A.removeEdge d s t) g1 :=
      H.apply ha rfl (by rw [h4]; exact H.nl) (by rw [h5]; exact H.el)
    have hc1 : g1.numEdges = g1.edgeNum := by
      by_cases he : g.hasEdge s t = true
      · have ho : (g.outE s t).isSome := by rw [← hasEdge_eq_outE]; exact he
        have := AGraph.edgeNumber_removeEdge g.directed g.rep H.inv.sym s t ho
        rw [if_pos he] at h7
        unfold edgeNum at hc ⊢
        rw [h9, h3]
        omega
      · rw [h8 (by simpa using he)]; exact hc
    obtain ⟨g2, b1, b2, b3, b4⟩ := ih _ g1 (.step hr ha) H1 hc1
    refine ⟨g2, ?_, b2, ?_, b4⟩
    · rw [List.foldlM_cons, h1]
      simpa [bind_ok, pure_ok] using b1
    · have : (⟨(A.removeEdge d s t).node, fun a b => if (a, b) ∈ es ∨ (d = false ∧ (b, a) ∈ es) then none
          else (A.removeEdge d s t).edge a b⟩ : AGraph (Id m) NL EL) =
          ⟨A.node, fun a b => if (a, b) ∈ (s, t) :: es ∨ (d = false ∧ (b, a) ∈ (s, t) :: es) then none
          else A.edge a b⟩ := by
        congr 1
        funext a b
        simp only [AGraph.removeEdge, List.mem_cons, Prod.mk.injEq]
        by_cases h1 : (a, b) ∈ es ∨ (d = false ∧ (b, a) ∈ es)
        · rw [if_pos h1, if_pos]
          rcases h1 with h1 | ⟨h1, h2⟩
          · exact .inl (.inr h1)
          · exact .inr ⟨h1, .inr h2⟩
        · rw [if_neg h1]
          by_cases h2 : AGraph.same d s t a b
          · rw [if_pos h2, if_pos]
            rcases h2 with ⟨rfl, rfl⟩ | ⟨h3, rfl, rfl⟩
            · exact .inl (.inl ⟨rfl, rfl⟩)
            · exact .inr ⟨h3, .inl ⟨rfl, rfl⟩⟩
          · rw [if_neg h2, if_neg]
            rintro (h3 | ⟨h3, h4⟩)
            · rcases h3 with h3 | h3
              · exact h2 (.inl h3)
              · exact h1 (.inl h3)
            · rcases h4 with ⟨h4, h5⟩ | h4
              · exact h2 (.inr ⟨h3, h5, h4⟩)
              · exact h1 (.inr ⟨h3, h4⟩)
      rw [← this]; exact b3

end GraphMap

namespace Csv

theorem write_lists {g : GView m k NL EL} {A : AGraph (Id m) NL EL} (S : Lists g A) (sep : Byte)
    (xf : Field (Id m)) (nf : Field NL) (ef : Field EL) :
    write sep xf nf ef g = .ok
      (writeAll sep [idName, labelName]
        (g.nodeIndices.map (fun n => record [xf.shown n] nf (A.node n).join)),
       writeAll sep [startName, endName, typeName]
        (g.edgeIndices.map (fun e => record [xf.shown e.1, xf.shown e.2] ef (A.edge e.1 e.2).join))) := by
  unfold write
  rw [mapM_ok _ (fun n => record [xf.shown n] nf (A.node n).join), bind_ok,
    mapM_ok _ (fun e => record [xf.shown e.1, xf.shown e.2] ef (A.edge e.1 e.2).join), bind_ok]
  · rfl
  · rintro ⟨s, t⟩ he
    obtain ⟨h1, h2⟩ := (S.memEdges s t).1 he
    obtain ⟨l, hl⟩ := Option.isSome_iff_exists.1 h1
    simp only
    rw [S.edgeLabel s t l hl h2, bind_ok, hl]
    rfl
  · intro n hn
    obtain ⟨l, hl⟩ := Option.isSome_iff_exists.1 ((S.memNodes n).1 hn)
    rw [S.nodeLabel n l hl, bind_ok, hl]
    rfl

/-- Written files read into an empty graph. -/
theorem roundTrip_lists [DecidableEq NL] [DecidableEq EL] {g : GView m k NL EL} {A : AGraph (Id m) NL EL}
    (S : Lists g A) {c : Settings} (hs : SeparatorOk c.separator) (hh : c.hasHeaders = true)
    {xf : Field (Id m)} {nf : Field NL} {ef : Field EL}
    (hx : ∀ n, (A.closed.node n).isSome = true → xf.parse (xf.shown n) = some n)
    (hn : ∀ n x, A.node n = some (some x) → nf.shown x ≠ [] → nf.parse (nf.shown x) = some x)
    (he : ∀ s t x, A.edge s t = some (some x) → ef.shown x ≠ [] → ef.parse (ef.shown x) = some x) :
    ∃ (nb eb : List Byte) (g' : GraphMap m k NL EL), write c.separator xf nf ef g = .ok (nb, eb) ∧
      read c xf nf ef (some nb) eb (GraphMap.new g.directed) = .ok g' ∧ GraphMap.Reachable g' ∧
      g'.directed = g.directed ∧ Shows g'.view (A.dropEmpty nf ef).closed ∧
      g'.edgeCount = g.edgeIndices.length := by
  obtain ⟨⟨nl, hnl, hnl'⟩, ⟨el, hel, hel'⟩⟩ := lists_fits S
  have L : Listing g (A.dropEmpty nf ef) := by
    refine ⟨fun h s t => ?_, fun n => ?_, S.edgesNodup, fun s t => ?_⟩
    · simp only [AGraph.dropEmpty, S.sym h s t]
    · rw [S.memNodes]; simp [AGraph.dropEmpty]
    · rw [S.memEdges]; simp [AGraph.Listed, AGraph.dropEmpty]
  have hmem : ∀ n, (A.node n).isSome ∨ A.Touched n → (A.closed.node n).isSome := by
    intro n h
    simp only [AGraph.closed]
    cases hn : A.node n with
    | some l => rfl
    | none =>
      rw [hn] at h
      rw [if_pos (by simpa using h)]
      rfl
  have jn : ∀ n, ((A.dropEmpty nf ef).node n).join =
      (A.node n).join.filter (fun x => decide (nf.shown x ≠ [])) := by
    intro n; simp only [AGraph.dropEmpty]; cases A.node n <;> rfl
  have je : ∀ s t, ((A.dropEmpty nf ef).edge s t).join =
      (A.edge s t).join.filter (fun x => decide (ef.shown x ≠ [])) := by
    intro s t; simp only [AGraph.dropEmpty]; cases A.edge s t <;> rfl
  have hni := nodeIter_write hs hh xf nf g.nodeIndices (fun n => (A.node n).join)
    (fun n h => hx n (hmem n (.inl ((S.memNodes n).1 h))))
    (fun n _ x hl => hn n x (Option.join_eq_some_iff.1 hl))
  have hei := edgeIter_write hs hh xf ef g.edgeIndices (fun e => (A.edge e.1 e.2).join)
    (fun e h => ⟨hx _ (hmem _ (.inr ⟨e.2, .inl ((S.memEdges e.1 e.2).1 h).1⟩)),
      hx _ (hmem _ (.inr ⟨e.1, .inr ((S.memEdges e.1 e.2).1 h).1⟩))⟩)
    (fun e _ x hl => he _ _ x (Option.join_eq_some_iff.1 hl))
  have o1 : (nodeOps (g.nodeIndices.map
        (fun n => (n, (A.node n).join.filter (fun x => decide (nf.shown x ≠ []))))) : List (Op m k NL EL)) =
      nodeCalls (A.dropEmpty nf ef) g := by
    unfold nodeOps nodeCalls
    rw [List.map_map]
    apply List.map_congr_left
    intro n _
    rw [jn]
    rfl
  have o2 : (edgeOps (g.edgeIndices.map
        (fun e => (e.1, e.2, (A.edge e.1 e.2).join.filter (fun x => decide (ef.shown x ≠ []))))) :
        List (Op m k NL EL)) = edgeCalls (A.dropEmpty nf ef) g := by
    unfold edgeOps edgeCalls
    rw [List.map_map]
    apply List.map_congr_left
    intro e _
    rw [je]
    rfl
  have hrun : Spec.run g.directed (nodeCalls (A.dropEmpty nf ef) g ++ edgeCalls (A.dropEmpty nf ef) g) =
      (A.dropEmpty nf ef).closed := by
    unfold Spec.run
    rw [List.foldl_append, lists_nodes_onto L, lists_edges_onto L]
    apply GraphMap.AGraph_ext
    · intro n
      simp only [AGraph.empty, AGraph.closed]
      cases (A.dropEmpty nf ef).node n <;> rfl
    · intro s t
      simp only [AGraph.empty, AGraph.closed]
      cases (A.dropEmpty nf ef).edge s t <;> rfl
  obtain ⟨g', a1, a2, a3, a4, a5, -, -⟩ := GraphMap.build_shows (m := m) (k := k) g.directed
    (nodeCalls (A.dropEmpty nf ef) g ++ edgeCalls (A.dropEmpty nf ef) g)
    (by
      intro op ho
      rcases List.mem_append.1 ho with h | h
      · exact nodeCalls_add _ _ op h
      · exact edgeCalls_add _ _ op h) hnl hel
    (by
      intro op ho x hx
      rcases List.mem_append.1 ho with h | h
      · obtain ⟨n, hn⟩ := nodeCalls_nodeLab h hx
        have := jn n
        rw [hn, Option.join_some] at this
        exact hnl' n x (Option.join_eq_some_iff.1 (Option.filter_eq_some_iff.1 this.symm).1)
      · rw [edgeCalls_nodeLab h] at hx; cases hx)
    (by
      intro op ho x hx
      rcases List.mem_append.1 ho with h | h
      · rw [nodeCalls_edgeLab h] at hx; cases hx
      · obtain ⟨s, t, hn⟩ := edgeCalls_edgeLab h hx
        have := je s t
        rw [hn, Option.join_some] at this
        exact hel' s t x (Option.join_eq_some_iff.1 (Option.filter_eq_some_iff.1 this.symm).1))
  refine ⟨_, _, g', write_lists S .., ?_, a3.reachable List.nodup_nil List.nodup_nil, a2, hrun ▸ a4, ?_⟩
  · rw [read_exec, Option.map_some, Option.getD_some, hni, hei, o1, o2, a1]
  · rw [a5, List.filter_append, List.length_append, nodeCalls_count, edgeCalls_count]
    omega

end Csv

end Verif
