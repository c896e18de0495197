import Verif.Proof.ConnSubgraph

/-! `ConnSubgraph`: enumerating several graphs with one enumerator. -/

namespace Verif.ConnSubgraph

open Spec GraphMap ConnComp

variable {m k : Nat} {NL EL : Type} [DecidableEq NL] [DecidableEq EL]

/-- One run over a graph all of whose nodes are known. -/
theorem run_sorted {g : GView m k NL EL} {A : AGraph (Id m) NL EL} (S : Shows g A)
    {E : List (Id m × Id m)} {rep : Id m → Id m} (ho : ∀ n, (A.node n).isSome → Occurs E n)
    {P : List (Id m × Op m k NL EL)} {s : ConnSubgraph m k NL EL} (S0 : Sorted g.directed P s)
    (I : Inv E rep s.cc) :
    ∃ s', s.runEnumeration g = .ok s' ∧ Inv E rep s'.cc ∧
      Sorted g.directed (P ++ calls A g rep) s' := by
  obtain ⟨s1, h1, I1, S1⟩ := loop_ok (E := E) (rep := rep) (processNode g) (fun n => n)
    (fun n => Op.addNode n (A.node n).join) (fun _ => rfl) g.nodeIndices
    (fun n hn => ho n ((S.memNodes n).1 hn))
    (fun n hn s => processNode_eq S hn s) P _ S0 I
  obtain ⟨s2, h2, I2, S2⟩ := loop_ok (E := E) (rep := rep) (processEdge g) (fun e => e.src)
    (fun e => Op.addEdge e.src e.dst (A.edge e.src e.dst).join) (fun _ => rfl) g.edges
    (fun e he => by
      have hm : (e.src, e.dst) ∈ g.edgeIndices := by
        rw [← S.edgesEnds, List.mem_map]; exact ⟨e, he, rfl⟩
      exact ho _ (S.ends _ _ ((S.memEdges _ _).1 hm).1).1)
    (fun e he s => processEdge_eq S he s) _ s1 S1 I1
  refine ⟨s2, ?_, I2, ?_⟩
  · unfold runEnumeration
    rw [h1, bind_ok, h2]
  · have : P ++ calls A g rep = P ++
        g.nodeIndices.map (fun n => (rep n, (Op.addNode n (A.node n).join : Op m k NL EL))) ++
        g.edges.map (fun e => (rep e.src, Op.addEdge e.src e.dst (A.edge e.src e.dst).join)) := by
      unfold calls
      rw [List.append_assoc, ← S.edgesEnds, List.map_map]
      rfl
    rw [this]; exact S2

/-- A node that is not known makes a run panic. -/
theorem run_missing {g : GView m k NL EL} {A : AGraph (Id m) NL EL} (S : Shows g A)
    {E : List (Id m × Id m)} {rep : Id m → Id m} {n : Id m} (hn : (A.node n).isSome) (ho : ¬ Occurs E n)
    {P : List (Id m × Op m k NL EL)} {s : ConnSubgraph m k NL EL} (S0 : Sorted g.directed P s)
    (I : Inv E rep s.cc) : s.runEnumeration g = .error .nodeMissing := by
  have key : ∀ (l : List (Id m)), (∀ x ∈ l, x ∈ g.nodeIndices) → (∃ x ∈ l, ¬ Occurs E x) →
      ∀ (P : List (Id m × Op m k NL EL)) (s : ConnSubgraph m k NL EL), Sorted g.directed P s →
      Inv E rep s.cc → l.foldlM (processNode g) s = .error .nodeMissing := by
    intro l
    induction l with
    | nil => rintro _ ⟨x, hx, _⟩; simp at hx
    | cons x l ih =>
      rintro hl ⟨y, hy, hty⟩ P s SS II
      rw [List.foldlM_cons]
      by_cases hx : Occurs E x
      · obtain ⟨s1, h1, I1, S1⟩ := loop_ok (E := E) (rep := rep) (processNode g) (fun n => n)
          (fun n => Op.addNode n (A.node n).join) (fun _ => rfl) [x]
          (fun n hn => by rw [List.mem_singleton] at hn; subst hn; exact hx)
          (fun n hn s => processNode_eq S (by rw [List.mem_singleton] at hn; subst hn; exact hl n (by simp)) s)
          P s SS II
        have h1' : processNode g s x = .ok s1 := by
          rw [List.foldlM_cons] at h1
          obtain ⟨a, e1, e2⟩ := bind_eq_ok h1
          cases e2; exact e1
        rw [h1', bind_ok]
        refine ih (fun z hz => hl z (by simp [hz])) ⟨y, ?_, hty⟩ _ s1 S1 I1
        rcases List.mem_cons.1 hy with e | e
        · exact absurd hx (e ▸ hty)
        · exact e
      · have : s.cc.getRoot x = .error .nodeMissing := getRoot_missing II hx
        unfold processNode
        rw [this]
        rfl
  unfold runEnumeration
  rw [key g.nodeIndices (fun _ h => h) ⟨n, (S.memNodes n).2 hn, ho⟩ P s S0 I]
  rfl

/-- Runs over graphs, one after the other. -/
theorem runs_sorted {E : List (Id m × Id m)} {rep : Id m → Id m} {d : Bool} :
    ∀ (gs : List (GView m k NL EL × AGraph (Id m) NL EL)),
    (∀ p ∈ gs, Shows p.1 p.2 ∧ p.1.directed = d ∧ ∀ n, (p.2.node n).isSome → Occurs E n) →
    ∀ (P : List (Id m × Op m k NL EL)) (s : ConnSubgraph m k NL EL), Sorted d P s → Inv E rep s.cc →
    ∃ s', (gs.map Prod.fst).foldlM (fun s g => s.runEnumeration g) s = .ok s' ∧ Inv E rep s'.cc ∧
      Sorted d (P ++ gs.flatMap (fun p => calls p.2 p.1 rep)) s' := by
  intro gs
  induction gs with
  | nil => intro _ P s S0 I; exact ⟨s, rfl, I, by simpa using S0⟩
  | cons p gs ih =>
    intro hg P s S0 I
    obtain ⟨h1, h2, h3⟩ := hg p (by simp)
    subst h2
    obtain ⟨s1, e1, I1, S1⟩ := run_sorted h1 h3 S0 I
    obtain ⟨s2, e2, I2, S2⟩ := ih (fun q hq => hg q (by simp [hq])) _ s1 S1 I1
    refine ⟨s2, ?_, I2, ?_⟩
    · rw [List.map_cons, List.foldlM_cons, e1, bind_ok, e2]
    · rw [List.flatMap_cons, ← List.append_assoc]; exact S2

theorem empty_sorted {g : GView m k NL EL} {A : AGraph (Id m) NL EL} (S : Shows g A) (d : Bool) :
    ∃ s rep, ConnSubgraph.empty g = .ok s ∧ Inv g.edgeIndices rep s.cc ∧ Sorted d [] s := by
  obtain ⟨c, hc, H⟩ := new_history S
  obtain ⟨rep, I⟩ := history_inv H
  refine ⟨⟨[], [], c⟩, rep, ?_, I, List.nodup_nil, by simp, .nil⟩
  unfold ConnSubgraph.empty
  rw [hc]
  rfl

theorem calls_filter {g : GView m k NL EL} {A : AGraph (Id m) NL EL} {rep : Id m → Id m} (r : Id m) :
    ((calls A g rep).filter (fun p => decide (p.1 = r))).map Prod.snd =
      (g.nodeIndices.filter (fun n => decide (rep n = r))).map (fun n => Op.addNode n (A.node n).join) ++
      (g.edgeIndices.filter (fun e => decide (rep e.1 = r))).map
        (fun e => Op.addEdge e.1 e.2 (A.edge e.1 e.2).join) := by
  unfold calls
  rw [List.filter_append, List.map_append, List.filter_map, List.filter_map, List.map_map, List.map_map]
  rfl

/-- A second run over the calls of one component changes nothing. -/
theorem run_again {g : GView m k NL EL} {A : AGraph (Id m) NL EL} (S : Shows g A) {rep : Id m → Id m}
    (hrep : ∀ a b, rep a = rep b ↔ A.Connected a b) {r : Id m} (hr : rep r = r)
    {C : AGraph (Id m) NL EL}
    (hC : C = AGraph.empty ∨ C = A.restrict (fun n => A.Connected r n)) :
    (((calls A g rep).filter (fun p => decide (p.1 = r))).map Prod.snd).foldl (step g.directed) C =
      A.restrict (fun n => A.Connected r n) := by
  have hP : ∀ n, rep n = r ↔ A.Connected r n := by
    intro n
    rw [← hrep r n, hr]
    exact eq_comm
  have hconn : ∀ s t, (A.edge s t).isSome → rep s = rep t := by
    intro s t h
    exact (hrep s t).2 (Relation.EqvGen.rel _ _ h)
  have hCn : ∀ n, C.node n = none ∨ C.node n = (A.restrict (fun n => A.Connected r n)).node n := by
    intro n; rcases hC with rfl | rfl
    · exact .inl rfl
    · exact .inr rfl
  have hCe : ∀ s t, C.edge s t = none ∨ C.edge s t = (A.restrict (fun n => A.Connected r n)).edge s t := by
    intro s t; rcases hC with rfl | rfl
    · exact .inl rfl
    · exact .inr rfl
  rw [calls_filter, List.foldl_append, run_addNodes g.directed (fun n => (A.node n).join),
      run_addEdges g.directed (fun s t => (A.edge s t).join) (edge_join S)]
  · apply AGraph_ext
    · intro n
      by_cases hc : A.Connected r n
      · have h0 := hCn n
        rw [restrict_node hc] at h0 ⊢
        simp only [List.mem_filter, (hP n).2 hc, decide_true, and_true, S.memNodes]
        cases h : A.node n with
        | none =>
          rw [h] at h0
          simpa using h0
        | some l => simp
      · have h0 := hCn n
        rw [restrict_node_none hc] at h0 ⊢
        have : ¬ rep n = r := fun h => hc ((hP n).1 h)
        simp only [List.mem_filter, this, decide_false, Bool.false_eq_true, and_false, if_false]
        simpa using h0
    · intro s t
      have h0 := hCe s t
      simp only [List.mem_filter, decide_eq_true_eq]
      by_cases hc : A.Connected r s ∧ A.Connected r t
      · rw [restrict_edge hc] at h0 ⊢
        have e1 := (hP s).2 hc.1
        have e2 := (hP t).2 hc.2
        simp only [e1, e2, and_true]
        have := shows_edge_mem S s t
        simp only [this]
        cases h : A.edge s t with
        | none =>
          rw [h] at h0
          simpa using h0
        | some l => simp
      · rw [restrict_edge_none hc] at h0 ⊢
        rw [if_neg]
        · simpa using h0
        intro hcon
        apply hc
        have he : (A.edge s t).isSome := by
          rw [← shows_edge_mem S]
          rcases hcon with h | ⟨h, h'⟩
          · exact .inl h.1
          · exact .inr ⟨h, h'.1⟩
        have hst := hconn s t he
        rcases hcon with h | ⟨_, h⟩
        · exact ⟨(hP s).1 h.2, (hP t).1 (by rw [← hst]; exact h.2)⟩
        · exact ⟨(hP s).1 (by rw [hst]; exact h.2), (hP t).1 h.2⟩
  · rintro ⟨s, t⟩ he
    rw [List.mem_filter, decide_eq_true_eq] at he
    have hl := ((S.memEdges s t).1 he.1).1
    have hends := S.ends s t hl
    have hst := hconn s t hl
    have e1 : rep s = r := he.2
    have e2 : rep t = r := by rw [← hst]; exact e1
    simp only [List.mem_filter, S.memNodes, hends.1, hends.2, e1, e2, decide_true, and_self, if_true,
      Option.isSome_some]

/-- The graph of one root after `j + 1` runs. -/
theorem sub_shows_again {g : GView m k NL EL} {A : AGraph (Id m) NL EL} (S : Shows g A)
    {rep : Id m → Id m} (hrep : ∀ a b, rep a = rep b ↔ A.Connected a b) {r : Id m} (hr : rep r = r)
    (j : Nat) {sub : GraphMap m k NL EL}
    (hex : (GraphMap.new g.directed : GraphMap m k NL EL).exec
      (((List.replicate (j + 1) (calls A g rep)).flatten.filter
        (fun p => decide (p.1 = r))).map Prod.snd) = .ok sub) :
    sub.directed = g.directed ∧ GraphMap.Reachable sub ∧
    Shows sub.view (A.restrict (fun n => A.Connected r n)) ∧
    sub.edgeCount = (j + 1) * sub.edgeIndices.length := by
  set ops := ((calls A g rep).filter (fun p => decide (p.1 = r))).map Prod.snd with hops
  have hrp : ((List.replicate (j + 1) (calls A g rep)).flatten.filter
      (fun p => decide (p.1 = r))).map Prod.snd = (List.replicate (j + 1) ops).flatten := by
    rw [List.filter_flatten, List.map_flatten, List.map_replicate, List.map_replicate]
  rw [hrp] at hex
  obtain ⟨⟨nl, hnl, h1⟩, el, hel, h2⟩ := shows_fits S
  have hadd : ∀ op ∈ ops, op.isAdd = true ∧ (∀ x, op.nodeLab = some x → x ∈ nl) ∧
      ∀ x, op.edgeLab = some x → x ∈ el := by
    intro op ho
    rw [hops, calls_filter] at ho
    rcases List.mem_append.1 ho with h | h <;> rw [List.mem_map] at h <;> obtain ⟨y, _, rfl⟩ := h
    · exact ⟨rfl, fun x hx => h1 y x (by simpa [Op.nodeLab, Option.join_eq_some_iff] using hx),
        (fun x hx => by cases hx)⟩
    · exact ⟨rfl, (fun x hx => by cases hx),
        fun x hx => h2 y.1 y.2 x (by simpa [Op.edgeLab, Option.join_eq_some_iff] using hx)⟩
  have hmem : ∀ op ∈ (List.replicate (j + 1) ops).flatten, op ∈ ops := by
    intro op ho
    obtain ⟨l, hl, ho⟩ := List.mem_flatten.1 ho
    rw [List.eq_of_mem_replicate hl] at ho
    exact ho
  obtain ⟨g', a1, a2, a3, a4, a5, -, -⟩ := build_shows g.directed (List.replicate (j + 1) ops).flatten
    (fun op ho => (hadd op (hmem op ho)).1) hnl hel (fun op ho => (hadd op (hmem op ho)).2.1)
    (fun op ho => (hadd op (hmem op ho)).2.2)
  rw [hex] at a1
  cases a1
  obtain ⟨g1, b1, -, -, -, b5, -, -⟩ := build_shows g.directed ops
    (fun op ho => (hadd op ho).1) hnl hel (fun op ho => (hadd op ho).2.1) (fun op ho => (hadd op ho).2.2)
  obtain ⟨c1, -, c3, c4⟩ := sub_shows S hrep hr b1
  have hrun : ∀ i C, (C = AGraph.empty ∨ C = A.restrict (fun n => A.Connected r n)) →
      (List.replicate (i + 1) ops).flatten.foldl (step g.directed) C =
        A.restrict (fun n => A.Connected r n) := by
    intro i
    induction i with
    | zero => intro C hC; simpa using run_again S hrep hr hC
    | succ i ih =>
      intro C hC
      rw [List.replicate_succ, List.flatten_cons, List.foldl_append, run_again S hrep hr hC]
      exact ih _ (.inr rfl)
  have hsh : Shows sub.view (A.restrict (fun n => A.Connected r n)) := by
    have := hrun j _ (.inl rfl)
    unfold Spec.run at a4
    rw [this] at a4
    exact a4
  refine ⟨a2, a3.reachable List.nodup_nil List.nodup_nil, hsh, ?_⟩
  have hlen : sub.edgeIndices.length = g1.edgeIndices.length := by
    apply List.Perm.length_eq
    have p1 : sub.edgeIndices.Nodup := hsh.edgesNodup
    have p2 : g1.edgeIndices.Nodup := c3.edgesNodup
    rw [List.perm_ext_iff_of_nodup p1 p2]
    rintro ⟨s, t⟩
    have q1 : (s, t) ∈ sub.edgeIndices ↔
      (A.restrict (fun n => A.Connected r n)).Listed sub.view.directed s t := hsh.memEdges s t
    have q2 : (s, t) ∈ g1.edgeIndices ↔
      (A.restrict (fun n => A.Connected r n)).Listed g1.view.directed s t := c3.memEdges s t
    rw [q1, q2]
    have e1 : sub.view.directed = g1.view.directed := by
      show sub.directed = g1.directed
      rw [a2, c1]
    rw [e1]
  have hcnt : (ops.filter Op.addsEdge).length = g1.edgeIndices.length := by rw [← b5, c4]
  rw [a5, List.filter_flatten, List.map_replicate, List.length_flatten, List.map_replicate,
    List.sum_replicate, hcnt, hlen]
  rfl

end Verif.ConnSubgraph
