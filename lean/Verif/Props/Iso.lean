import Verif.Proof.Iso
import Verif.Props.Components
import Verif.Props.Equality
import Verif.Props.Reorder

/-! C140: isomorphic graphs, in particular a graph and what `reorder_id` makes of it. -/

namespace Verif.Props

open Verif.Spec Traversal GraphMap

variable {m m' k k' : Nat} {NL EL : Type} {g : GView m k NL EL} {h : GView m' k' NL EL}
  {A : AGraph (Id m) NL EL} {B : AGraph (Id m') NL EL} {f : Id m → Id m'}

/-- **C140** Sizes and degrees. -/
theorem c140_sizes (S : Shows g A) (T : Shows h B) (hd : g.directed = h.directed) (I : A.Iso B f) :
    g.nodeCount = h.nodeCount ∧ g.edgeIndices.length = h.edgeIndices.length ∧
    ∀ n, g.hasNode n = true → ∃ l l', g.neighbors n = .ok l ∧ h.neighbors (f n) = .ok l' ∧
      (l.map f).Perm l' ∧ g.degree n = h.degree (f n) := by
  classical
  refine ⟨?_, ?_, fun n hn => ?_⟩
  · rw [S.nodeCount, T.nodeCount, length_eq_card _ S.nodesNodup _ S.memNodes,
      length_eq_card _ T.nodesNodup _ T.memNodes]
    exact AIso.card_nodes I _ _ (fun _ h => h) (fun _ h => h) (fun s hs => by rw [I.node s hs])
  · rw [length_eq_card _ S.edgesNodup (fun e => A.Listed g.directed e.1 e.2) (fun e => S.memEdges e.1 e.2),
      length_eq_card _ T.edgesNodup (fun e => B.Listed h.directed e.1 e.2) (fun e => T.memEdges e.1 e.2), ← hd]
    unfold AGraph.Listed
    convert AIso.card_listed I g.directed (fun s t => (A.edge s t).isSome = true)
      (fun s t => (B.edge s t).isSome = true) S.ends T.ends
      (fun s t hs ht => by rw [I.edge s t hs ht])
      (fun e s t h => by rw [S.sym e]; exact h) (fun e s t h => by rw [T.sym (hd ▸ e)]; exact h)
  · rw [S.hasNode] at hn
    obtain ⟨l, h1, h2, h3, h4⟩ := S.neighbors n hn
    obtain ⟨l', h5, h6, h7, h8⟩ := T.neighbors (f n) (AIso.mem I hn)
    have hln : ∀ x ∈ l, (A.node x).isSome := fun x hx => (S.ends _ _ ((h3 x).1 hx)).2
    have hp : (l.map f).Perm l' := by
      refine (List.perm_ext_iff_of_nodup ?_ (h6.imp (fun h => ne_of_lt h))).2 (fun y => ?_)
      · rw [List.Nodup, List.pairwise_map]
        exact h2.imp_of_mem (fun ha hb hab e => (ne_of_lt hab) (AIso.inj I (hln _ ha) (hln _ hb) e))
      · rw [h7, List.mem_map]
        constructor
        · rintro ⟨x, hx, rfl⟩
          rw [I.edge _ _ hn (hln x hx)]
          exact (h3 x).1 hx
        · intro e
          obtain ⟨x, hx, rfl⟩ := AIso.onto I (T.ends _ _ e).2
          exact ⟨x, (h3 x).2 (by rwa [I.edge _ _ hn hx] at e), rfl⟩
    refine ⟨l, l', h1, h5, hp, ?_⟩
    rw [h4, h8, ← hp.length_eq, List.length_map]

/-- **C140** Components. -/
theorem c140_components (S : Shows g A) (T : Shows h B) (I : A.Iso B f) :
    ∃ c d, ConnComp.new g = .ok c ∧ ConnComp.new h = .ok d ∧ c.getCount = d.getCount ∧
      ∀ a b, g.hasNode a = true → g.hasNode b = true →
        ∃ c' d' r, c.isConnected a b = .ok (c', r) ∧ d.isConnected (f a) (f b) = .ok (d', r) := by
  obtain ⟨c, h1, h2⟩ := c35_graph S
  obtain ⟨d, h3, h4⟩ := c35_graph T
  refine ⟨c, d, h1, h3, ?_, fun a b ha hb => ?_⟩
  · obtain ⟨c1, e1, e2⟩ := c36_graph S
    obtain ⟨d1, e3, e4⟩ := c36_graph T
    rw [h1] at e1
    rw [h3] at e3
    cases e1
    cases e3
    rw [e2, e4]
    exact AIso.components I S.ends T.ends
  · rw [S.hasNode] at ha hb
    obtain ⟨c', r, e1, e2⟩ := h2 a b
    obtain ⟨d', r', e3, e4⟩ := h4 (f a) (f b)
    have : r' = r := by
      rw [Bool.eq_iff_iff, e2, e4, AIso.touched I S.ends T.ends ha, AIso.touched I S.ends T.ends hb,
        AIso.connected I S.ends T.ends ha hb]
    subst this
    exact ⟨c', d', r', e1, e3⟩

theorem sameCounter {X : Type} [DecidableEq X] {c d : List (X × Nat)} {n n' : X → Nat}
    (hc : ∀ x v, AL.get c x = some v ↔ 0 < v ∧ v = n x) (hd : ∀ x v, AL.get d x = some v ↔ 0 < v ∧ v = n' x)
    (h : ∀ x, n x = n' x) (x : X) : AL.get c x = AL.get d x := by
  apply Option.ext
  intro v
  rw [hc, hd, h]

/-- **C140** How many nodes and edges carry a label. -/
theorem c140_labels [DecidableEq NL] [DecidableEq EL] (S : Shows g A) (T : Shows h B)
    (hd : g.directed = h.directed) (I : A.Iso B f) :
    ∃ c c' d d', g.nodeLabelCounter = .ok c ∧ h.nodeLabelCounter = .ok c' ∧ g.edgeLabelCounter = .ok d ∧
      h.edgeLabelCounter = .ok d' ∧ (∀ x, AL.get c x = AL.get c' x) ∧ ∀ x, AL.get d x = AL.get d' x := by
  classical
  obtain ⟨c, h1, -, h2⟩ := c21_node_label_counter S
  obtain ⟨c', h3, -, h4⟩ := c21_node_label_counter T
  obtain ⟨d, h5, -, h6⟩ := c21_edge_label_counter S
  obtain ⟨d', h7, -, h8⟩ := c21_edge_label_counter T
  refine ⟨c, c', d, d', h1, h3, h5, h7, sameCounter h2 h4 (fun x => ?_), sameCounter h6 h8 (fun x => ?_)⟩
  · have e1 : ∀ n, n ∈ g.nodeIndices.filter (fun n => decide ((g.getNodeLabel n).toOption = some (some x))) ↔
        A.node n = some (some x) := by
      intro n
      rw [List.mem_filter, S.memNodes, decide_eq_true_eq]
      constructor
      · rintro ⟨h, e⟩
        obtain ⟨l, hl⟩ := Option.isSome_iff_exists.1 h
        rw [S.nodeLabel n l hl] at e
        rw [hl]; exact e
      · intro e
        exact ⟨by rw [e]; rfl, by rw [S.nodeLabel n _ e]; rfl⟩
    have e2 : ∀ n, n ∈ h.nodeIndices.filter (fun n => decide ((h.getNodeLabel n).toOption = some (some x))) ↔
        B.node n = some (some x) := by
      intro n
      rw [List.mem_filter, T.memNodes, decide_eq_true_eq]
      constructor
      · rintro ⟨h, e⟩
        obtain ⟨l, hl⟩ := Option.isSome_iff_exists.1 h
        rw [T.nodeLabel n l hl] at e
        rw [hl]; exact e
      · intro e
        exact ⟨by rw [e]; rfl, by rw [T.nodeLabel n _ e]; rfl⟩
    rw [length_eq_card _ (S.nodesNodup.filter _) _ e1, length_eq_card _ (T.nodesNodup.filter _) _ e2]
    exact AIso.card_nodes I _ _ (fun _ h => by rw [h]; rfl) (fun _ h => by rw [h]; rfl)
      (fun s hs => by rw [I.node s hs])
  · have e1 : ∀ e, e ∈ g.edgeIndices.filter (fun e => decide ((g.getEdgeLabel e.1 e.2).toOption = some (some x))) ↔
        (A.edge e.1 e.2 = some (some x) ∧ (g.directed = true ∨ e.1 ≤ e.2)) := by
      rintro ⟨s, t⟩
      rw [List.mem_filter, S.memEdges, decide_eq_true_eq]
      constructor
      · rintro ⟨⟨h, ho⟩, e⟩
        obtain ⟨l, hl⟩ := Option.isSome_iff_exists.1 h
        rw [S.edgeLabel s t l hl ho] at e
        rw [hl]; exact ⟨e, ho⟩
      · rintro ⟨e, ho⟩
        exact ⟨⟨by rw [e]; rfl, ho⟩, by rw [S.edgeLabel s t _ e ho]; rfl⟩
    have e2 : ∀ e, e ∈ h.edgeIndices.filter (fun e => decide ((h.getEdgeLabel e.1 e.2).toOption = some (some x))) ↔
        (B.edge e.1 e.2 = some (some x) ∧ (h.directed = true ∨ e.1 ≤ e.2)) := by
      rintro ⟨s, t⟩
      rw [List.mem_filter, T.memEdges, decide_eq_true_eq]
      constructor
      · rintro ⟨⟨h, ho⟩, e⟩
        obtain ⟨l, hl⟩ := Option.isSome_iff_exists.1 h
        rw [T.edgeLabel s t l hl ho] at e
        rw [hl]; exact ⟨e, ho⟩
      · rintro ⟨e, ho⟩
        exact ⟨⟨by rw [e]; rfl, ho⟩, by rw [T.edgeLabel s t _ e ho]; rfl⟩
    rw [length_eq_card _ (S.edgesNodup.filter _) _ e1, length_eq_card _ (T.edgesNodup.filter _) _ e2, ← hd]
    exact AIso.card_listed I g.directed (fun s t => A.edge s t = some (some x))
      (fun s t => B.edge s t = some (some x)) (fun s t e => S.ends s t (by rw [e]; rfl))
      (fun s t e => T.ends s t (by rw [e]; rfl)) (fun s t hs ht => by rw [I.edge s t hs ht])
      (fun e s t h => by rw [S.sym e]; exact h) (fun e s t h => by rw [T.sym (hd ▸ e)]; exact h)

theorem far_le {A : AGraph (Id m) NL EL} {s a b : Id m} (hb : A.Reaches s b)
    (h : ∀ c, A.Walk s c b → ∃ c' ≤ c, A.Walk s c' a) : A.far s a ≤ A.far s b := by
  have := Nat.sInf_mem (s := {c | A.Walk s c b}) hb
  obtain ⟨c', h1, h2⟩ := h _ this
  exact (Nat.sInf_le h2).trans h1

/-- **C140** Breadth-first searches from corresponding nodes: both first visit what they can reach, equally
many nodes, and the `i`-th nodes they visit are equally far from the start. -/
theorem c140_bfs (S : Shows g A) (T : Shows h B) (I : A.Iso B f) {s : Id m} (hs : g.hasNode s = true) :
    ∃ st l1 l2 st' sh l1' l2' sh', Traversal.new g (some s) = .ok st ∧
      Yields (Bfs.next g) st (l1 ++ l2) st' ∧ Traversal.new h (some (f s)) = .ok sh ∧
      Yields (Bfs.next h) sh (l1' ++ l2') sh' ∧ (∀ n, n ∈ l1 ↔ A.Reaches s n) ∧ (l1.map f).Perm l1' ∧
      l1.map (A.far s) = l1'.map (B.far (f s)) ∧ l2.length = l2'.length := by
  rw [S.hasNode] at hs
  have hs' := AIso.mem I hs
  obtain ⟨st, l, st', e1, e2, -, e3⟩ := c66_bfs_order S (start := some s) ⟨hs, .inl rfl⟩
  obtain ⟨sh, l', sh', e4, e5, -, e6⟩ := c66_bfs_order T (start := some (f s)) ⟨hs', .inl rfl⟩
  obtain ⟨l1, l2, rfl, a1, a2⟩ := c32_bfs_breadth_first S ⟨hs, .inl rfl⟩ e1 e2
  obtain ⟨l1', l2', rfl, b1, b2⟩ := c32_bfs_breadth_first T ⟨hs', .inl rfl⟩ e4 e5
  have hn1 : ∀ x ∈ l1, (A.node x).isSome := fun x hx => by
    obtain ⟨c, w⟩ := (a1 x).1 hx
    exact AIso.walk_node S.ends hs w
  have nd1 : l1.Nodup := (List.nodup_append.1 e3.1).1
  have nd1' : l1'.Nodup := (List.nodup_append.1 e6.1).1
  have hp : (l1.map f).Perm l1' := by
    refine (List.perm_ext_iff_of_nodup ?_ nd1').2 (fun y => ?_)
    · rw [List.Nodup, List.pairwise_map]
      exact List.Pairwise.imp_of_mem (fun ha hb hab e => hab (AIso.inj I (hn1 _ ha) (hn1 _ hb) e)) nd1
    · rw [b1, List.mem_map]
      constructor
      · rintro ⟨x, hx, rfl⟩
        exact (AIso.reaches I S.ends T.ends hs (hn1 x hx)).2 ((a1 x).1 hx)
      · intro hy
        have hyn : (B.node y).isSome := by
          obtain ⟨c, w⟩ := hy
          exact AIso.walk_node T.ends hs' w
        obtain ⟨x, hx, rfl⟩ := AIso.onto I hyn
        exact ⟨x, (a1 x).2 ((AIso.reaches I S.ends T.ends hs hx).1 hy), rfl⟩
  refine ⟨st, l1, l2, st', sh, l1', l2', sh', e1, e2, e4, e5, a1, hp, ?_, ?_⟩
  · have q1 : (l1.map (A.far s)).Pairwise (· ≤ ·) := by
      rw [List.pairwise_map]
      exact a2.imp_of_mem (fun _ hb hab => far_le ((a1 _).1 hb) hab)
    have q2 : (l1'.map (B.far (f s))).Pairwise (· ≤ ·) := by
      rw [List.pairwise_map]
      exact b2.imp_of_mem (fun _ hb hab => far_le ((b1 _).1 hb) hab)
    refine List.Perm.eq_of_pairwise' q1 q2 ?_
    refine List.Perm.trans ?_ (hp.map _)
    rw [List.map_map]
    refine List.Perm.of_eq (List.map_congr_left (fun x hx => ?_))
    exact (AIso.far I S.ends T.ends hs (hn1 x hx)).symm
  · have t1 : (l1 ++ l2).length = (l1' ++ l2').length := by
      classical
      rw [length_eq_card _ e3.1 _ e3.2.1, length_eq_card _ e6.1 _ e6.2.1]
      exact AIso.card_nodes I _ _ (fun _ h => h) (fun _ h => h) (fun s hs => by rw [I.node s hs])
    have := hp.length_eq
    simp only [List.length_append, List.length_map] at t1 this
    omega

/-! ### `reorder_id` -/

section Reorder

variable {m k : Nat} {NL EL : Type} [DecidableEq NL] [DecidableEq EL]

/-- Where the two directions of an undirected edge agree, the presented label is the one read. -/
theorem abs_edge_label {g : GraphMap m k NL EL} (hg : Reachable g)
    (hs : g.isDirected = false → ∀ s t, g.getEdgeLabel s t = g.getEdgeLabel t s) {s t : Id m} {l : Option EL}
    (h : g.abs.edge s t = some l) : g.getEdgeLabel s t = .ok l := by
  have S := reachable_shows hg
  by_cases ho : g.view.directed = true ∨ s ≤ t
  · rw [← view_getEdgeLabel]
    exact S.edgeLabel s t l h ho
  · rw [not_or, Bool.not_eq_true, not_le] at ho
    rw [hs ho.1 s t, ← view_getEdgeLabel]
    exact S.edgeLabel t s l (by rw [S.sym ho.1]; exact h) (.inr ho.2.le)

/-- **C140** What `reorder_id` returns is isomorphic to the graph it was given, as labelled graphs, so that
the statements above apply to the two. -/
theorem c140_reorder {g : GraphMap m k NL EL} (hg : Reachable g) (rn rnl rel : Bool)
    {mcN mcE : List (Id k × Nat)} (hN : IsMostCommon g.view.nodeLabelIdCounter mcN)
    (hE : IsMostCommon g.view.edgeLabelIdCounter mcE)
    (hnk : rnl = true → NodeIdsKnown g) (hek : rel = true → EdgeIdsKnown g ∧ EdgeIdsSymmetric g)
    (hs : g.isDirected = false → ∀ s t, g.getEdgeLabel s t = g.getEdgeLabel t s) :
    ∃ r h f, g.reorderId rn rnl rel mcN mcE = .ok r ∧ r.graph = some h ∧
      (∀ n, g.hasNode n = true → r.findNewNodeId n = .ok (f n)) ∧ Shows g.view g.abs ∧ Shows h.view h.abs ∧
      g.view.directed = h.view.directed ∧ g.abs.Iso h.abs f := by
  obtain ⟨r, h, h1, h2, h3, h4, -, -, f, ⟨c1, c2, c3⟩, h5⟩ := c29_reorder_isomorphism hg rn rnl rel hN hE hnk hek
  have S := reachable_shows hg
  have T := reachable_shows h3
  have e1 : ∀ n, (g.abs.node n).isSome = g.hasNode n := fun n => (S.hasNode n).symm
  have e2 : ∀ n, (h.abs.node n).isSome = h.hasNode n := fun n => (T.hasNode n).symm
  have hsh : h.isDirected = false → ∀ s t, h.getEdgeLabel s t = h.getEdgeLabel t s := by
    intro hd s t
    by_cases hb : h.hasNode s = true ∧ h.hasNode t = true
    · obtain ⟨a, ha, rfl⟩ := c1.2.2 hb.1
      obtain ⟨b, hb', rfl⟩ := c1.2.2 hb.2
      rw [(c3 a b ha hb').2, (c3 b a hb' ha).2, hs (h4 ▸ hd)]
    · have key : ∀ a b, ¬ (h.hasNode a = true ∧ h.hasNode b = true) → h.getEdgeLabel a b = .ok none := by
        intro a b hab
        rw [getEdgeLabel_eq]
        have : h.outE a b = none := by
          cases e : h.outE a b with
          | none => rfl
          | some l =>
            exfalso
            apply hab
            rw [← e2, ← e2]
            exact T.ends a b (by rw [abs_edge_isSome h3.inv, hasEdge_eq_outE, e]; rfl)
        simp [this, decode]
      rw [key s t hb, key t s (fun e => hb e.symm)]
  refine ⟨r, h, f, h1, h2, h5, S, T, h4.symm, ?_, fun n hn => ?_, fun s t hns hnt => ?_⟩
  · simpa only [e1, e2] using c1
  · have hn' : g.hasNode n = true := by rw [← e1]; exact hn
    obtain ⟨l, hl⟩ := Option.isSome_iff_exists.1 hn
    have hm : (h.abs.node (f n)).isSome := by rw [e2]; exact c1.1 hn'
    obtain ⟨l', hl'⟩ := Option.isSome_iff_exists.1 hm
    have a1 := S.nodeLabel n l hl
    have a2 := T.nodeLabel (f n) l' hl'
    rw [view_getNodeLabel] at a1 a2
    rw [hl, hl', ← Except.ok.inj a1, ← Except.ok.inj a2, c2 n hn']
  · rw [e1] at hns hnt
    obtain ⟨a1, a2⟩ := c3 s t hns hnt
    rw [← abs_edge_isSome h3.inv, ← abs_edge_isSome hg.inv] at a1
    cases e : g.abs.edge s t with
    | none =>
      rw [e] at a1
      exact Option.isNone_iff_eq_none.1 (by simpa using a1)
    | some l =>
      rw [e] at a1
      obtain ⟨l', hl'⟩ := Option.isSome_iff_exists.1 a1
      rw [abs_edge_label hg hs e, abs_edge_label h3 hsh hl'] at a2
      rw [hl', Except.ok.inj a2]

end Reorder

/-! ### Instances -/

/-- Non-vacuity: `star`, whose nodes 5, 7, 2, 9 become 3, 0, 1, 2; counts, components, labels and the
distances at which a breadth-first search meets the nodes are as before. -/
example : ∃ (h : GraphMap 9 3 String String) (f : Id 9 → Id 9), Shows star.view star.abs ∧ Shows h.view h.abs ∧
    star.view.directed = h.view.directed ∧ star.abs.Iso h.abs f ∧ [5, 7, 2, 9].map f = [3, 0, 1, 2] ∧
    star.view.hasNode 7 = true := by
  have hr : Reachable star := star_run.reachable List.nodup_nil List.nodup_nil
  obtain ⟨r, h, f, h1, h2, h3, h4, h5, h6, h7⟩ := c140_reorder hr true false false
    (mcN := [(1, 2), (0, 1)]) (mcE := [(0, 2), (1, 1)]) ⟨by decide, by decide⟩ ⟨by decide, by decide⟩
    (fun h => absurd h (by decide)) (fun h => absurd h (by decide)) (fun _ => by decide)
  refine ⟨h, f, h4, h5, h6, h7, ?_, by decide⟩
  have e : star.reorderId true false false [(1, 2), (0, 1)] [(0, 2), (1, 1)] =
      .ok ⟨some ⟨[7, 2, 9, 5]⟩, some ⟨false,
        [(3, ⟨3, some 0, [(0, some 0), (1, some 1), (2, some 0)], []⟩),
         (0, ⟨0, some 1, [(3, some 0)], []⟩), (1, ⟨1, some 1, [(3, some 1)], []⟩),
         (2, ⟨2, none, [(3, some 0)], []⟩)], 3, ⟨["hub", "leaf"]⟩, ⟨["x", "y"]⟩, some 3⟩⟩ := by decide
  rw [e] at h1
  cases h1
  have a := h3 5 (by decide)
  have b := h3 7 (by decide)
  have c := h3 2 (by decide)
  have d := h3 9 (by decide)
  have a' : (.ok (3 : Id 9) : Res (Id 9)) = .ok (f 5) := by rw [← a]; decide
  have b' : (.ok (0 : Id 9) : Res (Id 9)) = .ok (f 7) := by rw [← b]; decide
  have c' : (.ok (1 : Id 9) : Res (Id 9)) = .ok (f 2) := by rw [← c]; decide
  have d' : (.ok (2 : Id 9) : Res (Id 9)) = .ok (f 9) := by rw [← d]; decide
  simp only [List.map_cons, List.map_nil, ← Except.ok.inj a', ← Except.ok.inj b', ← Except.ok.inj c',
    ← Except.ok.inj d']

/-- The order of the nodes is not preserved, only the distances: from 7 the search of `star` goes
7, 5, 2, 9; of the reordered graph, from 0, it goes 0, 3, 1, 2. -/
example : (do let st ← Traversal.new star.view (some 7)
              let r ← drain (Bfs.next star.view) 9 st
              pure r.1) = .ok [7, 5, 2, 9] := by decide

end Verif.Props
