import Verif.Spec.View
import Verif.Proof.Handshake
import Mathlib.Data.List.Sort

/-! Generic functions over graphs behind the traits. -/

namespace Verif

open Spec

theorem counterOf_get {X : Type} [DecidableEq X] (l : List X) (x : X) :
    AL.get (counterOf l) x = if x ∈ l then some (l.count x) else none := by
  induction l using List.reverseRecOn with
  | nil => rfl
  | append_singleton l a ih =>
    have hstep : counterOf (l ++ [a]) =
        AL.hinsert (counterOf l) a ((AL.get (counterOf l) a).getD 0 + 1) := by
      unfold counterOf; rw [List.foldl_append]; rfl
    rw [hstep, AL.get_hinsert]
    by_cases h : a = x
    · subst h
      have : (AL.get (counterOf l) a).getD 0 = l.count a := by
        rw [ih]
        by_cases ha : a ∈ l
        · simp [ha]
        · simp [ha, List.count_eq_zero_of_not_mem ha]
      simp [this, List.count_append]
    · simp only [h, if_false, ih]
      simp [List.count_append, h, Ne.symm h]

theorem counterOf_keys_nodup {X : Type} [DecidableEq X] (l : List X) :
    (AL.keys (counterOf l)).Nodup := by
  induction l using List.reverseRecOn with
  | nil => simp [counterOf, AL.keys]
  | append_singleton l a ih =>
    have hstep : counterOf (l ++ [a]) =
        AL.hinsert (counterOf l) a ((AL.get (counterOf l) a).getD 0 + 1) := by
      unfold counterOf; rw [List.foldl_append]; rfl
    rw [hstep]
    exact AL.keys_hinsert_nodup ih _ _

namespace GView

variable {m k k' : Nat} {NL EL : Type}

theorem allM_ok {X : Type} (f : X → Res Bool) (p : X → Prop) (l : List X)
    (h : ∀ x ∈ l, ∃ b, f x = .ok b ∧ (b = true ↔ p x)) :
    ∃ b, allM f l = .ok b ∧ (b = true ↔ ∀ x ∈ l, p x) := by
  induction l with
  | nil => exact ⟨true, by simp [allM, pure_ok], by simp⟩
  | cons a l ih =>
    unfold allM
    obtain ⟨b, h1, h2⟩ := h a (by simp)
    rw [h1, bind_ok]
    cases b with
    | true =>
      obtain ⟨c, h3, h4⟩ := ih (fun x hx => h x (by simp [hx]))
      exact ⟨c, by simpa using h3, by simp [h4, h2.1 rfl]⟩
    | false =>
      refine ⟨false, rfl, ?_⟩
      have : ¬ p a := fun hp => by simpa using h2.2 hp
      simp [this]

variable [DecidableEq NL] [DecidableEq EL]

omit [DecidableEq EL] in
theorem nodeAgrees_ok {g : GView m k NL EL} {h : GView m k' NL EL} {A B : AGraph (Id m) NL EL}
    (hg : Shows g A) (hh : Shows h B) {n : Id m} (hn : (A.node n).isSome) :
    g.nodeAgrees h n = .ok (decide (A.node n = B.node n)) := by
  unfold nodeAgrees
  obtain ⟨l, hl⟩ := Option.isSome_iff_exists.1 hn
  rw [hh.hasNode, hl]
  cases hB : B.node n with
  | none => simp [pure_ok]
  | some l' =>
    simp [hg.nodeLabel n l hl, hh.nodeLabel n l' hB, bind_ok, pure_ok]

omit [DecidableEq NL] in
theorem edgeAgrees_ok {g : GView m k NL EL} {h : GView m k' NL EL} {A B : AGraph (Id m) NL EL}
    (hg : Shows g A) (hh : Shows h B) (hd : g.directed = h.directed) {e : Id m × Id m}
    (he : e ∈ g.edgeIndices) (hB : (B.node e.1).isSome) :
    g.edgeAgrees h e = .ok (decide (A.edge e.1 e.2 = B.edge e.1 e.2)) := by
  obtain ⟨h1, h2⟩ := (hg.memEdges e.1 e.2).1 he
  obtain ⟨l, hl⟩ := Option.isSome_iff_exists.1 h1
  unfold edgeAgrees
  rw [hh.hasEdge _ _ hB, bind_ok, hl]
  cases hB : B.edge e.1 e.2 with
  | none => simp [pure_ok]
  | some l' =>
    simp [hg.edgeLabel _ _ l hl h2, hh.edgeLabel _ _ l' hB (hd ▸ h2), bind_ok, pure_ok]

theorem contained_ok {g : GView m k NL EL} {h : GView m k' NL EL} {A B : AGraph (Id m) NL EL}
    (hg : Shows g A) (hh : Shows h B) (hd : g.directed = h.directed) :
    ∃ b, g.contained h = .ok b ∧ (b = true ↔ A.Sub B) := by
  unfold contained
  obtain ⟨b, h1, h2⟩ := allM_ok (g.nodeAgrees h) (fun n => A.node n = B.node n) g.nodeIndices
    (fun n hn => ⟨_, nodeAgrees_ok hg hh ((hg.memNodes n).1 hn), decide_eq_true_iff⟩)
  rw [h1, bind_ok]
  cases b with
  | true =>
    have hN := h2.1 rfl
    have hN' : ∀ n l, A.node n = some l → B.node n = some l := by
      intro n l hl
      rw [← hN n ((hg.memNodes n).2 (by rw [hl]; rfl)), hl]
    obtain ⟨c, h3, h4⟩ := allM_ok (g.edgeAgrees h) (fun e => A.edge e.1 e.2 = B.edge e.1 e.2)
      g.edgeIndices (by
        intro e he
        refine ⟨_, edgeAgrees_ok hg hh hd he ?_, decide_eq_true_iff⟩
        obtain ⟨f1, -⟩ := (hg.memEdges e.1 e.2).1 he
        obtain ⟨l, hl⟩ := Option.isSome_iff_exists.1 (hg.ends _ _ f1).1
        rw [hN' _ l hl]; rfl)
    refine ⟨c, h3, ?_⟩
    rw [h4]
    constructor
    · intro h1
      refine ⟨hN', ?_⟩
      intro s t l hl
      by_cases hst : g.directed = true ∨ s ≤ t
      · rw [← h1 (s, t) ((hg.memEdges s t).2 ⟨by rw [hl]; rfl, hst⟩), hl]
      · simp only [not_or, Bool.not_eq_true, not_le] at hst
        rw [hg.sym hst.1] at hl
        rw [hh.sym (hd ▸ hst.1)]
        rw [← h1 (t, s) ((hg.memEdges t s).2 ⟨by rw [hl]; rfl, Or.inr hst.2.le⟩), hl]
    · rintro ⟨-, h2⟩ e he
      obtain ⟨f1, -⟩ := (hg.memEdges e.1 e.2).1 he
      obtain ⟨l, hl⟩ := Option.isSome_iff_exists.1 f1
      rw [hl, h2 _ _ l hl]
  | false =>
    refine ⟨false, rfl, ?_⟩
    simp only [Bool.false_eq_true, false_iff]
    rintro ⟨h3, -⟩
    have : false = true := h2.2 (by
      intro n hn
      obtain ⟨l, hl⟩ := Option.isSome_iff_exists.1 ((hg.memNodes n).1 hn)
      rw [hl, h3 n l hl])
    simp at this

end GView

theorem shows_edgeNumber {m k : Nat} {NL EL : Type} {g : GView m k NL EL}
    {A : AGraph (Id m) NL EL} (hg : Shows g A) :
    g.edgeIndices.length = A.edgeNumber g.directed := by
  unfold AGraph.edgeNumber
  exact GraphMap.length_eq_card _ hg.edgesNodup
    (fun p => (A.edge p.1 p.2).isSome = true ∧ (g.directed = true ∨ p.1 ≤ p.2))
    (fun e => hg.memEdges e.1 e.2)

theorem shows_nodeNumber {m k : Nat} {NL EL : Type} {g : GView m k NL EL}
    {A : AGraph (Id m) NL EL} (hg : Shows g A) :
    g.nodeCount = (Finset.univ.filter (fun n => (A.node n).isSome = true)).card := by
  rw [hg.nodeCount, GraphMap.length_eq_card _ hg.nodesNodup _ hg.memNodes]

/-- A labelled subgraph with as many nodes and edges is the whole graph. -/
theorem sub_eq {m : Nat} {NL EL : Type} {A B : AGraph (Id m) NL EL} {d : Bool} (h : A.Sub B)
    (hA : d = false → ∀ s t, A.edge s t = A.edge t s) (hB : d = false → ∀ s t, B.edge s t = B.edge t s)
    (hn : (Finset.univ.filter (fun n => (A.node n).isSome = true)).card =
      (Finset.univ.filter (fun n => (B.node n).isSome = true)).card)
    (he : A.edgeNumber d = B.edgeNumber d) : A = B := by
  have h1 : Finset.univ.filter (fun n => (A.node n).isSome = true) =
      Finset.univ.filter (fun n => (B.node n).isSome = true) := by
    apply Finset.eq_of_subset_of_card_le
    · intro n hn
      simp only [Finset.mem_filter, Finset.mem_univ, true_and] at hn ⊢
      obtain ⟨l, hl⟩ := Option.isSome_iff_exists.1 hn
      rw [h.1 n l hl]; rfl
    · exact hn.ge
  have h2 : AGraph.edgeSet d A = AGraph.edgeSet d B := by
    rw [AGraph.edgeNumber_eq, AGraph.edgeNumber_eq] at he
    apply Finset.eq_of_subset_of_card_le
    · intro p hp
      rw [AGraph.mem_edgeSet] at hp ⊢
      obtain ⟨l, hl⟩ := Option.isSome_iff_exists.1 hp.1
      rw [h.2 _ _ l hl]; exact ⟨rfl, hp.2⟩
    · exact he.ge
  have key : ∀ s t, (d = true ∨ s ≤ t) → A.edge s t = B.edge s t := by
    intro s t hst
    cases hl : A.edge s t with
    | some l => rw [h.2 s t l hl]
    | none =>
      cases hl' : B.edge s t with
      | none => rfl
      | some l =>
        have : (s, t) ∈ AGraph.edgeSet d B := (AGraph.mem_edgeSet ..).2 ⟨by simp [hl'], hst⟩
        rw [← h2, AGraph.mem_edgeSet] at this
        simp [hl] at this
  apply GraphMap.AGraph_ext
  · intro n
    cases hl : A.node n with
    | some l => rw [h.1 n l hl]
    | none =>
      cases hl' : B.node n with
      | none => rfl
      | some l =>
        have : n ∈ Finset.univ.filter (fun n => (B.node n).isSome = true) := by simp [hl']
        rw [← h1] at this
        simp [hl] at this
  · intro s t
    by_cases hst : d = true ∨ s ≤ t
    · exact key s t hst
    · simp only [not_or, Bool.not_eq_true, not_le] at hst
      rw [hA hst.1 s t, hB hst.1 s t]
      exact key t s (Or.inr hst.2.le)

namespace GView

variable {m k k' : Nat} {NL EL : Type}

theorem nodes_mapM {g : GView m k NL EL} {A : AGraph (Id m) NL EL} (hg : Shows g A)
    (l : List (Id m)) (hl : ∀ n ∈ l, (A.node n).isSome) :
    l.mapM g.getNodeLabel = .ok (l.map (fun n => (A.node n).join)) := by
  apply mapM_ok
  intro n hn
  obtain ⟨o, ho⟩ := Option.isSome_iff_exists.1 (hl n hn)
  rw [hg.nodeLabel n o ho, ho]; rfl

theorem edges_mapM {g : GView m k NL EL} {A : AGraph (Id m) NL EL} (hg : Shows g A)
    (l : List (Id m × Id m)) (hl : ∀ e ∈ l, e ∈ g.edgeIndices) :
    l.mapM (fun e => g.getEdgeLabel e.1 e.2) = .ok (l.map (fun e => (A.edge e.1 e.2).join)) := by
  apply mapM_ok
  intro e he
  obtain ⟨h1, h2⟩ := (hg.memEdges e.1 e.2).1 (hl e he)
  obtain ⟨o, ho⟩ := Option.isSome_iff_exists.1 h1
  rw [hg.edgeLabel _ _ o ho h2, ho]; rfl

theorem sort_eq {X : Type} (le : X → X → Bool) (trans : ∀ a b c, le a b = true → le b c = true → le a c = true)
    (total : ∀ a b, (le a b || le b a) = true) (anti : ∀ a b, le a b = true → le b a = true → a = b)
    {l l' : List X} (h : l.Perm l') : l.mergeSort le = l'.mergeSort le := by
  apply List.Perm.eq_of_pairwise (le := fun a b => le a b = true)
  · intro a b _ _ h1 h2; exact anti a b h1 h2
  · exact List.pairwise_mergeSort trans total l
  · exact List.pairwise_mergeSort trans total l'
  · exact (List.mergeSort_perm l le).trans (h.trans (List.mergeSort_perm l' le).symm)

theorem sortPairs_eq {l l' : List (Id m × Id m)} (h : l.Perm l') :
    l.mergeSort pairLe = l'.mergeSort pairLe := by
  apply sort_eq _ _ _ _ h
  · rintro ⟨a1, a2⟩ ⟨b1, b2⟩ ⟨c1, c2⟩
    simp only [pairLe, decide_eq_true_eq]
    rintro (h1 | ⟨rfl, h1⟩) (h2 | ⟨rfl, h2⟩)
    · exact Or.inl (h1.trans h2)
    · exact Or.inl h1
    · exact Or.inl h2
    · exact Or.inr ⟨rfl, h1.trans h2⟩
  · rintro ⟨a1, a2⟩ ⟨b1, b2⟩
    simp only [pairLe, Bool.or_eq_true, decide_eq_true_eq]
    rcases lt_trichotomy a1 b1 with h | rfl | h
    · exact Or.inl (Or.inl h)
    · rcases le_total a2 b2 with h | h
      · exact Or.inl (Or.inr ⟨rfl, h⟩)
      · exact Or.inr (Or.inr ⟨rfl, h⟩)
    · exact Or.inr (Or.inl h)
  · rintro ⟨a1, a2⟩ ⟨b1, b2⟩
    simp only [pairLe, decide_eq_true_eq]
    rintro (h1 | ⟨rfl, h1⟩) (h2 | ⟨h2', h2⟩)
    · exact absurd (h1.trans h2) (lt_irrefl _)
    · subst h2'; exact absurd h1 (lt_irrefl _)
    · exact absurd h2 (lt_irrefl _)
    · rw [le_antisymm h1 h2]

theorem sortIds_eq {l l' : List (Id m)} (h : l.Perm l') :
    l.mergeSort (fun a b => decide (a ≤ b)) = l'.mergeSort (fun a b => decide (a ≤ b)) := by
  apply sort_eq _ _ _ _ h
  · intro a b c; simp only [decide_eq_true_eq]; exact le_trans
  · intro a b; simp only [Bool.or_eq_true, decide_eq_true_eq]; exact le_total a b
  · intro a b; simp only [decide_eq_true_eq]; exact le_antisymm

theorem hashData_ok {g : GView m k NL EL} {A : AGraph (Id m) NL EL} (hg : Shows g A) :
    g.hashData = .ok (g.nodeIndices.mergeSort (fun a b => decide (a ≤ b)),
      (g.nodeIndices.mergeSort (fun a b => decide (a ≤ b))).map (fun n => (A.node n).join),
      g.edgeIndices.mergeSort pairLe,
      (g.edgeIndices.mergeSort pairLe).map (fun e => (A.edge e.1 e.2).join)) := by
  unfold hashData
  simp only
  rw [nodes_mapM hg, bind_ok, edges_mapM hg, bind_ok, pure_ok]
  · intro e he; exact (List.mergeSort_perm _ _).mem_iff.1 he
  · intro n hn; exact (hg.memNodes n).1 ((List.mergeSort_perm _ _).mem_iff.1 hn)

theorem hashData_eq {g : GView m k NL EL} {h : GView m k' NL EL} {A : AGraph (Id m) NL EL}
    (hg : Shows g A) (hh : Shows h A) (hd : g.directed = h.directed) : g.hashData = h.hashData := by
  have p1 : g.nodeIndices.Perm h.nodeIndices := by
    rw [List.perm_ext_iff_of_nodup hg.nodesNodup hh.nodesNodup]
    intro n; rw [hg.memNodes, hh.memNodes]
  have p2 : g.edgeIndices.Perm h.edgeIndices := by
    rw [List.perm_ext_iff_of_nodup hg.edgesNodup hh.edgesNodup]
    rintro ⟨s, t⟩; rw [hg.memEdges, hh.memEdges, hd]
  rw [hashData_ok hg, hashData_ok hh, sortIds_eq p1, sortPairs_eq p2]

end GView

/-! ### `TypedGraphMap` behind the traits -/

namespace GraphMap

variable {m k : Nat} {NL EL : Type}

/-- The abstract graph a `GraphMap` presents: labels decoded, an undirected edge labelled as its
orientation `start <= target`. -/
def abs (g : GraphMap m k NL EL) : AGraph (Id m) NL EL where
  node := g.decode.node
  edge s t := if g.directed = true ∨ s ≤ t then g.decode.edge s t else g.decode.edge t s

theorem view_getNodeLabel (g : GraphMap m k NL EL) (n : Id m) :
    g.view.getNodeLabel n = .ok (g.getNodeLabel n) := by
  unfold GView.getNodeLabel getNodeLabel
  simp only [view, pure_ok, bind_ok]
  cases (g.getNode n).bind (·.label) <;> rfl

theorem view_getEdgeLabel (g : GraphMap m k NL EL) (s t : Id m) :
    g.view.getEdgeLabel s t = g.getEdgeLabel s t := by
  unfold GView.getEdgeLabel getEdgeLabel
  simp only [view, getEdge_eq_outE, bind_ok, pure_ok]
  cases ((g.outE s t).map fun l => ({ src := s, dst := t, label := l } : Edge m k)).bind (·.label) <;> rfl

theorem abs_edge_isSome {g : GraphMap m k NL EL} (hg : g.Inv) (s t : Id m) :
    (g.abs.edge s t).isSome = g.hasEdge s t := by
  rw [hasEdge_eq_outE]
  unfold abs
  simp only
  split
  · simp [decode]
  · rename_i h
    simp only [not_or, Bool.not_eq_true, not_le] at h
    simp only [decode, Option.isSome_map]
    rw [Bool.eq_iff_iff]
    exact ⟨hg.sym h.1 t s, hg.sym h.1 s t⟩

theorem inv_shows {g : GraphMap m k NL EL} (hg : g.Inv) : Shows g.view g.abs := by
  have hnode : ∀ n, (g.abs.node n).isSome = g.hasNode n := by
    intro n; rw [hasNode_eq_labE]; simp [abs, decode]
  refine ⟨?_, ?_, fun n => (hnode n).symm, hg.keys, ?_, ?_, ?_, edgeIndices_nodup hg.toNWF, ?_,
    (edgeIndices_eq g).symm, ?_, ?_, ?_, ?_⟩
  · intro s t h
    rw [abs_edge_isSome hg, hasEdge_eq_outE] at h
    rw [hnode, hnode]
    exact ⟨outE_hasNode h, hg.target s t h⟩
  · intro hd s t
    have hd : g.directed = false := hd
    simp only [abs, hd, Bool.false_eq_true, false_or]
    rcases lt_trichotomy s t with h | rfl | h
    · rw [if_pos h.le, if_neg (not_le.2 h)]
    · rfl
    · rw [if_pos h.le, if_neg (not_le.2 h)]
  · intro n; rw [hnode]; exact mem_nodeIndices g n
  · show g.nodeMap.length = (AL.keys g.nodeMap).length
    simp [AL.keys]
  · intro s t _
    show Except.ok (g.hasEdge s t) = _
    rw [abs_edge_isSome hg]
  · intro s t
    show (s, t) ∈ g.edgeIndices ↔ _
    rw [mem_edgeIndices hg.toNWF]
    unfold AGraph.Listed
    rw [abs_edge_isSome hg, hasEdge_eq_outE]
    rfl
  · intro n l h
    rw [view_getNodeLabel, getNodeLabel_eq]
    have h : g.decode.node n = some l := h
    rw [h]; rfl
  · intro s t l h hst
    rw [view_getEdgeLabel, getEdgeLabel_eq]
    have hst : g.directed = true ∨ s ≤ t := hst
    have h : g.decode.edge s t = some l := by simpa [abs, hst] using h
    rw [h]; rfl
  · intro n hn
    rw [hnode] at hn
    obtain ⟨nd, hnd⟩ := (hasNode_iff _ _).1 hn
    refine ⟨nd.neighborIds, by simp [view, neighbors, hnd, pure_ok], hg.sortedOut n nd hnd, ?_, ?_⟩
    · intro t; rw [abs_edge_isSome hg, hasEdge_eq_outE]; exact mem_neighborIds_iff hnd t
    · simp [view, degree, hnd, pure_ok, NodeMap.degree, NodeMap.neighborIds, AL.keys]
  · rintro ⟨n, hn⟩
    rw [hnode] at hn
    obtain ⟨M, hM, -⟩ := hg.maxBound n hn
    refine ⟨M, by simp [view, maxSeenId, hM, pure_ok], ?_⟩
    intro x hx
    rw [hnode] at hx
    obtain ⟨M', hM', hle⟩ := hg.maxBound x hx
    rw [hM] at hM'; cases hM'; exact hle

end GraphMap

end Verif
