import Verif.Model.Caught
import Verif.Proof.GraphRefine

/-! `remove_node` and `remove_edge` on graphs on which an earlier panic was caught. -/

namespace Verif

open Spec

theorem mem_takeWhile_sorted {I : Type} [LinearOrder I] (p : I → Bool) : ∀ (l : List I),
    l.Pairwise (· < ·) → ∀ x, x ∈ l.takeWhile p ↔ x ∈ l ∧ ∀ u ∈ l, u ≤ x → p u = true
  | [], _, x => by simp
  | a :: l, h, x => by
    rw [List.pairwise_cons] at h
    rw [List.takeWhile_cons]
    by_cases ha : p a = true
    · rw [if_pos ha, List.mem_cons, mem_takeWhile_sorted p l h.2 x, List.mem_cons]
      constructor
      · rintro (rfl | ⟨h1, h2⟩)
        · refine ⟨Or.inl rfl, fun u hu hux => ?_⟩
          rcases List.mem_cons.1 hu with rfl | hu
          · exact ha
          · exact absurd (h.1 u hu) (not_lt.2 hux)
        · refine ⟨Or.inr h1, fun u hu hux => ?_⟩
          rcases List.mem_cons.1 hu with rfl | hu
          · exact ha
          · exact h2 u hu hux
      · rintro ⟨rfl | h1, h2⟩
        · exact Or.inl rfl
        · exact Or.inr ⟨h1, fun u hu => h2 u (List.mem_cons_of_mem _ hu)⟩
    · rw [if_neg ha]
      simp only [List.not_mem_nil, List.mem_cons, false_iff, not_and, not_forall]
      rintro (rfl | h1)
      · exact ⟨x, Or.inl rfl, le_refl _, ha⟩
      · exact ⟨a, Or.inl rfl, (h.1 x h1).le, ha⟩

namespace GraphMap

variable {m k : Nat} {NL EL : Type}

theorem withNodesCaught_eq (f : NodeMap m k → NodeMap m k) : ∀ (ns : List (Id m))
    (g : GraphMap m k NL EL), withNodesCaught f ns g =
      ((ns.takeWhile (fun n => g.hasNode n)).foldl (fun g n => g.modNode n f) g,
        if ∀ n ∈ ns, g.hasNode n = true then .ok () else .error .unwrapNone)
  | [], g => by simp [withNodesCaught]
  | n :: ns, g => by
    cases hn : AL.get g.nodeMap n with
    | none =>
      have : g.hasNode n = false := by simp [hasNode, hn]
      simp [withNodesCaught, hn, this]
    | some nd =>
      have h1 : g.hasNode n = true := by simp [hasNode, hn]
      have h2 : ({ g with nodeMap := AL.set g.nodeMap n (f nd) } : GraphMap m k NL EL) =
          g.modNode n f := by simp [modNode, hn]
      simp only [withNodesCaught, hn, h2]
      rw [withNodesCaught_eq f ns, List.takeWhile_cons, if_pos h1, List.foldl_cons]
      simp only [hasNode_modNode, List.mem_cons, forall_eq_or_imp, h1, true_and]

/-- What survives a caught panic. -/
structure CInv (g : GraphMap m k NL EL) : Prop extends NWF g where
  inNil : g.directed = false → ∀ t s, ¬ g.inE t s
  nlNodup : g.nodeLabels.labels.Nodup
  elNodup : g.edgeLabels.labels.Nodup
  maxBound : ∀ n, g.hasNode n = true → ∃ M, g.maxId = some M ∧ n ≤ M

theorem Inv.cinv {g : GraphMap m k NL EL} (h : g.Inv) : g.CInv :=
  ⟨h.toNWF, h.inNil, h.nlNodup, h.elNodup, h.maxBound⟩

/-- The neighbours of `n` are other nodes. -/
def OutOk (g : GraphMap m k NL EL) (n : Id m) : Prop :=
  ∀ u, (g.outE n u).isSome → u ≠ n ∧ g.hasNode u = true

/-- The in-neighbours of `n` are other nodes. -/
def InOk (g : GraphMap m k NL EL) (n : Id m) : Prop :=
  ∀ u, g.inE n u → u ≠ n ∧ g.hasNode u = true

/-- The loop over the neighbours of `n` gets to `t`. -/
def OutReach (g : GraphMap m k NL EL) (n t : Id m) : Prop :=
  (g.outE n t).isSome ∧ ∀ u, u ≤ t → (g.outE n u).isSome → u ≠ n ∧ g.hasNode u = true

/-- The loop over the in-neighbours of `n` gets to `t`. -/
def InReach (g : GraphMap m k NL EL) (n t : Id m) : Prop :=
  g.inE n t ∧ ∀ u, u ≤ t → g.inE n u → u ≠ n ∧ g.hasNode u = true

theorem hasNode_delNode (g : GraphMap m k NL EL) (n x : Id m) :
    (g.delNode n).hasNode x = true ↔ x ≠ n ∧ g.hasNode x = true := by
  rw [hasNode_eq_labE, hasNode_eq_labE, labE_delNode]
  by_cases h : x = n <;> simp [h]

open Classical in
/-- `unlinkCaught` on a graph from which `n` was just taken. -/
theorem unlinkCaught_spec {g : GraphMap m k NL EL} (hg : g.CInv) {n : Id m} {node : NodeMap m k}
    (hnd : g.getNode n = some node) :
    ∃ g2 : GraphMap m k NL EL, (g.delNode n).unlinkCaught node n =
        (g2, if g.OutOk n ∧ g.InOk n then .ok () else .error .unwrapNone) ∧
      g2.NWF ∧ SameRest (g.delNode n) g2 ∧ (∀ x, g2.labE x = if x = n then none else g.labE x) ∧
      (∀ a b, g2.outE a b = if a = n ∨ (b = n ∧
        (if g.directed = true then g.OutOk n ∧ g.InReach n a else g.OutReach n a)) then none
        else g.outE a b) ∧
      (∀ b a, g2.inE b a ↔ b ≠ n ∧ ¬ (a = n ∧ g.OutReach n b) ∧ g.inE b a) := by
  have hout := mem_neighborIds_iff hnd
  have hin := mem_inNeighbors_iff hnd
  have hg1 := nwf_delNode hg.toNWF n
  have hso : node.neighborIds.Pairwise (· < ·) := hg.sortedOut n node hnd
  have hsi : node.inNeighborIds.Pairwise (· < ·) := hg.sortedIn n node hnd
  have hok : (∀ x ∈ node.neighborIds, (g.delNode n).hasNode x = true) ↔ g.OutOk n := by
    simp only [hout, hasNode_delNode, OutOk]
  have hreach : ∀ t, t ∈ node.neighborIds.takeWhile (fun x => (g.delNode n).hasNode x) ↔
      g.OutReach n t := by
    intro t
    rw [mem_takeWhile_sorted _ _ hso]
    simp only [hout, hasNode_delNode, OutReach]
    exact and_congr_right fun _ => ⟨fun h u h1 h2 => h u h2 h1, fun h u h1 h2 => h u h2 h1⟩
  unfold unlinkCaught
  rw [show (g.delNode n).directed = g.directed from rfl]
  cases hd : g.directed with
  | true =>
    simp only [if_true]
    rw [withNodesCaught_eq]
    obtain ⟨u1, u2, u3, u4⟩ := remIn_foldl n
      (node.neighborIds.takeWhile (fun x => (g.delNode n).hasNode x)) _ hg1
    have u5 := sameRest_foldl (node.neighborIds.takeWhile (fun x => (g.delNode n).hasNode x))
      (fun nd => nd.removeInEdge n) (g.delNode n)
    have u6 := hasNode_foldl (node.neighborIds.takeWhile (fun x => (g.delNode n).hasNode x))
      (fun nd => nd.removeInEdge n) (g.delNode n)
    generalize (node.neighborIds.takeWhile (fun x => (g.delNode n).hasNode x)).foldl
      (fun g n_1 => g.modNode n_1 (fun nd => nd.removeInEdge n)) (g.delNode n) = g1 at *
    by_cases ho : g.OutOk n
    · rw [if_pos (hok.2 ho)]
      dsimp only
      rw [withNodesCaught_eq]
      obtain ⟨v1, v2, v3, v4⟩ := remOut_foldl n
        (node.inNeighborIds.takeWhile (fun x => g1.hasNode x)) _ u1
      have v5 := sameRest_foldl (node.inNeighborIds.takeWhile (fun x => g1.hasNode x))
        (fun nd => (nd.removeEdge n).1) g1
      have hiok : (∀ x ∈ node.inNeighborIds, g1.hasNode x = true) ↔ g.InOk n := by
        simp only [hin, u6, hasNode_delNode, InOk]
      have hireach : ∀ t, t ∈ node.inNeighborIds.takeWhile (fun x => g1.hasNode x) ↔
          g.InReach n t := by
        intro t
        rw [mem_takeWhile_sorted _ _ hsi]
        simp only [hin, u6, hasNode_delNode, InReach]
        exact and_congr_right fun _ => ⟨fun h u h1 h2 => h u h2 h1, fun h u h1 h2 => h u h2 h1⟩
      refine ⟨_, ?_, v1, u5.trans v5, ?_, ?_, ?_⟩
      · rw [Prod.mk.injEq]
        refine ⟨rfl, ?_⟩
        by_cases hi : g.InOk n
        · rw [if_pos (hiok.2 hi), if_pos ⟨ho, hi⟩]
        · rw [if_neg (fun h => hi (hiok.1 h)), if_neg (fun h => hi h.2)]
      · intro x; rw [v2, u2, labE_delNode]
      · intro a b
        rw [v3, u3, outE_delNode]
        simp only [hireach]
        by_cases ha : a = n
        · simp [ha]
        · simp only [ha, false_or, ho, true_and, if_false]
          by_cases hb : b = n <;> by_cases hr : g.InReach n a <;> simp [hb, hr]
      · intro b a
        rw [v4, u4, inE_delNode, hreach]
        constructor
        · rintro ⟨h1, h2, h3⟩
          exact ⟨h2, fun h => h1 ⟨h.2, h.1⟩, h3⟩
        · rintro ⟨h1, h2, h3⟩
          exact ⟨fun h => h2 ⟨h.2, h.1⟩, h1, h3⟩
    · rw [if_neg (fun h => ho (hok.1 h))]
      refine ⟨g1, by rw [if_neg (fun h => ho h.1)], u1, u5, ?_, ?_, ?_⟩
      · intro x; rw [u2, labE_delNode]
      · intro a b
        rw [u3, outE_delNode]
        simp [ho]
      · intro b a
        rw [u4, inE_delNode, hreach]
        constructor
        · rintro ⟨h1, h2, h3⟩
          exact ⟨h2, fun h => h1 ⟨h.2, h.1⟩, h3⟩
        · rintro ⟨h1, h2, h3⟩
          exact ⟨fun h => h2 ⟨h.2, h.1⟩, h1, h3⟩
  | false =>
    have hnil := hg.inNil hd
    simp only [Bool.false_eq_true, if_false]
    rw [withNodesCaught_eq]
    obtain ⟨v1, v2, v3, v4⟩ := remOut_foldl n
      (node.neighborIds.takeWhile (fun x => (g.delNode n).hasNode x)) _ hg1
    have v5 := sameRest_foldl (node.neighborIds.takeWhile (fun x => (g.delNode n).hasNode x))
      (fun nd => (nd.removeEdge n).1) (g.delNode n)
    have hi : g.InOk n := fun u hu => absurd hu (hnil n u)
    refine ⟨_, ?_, v1, v5, ?_, ?_, ?_⟩
    · rw [Prod.mk.injEq]
      refine ⟨rfl, ?_⟩
      by_cases ho : g.OutOk n
      · rw [if_pos (hok.2 ho), if_pos ⟨ho, hi⟩]
      · rw [if_neg (fun h => ho (hok.1 h)), if_neg (fun h => ho h.1)]
    · intro x; rw [v2, labE_delNode]
    · intro a b
      rw [v3, outE_delNode]
      simp only [hreach]
      by_cases ha : a = n
      · simp [ha]
      · simp only [ha, false_or, if_false]
        by_cases hb : b = n <;> by_cases hr : g.OutReach n a <;> simp [hb, hr]
    · intro b a
      rw [v4, inE_delNode]
      constructor
      · rintro ⟨h1, h2⟩; exact absurd h2 (hnil b a)
      · rintro ⟨h1, h2, h3⟩; exact ⟨h1, h3⟩

open Classical in
/-- `remove_node` of a present node. -/
theorem removeNodeCaught_spec {g : GraphMap m k NL EL} (hg : g.CInv) {n : Id m} {node : NodeMap m k}
    (hnd : g.getNode n = some node) :
    ∃ g2 : GraphMap m k NL EL, (g.removeNodeCaught n).1 = g2 ∧
      (g.removeNodeCaught n).2 = (if ¬ (g.OutOk n ∧ g.InOk n) then .error .unwrapNone else
        if g.numEdges < node.degree + node.inDegree then .error .underflow else .ok (some node)) ∧
      g2.NWF ∧ g2.directed = g.directed ∧ g2.nodeLabels = g.nodeLabels ∧
      g2.edgeLabels = g.edgeLabels ∧ g2.maxId = g.maxId ∧
      g2.numEdges = (if g.OutOk n ∧ g.InOk n ∧ node.degree + node.inDegree ≤ g.numEdges then
        g.numEdges - (node.degree + node.inDegree) else g.numEdges) ∧
      (∀ x, g2.labE x = if x = n then none else g.labE x) ∧
      (∀ a b, g2.outE a b = if a = n ∨ (b = n ∧
        (if g.directed = true then g.OutOk n ∧ g.InReach n a else g.OutReach n a)) then none
        else g.outE a b) ∧
      (∀ b a, g2.inE b a ↔ b ≠ n ∧ ¬ (a = n ∧ g.OutReach n b) ∧ g.inE b a) := by
  obtain ⟨g2, w0, w1, w2, w3, w4, w5⟩ := unlinkCaught_spec hg hnd
  have hnd' : AL.get g.nodeMap n = some node := hnd
  have w0 : unlinkCaught ({ g with nodeMap := AL.erase g.nodeMap n } : GraphMap m k NL EL) node n =
    _ := w0
  have hne : g2.numEdges = g.numEdges := w2.numEdges
  simp only [removeNodeCaught, hnd', w0]
  by_cases hok : g.OutOk n ∧ g.InOk n
  · rw [if_pos hok]
    dsimp only
    rw [hne]
    by_cases hlt : g.numEdges < node.degree + node.inDegree
    · simp only [if_pos hlt]
      refine ⟨_, rfl, by rw [if_neg (not_not.2 hok)], w1, w2.directed, w2.nodeLabels,
        w2.edgeLabels, w2.maxId, ?_, w3, w4, w5⟩
      rw [if_neg (fun h => absurd h.2.2 (not_le.2 hlt)), hne]
    · simp only [if_neg hlt]
      refine ⟨_, rfl, by rw [if_neg (not_not.2 hok)], ⟨w1.keys, w1.ids, w1.sortedOut, w1.sortedIn⟩,
        w2.directed, w2.nodeLabels, w2.edgeLabels, w2.maxId, ?_, w3, w4, w5⟩
      rw [if_pos ⟨hok.1, hok.2, not_lt.1 hlt⟩]
  · rw [if_neg hok]
    refine ⟨g2, rfl, by rw [if_pos hok], w1, w2.directed, w2.nodeLabels,
      w2.edgeLabels, w2.maxId, ?_, w3, w4, w5⟩
    rw [if_neg (fun h => hok ⟨h.1, h.2.1⟩), hne]

/-- `remove_edge` of a present edge. -/
theorem removeEdgeCaught_spec {g : GraphMap m k NL EL} (hg : g.CInv) {s t : Id m}
    {l : Option (Id k)} (he : g.outE s t = some l) :
    ∃ g2 : GraphMap m k NL EL, (g.removeEdgeCaught s t).1 = g2 ∧
      (g.removeEdgeCaught s t).2 = (if g.hasNode t = false then .error .unwrapNone else
        if g.numEdges = 0 then .error .underflow else .ok (some ⟨s, t, l⟩)) ∧
      g2.NWF ∧ g2.directed = g.directed ∧ g2.nodeLabels = g.nodeLabels ∧
      g2.edgeLabels = g.edgeLabels ∧ g2.maxId = g.maxId ∧
      g2.numEdges = (if g.hasNode t = true then g.numEdges - 1 else g.numEdges) ∧
      (∀ x, g2.labE x = g.labE x) ∧
      (∀ a b, g2.outE a b = if AGraph.same g.directed s t a b then none else g.outE a b) ∧
      (∀ b a, g2.inE b a ↔ ¬ (g.directed = true ∧ b = t ∧ a = s) ∧ g.inE b a) := by
  have ho : (g.outE s t).isSome := by rw [he]; rfl
  have h : g.hasEdge s t = true := by rw [hasEdge_eq_outE]; exact ho
  obtain ⟨nd, hnd⟩ := (hasNode_iff _ _).1 (outE_hasNode ho)
  have hnd' : AL.get g.nodeMap s = some nd := hnd
  have hedge : (nd.removeEdge t).2 = some ⟨s, t, l⟩ := by
    have : AL.get nd.neighbors t = some l := by simpa [outE, hnd] using he
    simp [NodeMap.removeEdge, this, hg.ids s nd hnd]
  have hg1 := nwf_mRemEdge hg.toNWF s t
  have hlab1 := labE_modNode g s (f := fun nd => (nd.removeEdge t).1)
    (fun nd => by rw [NodeMap_removeEdge_fst])
  have hout1 := outE_mRemEdge g s t
  have hin1 := inE_modNode g s (f := fun nd => (nd.removeEdge t).1)
    (fun nd => by rw [NodeMap_removeEdge_fst])
  have hsame1 := sameRest_modNode g s (fun nd => (nd.removeEdge t).1)
  have hhas1 := hasNode_modNode g s (fun nd => (nd.removeEdge t).1)
  have e1 : ({ g with nodeMap := AL.set g.nodeMap s (nd.removeEdge t).1 } : GraphMap m k NL EL) =
      g.modNode s (fun nd => (nd.removeEdge t).1) := by simp [modNode, hnd']
  have hunf : g.removeEdgeCaught s t =
      (match AL.get (g.modNode s (fun nd => (nd.removeEdge t).1)).nodeMap t with
      | none => (g.modNode s (fun nd => (nd.removeEdge t).1), .error .unwrapNone)
      | some nt =>
        if (g.modNode s (fun nd => (nd.removeEdge t).1)).numEdges < 1 then
          ({ (g.modNode s (fun nd => (nd.removeEdge t).1)) with
            nodeMap := AL.set (g.modNode s (fun nd => (nd.removeEdge t).1)).nodeMap t
              (if (g.modNode s (fun nd => (nd.removeEdge t).1)).directed then nt.removeInEdge s
                else (nt.removeEdge s).1) }, .error .underflow)
        else
          ({ (g.modNode s (fun nd => (nd.removeEdge t).1)) with
            nodeMap := AL.set (g.modNode s (fun nd => (nd.removeEdge t).1)).nodeMap t
              (if (g.modNode s (fun nd => (nd.removeEdge t).1)).directed then nt.removeInEdge s
                else (nt.removeEdge s).1)
            numEdges := (g.modNode s (fun nd => (nd.removeEdge t).1)).numEdges - 1 },
            .ok (some ⟨s, t, l⟩))) := by
    simp only [removeEdgeCaught, h, Bool.not_true, Bool.false_eq_true, if_false, hnd', hedge]
    rw [← e1]
    rfl
  rw [hunf]
  clear hunf e1
  generalize g.modNode s (fun nd => (nd.removeEdge t).1) = g1 at *
  have hnum : g1.numEdges = g.numEdges := hsame1.numEdges
  have hdir : g1.directed = g.directed := hsame1.directed
  cases ht : AL.get g1.nodeMap t with
  | none =>
    have ht0 : g.hasNode t = false := by rw [← hhas1]; simp [hasNode, ht]
    have hst : t ≠ s := by
      rintro rfl
      rw [outE_hasNode ho] at ht0; cases ht0
    refine ⟨g1, rfl, by simp [ht0], hg1, hdir, hsame1.nodeLabels, hsame1.edgeLabels, hsame1.maxId,
      by simp [ht0, hnum], hlab1, ?_, ?_⟩
    · intro a b
      rw [hout1]
      by_cases hab : a = s ∧ b = t
      · simp [AGraph.same, hab]
      · rw [if_neg hab]
        split
        · rename_i hs
          rcases hs with hs | ⟨-, rfl, rfl⟩
          · exact absurd hs hab
          · cases hx : g.outE a b with
            | none => rfl
            | some l' =>
              have := outE_hasNode (g := g) (s := a) (t := b) (by rw [hx]; rfl)
              rw [ht0] at this; cases this
        · rfl
    · intro b a
      rw [hin1]
      refine ⟨fun hi => ⟨?_, hi⟩, fun hi => hi.2⟩
      rintro ⟨-, rfl, -⟩
      obtain ⟨nd', h', -⟩ := hi
      have := (hasNode_iff g b).2 ⟨nd', h'⟩
      rw [ht0] at this; cases this
  | some nt =>
    have ht0 : g.hasNode t = true := by rw [← hhas1]; simp [hasNode, ht]
    have hf : ({ g1 with
          nodeMap := AL.set g1.nodeMap t
            (if g1.directed then nt.removeInEdge s else (nt.removeEdge s).1) } : GraphMap m k NL EL) =
        g1.modNode t (fun nd => if g1.directed then nd.removeInEdge s else (nd.removeEdge s).1) := by
      simp [modNode, ht]
    have last : ∀ g2 : GraphMap m k NL EL, g2 = g1.modNode t
        (fun nd => if g1.directed then nd.removeInEdge s else (nd.removeEdge s).1) →
        g2.NWF ∧ SameRest g1 g2 ∧ (∀ x, g2.labE x = g1.labE x) ∧
        (∀ a b, g2.outE a b = if AGraph.same g.directed s t a b then none else g.outE a b) ∧
        (∀ b a, g2.inE b a ↔ ¬ (g.directed = true ∧ b = t ∧ a = s) ∧ g.inE b a) := by
      rintro _ rfl
      rw [hdir]
      cases hd : g.directed with
      | true =>
        refine ⟨nwf_mRemIn hg1 t s, sameRest_modNode _ _ _, ?_, ?_, ?_⟩
        · intro x; apply labE_modNode; intro nd; rfl
        · intro a b
          rw [outE_modNode, hout1]
          · simp [AGraph.same]
          · intro nd; rfl
        · intro b a
          have := inE_mRemIn g1 t s b a
          rw [hin1] at this
          simpa using this
      | false =>
        refine ⟨nwf_mRemEdge hg1 t s, sameRest_modNode _ _ _, ?_, ?_, ?_⟩
        · intro x; apply labE_modNode; intro nd; simp [NodeMap_removeEdge_fst]
        · intro a b
          have := outE_mRemEdge g1 t s a b
          rw [hout1] at this
          simp only [Bool.false_eq_true, if_false]
          rw [this]
          simp only [AGraph.same, true_and]
          by_cases h1 : a = s ∧ b = t <;> by_cases h2 : a = t ∧ b = s <;> simp [h1, h2]
        · intro b a
          rw [inE_modNode, hin1]
          · simp
          · intro nd; simp [NodeMap_removeEdge_fst]
    obtain ⟨w1, w2, w3, w4, w5⟩ := last _ hf
    by_cases h0 : g.numEdges = 0
    · refine ⟨_, rfl, ?_, ?_⟩
      · simp [ht0, hnum, h0]
      · have h1 : g1.numEdges < 1 := by omega
        simp only [if_pos h1]
        exact ⟨w1, w2.directed.trans hdir, w2.nodeLabels.trans hsame1.nodeLabels,
          w2.edgeLabels.trans hsame1.edgeLabels, w2.maxId.trans hsame1.maxId,
          by rw [if_pos ht0, w2.numEdges, hnum, h0], fun x => (w3 x).trans (hlab1 x), w4, w5⟩
    · refine ⟨_, rfl, ?_, ?_⟩
      · simp [ht0, hnum, h0]
      · have h1 : ¬ g.numEdges < 1 := by omega
        simp only [hnum, if_neg h1]
        exact ⟨⟨w1.keys, w1.ids, w1.sortedOut, w1.sortedIn⟩, w2.directed.trans hdir,
          w2.nodeLabels.trans hsame1.nodeLabels,
          w2.edgeLabels.trans hsame1.edgeLabels, w2.maxId.trans hsame1.maxId,
          by rw [if_pos ht0], fun x => (w3 x).trans (hlab1 x), w4, w5⟩

/-- The value of a call and the graph it leaves, unless it panicked. -/
def Landed {S X : Type} (r : S × Res X) : Res (S × X) := r.2.map (fun x => (r.1, x))

theorem withNodes_landed (f : NodeMap m k → NodeMap m k) : ∀ (ns : List (Id m))
    (g : GraphMap m k NL EL), ns.foldlM (fun g n => withNode g n f) g =
      (Landed (withNodesCaught f ns g)).map Prod.fst
  | [], g => rfl
  | n :: ns, g => by
    rw [List.foldlM_cons]
    cases hn : AL.get g.nodeMap n with
    | none => simp [withNode, withNodesCaught, hn, unwrap, bind_error, Landed, Except.map]
    | some nd =>
      simp only [withNode, withNodesCaught, hn, unwrap, bind_ok, pure_ok]
      exact withNodes_landed f ns _

theorem unlink_landed (g : GraphMap m k NL EL) (node : NodeMap m k) (id : Id m) :
    g.unlink node id = (Landed (g.unlinkCaught node id)).map Prod.fst := by
  unfold unlink unlinkCaught
  cases g.directed with
  | true =>
    simp only [if_true]
    rw [withNodes_landed]
    rcases withNodesCaught (fun nd => nd.removeInEdge id) node.neighborIds g with ⟨g1, p | u⟩
    · rfl
    · simp only [Landed, Except.map, bind_ok]
      rw [withNodes_landed]; rfl
  | false =>
    simp only [Bool.false_eq_true, if_false]
    rw [withNodes_landed]

theorem removeNode_landed (g : GraphMap m k NL EL) (n : Id m) :
    g.removeNode n = Landed (g.removeNodeCaught n) := by
  unfold removeNode removeNodeCaught
  cases hn : AL.get g.nodeMap n with
  | none => rfl
  | some node =>
    dsimp only
    rw [unlink_landed]
    rcases unlinkCaught ({ g with nodeMap := AL.erase g.nodeMap n } : GraphMap m k NL EL) node n with
      ⟨g1, p | u⟩
    · rfl
    · simp only [Landed, Except.map, bind_ok]
      split
      · rfl
      · rfl

theorem removeEdge_landed (g : GraphMap m k NL EL) (s t : Id m) :
    g.removeEdge s t = Landed (g.removeEdgeCaught s t) := by
  unfold removeEdge removeEdgeCaught
  cases g.hasEdge s t with
  | false => rfl
  | true =>
    simp only [Bool.not_true, Bool.false_eq_true, if_false]
    cases hs : AL.get g.nodeMap s with
    | none => rfl
    | some nd =>
      simp only [unwrap, bind_ok, withNode, hs, pure_ok, removeEdgeTarget]
      cases ht : AL.get (AL.set g.nodeMap s (nd.removeEdge t).1) t with
      | none => cases g.directed <;> rfl
      | some nt =>
        cases g.directed
        · simp only [Bool.false_eq_true, if_false, bind_ok]
          split <;> rfl
        · simp only [if_true, bind_ok]
          split <;> rfl

variable [DecidableEq NL] [DecidableEq EL]

/-- A call that does not panic within `catch_unwind` is the call. -/
theorem apply_landed (g : GraphMap m k NL EL) (op : Op m k NL EL) :
    g.apply op = (Landed (g.applyCaught op)).map Prod.fst := by
  cases op with
  | removeNode n =>
    simp only [apply, applyCaught]
    rw [removeNode_landed]
    rcases g.removeNodeCaught n with ⟨g1, p | u⟩ <;> rfl
  | removeEdge s t =>
    simp only [apply, applyCaught]
    rw [removeEdge_landed]
    rcases g.removeEdgeCaught s t with ⟨g1, p | u⟩ <;> rfl
  | _ =>
    simp only [applyCaught]
    split <;> rename_i h <;> rw [h] <;> rfl

theorem removeNodeCaught_cinv {g : GraphMap m k NL EL} (hg : g.CInv) (n : Id m) :
    (g.removeNodeCaught n).1.CInv ∧ (g.removeNodeCaught n).1.directed = g.directed := by
  cases hnd : g.getNode n with
  | none =>
    have hnd' : AL.get g.nodeMap n = none := hnd
    simp only [removeNodeCaught, hnd']
    exact ⟨hg, trivial⟩
  | some node =>
    obtain ⟨g2, h1, h2, h3, h4, h5, h6, h7, h8, h9, h10, h11⟩ := removeNodeCaught_spec hg hnd
    rw [h1]
    refine ⟨⟨h3, ?_, by rw [h5]; exact hg.nlNodup, by rw [h6]; exact hg.elNodup, ?_⟩, h4⟩
    · intro hd t s
      rw [h11]
      exact fun h => hg.inNil (h4 ▸ hd) t s h.2.2
    · intro x hx
      rw [h7]
      rw [hasNode_eq_labE, h9] at hx
      split at hx
      · cases hx
      · rw [← hasNode_eq_labE] at hx; exact hg.maxBound x hx

theorem removeEdgeCaught_cinv {g : GraphMap m k NL EL} (hg : g.CInv) (s t : Id m) :
    (g.removeEdgeCaught s t).1.CInv ∧ (g.removeEdgeCaught s t).1.directed = g.directed := by
  cases he : g.outE s t with
  | none =>
    have : g.hasEdge s t = false := by rw [hasEdge_eq_outE, he]; rfl
    simp only [removeEdgeCaught, this, Bool.not_false, if_true]
    exact ⟨hg, trivial⟩
  | some l =>
    obtain ⟨g2, h1, h2, h3, h4, h5, h6, h7, h8, h9, h10, h11⟩ := removeEdgeCaught_spec hg he
    rw [h1]
    refine ⟨⟨h3, ?_, by rw [h5]; exact hg.nlNodup, by rw [h6]; exact hg.elNodup, ?_⟩, h4⟩
    · intro hd t s
      rw [h11]
      exact fun h => hg.inNil (h4 ▸ hd) t s h.2
    · intro x hx
      rw [h7]
      rw [hasNode_eq_labE, h9, ← hasNode_eq_labE] at hx
      exact hg.maxBound x hx

theorem SameStruct.cinv {g g' : GraphMap m k NL EL} (h : SameStruct g g') (hg : g.CInv)
    (hw : g'.NWF) : g'.CInv ∧ g'.directed = g.directed := by
  refine ⟨⟨hw, ?_, ?_, ?_, ?_⟩, h.rest.directed⟩
  · intro hd t s
    rw [h.inn]; exact hg.inNil (h.rest.directed ▸ hd) t s
  · rw [h.rest.nodeLabels]; exact hg.nlNodup
  · rw [h.rest.edgeLabels]; exact hg.elNodup
  · intro n hn
    rw [h.hasNode] at hn; rw [h.rest.maxId]; exact hg.maxBound n hn

theorem addNode_cinv {g g' : GraphMap m k NL EL} (hg : g.CInv) {id label b}
    (h : g.addNode id label = .ok (g', b)) : g'.CInv ∧ g'.directed = g.directed := by
  obtain ⟨g1, nl, lid, hi, h1, h2, h3, h4, h5, h6, h7, h8, h9⟩ := addNode_spec hg.toNWF id label
  rw [h1] at h
  obtain rfl : g1 = g' := by cases h; rfl
  have hlab : ∀ x, g1.labE x = if x = id then some lid else g.labE x :=
    fun x => congrArg (fun r => r.node x) h8
  refine ⟨⟨h2, ?_, ?_, ?_, ?_⟩, h3⟩
  · intro hd t s; rw [h9]; exact hg.inNil (h3 ▸ hd) t s
  · obtain ⟨s', l', e1, -, e2, -⟩ := intern_ok (k := k) g.nodeLabels label
    rw [e1] at hi; cases hi
    rw [h5]; exact e2 hg.nlNodup
  · rw [h6]; exact hg.elNodup
  · intro n hn
    rw [h7]
    rw [hasNode_eq_labE, hlab] at hn
    by_cases hid : g.hasNode id = true
    · rw [if_pos hid]
      split at hn
      · rename_i hx; subst hx; exact hg.maxBound n hid
      · rw [← hasNode_eq_labE] at hn; exact hg.maxBound n hn
    · rw [if_neg hid]
      obtain ⟨M, e1, e2, e3⟩ := bumpMax_spec g.maxId id
      refine ⟨M, e1, ?_⟩
      split at hn
      · rename_i hx; subst hx; exact e2
      · rw [← hasNode_eq_labE] at hn
        obtain ⟨M0, f1, f2⟩ := hg.maxBound n hn
        exact le_trans f2 (e3 M0 f1)

theorem addEdge_cinv {g g' : GraphMap m k NL EL} (hg : g.CInv) {s t label b}
    (h : g.addEdge s t label = .ok (g', b)) : g'.CInv ∧ g'.directed = g.directed := by
  obtain ⟨g1, el, lid, hi, h1, h2, h3, h4, h5, h6, h7, h8, h9⟩ := addEdge_spec hg.toNWF s t label
  rw [h1] at h
  obtain rfl : g1 = g' := by cases h; rfl
  have hlab : ∀ x, g1.labE x = if (x = s ∨ x = t) ∧ g.labE x = none then some none else g.labE x :=
    fun x => congrArg (fun r => r.node x) h8
  have hhas : ∀ x, g1.hasNode x = true ↔ x = s ∨ x = t ∨ g.hasNode x = true := by
    intro x
    rw [hasNode_eq_labE, hasNode_eq_labE, hlab]
    cases hx : g.labE x with
    | none =>
      by_cases hh : x = s ∨ x = t
      · simp [hh]
        try tauto
      · simp only [not_or] at hh; simp [hh]
    | some l => simp
  refine ⟨⟨h2, ?_, ?_, ?_, ?_⟩, h3⟩
  · intro hd b a
    rw [h3] at hd
    rw [h9]
    rintro (⟨h, -⟩ | h)
    · rw [hd] at h; cases h
    · exact hg.inNil hd b a h
  · rw [h5]; exact hg.nlNodup
  · obtain ⟨s', l', e1, -, e2, -⟩ := intern_ok (k := k) g.edgeLabels label
    rw [e1] at hi; cases hi
    rw [h6]; exact e2 hg.elNodup
  · have hseen : ∀ (mx : Option (Id m)) (n : Id m),
        (∀ x, g.hasNode x = true → ∃ M, mx = some M ∧ x ≤ M) →
        ∃ M, g.seen mx n = some M ∧ n ≤ M ∧ ∀ M0, mx = some M0 → M0 ≤ M := by
      intro mx n hb
      unfold seen
      split
      · rename_i hn
        obtain ⟨M, e1, e2⟩ := hb n hn
        exact ⟨M, e1, e2, by intro M0 h0; rw [e1] at h0; cases h0; exact le_refl _⟩
      · exact bumpMax_spec mx n
    obtain ⟨M1, e1, e2, e3⟩ := hseen g.maxId s hg.maxBound
    obtain ⟨M2, f1, f2, f3⟩ := hseen (g.seen g.maxId s) t (by
      intro x hx
      obtain ⟨M0, d1, d2⟩ := hg.maxBound x hx
      exact ⟨M1, e1, le_trans d2 (e3 M0 d1)⟩)
    intro n hn
    rw [h7]
    rw [hhas] at hn
    have hold : ∀ x, g.hasNode x = true → x ≤ M1 := by
      intro x hx
      obtain ⟨M0, d1, d2⟩ := hg.maxBound x hx
      exact le_trans d2 (e3 M0 d1)
    split
    · rename_i hts
      subst hts
      refine ⟨M1, e1, ?_⟩
      rcases hn with rfl | rfl | hn
      · exact e2
      · exact e2
      · exact hold n hn
    · refine ⟨M2, f1, ?_⟩
      have h12 := f3 M1 e1
      rcases hn with rfl | rfl | hn
      · exact le_trans e2 h12
      · exact f2
      · exact le_trans (hold n hn) h12

/-- A call other than `remove_node` and `remove_edge`. -/
theorem apply_cinv {g g' : GraphMap m k NL EL} (hg : g.CInv) {op : Op m k NL EL}
    (h1 : ∀ n, op ≠ .removeNode n) (h2 : ∀ s t, op ≠ .removeEdge s t) (h : g.apply op = .ok g') :
    g'.CInv ∧ g'.directed = g.directed := by
  cases op with
  | removeNode n => exact absurd rfl (h1 n)
  | removeEdge s t => exact absurd rfl (h2 s t)
  | addNode n l =>
    simp only [apply] at h
    obtain ⟨r, e1, e2⟩ := bind_eq_ok h
    cases e2
    exact addNode_cinv hg (b := r.2) e1
  | addEdge s t l =>
    simp only [apply] at h
    obtain ⟨r, e1, e2⟩ := bind_eq_ok h
    cases e2
    exact addEdge_cinv hg (b := r.2) e1
  | updateNodeLabel n l =>
    simp only [apply, updateNodeLabel] at h
    split at h
    · cases h; exact ⟨hg, rfl⟩
    · obtain ⟨r, e1, e2⟩ := bind_eq_ok h
      obtain ⟨r', e3, e4⟩ := bind_eq_ok e1
      cases e4; cases e2
      exact addNode_cinv hg (b := r'.2) e3
  | updateEdgeLabel s t l =>
    simp only [apply, updateEdgeLabel] at h
    split at h
    · cases h; exact ⟨hg, rfl⟩
    · obtain ⟨r, e1, e2⟩ := bind_eq_ok h
      obtain ⟨r', e3, e4⟩ := bind_eq_ok e1
      cases e4; cases e2
      exact addEdge_cinv hg (b := r'.2) e3
  | addNodeLabel l =>
    obtain ⟨s', lid, e1, -, e2, -⟩ := intern_ok (k := k) g.nodeLabels l
    simp only [apply, addNodeLabel, e1, bind_ok, pure_ok, Except.ok.injEq] at h
    subst h
    exact ⟨⟨⟨hg.keys, hg.ids, hg.sortedOut, hg.sortedIn⟩, hg.inNil, e2 hg.nlNodup, hg.elNodup,
      hg.maxBound⟩, rfl⟩
  | addEdgeLabel l =>
    obtain ⟨s', lid, e1, -, e2, -⟩ := intern_ok (k := k) g.edgeLabels l
    simp only [apply, addEdgeLabel, e1, bind_ok, pure_ok, Except.ok.injEq] at h
    subst h
    exact ⟨⟨⟨hg.keys, hg.ids, hg.sortedOut, hg.sortedIn⟩, hg.inNil, hg.nlNodup, e2 hg.elNodup,
      hg.maxBound⟩, rfl⟩
  | refineEdgeCount =>
    simp only [apply, pure_ok, Except.ok.injEq] at h
    subst h
    exact ⟨⟨⟨hg.keys, hg.ids, hg.sortedOut, hg.sortedIn⟩, hg.inNil, hg.nlNodup, hg.elNodup,
      hg.maxBound⟩, rfl⟩
  | setNodeLabelId n l =>
    simp only [apply] at h
    cases hn : g.hasNode n with
    | false =>
      have : AL.get g.nodeMap n = none := by simpa [hasNode] using hn
      simp [setNodeLabelId, this] at h
    | true =>
      obtain ⟨g1, e1, e2, e3, -⟩ := setNodeLabelId_spec hg.toNWF n l hn
      rw [e1] at h; cases h
      exact e3.cinv hg e2
  | setEdgeLabelId s t l =>
    simp only [apply] at h
    cases hn : g.hasEdge s t with
    | false => simp [setEdgeLabelId, hn] at h
    | true =>
      obtain ⟨g1, e1, e2, e3, -⟩ := setEdgeLabelId_spec hg.toNWF s t l hn
      rw [e1] at h; cases h
      exact e3.cinv hg e2
  | mapNodeLabelIds f =>
    simp only [apply, pure_ok, Except.ok.injEq] at h
    subst h
    obtain ⟨e1, e2, -⟩ := mapNodeLabelIds_spec hg.toNWF f
    exact e2.cinv hg e1
  | mapEdgeLabelIds f =>
    simp only [apply, pure_ok, Except.ok.injEq] at h
    subst h
    obtain ⟨e1, e2, -⟩ := mapEdgeLabelIds_spec hg.toNWF f
    exact e2.cinv hg e1

theorem applyCaught_cinv {g : GraphMap m k NL EL} (hg : g.CInv) (op : Op m k NL EL) :
    (g.applyCaught op).1.CInv ∧ (g.applyCaught op).1.directed = g.directed := by
  by_cases h1 : ∃ n, op = .removeNode n
  · obtain ⟨n, rfl⟩ := h1; exact removeNodeCaught_cinv hg n
  by_cases h2 : ∃ s t, op = .removeEdge s t
  · obtain ⟨s, t, rfl⟩ := h2; exact removeEdgeCaught_cinv hg s t
  have key : g.applyCaught op =
      match g.apply op with | .ok g' => (g', .ok ()) | .error p => (g, .error p) := by
    cases op <;> first | rfl | (exfalso; exact h1 ⟨_, rfl⟩) | (exfalso; exact h2 ⟨_, _, rfl⟩)
  rw [key]
  cases h : g.apply op with
  | ok g' => exact apply_cinv hg (fun n e => h1 ⟨n, e⟩) (fun s t e => h2 ⟨s, t, e⟩) h
  | error p => exact ⟨hg, rfl⟩

theorem rehash_cinv {g : GraphMap m k NL EL} (hg : g.CInv) {nm} (hp : g.nodeMap.Perm nm) :
    ({ g with nodeMap := nm } : GraphMap m k NL EL).CInv := by
  have hget : ∀ x, ({ g with nodeMap := nm } : GraphMap m k NL EL).getNode x = g.getNode x :=
    fun x => getNode_rehash hg.toNWF hp x
  refine ⟨⟨(hp.map Prod.fst).nodup_iff.1 hg.keys, ?_, ?_, ?_⟩, ?_, hg.nlNodup, hg.elNodup, ?_⟩
  · intro n nd h; rw [hget] at h; exact hg.ids n nd h
  · intro n nd h; rw [hget] at h; exact hg.sortedOut n nd h
  · intro n nd h; rw [hget] at h; exact hg.sortedIn n nd h
  · rintro hd t s ⟨nd, h1, h2⟩
    rw [hget] at h1
    exact hg.inNil hd t s ⟨nd, h1, h2⟩
  · intro n h
    rw [hasNode_iff, hget, ← hasNode_iff] at h
    exact hg.maxBound n h

theorem caught_cinv {g0 g : GraphMap m k NL EL} (h0 : g0.CInv) {ops} (h : Caught g0 ops g) :
    g.CInv ∧ g.directed = g0.directed := by
  induction h with
  | nil => exact ⟨h0, rfl⟩
  | step op _ ih =>
    obtain ⟨e1, e2⟩ := applyCaught_cinv ih.1 op
    exact ⟨e1, e2.trans ih.2⟩
  | rehash _ hp ih => exact ⟨rehash_cinv ih.1 hp, ih.2⟩

end GraphMap

end Verif
