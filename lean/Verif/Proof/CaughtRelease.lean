import Verif.Model.CaughtRelease
import Verif.Proof.Release
import Verif.Proof.Caught

/-! Release builds with panics caught: the counter does not influence anything else. -/

namespace Verif

namespace GraphMap

variable {m k : Nat} {NL EL : Type}

theorem withNodesCaught_recount (f : NodeMap m k → NodeMap m k) (c : Nat) : ∀ (ns : List (Id m))
    (g : GraphMap m k NL EL), withNodesCaught f ns (recount c g) =
      (recount c (withNodesCaught f ns g).1, (withNodesCaught f ns g).2)
  | [], _ => rfl
  | n :: ns, g => by
    unfold withNodesCaught
    show (match AL.get g.nodeMap n with | some nd => _ | none => _) = _
    cases AL.get g.nodeMap n with
    | none => rfl
    | some nd => exact withNodesCaught_recount f c ns { g with nodeMap := AL.set g.nodeMap n (f nd) }

theorem withNodesCaught_count (f : NodeMap m k → NodeMap m k) : ∀ (ns : List (Id m))
    (g : GraphMap m k NL EL), (withNodesCaught f ns g).1.numEdges = g.numEdges
  | [], _ => rfl
  | n :: ns, g => by
    unfold withNodesCaught
    cases AL.get g.nodeMap n with
    | none => rfl
    | some nd => exact withNodesCaught_count f ns { g with nodeMap := AL.set g.nodeMap n (f nd) }

theorem unlinkCaught_recount (g : GraphMap m k NL EL) (c : Nat) (node : NodeMap m k) (id : Id m) :
    unlinkCaught (recount c g) node id = (recount c (unlinkCaught g node id).1, (unlinkCaught g node id).2) := by
  unfold unlinkCaught
  show (if g.directed = true then _ else _) = _
  cases g.directed with
  | false => exact withNodesCaught_recount _ _ _ _
  | true =>
    simp only [if_true, withNodesCaught_recount]
    generalize withNodesCaught (fun nd => nd.removeInEdge id) node.neighborIds g = x
    rcases x with ⟨g1, _ | _⟩
    · rfl
    · exact withNodesCaught_recount _ _ _ _

theorem unlinkCaught_count (g : GraphMap m k NL EL) (node : NodeMap m k) (id : Id m) :
    (unlinkCaught g node id).1.numEdges = g.numEdges := by
  unfold unlinkCaught
  cases g.directed with
  | false => exact withNodesCaught_count _ _ _
  | true =>
    have := withNodesCaught_count (fun nd => nd.removeInEdge id) node.neighborIds g
    simp only [if_true]
    generalize withNodesCaught (fun nd => nd.removeInEdge id) node.neighborIds g = x at this
    rcases x with ⟨g1, _ | _⟩
    · exact this
    · exact (withNodesCaught_count _ _ _).trans this

/-- A result without the panics of the counter. -/
def calm {X : Type} (x : X) : Res X → Res X
  | .error .underflow => .ok x
  | r => r

theorem withNodesCaught_panic (f : NodeMap m k → NodeMap m k) : ∀ (ns : List (Id m)) (g : GraphMap m k NL EL)
    (p : Panic), (withNodesCaught f ns g).2 = .error p → p = .unwrapNone
  | [], _, _, h => by cases h
  | n :: ns, g, p, h => by
    unfold withNodesCaught at h
    split at h
    · exact withNodesCaught_panic f ns _ _ h
    · cases h; rfl

theorem unlinkCaught_panic {g : GraphMap m k NL EL} {node : NodeMap m k} {id : Id m} {p : Panic}
    (h : (unlinkCaught g node id).2 = .error p) : p = .unwrapNone := by
  unfold unlinkCaught at h
  split at h
  · split at h
    · exact withNodesCaught_panic _ _ _ _ h
    · rename_i he
      cases h
      exact withNodesCaught_panic _ _ _ _ (congrArg Prod.snd he)
  · exact withNodesCaught_panic _ _ _ _ h

/-- `remove_node`: the same graph but for the counter, the same answer but for the panics of the counter. -/
theorem removeNode_caught_release (g : GraphMap m k NL EL) (c : Nat) (n : Id m) :
    ∃ c', (recount c g).removeNodeCaughtRelease n =
        (recount c' (g.removeNodeCaught n).1, calm (AL.get g.nodeMap n) (g.removeNodeCaught n).2) ∧
      (AL.get g.nodeMap n = none ∨ (g.removeNodeCaught n).2 = .error .unwrapNone → c' = c) ∧
      ∀ nd, AL.get g.nodeMap n = some nd → (g.removeNodeCaught n).2 ≠ .error .unwrapNone →
        c' = wrapSub c (nd.degree + nd.inDegree) := by
  cases h1 : AL.get g.nodeMap n with
  | none =>
    have e1 : g.removeNodeCaught n = (g, .ok none) := by unfold removeNodeCaught; rw [h1]
    have e2 : (recount c g).removeNodeCaughtRelease n = (recount c g, .ok none) := by
      unfold removeNodeCaughtRelease
      rw [show AL.get (recount c g).nodeMap n = none from h1]
    rw [e1, e2]
    exact ⟨c, rfl, fun _ => rfl, fun nd h => by cases h⟩
  | some nd =>
    have hr := unlinkCaught_recount ({ g with nodeMap := AL.erase g.nodeMap n } : GraphMap m k NL EL) c nd n
    have hp := @unlinkCaught_panic m k NL EL { g with nodeMap := AL.erase g.nodeMap n } nd n
    have e1 : g.removeNodeCaught n = (match
          unlinkCaught ({ g with nodeMap := AL.erase g.nodeMap n } : GraphMap m k NL EL) nd n with
        | (g, .ok ()) =>
          if g.numEdges < nd.degree + nd.inDegree then (g, .error .underflow)
          else ({ g with numEdges := g.numEdges - (nd.degree + nd.inDegree) }, .ok (some nd))
        | (g, .error p) => (g, .error p)) := by
      unfold removeNodeCaught; rw [h1]; rfl
    have e2 : (recount c g).removeNodeCaughtRelease n = (match (recount c
          (unlinkCaught ({ g with nodeMap := AL.erase g.nodeMap n } : GraphMap m k NL EL) nd n).1,
          (unlinkCaught ({ g with nodeMap := AL.erase g.nodeMap n } : GraphMap m k NL EL) nd n).2) with
        | (g, .ok ()) =>
          ({ g with numEdges := wrapSub g.numEdges (wrapAdd nd.degree nd.inDegree) }, .ok (some nd))
        | (g, .error p) => (g, .error p)) := by
      unfold removeNodeCaughtRelease
      rw [show AL.get (recount c g).nodeMap n = some nd from h1, ← hr]
      rfl
    rw [e1, e2]
    clear e1 e2 hr
    generalize unlinkCaught ({ g with nodeMap := AL.erase g.nodeMap n } : GraphMap m k NL EL) nd n = x at hp
    rcases x with ⟨g1, e | u⟩
    · obtain rfl := hp rfl
      exact ⟨c, rfl, fun _ => rfl, fun nd _ h => absurd rfl h⟩
    · refine ⟨wrapSub c (wrapAdd nd.degree nd.inDegree), ?_, ?_, ?_⟩
      · dsimp only
        split <;> rfl
      · rintro (h | h)
        · cases h
        · dsimp only at h
          split at h <;> cases h
      · rintro nd' h -
        cases h
        exact wrapSub_wrap

/-- `remove_edge`, likewise. -/
theorem removeEdge_caught_release (g : GraphMap m k NL EL) (c : Nat) (s t : Id m) :
    ∃ c', (recount c g).removeEdgeCaughtRelease s t =
        (recount c' (g.removeEdgeCaught s t).1,
          calm ((AL.get g.nodeMap s).bind (fun nd => (nd.removeEdge t).2)) (g.removeEdgeCaught s t).2) ∧
      (g.hasEdge s t = false ∨ (g.removeEdgeCaught s t).2 = .error .unwrapNone → c' = c) ∧
      (g.hasEdge s t = true → (g.removeEdgeCaught s t).2 ≠ .error .unwrapNone → c' = wrapSub c 1) := by
  unfold removeEdgeCaughtRelease removeEdgeCaught
  rw [show (recount c g).hasEdge s t = g.hasEdge s t from rfl,
    show (recount c g).nodeMap = g.nodeMap from rfl]
  cases he : g.hasEdge s t with
  | false => exact ⟨c, rfl, fun _ => rfl, fun h => by cases h⟩
  | true =>
    cases h1 : AL.get g.nodeMap s with
    | none => exact ⟨c, rfl, fun _ => rfl, fun _ h => absurd rfl h⟩
    | some nd =>
      simp only [Bool.not_true, Bool.false_eq_true, if_false]
      cases h2 : AL.get (AL.set g.nodeMap s (nd.removeEdge t).1) t with
      | none => exact ⟨c, rfl, fun _ => rfl, fun _ h => absurd rfl h⟩
      | some nt =>
        dsimp only
        refine ⟨wrapSub c 1, ?_, ?_, fun _ _ => rfl⟩
        · by_cases hlt : g.numEdges < 1
          · rw [if_pos hlt]; rfl
          · rw [if_neg hlt]; rfl
        · rintro (h | h)
          · cases h
          · by_cases hlt : g.numEdges < 1
            · rw [if_pos hlt] at h; cases h
            · rw [if_neg hlt] at h; cases h

section

variable [DecidableEq NL] [DecidableEq EL]

theorem addEdgeRelease_recount (g : GraphMap m k NL EL) (c : Nat) (s t : Id m) (l : Option EL) :
    (recount c g).addEdgeRelease s t l =
      (g.addEdge s t l).map (fun r => (recount (wrapAdd c 1) r.1, r.2)) := by
  unfold addEdgeRelease addEdge
  rw [ensureNode_recount]
  cases h1 : g.ensureNode s with
  | error e => rfl
  | ok g1 =>
    show (recount _ g1).ensureNode t >>= _ = _
    rw [ensureNode_recount, bind_ok]
    cases h2 : g1.ensureNode t with
    | error e => rfl
    | ok g2 =>
      rw [bind_ok]
      show intern g2.edgeLabels l >>= _ = _
      cases h3 : intern (k := k) g2.edgeLabels l with
      | error e => rfl
      | ok r =>
        rw [bind_ok, bind_ok]
        dsimp only
        show unwrap (AL.get g2.nodeMap s) >>= _ = _
        cases h4 : AL.get g2.nodeMap s with
        | none => rfl
        | some nd =>
          show withNode (recount _ { g2 with edgeLabels := r.1 }) s _ >>= _ = Except.map _
            (withNode ({ g2 with edgeLabels := r.1 } : GraphMap m k NL EL) s _ >>= _)
          rw [withNode_recount]
          cases h5 : withNode ({ g2 with edgeLabels := r.1 } : GraphMap m k NL EL) s
              (fun nd => (nd.addEdge t r.2).1) with
          | error e => rfl
          | ok g3 =>
            show (recount _ g3).addEdgeTarget s t r.2 >>= _ = Except.map _ (g3.addEdgeTarget s t r.2 >>= _)
            rw [addEdgeTarget_recount]
            cases h6 : g3.addEdgeTarget s t r.2 <;> rfl

/-- The counter after a call that is neither a removal nor a recount, in a release build. -/
def bump (g : GraphMap m k NL EL) (c : Nat) : Op m k NL EL → Nat
  | .addEdge _ _ _ => wrapAdd c 1
  | .updateEdgeLabel s t _ => if g.hasEdge s t then wrapAdd c 1 else c
  | .refineEdgeCount => g.edgeIndices.length % word
  | _ => c

/-- Calls other than removals: as with overflow checks, but for the counter. -/
theorem applyRelease_recount (g : GraphMap m k NL EL) (c : Nat) (op : Op m k NL EL)
    (h1 : ∀ n, op ≠ .removeNode n) (h2 : ∀ s t, op ≠ .removeEdge s t) :
    (recount c g).applyRelease op = (g.apply op).map (recount (g.bump c op)) := by
  cases op with
  | addNode n l =>
    show (recount c g).addNode n l >>= _ = _
    unfold apply
    dsimp only
    rw [addNode_recount]
    cases h : g.addNode n l <;> rfl
  | removeNode n => exact absurd rfl (h1 n)
  | addEdge s t l =>
    unfold applyRelease apply
    dsimp only
    rw [addEdgeRelease_recount]
    cases g.addEdge s t l <;> rfl
  | removeEdge s t => exact absurd rfl (h2 s t)
  | updateNodeLabel n l =>
    show (recount c g).updateNodeLabel n l >>= _ = _
    unfold apply
    dsimp only
    unfold updateNodeLabel
    show (if (!g.hasNode n) = true then _ else _) >>= _ = _
    split
    · rfl
    · rw [addNode_recount]
      cases h : g.addNode n l <;> rfl
  | updateEdgeLabel s t l =>
    unfold applyRelease apply bump
    dsimp only
    unfold updateEdgeLabelRelease updateEdgeLabel
    show (if (!g.hasEdge s t) = true then _ else _) >>= _ = _
    cases he : g.hasEdge s t with
    | false => rfl
    | true =>
      simp only [Bool.not_true, Bool.false_eq_true, if_false, if_true]
      rw [addEdgeRelease_recount]
      cases g.addEdge s t l <;> rfl
  | addNodeLabel l =>
    show (do let r ← intern (k := k) g.nodeLabels l; pure _) >>= _ = Except.map _
      ((do let r ← intern (k := k) g.nodeLabels l; pure _) >>= _)
    cases intern (k := k) g.nodeLabels l <;> rfl
  | addEdgeLabel l =>
    show (do let r ← intern (k := k) g.edgeLabels l; pure _) >>= _ = Except.map _
      ((do let r ← intern (k := k) g.edgeLabels l; pure _) >>= _)
    cases intern (k := k) g.edgeLabels l <;> rfl
  | refineEdgeCount => rfl
  | setNodeLabelId n l =>
    show (recount c g).setNodeLabelId n l = (g.setNodeLabelId n l).map (recount c)
    unfold setNodeLabelId
    show (match AL.get g.nodeMap n with | some nd => _ | none => _) = _
    cases AL.get g.nodeMap n <;> rfl
  | setEdgeLabelId s t l =>
    show (recount c g).setEdgeLabelId s t l = (g.setEdgeLabelId s t l).map (recount c)
    unfold setEdgeLabelId
    show (if (!g.hasEdge s t) = true then _ else _) = _
    split
    · rfl
    · exact withNode_recount _ _ _ _
  | mapNodeLabelIds f => rfl
  | mapEdgeLabelIds f =>
    show Except.ok (if g.directed = true then _ else _) = Except.ok (recount c (if g.directed = true then _ else _))
    split <;> rfl

/-- One call in both builds. -/
theorem applyCaught_release (g : GraphMap m k NL EL) (c : Nat) (op : Op m k NL EL)
    (hu : (∀ n, op ≠ .removeNode n) → (∀ s t, op ≠ .removeEdge s t) → g.apply op ≠ .error .underflow) :
    ∃ c', (recount c g).applyCaughtRelease op =
      (recount c' (g.applyCaught op).1, calm () (g.applyCaught op).2) := by
  have main : (∀ n, op ≠ .removeNode n) → (∀ s t, op ≠ .removeEdge s t) →
      ∃ c', (match (recount c g).applyRelease op with
        | .ok g' => (g', .ok ())
        | .error p => (recount c g, .error p)) = (recount c' (match g.apply op with
          | .ok g' => (g', .ok ())
          | .error p => (g, .error p) : GraphMap m k NL EL × Res Unit).1, calm () (match g.apply op with
          | .ok g' => (g', .ok ())
          | .error p => (g, .error p) : GraphMap m k NL EL × Res Unit).2) := by
    intro h1 h2
    rw [applyRelease_recount g c op h1 h2]
    cases h : g.apply op with
    | ok g' => exact ⟨g.bump c op, rfl⟩
    | error p =>
      refine ⟨c, ?_⟩
      cases p with
      | underflow => exact absurd h (hu h1 h2)
      | _ => rfl
  cases op with
  | removeNode n =>
    obtain ⟨c', h, -⟩ := removeNode_caught_release g c n
    refine ⟨c', ?_⟩
    unfold applyCaughtRelease applyCaught
    dsimp only
    rw [h]
    refine Prod.ext rfl ?_
    dsimp only
    generalize (g.removeNodeCaught n).2 = r
    rcases r with p | r
    · cases p <;> rfl
    · rfl
  | removeEdge s t =>
    obtain ⟨c', h, -⟩ := removeEdge_caught_release g c s t
    refine ⟨c', ?_⟩
    unfold applyCaughtRelease applyCaught
    dsimp only
    rw [h]
    refine Prod.ext rfl ?_
    dsimp only
    generalize (g.removeEdgeCaught s t).2 = r
    rcases r with p | r
    · cases p <;> rfl
    · rfl
  | _ => exact main (by intro _ h; cases h) (by intro _ _ h; cases h)

end

end GraphMap

end Verif
