import Verif.Model.Release
import Verif.Proof.GraphInv

/-! Release builds: the counter does not influence anything else. -/

namespace Verif

namespace GraphMap

variable {m k : Nat} {NL EL : Type}

/-- The graph with another counter. -/
def recount (c : Nat) (g : GraphMap m k NL EL) : GraphMap m k NL EL := { g with numEdges := c }

/-- The graph with the counter of a 64-bit machine. -/
def wrapped (g : GraphMap m k NL EL) : GraphMap m k NL EL := recount (g.numEdges % word) g

theorem withNode_recount (g : GraphMap m k NL EL) (c : Nat) (n : Id m) (f) :
    (recount c g).withNode n f = (g.withNode n f).map (recount c) := by
  unfold withNode
  show unwrap (AL.get g.nodeMap n) >>= _ = _
  cases AL.get g.nodeMap n <;> rfl

theorem withNode_count {g g' : GraphMap m k NL EL} {n : Id m} {f} (h : g.withNode n f = .ok g') :
    g'.numEdges = g.numEdges := by
  unfold withNode at h
  obtain ⟨nd, -, h⟩ := bind_eq_ok h
  cases h
  rfl

theorem fold_recount (f : Id m → NodeMap m k → NodeMap m k) : ∀ (l : List (Id m)) (g : GraphMap m k NL EL) (c : Nat),
    l.foldlM (fun g n => withNode g n (f n)) (recount c g) =
      (l.foldlM (fun g n => withNode g n (f n)) g).map (recount c) := by
  intro l
  induction l with
  | nil => intro g c; rfl
  | cons a l ih =>
    intro g c
    rw [List.foldlM_cons, List.foldlM_cons, withNode_recount]
    cases h : withNode g a (f a) with
    | error e => rfl
    | ok g' => exact ih g' c

theorem fold_count (f : Id m → NodeMap m k → NodeMap m k) : ∀ (l : List (Id m)) (g g' : GraphMap m k NL EL),
    l.foldlM (fun g n => withNode g n (f n)) g = .ok g' → g'.numEdges = g.numEdges := by
  intro l
  induction l with
  | nil => intro g g' h; cases h; rfl
  | cons a l ih =>
    intro g g' h
    rw [List.foldlM_cons] at h
    obtain ⟨g1, h1, h2⟩ := bind_eq_ok h
    rw [ih _ _ h2, withNode_count h1]

theorem unlink_recount (g : GraphMap m k NL EL) (c : Nat) (nd : NodeMap m k) (id : Id m) :
    (recount c g).unlink nd id = (g.unlink nd id).map (recount c) := by
  unfold unlink
  show (if g.directed = true then _ else _) = _
  split
  · rw [fold_recount (fun _ nd => nd.removeInEdge id)]
    cases h : List.foldlM (fun g n => withNode g n (fun nd => nd.removeInEdge id)) g nd.neighborIds with
    | error e => rfl
    | ok g' => exact fold_recount (fun _ nd => (nd.removeEdge id).1) nd.inNeighborIds g' c
  · exact fold_recount (fun _ nd => (nd.removeEdge id).1) nd.neighborIds g c

theorem unlink_count {g g' : GraphMap m k NL EL} {nd : NodeMap m k} {id : Id m} (h : g.unlink nd id = .ok g') :
    g'.numEdges = g.numEdges := by
  unfold unlink at h
  split at h
  · obtain ⟨g1, h1, h2⟩ := bind_eq_ok h
    rw [fold_count (fun _ nd => (nd.removeEdge id).1) _ _ _ h2, fold_count (fun _ nd => nd.removeInEdge id) _ _ _ h1]
  · exact fold_count (fun _ nd => (nd.removeEdge id).1) _ _ _ h

theorem addEdgeTarget_recount (g : GraphMap m k NL EL) (c : Nat) (s t : Id m) (l : Option (Id k)) :
    (recount c g).addEdgeTarget s t l = (g.addEdgeTarget s t l).map (recount c) := by
  unfold addEdgeTarget
  show (if g.directed = true then _ else _) = _
  split
  · exact withNode_recount _ _ _ _
  · split
    · exact withNode_recount _ _ _ _
    · rfl

theorem addEdgeTarget_count {g g' : GraphMap m k NL EL} {s t : Id m} {l} (h : g.addEdgeTarget s t l = .ok g') :
    g'.numEdges = g.numEdges := by
  unfold addEdgeTarget at h
  split at h
  · exact withNode_count h
  · split at h
    · exact withNode_count h
    · cases h; rfl

theorem removeEdgeTarget_recount (g : GraphMap m k NL EL) (c : Nat) (s t : Id m) :
    (recount c g).removeEdgeTarget s t = (g.removeEdgeTarget s t).map (recount c) := by
  unfold removeEdgeTarget
  show (if g.directed = true then _ else _) = _
  split
  · exact withNode_recount _ _ _ _
  · exact withNode_recount _ _ _ _

theorem removeEdgeTarget_count {g g' : GraphMap m k NL EL} {s t : Id m} (h : g.removeEdgeTarget s t = .ok g') :
    g'.numEdges = g.numEdges := by
  unfold removeEdgeTarget at h
  split at h
  · exact withNode_count h
  · exact withNode_count h

section

variable [DecidableEq NL] [DecidableEq EL]

omit [DecidableEq EL] in
theorem addNode_recount (g : GraphMap m k NL EL) (c : Nat) (n : Id m) (l : Option NL) :
    (recount c g).addNode n l = (g.addNode n l).map (fun r => (recount c r.1, r.2)) := by
  unfold addNode
  show intern g.nodeLabels l >>= _ = _
  cases h : intern (k := k) g.nodeLabels l with
  | error e => rfl
  | ok r =>
    rw [bind_ok, bind_ok]
    dsimp only
    show (if ({ g with nodeLabels := r.1 } : GraphMap m k NL EL).hasNode n = true then _ else _) = _
    split
    · have e := withNode_recount ({ g with nodeLabels := r.1 } : GraphMap m k NL EL) c n
        (fun nd => nd.setLabelId r.2)
      show withNode (recount c { g with nodeLabels := r.1 }) n _ >>= _ = _
      rw [e]
      cases withNode ({ g with nodeLabels := r.1 } : GraphMap m k NL EL) n (fun nd => nd.setLabelId r.2) <;> rfl
    · rfl

omit [DecidableEq EL] in
theorem addNode_count {g : GraphMap m k NL EL} {n : Id m} {l : Option NL} {r} (h : g.addNode n l = .ok r) :
    r.1.numEdges = g.numEdges := by
  unfold addNode at h
  obtain ⟨q, -, h⟩ := bind_eq_ok h
  dsimp only at h
  split at h
  · obtain ⟨g1, h1, h⟩ := bind_eq_ok h
    cases h
    have := withNode_count h1
    exact this
  · cases h
    rfl

omit [DecidableEq EL] in
theorem ensureNode_recount (g : GraphMap m k NL EL) (c : Nat) (n : Id m) :
    (recount c g).ensureNode n = (g.ensureNode n).map (recount c) := by
  unfold ensureNode
  show (if (!g.hasNode n) = true then _ else _) = _
  split
  · rw [addNode_recount]
    cases g.addNode n none <;> rfl
  · rfl

omit [DecidableEq EL] in
theorem ensureNode_count {g g' : GraphMap m k NL EL} {n : Id m} (h : g.ensureNode n = .ok g') :
    g'.numEdges = g.numEdges := by
  unfold ensureNode at h
  split at h
  · obtain ⟨r, h1, h⟩ := bind_eq_ok h
    cases h
    exact addNode_count h1
  · cases h; rfl

theorem wrapAdd_mod (a b : Nat) : wrapAdd (a % word) b = (a + b) % word := by
  unfold wrapAdd; rw [Nat.mod_add_mod]

theorem wrapSub_mod {a b : Nat} (h : b ≤ a) : wrapSub (a % word) b = (a - b) % word := by
  unfold wrapSub
  rw [Nat.mod_add_mod]
  have hw : 0 < word := by decide
  have h1 : b % word < word := Nat.mod_lt _ hw
  have h2 := Nat.mod_add_div b word
  have : a + (word - b % word) = (a - b) + word * (b / word + 1) := by
    rw [Nat.mul_add, Nat.mul_one]; omega
  rw [this, Nat.add_mul_mod_self_left]

theorem wrapSub_wrap {a b : Nat} : wrapSub a (b % word) = wrapSub a b := by
  unfold wrapSub; rw [Nat.mod_mod]

theorem addEdge_release (g : GraphMap m k NL EL) (s t : Id m) (l : Option EL) :
    g.wrapped.addEdgeRelease s t l = (g.addEdge s t l).map (fun r => (r.1.wrapped, r.2)) := by
  unfold addEdgeRelease addEdge wrapped
  rw [ensureNode_recount]
  cases h1 : g.ensureNode s with
  | error e => rfl
  | ok g1 =>
    show (recount _ g1).ensureNode t >>= _ = _
    rw [ensureNode_recount, bind_ok]
    cases h2 : g1.ensureNode t with
    | error e => rfl
    | ok g2 =>
      rw [bind_ok]
      show intern g2.edgeLabels l >>= _ = _
      cases h3 : intern (k := k) g2.edgeLabels l with
      | error e => rfl
      | ok r =>
        rw [bind_ok, bind_ok]
        dsimp only
        show unwrap (AL.get g2.nodeMap s) >>= _ = _
        cases h4 : AL.get g2.nodeMap s with
        | none => rfl
        | some nd =>
          show withNode (recount _ { g2 with edgeLabels := r.1 }) s _ >>= _ = Except.map _
            (withNode ({ g2 with edgeLabels := r.1 } : GraphMap m k NL EL) s _ >>= _)
          rw [withNode_recount]
          cases h5 : withNode ({ g2 with edgeLabels := r.1 } : GraphMap m k NL EL) s
              (fun nd => (nd.addEdge t r.2).1) with
          | error e => rfl
          | ok g3 =>
            show (recount _ g3).addEdgeTarget s t r.2 >>= _ = Except.map _ (g3.addEdgeTarget s t r.2 >>= _)
            rw [addEdgeTarget_recount]
            cases h6 : g3.addEdgeTarget s t r.2 with
            | error e => rfl
            | ok g4 =>
              have e : g4.numEdges = g.numEdges := by
                rw [addEdgeTarget_count h6, withNode_count h5]
                show g2.numEdges = _
                rw [ensureNode_count h2, ensureNode_count h1]
              have e' : wrapAdd (g.numEdges % word) 1 = (g4.numEdges + 1) % word := by
                rw [wrapAdd_mod, e]
              show Except.ok (recount (wrapAdd (g.numEdges % word) 1) g4, _) =
                Except.ok (recount ((g4.numEdges + 1) % word) g4, _)
              rw [e']

end

theorem removeNode_release {g : GraphMap m k NL EL} (n : Id m)
    (h : g.removeNode n ≠ .error .underflow) :
    g.wrapped.removeNodeRelease n = (g.removeNode n).map (fun r => (r.1.wrapped, r.2)) := by
  unfold removeNodeRelease removeNode wrapped at *
  show (match AL.get g.nodeMap n with | some node => _ | none => _) = _
  cases h1 : AL.get g.nodeMap n with
  | none => rfl
  | some nd =>
    rw [h1] at h
    dsimp only at h ⊢
    show unlink (recount _ { g with nodeMap := AL.erase g.nodeMap n }) nd n >>= _ = _
    rw [unlink_recount]
    cases h2 : unlink ({ g with nodeMap := AL.erase g.nodeMap n } : GraphMap m k NL EL) nd n with
    | error e => rfl
    | ok g1 =>
      rw [h2, bind_ok] at h
      have e : g1.numEdges = g.numEdges := by
        have := unlink_count h2
        exact this
      rw [bind_ok]
      by_cases hlt : g1.numEdges < nd.degree + nd.inDegree
      · rw [if_pos hlt] at h; exact absurd rfl h
      · rw [if_neg hlt]
        have e' : wrapSub (g.numEdges % word) (wrapAdd nd.degree nd.inDegree) =
            (g1.numEdges - (nd.degree + nd.inDegree)) % word := by
          unfold wrapAdd
          rw [wrapSub_wrap, wrapSub_mod (by omega), e]
        show Except.ok (recount (wrapSub (g.numEdges % word) (wrapAdd nd.degree nd.inDegree)) g1, _) =
          Except.ok (recount ((g1.numEdges - (nd.degree + nd.inDegree)) % word) g1, _)
        rw [e']

theorem removeEdge_release {g : GraphMap m k NL EL} (s t : Id m)
    (h : g.removeEdge s t ≠ .error .underflow) :
    g.wrapped.removeEdgeRelease s t = (g.removeEdge s t).map (fun r => (r.1.wrapped, r.2)) := by
  unfold removeEdgeRelease removeEdge wrapped at *
  show (if (!g.hasEdge s t) = true then _ else _) = _
  split
  · rfl
  · rename_i hc
    rw [if_neg hc] at h
    show unwrap (AL.get g.nodeMap s) >>= _ = _
    cases h1 : AL.get g.nodeMap s with
    | none => rfl
    | some nd =>
      rw [h1] at h
      replace h : (g.withNode s (fun nd => (nd.removeEdge t).1) >>= fun g => g.removeEdgeTarget s t >>= fun g =>
        if g.numEdges < 1 then .error .underflow
        else pure ({ g with numEdges := g.numEdges - 1 }, (nd.removeEdge t).2) :
          Res (GraphMap m k NL EL × Option (Edge m k))) ≠ _ := h
      show withNode (recount _ g) s _ >>= _ = Except.map _ (g.withNode s _ >>= _)
      rw [withNode_recount]
      cases h5 : g.withNode s (fun nd => (nd.removeEdge t).1) with
      | error e => rfl
      | ok g3 =>
        rw [h5, bind_ok] at h
        show (recount _ g3).removeEdgeTarget s t >>= _ = Except.map _ (g3.removeEdgeTarget s t >>= _)
        rw [removeEdgeTarget_recount]
        cases h6 : g3.removeEdgeTarget s t with
        | error e => rfl
        | ok g4 =>
          rw [h6, bind_ok] at h
          have e : g4.numEdges = g.numEdges := by
            rw [removeEdgeTarget_count h6, withNode_count h5]
          rw [bind_ok]
          by_cases hlt : g4.numEdges < 1
          · rw [if_pos hlt] at h; exact absurd rfl h
          · rw [if_neg hlt]
            have e' : wrapSub (g.numEdges % word) 1 = (g4.numEdges - 1) % word := by
              rw [wrapSub_mod (by omega), e]
            show Except.ok (recount (wrapSub (g.numEdges % word) 1) g4, _) =
              Except.ok (recount ((g4.numEdges - 1) % word) g4, _)
            rw [e']

end GraphMap

end Verif
