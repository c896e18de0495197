import Verif.Props.Caught
import Verif.Props.Release
import Verif.Proof.CaughtRelease

/-! C133: caught panics in release builds. -/

namespace Verif.Props

open GraphMap Spec

variable {m k : Nat} {NL EL : Type} [DecidableEq NL] [DecidableEq EL]

theorem others_no_underflow {g0 g : GraphMap m k NL EL} (h0 : Reachable g0) {ops} (hg : Caught g0 ops g)
    (op : Op m k NL EL) (h1 : ∀ n, op ≠ .removeNode n) (h2 : ∀ s t, op ≠ .removeEdge s t) :
    g.apply op ≠ .error .underflow := by
  intro h
  rcases (c123_panics h0 hg op).1 ⟨_, h⟩ with ⟨n, rfl, -⟩ | ⟨s, t, rfl, -⟩ | ⟨n, l, rfl, hn⟩ |
    ⟨s, t, l, rfl, he⟩
  · exact h1 _ rfl
  · exact h2 _ _ rfl
  · have hn : AL.get g.nodeMap n = none := by simpa [hasNode] using hn
    unfold apply at h
    dsimp only at h
    unfold setNodeLabelId at h
    rw [hn] at h
    cases h
  · unfold apply at h
    dsimp only at h
    unfold setEdgeLabelId at h
    rw [he] at h
    cases h

/-- **C133.** One call on graphs that differ only in their counters, in a build with overflow checks and in a
release build: afterwards they again differ only in their counters. The call panics alike, except that the
counter does not panic in a release build. -/
theorem c133_step {g0 g : GraphMap m k NL EL} (h0 : Reachable g0) {ops} (hg : Caught g0 ops g) (c : Nat)
    (op : Op m k NL EL) :
    ∃ c', (({ g with numEdges := c } : GraphMap m k NL EL).applyCaughtRelease op).1 =
        { (g.applyCaught op).1 with numEdges := c' } ∧
      ((g.applyCaught op).2 = .error .underflow →
        (({ g with numEdges := c } : GraphMap m k NL EL).applyCaughtRelease op).2 = .ok ()) ∧
      ((g.applyCaught op).2 ≠ .error .underflow →
        (({ g with numEdges := c } : GraphMap m k NL EL).applyCaughtRelease op).2 = (g.applyCaught op).2) := by
  obtain ⟨c', h⟩ := applyCaught_release g c op (others_no_underflow h0 hg op)
  refine ⟨c', congrArg Prod.fst h, fun hu => ?_, fun hu => ?_⟩
  · refine (congrArg Prod.snd h).trans ?_
    rw [hu]; rfl
  · refine (congrArg Prod.snd h).trans ?_
    generalize (g.applyCaught op).2 = r at hu
    rcases r with p | r
    · cases p with
      | underflow => exact absurd rfl hu
      | _ => rfl
    · rfl

/-- **C133.** The graphs that programs catching panics can reach are the same in both builds but for the edge
counter. -/
theorem c133_history {g0 : GraphMap m k NL EL} (h0 : Reachable g0) (ops : List (Op m k NL EL)) :
    (∀ g, Caught g0 ops g → ∃ c, CaughtRelease g0 ops { g with numEdges := c }) ∧
    (∀ h, CaughtRelease g0 ops h → ∃ c, Caught g0 ops { h with numEdges := c }) := by
  constructor
  · intro g hg
    induction hg with
    | nil => exact ⟨_, .nil⟩
    | step op hg ih =>
      obtain ⟨c, ih⟩ := ih
      obtain ⟨c', h, -⟩ := c133_step h0 hg c op
      refine ⟨c', ?_⟩
      rw [← h]
      exact .step op ih
    | rehash hg hp ih =>
      obtain ⟨c, ih⟩ := ih
      exact ⟨c, .rehash ih hp⟩
  · intro h hh
    induction hh with
    | nil => exact ⟨_, .nil⟩
    | @step ops h op hh ih =>
      obtain ⟨c, ih⟩ := ih
      obtain ⟨c', e, -⟩ := c133_step h0 ih h.numEdges op
      refine ⟨(({ h with numEdges := c } : GraphMap m k NL EL).applyCaught op).1.numEdges, ?_⟩
      have e : (h.applyCaughtRelease op).1 =
        { (({ h with numEdges := c } : GraphMap m k NL EL).applyCaught op).1 with numEdges := c' } := e
      rw [e]
      exact .step op ih
    | rehash hh hp ih =>
      obtain ⟨c, ih⟩ := ih
      exact ⟨c, .rehash ih hp⟩

/-- **C133.** Which calls panic in a release build: the counter never makes one panic. -/
theorem c133_panics {g0 h : GraphMap m k NL EL} (h0 : Reachable g0) {ops} (hh : CaughtRelease g0 ops h)
    (op : Op m k NL EL) :
    (∃ p, (h.applyCaughtRelease op).2 = .error p) ↔
      (∃ n, op = .removeNode n ∧ h.hasNode n = true ∧
        ∃ u, (h.hasEdge n u = true ∨ InNb h n u) ∧ (u = n ∨ h.hasNode u = false)) ∨
      (∃ s t, op = .removeEdge s t ∧ h.hasEdge s t = true ∧ h.hasNode t = false) ∨
      (∃ n l, op = .setNodeLabelId n l ∧ h.hasNode n = false) ∨
      (∃ s t l, op = .setEdgeLabelId s t l ∧ h.hasEdge s t = false) := by
  obtain ⟨c, hg⟩ := (c133_history h0 ops).2 h hh
  obtain ⟨g, hgh⟩ : ∃ g : GraphMap m k NL EL, g = { h with numEdges := c } := ⟨_, rfl⟩
  rw [← hgh] at hg
  have f1 : ∀ n, h.hasNode n = g.hasNode n := fun n => by rw [hgh]; rfl
  have f2 : ∀ s t, h.hasEdge s t = g.hasEdge s t := fun s t => by rw [hgh]; rfl
  have f3 : ∀ s t, InNb h s t ↔ InNb g s t := fun s t => by rw [hgh]; rfl
  simp only [f1, f2, f3]
  obtain ⟨c', -, e1, e2⟩ := c133_step h0 hg h.numEdges op
  rw [show ({ g with numEdges := h.numEdges } : GraphMap m k NL EL) = h by rw [hgh]] at e1 e2
  have key : (∃ p, (h.applyCaughtRelease op).2 = .error p) ↔
      ∃ p, (g.applyCaught op).2 = .error p ∧ p ≠ .underflow := by
    by_cases hu : (g.applyCaught op).2 = .error .underflow
    · rw [e1 hu, hu]
      constructor
      · rintro ⟨p, h⟩; cases h
      · rintro ⟨p, h, hne⟩; cases h; exact absurd rfl hne
    · rw [e2 hu]
      constructor
      · rintro ⟨p, h⟩; exact ⟨p, h, fun hp => hu (by rw [h, hp])⟩
      · rintro ⟨p, h, -⟩; exact ⟨p, h⟩
  rw [key]
  have hcall : ∀ p, g.apply op = .error p ↔ (g.applyCaught op).2 = .error p := fun p => (c122_same_call g g op p).2
  have main : (∀ n, op ≠ .removeNode n) → (∀ s t, op ≠ .removeEdge s t) →
      ((∃ p, (g.applyCaught op).2 = .error p ∧ p ≠ .underflow) ↔
      (∃ n, op = .removeNode n ∧ g.hasNode n = true ∧
        ∃ u, (g.hasEdge n u = true ∨ InNb g n u) ∧ (u = n ∨ g.hasNode u = false)) ∨
      (∃ s t, op = .removeEdge s t ∧ g.hasEdge s t = true ∧ g.hasNode t = false) ∨
      (∃ n l, op = .setNodeLabelId n l ∧ g.hasNode n = false) ∨
      (∃ s t l, op = .setEdgeLabelId s t l ∧ g.hasEdge s t = false)) := by
    intro h1 h2
    have hu := others_no_underflow h0 hg op h1 h2
    have hp := c123_panics h0 hg op
    constructor
    · rintro ⟨p, hpp, -⟩
      rcases hp.1 ⟨p, (hcall p).2 hpp⟩ with ⟨n, h, -⟩ | ⟨s, t, h, -⟩ | h | h
      · exact absurd h (h1 _)
      · exact absurd h (h2 _ _)
      · exact .inr (.inr (.inl h))
      · exact .inr (.inr (.inr h))
    · intro h
      have : ∃ p, g.apply op = .error p := by
        refine hp.2 ?_
        rcases h with ⟨n, h, -⟩ | ⟨s, t, h, -⟩ | h | h
        · exact absurd h (h1 _)
        · exact absurd h (h2 _ _)
        · exact .inr (.inr (.inl h))
        · exact .inr (.inr (.inr h))
      obtain ⟨p, h⟩ := this
      exact ⟨p, (hcall p).1 h, fun hpu => hu (by rw [h, hpu])⟩
  cases op with
  | removeNode n =>
    simp only [reduceCtorEq, Op.removeNode.injEq, false_and, exists_false, or_false, exists_eq_left']
    cases hn : g.hasNode n with
    | false =>
      have : AL.get g.nodeMap n = none := by simpa [hasNode] using hn
      simp [applyCaught, removeNodeCaught, this, Except.map]
    | true =>
      obtain ⟨d, e, -, -, -, h3, h4, -⟩ := c123_remove_node h0 hg hn
      simp only [true_and]
      rw [← h3]
      simp only [applyCaught]
      constructor
      · rintro ⟨p, hp, hne⟩
        by_contra hb
        rw [h3] at hb
        rw [h4] at hp
        · split at hp
          · cases hp; exact hne rfl
          · cases hp
        · intro u hu
          by_contra hbad
          refine hb ⟨u, hu, ?_⟩
          rwa [not_and_or, not_ne_iff, Bool.not_eq_true] at hbad
      · intro h
        rw [h]
        exact ⟨_, rfl, fun h => by cases h⟩
  | removeEdge s t =>
    simp only [reduceCtorEq, Op.removeEdge.injEq, false_and, exists_false, or_false, false_or]
    cases he : g.hasEdge s t with
    | false =>
      have : g.removeEdgeCaught s t = (g, .ok none) := by unfold removeEdgeCaught; rw [he]; rfl
      simp only [applyCaught, this]
      constructor
      · rintro ⟨p, hp, -⟩; cases hp
      · rintro ⟨s', t', ⟨rfl, rfl⟩, h, -⟩; rw [he] at h; cases h
    | true =>
      obtain ⟨h3, -⟩ := c123_remove_edge h0 hg he
      simp only [applyCaught, h3]
      constructor
      · rintro ⟨p, hp, hne⟩
        refine ⟨s, t, ⟨rfl, rfl⟩, he, ?_⟩
        by_contra hb
        rw [if_neg hb] at hp
        split at hp
        · cases hp; exact hne rfl
        · rw [getEdge_eq_outE] at hp
          cases hp
      · rintro ⟨s', t', ⟨rfl, rfl⟩, -, h⟩
        rw [if_pos h]
        exact ⟨_, rfl, fun h => by cases h⟩
  | _ => exact main (by intro _ h; cases h) (by intro _ _ h; cases h)

/-- The counter after a call that is no removal. -/
theorem other_count {g0 h : GraphMap m k NL EL} (h0 : Reachable g0) {ops} (hh : CaughtRelease g0 ops h)
    (op : Op m k NL EL) (h1 : ∀ n, op ≠ .removeNode n) (h2 : ∀ s t, op ≠ .removeEdge s t) :
    (h.bump h.numEdges op = h.numEdges → (h.applyCaughtRelease op).1.numEdges = h.numEdges) ∧
    ((∀ n l, op ≠ .setNodeLabelId n l) → (∀ s t l, op ≠ .setEdgeLabelId s t l) →
      (h.applyCaughtRelease op).1.numEdges = h.bump h.numEdges op) := by
  obtain ⟨c, hg⟩ := (c133_history h0 ops).2 h hh
  have e := applyRelease_recount (recount c h) h.numEdges op h1 h2
  rw [show recount h.numEdges (recount c h) = h from rfl,
    show (recount c h).bump h.numEdges op = h.bump h.numEdges op by cases op <;> rfl] at e
  have ec : h.applyCaughtRelease op = (match h.applyRelease op with
      | .ok g' => (g', .ok ())
      | .error p => (h, .error p)) := by
    cases op with
    | removeNode n => exact absurd rfl (h1 n)
    | removeEdge s t => exact absurd rfl (h2 s t)
    | _ => rfl
  rw [ec, e]
  cases ha : (recount c h).apply op with
  | ok g' => exact ⟨fun hb => hb, fun _ _ => rfl⟩
  | error p =>
    refine ⟨fun _ => rfl, fun h3 h4 => ?_⟩
    rcases (c123_panics h0 hg op).1 ⟨_, ha⟩ with ⟨n, rfl, -⟩ | ⟨s, t, rfl, -⟩ | ⟨n, l, rfl, hn⟩ |
      ⟨s, t, l, rfl, he⟩
    · exact absurd rfl (h1 _)
    · exact absurd rfl (h2 _ _)
    · exact absurd rfl (h3 _ _)
    · exact absurd rfl (h4 _ _ _)

/-- **C133.** What each call does to the edge counter in a release build. -/
theorem c133_counter {g0 h : GraphMap m k NL EL} (h0 : Reachable g0) {ops} (hh : CaughtRelease g0 ops h) :
    (∀ s t l, (h.applyCaughtRelease (.addEdge s t l)).1.edgeCount = (h.edgeCount + 1) % 2 ^ 64) ∧
    (∀ s t l, (h.applyCaughtRelease (.updateEdgeLabel s t l)).1.edgeCount =
      if h.hasEdge s t = true then (h.edgeCount + 1) % 2 ^ 64 else h.edgeCount) ∧
    (∀ s t, (h.applyCaughtRelease (.removeEdge s t)).1.edgeCount =
      if h.hasEdge s t = true ∧ h.hasNode t = true then (h.edgeCount + 2 ^ 64 - 1) % 2 ^ 64
      else h.edgeCount) ∧
    (∀ n, h.hasNode n = false ∨
        (∃ u, (h.hasEdge n u = true ∨ InNb h n u) ∧ (u = n ∨ h.hasNode u = false)) →
      (h.applyCaughtRelease (.removeNode n)).1.edgeCount = h.edgeCount) ∧
    (∀ n d e, h.degree n = .ok d → h.inDegree n = .ok e →
      (∀ u, h.hasEdge n u = true ∨ InNb h n u → u ≠ n ∧ h.hasNode u = true) →
      (h.applyCaughtRelease (.removeNode n)).1.edgeCount < 2 ^ 64 ∧
      ((h.applyCaughtRelease (.removeNode n)).1.edgeCount + (d + e)) % 2 ^ 64 = h.edgeCount % 2 ^ 64) ∧
    (h.applyCaughtRelease .refineEdgeCount).1.edgeCount = h.edgeIndices.length % 2 ^ 64 ∧
    (∀ n l, (h.applyCaughtRelease (.addNode n l)).1.edgeCount = h.edgeCount) ∧
    (∀ n l, (h.applyCaughtRelease (.updateNodeLabel n l)).1.edgeCount = h.edgeCount) ∧
    (∀ l, (h.applyCaughtRelease (.addNodeLabel l)).1.edgeCount = h.edgeCount) ∧
    (∀ l, (h.applyCaughtRelease (.addEdgeLabel l)).1.edgeCount = h.edgeCount) ∧
    (∀ n l, (h.applyCaughtRelease (.setNodeLabelId n l)).1.edgeCount = h.edgeCount) ∧
    (∀ s t l, (h.applyCaughtRelease (.setEdgeLabelId s t l)).1.edgeCount = h.edgeCount) ∧
    (∀ f, (h.applyCaughtRelease (.mapNodeLabelIds f)).1.edgeCount = h.edgeCount) ∧
    (∀ f, (h.applyCaughtRelease (.mapEdgeLabelIds f)).1.edgeCount = h.edgeCount) := by
  have none1 : ∀ (P : Op m k NL EL), (∀ n, P ≠ .removeNode n) → (∀ s t, P ≠ .removeEdge s t) →
      h.bump h.numEdges P = h.numEdges → (h.applyCaughtRelease P).1.edgeCount = h.edgeCount :=
    fun P h1 h2 hb => (other_count h0 hh P h1 h2).1 hb
  obtain ⟨c, hg⟩ := (c133_history h0 ops).2 h hh
  refine ⟨fun s t l => ?_, fun s t l => ?_, fun s t => ?_, fun n hn => ?_, fun n d e hd he hall => ?_, ?_,
    fun n l => none1 _ ?_ ?_ ?_, fun n l => none1 _ ?_ ?_ ?_, fun l => none1 _ ?_ ?_ ?_,
    fun l => none1 _ ?_ ?_ ?_, fun n l => none1 _ ?_ ?_ ?_, fun s t l => none1 _ ?_ ?_ ?_,
    fun f => none1 _ ?_ ?_ ?_, fun f => none1 _ ?_ ?_ ?_⟩
  case refine_1 =>
    exact (other_count h0 hh (.addEdge s t l) (by simp) (by simp)).2 (by simp) (by simp)
  case refine_2 =>
    have := (other_count h0 hh (.updateEdgeLabel s t l) (by simp) (by simp)).2 (by simp) (by simp)
    exact this
  case refine_6 =>
    exact (other_count h0 hh .refineEdgeCount (by simp) (by simp)).2 (by simp) (by simp)
  case refine_3 =>
    obtain ⟨c', e, h1, h2⟩ := removeEdge_caught_release (recount c h) h.numEdges s t
    have e : h.removeEdgeCaughtRelease s t = _ := e
    show (h.removeEdgeCaughtRelease s t).1.numEdges = _
    rw [e]
    show c' = _
    cases he : h.hasEdge s t with
    | false => rw [if_neg (by simp)]; exact h1 (.inl he)
    | true =>
      obtain ⟨h3, -⟩ := c123_remove_edge h0 hg he
      have h3 : ((recount c h).removeEdgeCaught s t).2 = (if h.hasNode t = false then .error .unwrapNone else
        if c = 0 then .error .underflow else (recount c h).getEdge s t) := h3
      cases hn : h.hasNode t with
      | false =>
        rw [if_neg (by simp)]
        refine h1 (.inr ?_)
        rw [h3, if_pos hn]
      | true =>
        rw [if_pos (by simp), h2 he]
        · unfold wrapSub word edgeCount
          omega
        · rw [h3, if_neg (by simp [hn]), getEdge_eq_outE]
          split <;> simp
  case refine_4 =>
    obtain ⟨c', e, h1, h2⟩ := removeNode_caught_release (recount c h) h.numEdges n
    have e : h.removeNodeCaughtRelease n = _ := e
    show (h.removeNodeCaughtRelease n).1.numEdges = _
    rw [e]
    show c' = h.numEdges
    cases hx : h.hasNode n with
    | false => exact h1 (.inl (show AL.get h.nodeMap n = none by simpa [hasNode] using hx))
    | true =>
      rcases hn with hn | hn
      · rw [hn] at hx; cases hx
      · obtain ⟨d, e, -, -, -, h3, -⟩ := c123_remove_node h0 hg hx
        exact h1 (.inr (h3.2 hn))
  case refine_5 =>
    obtain ⟨c', e', h1, h2⟩ := removeNode_caught_release (recount c h) h.numEdges n
    have e' : h.removeNodeCaughtRelease n = _ := e'
    show (h.removeNodeCaughtRelease n).1.numEdges < _ ∧ ((h.removeNodeCaughtRelease n).1.numEdges + _) % _ = _
    rw [e']
    show c' < _ ∧ (c' + _) % _ = h.numEdges % _
    unfold degree at hd
    unfold inDegree at he
    cases hnd : h.getNode n with
    | none => rw [hnd] at hd; cases hd
    | some nd =>
      rw [hnd] at hd he
      cases hd; cases he
      have hx : h.hasNode n = true := by
        unfold hasNode; unfold getNode at hnd; rw [hnd]; rfl
      obtain ⟨d, e, -, -, -, h3, -⟩ := c123_remove_node h0 hg hx
      have h2 := h2 nd hnd (fun hbad => by
        obtain ⟨u, hu, hb⟩ := h3.1 hbad
        obtain ⟨g1, g2⟩ := hall u hu
        rcases hb with hb | hb
        · exact g1 hb
        · have hb : h.hasNode u = false := hb
          rw [g2] at hb; cases hb)
      rw [h2]
      unfold wrapSub word
      omega
  all_goals first | rfl | simp

/-- **C133.** What removals return in a release build when they do not panic: the node, the edge, or nothing. -/
theorem c133_answers {g0 h : GraphMap m k NL EL} (h0 : Reachable g0) {ops} (hh : CaughtRelease g0 ops h) :
    (∀ n, (∀ u, h.hasEdge n u = true ∨ InNb h n u → u ≠ n ∧ h.hasNode u = true) →
      (h.removeNodeCaughtRelease n).2 = .ok (h.getNode n)) ∧
    (∀ s t, (h.hasEdge s t = true → h.hasNode t = true) →
      (h.removeEdgeCaughtRelease s t).2 = h.getEdge s t) := by
  obtain ⟨c, hg⟩ := (c133_history h0 ops).2 h hh
  constructor
  · intro n hall
    obtain ⟨c', e, -⟩ := removeNode_caught_release (recount c h) h.numEdges n
    refine (congrArg Prod.snd e).trans ?_
    cases hn : h.hasNode n with
    | false =>
      have hn : AL.get h.nodeMap n = none := by simpa [hasNode] using hn
      unfold removeNodeCaught getNode
      rw [show AL.get (recount c h).nodeMap n = none from hn, hn]
      rfl
    | true =>
      obtain ⟨d, e, -, -, -, -, h4, -⟩ := c123_remove_node h0 hg hn
      have h4 := h4 hall
      have h4 : ((recount c h).removeNodeCaught n).2 = _ := h4
      rw [h4]
      split <;> rfl
  · intro s t ht
    obtain ⟨c', e, -⟩ := removeEdge_caught_release (recount c h) h.numEdges s t
    refine (congrArg Prod.snd e).trans ?_
    rw [getEdge_eq_outE]
    cases he : h.hasEdge s t with
    | false =>
      unfold removeEdgeCaught
      rw [show (recount c h).hasEdge s t = false from he]
      rw [hasEdge_eq_outE] at he
      cases ho : h.outE s t with
      | none => rfl
      | some l => rw [ho] at he; cases he
    | true =>
      obtain ⟨h3, -⟩ := c123_remove_edge h0 hg he
      have h3 : ((recount c h).removeEdgeCaught s t).2 = (if h.hasNode t = false then .error .unwrapNone else
        if c = 0 then .error .underflow else (recount c h).getEdge s t) := h3
      rw [h3, if_neg (by simp [ht he]), getEdge_eq_outE]
      split
      · show Except.ok _ = _
        congr 1
        show (h.getNode s).bind _ = _
        unfold outE
        cases hx : h.getNode s with
        | none => rfl
        | some nd =>
          have hid : nd.id = s := (caught_cinv h0.inv.cinv hg).1.ids s nd hx
          show (nd.removeEdge t).2 = Option.map _ (AL.get nd.neighbors t)
          unfold NodeMap.removeEdge
          cases AL.get nd.neighbors t with
          | none => rfl
          | some l => rw [hid]; rfl
      · rfl

/-- **C133.** As long as the counter does not underflow, the counter of the release build is that of the build
with overflow checks modulo 2^64. -/
theorem c133_same_count {g0 g : GraphMap m k NL EL} (h0 : Reachable g0) {ops} (hg : Caught g0 ops g)
    (op : Op m k NL EL) (hu : (g.applyCaught op).2 ≠ .error .underflow) :
    ({ g with numEdges := g.edgeCount % 2 ^ 64 } : GraphMap m k NL EL).applyCaughtRelease op =
      ({ (g.applyCaught op).1 with numEdges := (g.applyCaught op).1.edgeCount % 2 ^ 64 },
        (g.applyCaught op).2) := by
  have hs : (({ g with numEdges := g.edgeCount % 2 ^ 64 } : GraphMap m k NL EL).applyCaughtRelease op).2 =
      (g.applyCaught op).2 := by
    obtain ⟨c', -, -, h⟩ := c133_step h0 hg (g.edgeCount % 2 ^ 64) op
    exact h hu
  refine Prod.ext ?_ hs
  have main : (∀ n, op ≠ .removeNode n) → (∀ s t, op ≠ .removeEdge s t) →
      (match g.wrapped.applyRelease op with
        | .ok g' => (g', .ok ())
        | .error p => (g.wrapped, .error p) : GraphMap m k NL EL × Res Unit).1 =
      (match g.apply op with
        | .ok g' => (g', .ok ())
        | .error p => (g, .error p) : GraphMap m k NL EL × Res Unit).1.wrapped := by
    intro h1 h2
    rw [step_wrapped op (fun n h => absurd h (h1 n)) (fun s t h => absurd h (h2 s t))]
    cases g.apply op <;> rfl
  cases op with
  | removeNode n =>
    obtain ⟨c', e, h1, h2⟩ := removeNode_caught_release g (g.numEdges % word) n
    refine (congrArg Prod.fst e).trans ?_
    show recount c' _ = recount (_ % word) _
    congr 1
    cases hn : g.hasNode n with
    | false =>
      have hn : AL.get g.nodeMap n = none := by simpa [hasNode] using hn
      rw [h1 (.inl hn)]
      show _ = (g.removeNodeCaught n).1.numEdges % word
      unfold removeNodeCaught
      rw [hn]
    | true =>
      obtain ⟨nd, hnd⟩ := (hasNode_iff _ _).1 hn
      obtain ⟨d, e, hd, he, -, h3, h4, h5, h6, -⟩ := c123_remove_node h0 hg hn
      unfold degree at hd
      unfold inDegree at he
      rw [hnd] at hd he
      cases hd; cases he
      show c' = (g.removeNodeCaught n).1.numEdges % word
      cases hr : (g.removeNodeCaught n).2 with
      | error p =>
        have hp : p = .unwrapNone := by
          by_contra hne
          have hu : (g.removeNodeCaught n).2 ≠ .error .underflow := by
            intro h
            refine hu ?_
            show Except.map _ (g.removeNodeCaught n).2 = _
            rw [h]; rfl
          have hno : ¬ (g.removeNodeCaught n).2 = .error .unwrapNone := by
            rw [hr]; intro h; cases h; exact hne rfl
          rw [h3] at hno
          have h4 := h4 (fun u hu => by
            by_contra hbad
            refine hno ⟨u, hu, ?_⟩
            rwa [not_and_or, not_ne_iff, Bool.not_eq_true] at hbad)
          rw [h4] at hu hr
          split at hu
          · exact hu rfl
          · rename_i hlt
            rw [if_neg hlt] at hr
            cases hr
        rw [h1 (.inr (by rw [hr, hp]))]
        exact congrArg (· % word) (h6 p hr).symm
      | ok r =>
        rw [h2 nd hnd (by rw [hr]; intro h; cases h)]
        have h5 : (g.removeNodeCaught n).1.numEdges + (nd.degree + nd.inDegree) = g.numEdges := h5 r hr
        rw [wrapSub_mod (by omega)]
        congr 1
        omega
  | removeEdge s t =>
    obtain ⟨c', e, h1, h2⟩ := removeEdge_caught_release g (g.numEdges % word) s t
    refine (congrArg Prod.fst e).trans ?_
    show recount c' _ = recount ((g.removeEdgeCaught s t).1.numEdges % word) _
    congr 1
    have hu : (g.removeEdgeCaught s t).2 ≠ .error .underflow := by
      intro h
      refine hu ?_
      show Except.map _ (g.removeEdgeCaught s t).2 = _
      rw [h]; rfl
    cases he : g.hasEdge s t with
    | false =>
      rw [h1 (.inl he)]
      unfold removeEdgeCaught
      rw [he]
      rfl
    | true =>
      obtain ⟨h3, h4, -⟩ := c123_remove_edge h0 hg he
      have h4 : (g.removeEdgeCaught s t).1.numEdges = _ := h4
      rw [h4]
      cases hn : g.hasNode t with
      | false =>
        rw [if_pos hn] at h3
        rw [h1 (.inr h3)]
        rfl
      | true =>
        rw [if_neg (by simp [hn])] at h3
        have hz : g.edgeCount ≠ 0 := fun hz => hu (by rw [h3, if_pos hz])
        rw [if_neg hz, getEdge_eq_outE] at h3
        rw [h2 he (by rw [h3]; intro h; cases h), wrapSub_mod (by unfold edgeCount at hz; omega)]
        rfl
  | _ => exact main (by intro _ h; cases h) (by intro _ _ h; cases h)

/-- **C133, C117.** After a caught panic the counter of a release build can wrap around: the revived edge of
`c123_underflow` can be removed, and then 2^64 - 1 edges are counted where there are none. -/
theorem c133_wraps : ∃ g g' : GraphMap 9 3 String String,
    (wrecked false).applyCaughtRelease (.addNode 2 none) = (g, .ok ()) ∧
    (g.applyCaughtRelease .refineEdgeCount).1.applyCaughtRelease (.removeEdge 3 2) = (g', .ok ()) ∧
    g'.edgeCount = 2 ^ 64 - 1 ∧ g'.edgeIndices = [] ∧
    (g'.applyCaughtRelease (.addEdge 1 3 none)).1.edgeCount = 0 ∧
    (g'.applyCaughtRelease .refineEdgeCount).1.edgeCount = 0 := by
  obtain ⟨g, h⟩ : ∃ g, (wrecked false).applyCaughtRelease (.addNode 2 none) = (g, .ok ()) := ⟨_, rfl⟩
  refine ⟨g, ((g.applyCaughtRelease .refineEdgeCount).1.applyCaughtRelease (.removeEdge 3 2)).1, h, ?_⟩
  cases h; decide

/-- The hypotheses of the theorems above are met: the graphs after the caught panic, in both builds. -/
example (d : Bool) : Caught (withLabelMap d SetMap.empty SetMap.empty) (loopOps ++ [.removeNode 2]) (wrecked d) ∧
    (∃ c, CaughtRelease (withLabelMap d SetMap.empty SetMap.empty) (loopOps ++ [.removeNode 2])
      { wrecked d with numEdges := c }) ∧
    ((selfLooped d).applyCaughtRelease (.removeNode 2)).2 = .error .unwrapNone ∧
    ((selfLooped d).applyCaughtRelease (.removeNode 2)).1 = wrecked d :=
  ⟨wrecked_caught d,
    (c133_history (Reachable.start d _ _ List.nodup_nil List.nodup_nil) _).1 _ (wrecked_caught d),
    by cases d <;> decide, by cases d <;> decide⟩

end Verif.Props
