import Verif.Proof.SetOps
import Verif.Spec.AnySets

/-! `graph_union`, `graph_minus` and `clone` of graphs of which nothing is known. -/

namespace Verif

open Spec

variable {m k : Nat} {NL EL : Type}

namespace Spec

theorem firstPanic_append {X : Type} (l l' : List (Res X)) :
    firstPanic (l ++ l') = (firstPanic l).orElse (fun _ => firstPanic l') := by
  induction l with
  | nil => rfl
  | cons r l ih =>
    cases r with
    | error p => rfl
    | ok x => exact ih

theorem answersOf_append {X : Type} (l l' : List (Res X)) : answersOf (l ++ l') = answersOf l ++ answersOf l' := by
  induction l with
  | nil => rfl
  | cons r l ih =>
    cases r with
    | error p => exact ih
    | ok x => simp only [List.cons_append, answersOf, ih]

theorem firstPanic_none {X : Type} {l : List (Res X)} : firstPanic l = none ↔ ∀ r ∈ l, ∃ x, r = .ok x := by
  induction l with
  | nil => simp [firstPanic]
  | cons r l ih =>
    cases r with
    | error p => simp [firstPanic]
    | ok x => simp [firstPanic, ih]

theorem mem_answersOf {X : Type} {l : List (Res X)} {x : X} : x ∈ answersOf l ↔ .ok x ∈ l := by
  induction l with
  | nil => simp [answersOf]
  | cons r l ih =>
    cases r with
    | error p => simp [answersOf, ih]
    | ok y => simp [answersOf, ih]

/-- The label that is given, if one is. -/
def given {X : Type} : Res (Option X) → Option X
  | .ok l => l
  | .error _ => none

theorem answersOf_map {X Y Z : Type} (l : List Y) (f : Y → Res X) (c : Y → X → Z)
    (h : firstPanic (l.map (fun y => (f y).map (c y))) = none) (d : Y → X)
    (hd : ∀ y x, f y = .ok x → d y = x) :
    answersOf (l.map (fun y => (f y).map (c y))) = l.map (fun y => c y (d y)) := by
  induction l with
  | nil => rfl
  | cons y l ih =>
    simp only [List.map_cons] at h ⊢
    cases hy : f y with
    | error p => rw [hy] at h; cases h
    | ok x =>
      rw [hy] at h
      simp only [Except.map, answersOf]
      rw [← hd y x hy]
      congr 1
      exact ih h

theorem nodeAsks_answers {g : GView m k NL EL} (h : firstPanic (nodeAsks g) = none) :
    answersOf (nodeAsks g) = g.nodeIndices.map (fun n => Op.addNode n (given (g.getNodeLabel n))) :=
  answersOf_map _ _ (fun n l => Op.addNode n l) h (fun n => given (g.getNodeLabel n)) (by
    intro y x e; rw [e]; rfl)

theorem edgeAsks_answers {g : GView m k NL EL} (h : firstPanic (edgeAsks g) = none) :
    answersOf (edgeAsks g) =
      g.edgeIndices.map (fun e => Op.addEdge e.1 e.2 (given (g.getEdgeLabel e.1 e.2))) :=
  answersOf_map g.edgeIndices (fun e => g.getEdgeLabel e.1 e.2) (fun e l => Op.addEdge e.1 e.2 l) h
    (fun e => given (g.getEdgeLabel e.1 e.2)) (by
    intro y x e; rw [e]; rfl)

end Spec

namespace GraphMap

variable [DecidableEq NL] [DecidableEq EL]

/-- Calls that may panic before they are made. -/
def follow (g : GraphMap m k NL EL) (l : List (Res (Op m k NL EL))) : Res (GraphMap m k NL EL) :=
  l.foldlM (fun g r => do let op ← r; g.apply op) g

theorem follow_append (g : GraphMap m k NL EL) (l l' : List (Res (Op m k NL EL))) :
    g.follow (l ++ l') = (g.follow l >>= fun g => g.follow l') := by
  unfold follow; rw [List.foldlM_append]

theorem addNodesOf_follow (src : GView m k NL EL) (g : GraphMap m k NL EL) :
    addNodesOf src g = g.follow (nodeAsks src) := by
  unfold addNodesOf follow nodeAsks
  rw [List.foldlM_map]
  congr 1
  funext g n
  cases src.getNodeLabel n <;> rfl

theorem addEdgesOf_follow (src : GView m k NL EL) (g : GraphMap m k NL EL) :
    addEdgesOf src g = g.follow (edgeAsks src) := by
  unfold addEdgesOf follow edgeAsks
  rw [List.foldlM_map]
  congr 1
  funext g n
  cases src.getEdgeLabel n.1 n.2 <;> rfl

theorem follow_adds (l : List (Res (Op m k NL EL))) : ∀ (g : GraphMap m k NL EL), g.Inv →
    (∀ op ∈ answersOf l, op.isAdd = true) →
    (∀ p, firstPanic l = some p → g.follow l = .error p) ∧
    (firstPanic l = none → g.follow l = g.exec (answersOf l)) := by
  induction l with
  | nil => intro g _ _; exact ⟨fun p h => (by cases h), fun _ => rfl⟩
  | cons r l ih =>
    intro g hg ha
    cases r with
    | error q => exact ⟨fun p h => by cases h; rfl, fun h => by cases h⟩
    | ok op =>
      obtain ⟨g', h1, h2, -⟩ := apply_add hg (ha op (by simp [answersOf]))
      obtain ⟨i1, i2⟩ := ih g' h2 (fun o h => ha o (by simp [answersOf, h]))
      have e : g.follow (.ok op :: l) = g'.follow l := by
        unfold follow
        rw [List.foldlM_cons, bind_ok, h1, bind_ok]
      have e' : g.exec (answersOf (.ok op :: l)) = g'.exec (answersOf l) := by
        show g.exec (op :: answersOf l) = _
        unfold exec
        rw [List.foldlM_cons, h1, bind_ok]
      rw [e, e']
      exact ⟨i1, i2⟩

omit [DecidableEq NL] [DecidableEq EL] in
theorem nodeAsks_add (g : GView m k NL EL) : ∀ op ∈ answersOf (nodeAsks g), op.isAdd = true := by
  intro op h
  rw [mem_answersOf, nodeAsks, List.mem_map] at h
  obtain ⟨n, -, e⟩ := h
  cases hl : g.getNodeLabel n with
  | error p => rw [hl] at e; cases e
  | ok l => rw [hl] at e; cases e; rfl

omit [DecidableEq NL] [DecidableEq EL] in
theorem edgeAsks_add (g : GView m k NL EL) : ∀ op ∈ answersOf (edgeAsks g), op.isAdd = true := by
  intro op h
  rw [mem_answersOf, edgeAsks, List.mem_map] at h
  obtain ⟨n, -, e⟩ := h
  cases hl : g.getEdgeLabel n.1 n.2 with
  | error p => rw [hl] at e; cases e
  | ok l => rw [hl] at e; cases e; rfl

/-- Removing nodes of a graph that calls can make. -/
theorem removeNodes_any : ∀ (ns : List (Id m)) (g : GraphMap m k NL EL), Reachable g →
    ((∃ n ∈ ns, g.hasEdge n n = true) →
      ns.foldlM (fun g n => do let r ← g.removeNode n; pure r.1) g = .error .unwrapNone) ∧
    ((∀ n ∈ ns, g.hasEdge n n = false) →
      ∃ g', ns.foldlM (fun g n => do let r ← g.removeNode n; pure r.1) g = .ok g' ∧ Reachable g' ∧
        g'.directed = g.directed ∧ g'.nodeLabels = g.nodeLabels ∧ g'.edgeLabels = g.edgeLabels ∧
        g'.numEdges + g.edgeNum = g.numEdges + g'.edgeNum ∧
        (∀ n, g'.labE n = if n ∈ ns then none else g.labE n) ∧
        ∀ s t, g'.outE s t = if s ∈ ns ∨ t ∈ ns then none else g.outE s t) := by
  intro ns
  induction ns with
  | nil =>
    intro g hg
    refine ⟨by rintro ⟨n, h, -⟩; simp at h, fun _ => ⟨g, rfl, hg, rfl, rfl, rfl, rfl, ?_, ?_⟩⟩ <;> simp
  | cons n ns ih =>
    intro g hg
    cases hloop : g.hasEdge n n with
    | true =>
      refine ⟨fun _ => ?_, fun h => ?_⟩
      · rw [List.foldlM_cons, removeNode_loop n hloop]; rfl
      · rw [h n (by simp)] at hloop; cases hloop
    | false =>
      obtain ⟨g1, h1, h2, h3, h4, h5, h6, h7, h8, h9, h10⟩ := removeNode_spec hg.inv n hloop
      have ha : g.apply (.removeNode n) = .ok g1 := by simp [GraphMap.apply, h1, bind_ok, pure_ok]
      obtain ⟨i1, i2⟩ := ih g1 (.step hg ha)
      have hL : ∀ x, g1.labE x = if x = n then none else g.labE x := fun x =>
        congrFun (congrArg AGraph.node h9) x
      have hO : ∀ s t, g1.outE s t = if s = n ∨ t = n then none else g.outE s t := fun s t =>
        congrFun (congrFun (congrArg AGraph.edge h9) s) t
      have e : (n :: ns).foldlM (fun g n => do let r ← g.removeNode n; pure r.1) g =
          ns.foldlM (fun g n => do let r ← g.removeNode n; pure r.1) g1 := by
        rw [List.foldlM_cons, h1]; simp [bind_ok, pure_ok]
      rw [e]
      refine ⟨?_, ?_⟩
      · rintro ⟨x, hx, hl⟩
        have hxn : x ≠ n := by rintro rfl; rw [hloop] at hl; cases hl
        apply i1
        refine ⟨x, ?_, ?_⟩
        · rcases List.mem_cons.1 hx with e | e
          · exact absurd e hxn
          · exact e
        · rw [hasEdge_eq_outE, hO]; simpa [hxn, ← hasEdge_eq_outE] using hl
      · intro hno
        obtain ⟨g2, b1, b2, b3, b4, b5, b6, b7, b8⟩ := i2 (by
          intro x hx
          rw [hasEdge_eq_outE, hO]
          have := hno x (by simp [hx])
          rw [hasEdge_eq_outE] at this
          split
          · rfl
          · exact this)
        refine ⟨g2, b1, b2, b3.trans h3, b4.trans h4, b5.trans h5, by omega, ?_, ?_⟩
        · intro x
          rw [b7, hL]
          by_cases e1 : x = n <;> by_cases e2 : x ∈ ns <;> simp [e1, e2]
        · intro s t
          rw [b8, hO]
          by_cases e1 : s = n <;> by_cases e2 : t = n <;> by_cases e3 : s ∈ ns <;>
            by_cases e4 : t ∈ ns <;> simp [e1, e2, e3, e4]

/-- Removing edges of a graph that calls can make. -/
theorem removeEdges_any : ∀ (es : List (Id m × Id m)) (g : GraphMap m k NL EL), Reachable g →
    ∃ g', es.foldlM (fun g e => do let r ← g.removeEdge e.1 e.2; pure r.1) g = .ok g' ∧ Reachable g' ∧
      g'.directed = g.directed ∧ g'.nodeLabels = g.nodeLabels ∧ g'.edgeLabels = g.edgeLabels ∧
      g'.numEdges + g.edgeNum = g.numEdges + g'.edgeNum ∧ g'.labE = g.labE ∧
      ∀ s t, g'.outE s t =
        if (s, t) ∈ es ∨ (g.directed = false ∧ (t, s) ∈ es) then none else g.outE s t := by
  intro es
  induction es with
  | nil => intro g hg; exact ⟨g, rfl, hg, rfl, rfl, rfl, rfl, rfl, by simp⟩
  | cons e es ih =>
    intro g hg
    obtain ⟨g1, h1, h2, h3, h4, h5, h6, h7, h8, h9, h10⟩ := removeEdge_spec hg.inv e.1 e.2
    have ha : g.apply (.removeEdge e.1 e.2) = .ok g1 := by simp [GraphMap.apply, h1, bind_ok, pure_ok]
    have hg1 : Reachable g1 := .step hg ha
    obtain ⟨g2, b1, b2, b3, b4, b5, b6, b7, b8⟩ := ih g1 hg1
    have hL : g1.labE = g.labE := congrArg AGraph.node h9
    have hO : ∀ s t, g1.outE s t = if AGraph.same g.directed e.1 e.2 s t then none else g.outE s t := fun s t =>
      congrFun (congrFun (congrArg AGraph.edge h9) s) t
    refine ⟨g2, ?_, b2, b3.trans h3, b4.trans h4, b5.trans h5, ?_, b7.trans hL, ?_⟩
    · rw [List.foldlM_cons, h1]; simpa [bind_ok, pure_ok] using b1
    · have : g1.numEdges + g.edgeNum = g.numEdges + g1.edgeNum := by
        by_cases he : g.hasEdge e.1 e.2 = true
        · have e' := AGraph.edgeNumber_removeEdge g.directed g.rep hg.inv.sym e.1 e.2
            (by rw [hasEdge_eq_outE] at he; exact he)
          unfold edgeNum
          rw [h3, h9]
          rw [if_pos he] at h7
          omega
        · rw [h8 (by simpa using he)]
      omega
    · intro s t
      rw [b8, hO, h3]
      obtain ⟨a, b⟩ := e
      unfold AGraph.same
      simp only [List.mem_cons, Prod.mk.injEq]
      grind

end GraphMap

end Verif
