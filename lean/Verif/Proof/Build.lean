import Verif.Proof.History
import Verif.Proof.View
import Verif.Model.SetOps

/-! Graphs built by `add_node` and `add_edge` calls. -/

namespace Verif

open Spec

variable {m k : Nat} {NL EL : Type}

/-- A call that only adds. -/
def Op.isAdd : Op m k NL EL → Bool
  | .addNode _ _ | .addEdge _ _ _ => true
  | _ => false

/-- The node label a call brings along. -/
def Op.nodeLab : Op m k NL EL → Option NL
  | .addNode _ l => l
  | _ => none

/-- The edge label a call brings along. -/
def Op.edgeLab : Op m k NL EL → Option EL
  | .addEdge _ _ l => l
  | _ => none

/-- Does the call add an edge? -/
def Op.addsEdge : Op m k NL EL → Bool
  | .addEdge _ _ _ => true
  | _ => false

namespace Spec

/-- At most `k + 1` distinct node labels and at most `k + 1` distinct edge labels are in use: they fit a
label-id type of maximum `k`. -/
def Fits {I : Type} (k : Nat) (A : AGraph I NL EL) : Prop :=
  (∃ nl : List NL, nl.length ≤ k + 1 ∧ ∀ n x, A.node n = some (some x) → x ∈ nl) ∧
  (∃ el : List EL, el.length ≤ k + 1 ∧ ∀ s t x, A.edge s t = some (some x) → x ∈ el)

end Spec

theorem nodup_length_le {X : Type} {l l' : List X} (h : l.Nodup) (hs : ∀ x ∈ l, x ∈ l') :
    l.length ≤ l'.length := (List.subperm_of_subset h hs).length_le

namespace GraphMap

variable [DecidableEq NL] [DecidableEq EL]

theorem apply_add {g : GraphMap m k NL EL} (hg : g.Inv) {op : Op m k NL EL} (ha : op.isAdd = true) :
    ∃ g', g.apply op = .ok g' ∧ g'.Inv ∧
      g'.numEdges = g.numEdges + (if op.addsEdge then 1 else 0) ∧
      (∀ x ∈ g'.nodeLabels.labels, x ∈ g.nodeLabels.labels ∨ op.nodeLab = some x) ∧
      (∀ x ∈ g'.edgeLabels.labels, x ∈ g.edgeLabels.labels ∨ op.edgeLab = some x) := by
  cases op with
  | addNode n l =>
    obtain ⟨g1, nl, lid, hi, h1, h2, h3, h4, h5, h6, h7, h8, h9⟩ := addNode_spec hg.toNWF n l
    obtain ⟨s', l', e1, e2, e3, e4, e5, e6⟩ := intern_ok (k := k) g.nodeLabels l
    rw [hi] at e1
    cases e1
    refine ⟨g1, by simp [apply, h1, bind_ok, pure_ok], inv_addNode hg h1, by simpa [Op.addsEdge] using h4, ?_, ?_⟩
    · intro x hx
      rw [h5] at hx
      exact (e6 x).1 hx
    · intro x hx
      rw [h6] at hx
      exact .inl hx
  | addEdge s t l =>
    obtain ⟨g1, el, lid, hi, h1, h2, h3, h4, h5, h6, h7, h8, h9⟩ := addEdge_spec hg.toNWF s t l
    obtain ⟨s', l', e1, e2, e3, e4, e5, e6⟩ := intern_ok (k := k) g.edgeLabels l
    rw [hi] at e1
    cases e1
    refine ⟨g1, by simp [apply, h1, bind_ok, pure_ok], inv_addEdge hg h1, by simpa [Op.addsEdge] using h4, ?_, ?_⟩
    · intro x hx
      rw [h5] at hx
      exact .inl hx
    · intro x hx
      rw [h6] at hx
      exact (e6 x).1 hx
  | _ => simp [Op.isAdd] at ha

theorem exec_adds : ∀ (ops : List (Op m k NL EL)) (g : GraphMap m k NL EL), g.Inv →
    (∀ op ∈ ops, op.isAdd = true) → ∃ g', g.exec ops = .ok g' ∧ g'.Inv ∧
      g'.numEdges = g.numEdges + (ops.filter Op.addsEdge).length ∧
      (∀ x ∈ g'.nodeLabels.labels, x ∈ g.nodeLabels.labels ∨ ∃ op ∈ ops, op.nodeLab = some x) ∧
      (∀ x ∈ g'.edgeLabels.labels, x ∈ g.edgeLabels.labels ∨ ∃ op ∈ ops, op.edgeLab = some x) := by
  intro ops
  induction ops with
  | nil => intro g hg _; exact ⟨g, rfl, hg, by simp, fun _ h => .inl h, fun _ h => .inl h⟩
  | cons op ops ih =>
    intro g hg ha
    obtain ⟨g1, a1, a2, a3, a4, a5⟩ := apply_add hg (ha op (by simp))
    obtain ⟨g2, b1, b2, b3, b4, b5⟩ := ih g1 a2 (fun o h => ha o (by simp [h]))
    refine ⟨g2, ?_, b2, ?_, ?_, ?_⟩
    · unfold exec at b1 ⊢
      rw [List.foldlM_cons, a1, bind_ok, b1]
    · rw [b3, a3, List.filter_cons]
      split
      · simp; omega
      · simp
    · intro x hx
      rcases b4 x hx with h | ⟨o, ho, h⟩
      · rcases a4 x h with h | h
        · exact .inl h
        · exact .inr ⟨op, by simp, h⟩
      · exact .inr ⟨o, by simp [ho], h⟩
    · intro x hx
      rcases b5 x hx with h | ⟨o, ho, h⟩
      · rcases a5 x h with h | h
        · exact .inl h
        · exact .inr ⟨op, by simp, h⟩
      · exact .inr ⟨o, by simp [ho], h⟩

/-- A graph reached by label-only calls from an empty one, whose labels fit, shows the graph the calls
describe. -/
theorem run_shows {d : Bool} {nl : SetMap NL} {el : SetMap EL} (hn : nl.labels.Nodup)
    (he : el.labels.Nodup) {ops : List (Op m k NL EL)} {g : GraphMap m k NL EL}
    (h : Run (withLabelMap d nl el) ops g) (ho : ∀ op ∈ ops, labelOnly op = true)
    (hc1 : g.nodeLabels.len ≤ k + 1) (hc2 : g.edgeLabels.len ≤ k + 1) :
    Shows g.view (Spec.run d ops) := by
  have hi := inv_run (inv_withLabelMap d nl el hn he) h
  have hd := (run_shape hn he h).1
  have hdec := (run_decode hn he h ho hc1 hc2).1
  have : g.abs = Spec.run d ops := by
    apply AGraph_ext
    · intro n; show g.decode.node n = _; rw [hdec]
    · intro s t
      show (if g.directed = true ∨ s ≤ t then g.decode.edge s t else g.decode.edge t s) = _
      rw [hdec]
      split
      · rfl
      · rename_i hc
        have : d = false := by
          rw [not_or, hd] at hc
          simpa using hc.1
        subst this
        exact spec_symmetric ops t s
  rw [← this]
  exact inv_shows hi

/-- Building a graph from an empty one that has label tables already. -/
theorem build_shows_into (d : Bool) {nm : SetMap NL} {em : SetMap EL} (hnm : nm.labels.Nodup)
    (hem : em.labels.Nodup) (ops : List (Op m k NL EL)) (ha : ∀ op ∈ ops, op.isAdd = true)
    {nl : List NL} {el : List EL} (hnl : nl.length ≤ k + 1) (hel : el.length ≤ k + 1)
    (h0 : ∀ x ∈ nm.labels, x ∈ nl) (h0' : ∀ x ∈ em.labels, x ∈ el)
    (h1 : ∀ op ∈ ops, ∀ x, op.nodeLab = some x → x ∈ nl)
    (h2 : ∀ op ∈ ops, ∀ x, op.edgeLab = some x → x ∈ el) :
    ∃ g, (withLabelMap d nm em : GraphMap m k NL EL).exec ops = .ok g ∧ g.directed = d ∧
      Run (withLabelMap d nm em) ops g ∧ Shows g.view (Spec.run d ops) ∧
      g.edgeCount = (ops.filter Op.addsEdge).length ∧
      g.nodeLabels.len ≤ k + 1 ∧ g.edgeLabels.len ≤ k + 1 := by
  have hi0 : (withLabelMap d nm em : GraphMap m k NL EL).Inv := inv_withLabelMap d _ _ hnm hem
  obtain ⟨g, a1, a2, a3, a4, a5⟩ := exec_adds ops (withLabelMap d nm em : GraphMap m k NL EL) hi0 ha
  have hr := exec_run a1
  have e1 : g.nodeLabels.len ≤ k + 1 := by
    refine le_trans (nodup_length_le a2.nlNodup (l' := nl) ?_) hnl
    intro x hx
    rcases a4 x hx with h | ⟨o, ho, h⟩
    · exact h0 x h
    · exact h1 o ho x h
  have e2 : g.edgeLabels.len ≤ k + 1 := by
    refine le_trans (nodup_length_le a2.elNodup (l' := el) ?_) hel
    intro x hx
    rcases a5 x hx with h | ⟨o, ho, h⟩
    · exact h0' x h
    · exact h2 o ho x h
  have hlo : ∀ op ∈ ops, labelOnly op = true := by
    intro op ho
    have := ha op ho
    cases op <;> simp_all [Op.isAdd, labelOnly]
  refine ⟨g, a1, (run_shape hnm hem hr).1, hr, run_shows hnm hem hr hlo e1 e2, ?_, e1, e2⟩
  show g.numEdges = _
  rw [a3]
  simp [withLabelMap]

/-- Building a graph from nothing. -/
theorem build_shows (d : Bool) (ops : List (Op m k NL EL)) (ha : ∀ op ∈ ops, op.isAdd = true)
    {nl : List NL} {el : List EL} (hnl : nl.length ≤ k + 1) (hel : el.length ≤ k + 1)
    (h1 : ∀ op ∈ ops, ∀ x, op.nodeLab = some x → x ∈ nl)
    (h2 : ∀ op ∈ ops, ∀ x, op.edgeLab = some x → x ∈ el) :
    ∃ g, (new d : GraphMap m k NL EL).exec ops = .ok g ∧ g.directed = d ∧
      Run (new d) ops g ∧ Shows g.view (Spec.run d ops) ∧
      g.edgeCount = (ops.filter Op.addsEdge).length ∧
      g.nodeLabels.len ≤ k + 1 ∧ g.edgeLabels.len ≤ k + 1 :=
  build_shows_into d List.nodup_nil List.nodup_nil ops ha hnl hel
    (fun _ h => by simp [SetMap.empty] at h) (fun _ h => by simp [SetMap.empty] at h) h1 h2

end GraphMap

/-! ### The abstract graph after adding lists of nodes and edges -/

namespace Spec

theorem run_addNodes (d : Bool) (lab : Id m → Option NL) : ∀ (ns : List (Id m)) (A : AGraph (Id m) NL EL),
    (ns.map (fun n => (Op.addNode n (lab n) : Op m k NL EL))).foldl (step d) A =
      ⟨fun x => if x ∈ ns then some (lab x) else A.node x, A.edge⟩ := by
  intro ns
  induction ns with
  | nil => intro A; simp
  | cons n ns ih =>
    intro A
    rw [List.map_cons, List.foldl_cons, ih]
    simp only [step, AGraph.addNode, List.mem_cons]
    congr 1
    funext x
    by_cases h1 : x ∈ ns
    · simp [h1]
    · by_cases h2 : x = n <;> simp [h1, h2]

theorem run_addEdges (d : Bool) (lab : Id m → Id m → Option EL)
    (hlab : d = false → ∀ s t, lab s t = lab t s) :
    ∀ (es : List (Id m × Id m)) (A : AGraph (Id m) NL EL),
    (∀ e ∈ es, (A.node e.1).isSome ∧ (A.node e.2).isSome) →
    (es.map (fun e => (Op.addEdge e.1 e.2 (lab e.1 e.2) : Op m k NL EL))).foldl (step d) A =
      ⟨A.node, fun a b => if (a, b) ∈ es ∨ (d = false ∧ (b, a) ∈ es) then some (lab a b) else A.edge a b⟩ := by
  intro es
  induction es with
  | nil => intro A _; simp
  | cons e es ih =>
    intro A hA
    obtain ⟨s, t⟩ := e
    have h0 := hA (s, t) (by simp)
    have hn : (step d A (Op.addEdge s t (lab s t) : Op m k NL EL)).node = A.node := by
      simp only [step, AGraph.addEdge]
      funext x
      split
      · rename_i hx
        rcases hx with ⟨rfl | rfl, hx⟩
        · rw [hx] at h0; simp at h0
        · rw [hx] at h0; simp at h0
      · rfl
    rw [List.map_cons, List.foldl_cons, ih _ (by
      intro e he
      rw [hn]
      exact hA e (by simp [he])), hn]
    congr 1
    funext a b
    simp only [step, AGraph.addEdge, List.mem_cons, Prod.mk.injEq]
    by_cases h1 : (a, b) ∈ es ∨ (d = false ∧ (b, a) ∈ es)
    · rw [if_pos h1, if_pos]
      rcases h1 with h1 | ⟨h1, h2⟩
      · exact .inl (.inr h1)
      · exact .inr ⟨h1, .inr h2⟩
    · rw [if_neg h1]
      by_cases h2 : AGraph.same d s t a b
      · rw [if_pos h2, if_pos]
        · congr 1
          rcases h2 with ⟨rfl, rfl⟩ | ⟨h3, rfl, rfl⟩
          · rfl
          · exact hlab h3 _ _
        · rcases h2 with ⟨rfl, rfl⟩ | ⟨h3, rfl, rfl⟩
          · exact .inl (.inl ⟨rfl, rfl⟩)
          · exact .inr ⟨h3, .inl ⟨rfl, rfl⟩⟩
      · rw [if_neg h2, if_neg]
        rintro (h3 | ⟨h3, h4⟩)
        · rcases h3 with h3 | h3
          · exact h2 (.inl h3)
          · exact h1 (.inl h3)
        · rcases h4 with ⟨h4, h5⟩ | h4
          · exact h2 (.inr ⟨h3, h5, h4⟩)
          · exact h1 (.inr ⟨h3, h4⟩)

/-- A list of listed edges holds every edge once, in one orientation. -/
theorem shows_edge_mem {g : GView m k NL EL} {A : AGraph (Id m) NL EL} (S : Shows g A) (a b : Id m) :
    ((a, b) ∈ g.edgeIndices ∨ (g.directed = false ∧ (b, a) ∈ g.edgeIndices)) ↔ (A.edge a b).isSome := by
  rw [S.memEdges, S.memEdges]
  unfold AGraph.Listed
  constructor
  · rintro (h | ⟨h1, h2, _⟩)
    · exact h.1
    · rw [S.sym h1]; exact h2
  · intro h
    rcases e : g.directed
    · rcases le_total a b with hle | hle
      · exact .inl ⟨h, .inr hle⟩
      · exact .inr ⟨rfl, by rw [← S.sym e]; exact h, .inr hle⟩
    · exact .inl ⟨h, .inl rfl⟩

/-- The labels a graph shows fit its label-id type. -/
theorem shows_fits {g : GView m k NL EL} {A : AGraph (Id m) NL EL} (S : Shows g A) : Fits k A := by
  constructor
  · refine ⟨(List.finRange (k + 1)).filterMap (fun i => g.nodeLabels.getItem i.val), ?_, ?_⟩
    · exact le_trans (List.length_filterMap_le _ _) (by simp)
    · intro n x h
      have h1 := S.nodeLabel n _ h
      unfold GView.getNodeLabel at h1
      obtain ⟨o, h2, h3⟩ := bind_eq_ok h1
      cases o with
      | none => simp [pure_ok] at h3
      | some i =>
        rw [List.mem_filterMap]
        refine ⟨i, List.mem_finRange _, ?_⟩
        simpa [pure_ok] using h3
  · refine ⟨(List.finRange (k + 1)).filterMap (fun i => g.edgeLabels.getItem i.val), ?_, ?_⟩
    · exact le_trans (List.length_filterMap_le _ _) (by simp)
    · have key : ∀ s t x, (g.directed = true ∨ s ≤ t) → A.edge s t = some (some x) →
          x ∈ (List.finRange (k + 1)).filterMap (fun i => g.edgeLabels.getItem i.val) := by
        intro s t x hd h
        have h1 := S.edgeLabel s t _ h hd
        unfold GView.getEdgeLabel at h1
        obtain ⟨o, h2, h3⟩ := bind_eq_ok h1
        cases o with
        | none => simp [pure_ok] at h3
        | some i =>
          rw [List.mem_filterMap]
          refine ⟨i, List.mem_finRange _, ?_⟩
          simpa [pure_ok] using h3
      intro s t x h
      rcases e : g.directed
      · rcases le_total s t with hle | hle
        · exact key s t x (.inr hle) h
        · exact key t s x (.inr hle) (by rw [S.sym e]; exact h)
      · exact key s t x (.inl e) h

end Spec

/-! ### The loops over a source graph as lists of calls -/

/-- The calls that copy the nodes of a graph. -/
def nodeCalls (A : AGraph (Id m) NL EL) (g : GView m k NL EL) : List (Op m k NL EL) :=
  g.nodeIndices.map (fun n => Op.addNode n (A.node n).join)

/-- The calls that copy the edges of a graph. -/
def edgeCalls (A : AGraph (Id m) NL EL) (g : GView m k NL EL) : List (Op m k NL EL) :=
  g.edgeIndices.map (fun e => Op.addEdge e.1 e.2 (A.edge e.1 e.2).join)

namespace GraphMap

variable [DecidableEq NL] [DecidableEq EL]

theorem foldlM_exec {X : Type} (f : GraphMap m k NL EL → X → Res (GraphMap m k NL EL))
    (op : X → Op m k NL EL) : ∀ (l : List X), (∀ x ∈ l, ∀ g, f g x = g.apply (op x)) →
    ∀ g, l.foldlM f g = g.exec (l.map op) := by
  intro l
  induction l with
  | nil => intros; rfl
  | cons x l ih =>
    intro h g
    unfold exec
    rw [List.foldlM_cons, List.map_cons, List.foldlM_cons, h x (by simp)]
    congr 1
    funext g'
    exact ih (fun y hy => h y (by simp [hy])) g'

theorem addNodesOf_exec {src : GView m k NL EL} {A : AGraph (Id m) NL EL} (S : Shows src A)
    (g : GraphMap m k NL EL) : addNodesOf src g = g.exec (nodeCalls A src) := by
  apply foldlM_exec
  intro n hn g
  obtain ⟨l, hl⟩ := Option.isSome_iff_exists.1 ((S.memNodes n).1 hn)
  rw [S.nodeLabel n l hl, bind_ok, hl]
  rfl

theorem addEdgesOf_exec {src : GView m k NL EL} {A : AGraph (Id m) NL EL} (S : Shows src A)
    (g : GraphMap m k NL EL) : addEdgesOf src g = g.exec (edgeCalls A src) := by
  apply foldlM_exec
  rintro ⟨s, t⟩ hn g
  obtain ⟨h1, h2⟩ := (S.memEdges s t).1 hn
  obtain ⟨l, hl⟩ := Option.isSome_iff_exists.1 h1
  show (src.getEdgeLabel s t >>= _) = _
  rw [S.edgeLabel s t l hl h2, bind_ok]
  show _ = g.apply (Op.addEdge s t (A.edge s t).join)
  rw [hl]
  rfl

end GraphMap

end Verif
