import Verif.Proof.GraphRefine
import Verif.Spec.Labels

/-! A history of any calls refines the graph over label identifiers and label tables. -/

namespace Verif

open Spec

namespace GraphMap

variable {m k : Nat} {NL EL : Type}

/-- The graph over identifiers with the two label tables. -/
def tabled (g : GraphMap m k NL EL) : Tabled m k NL EL := ⟨g.rep, g.nodeLabels.labels, g.edgeLabels.labels⟩

theorem intern_named {X : Type} [DecidableEq X] {s s' : SetMap X} {l : Option X} {lid : Option (Id k)}
    (h : intern s l = .ok (s', lid)) :
    s'.labels = named s.labels l ∧ lid = l.map (idIn (named s.labels l)) := by
  cases l with
  | none => cases h; exact ⟨rfl, rfl⟩
  | some x =>
    by_cases hx : x ∈ s.labels
    · simp only [intern, SetMap.addItem_mem hx, bind_ok, pure_ok] at h
      cases h
      simp [named, hx, idIn, Id.new]
    · simp only [intern, SetMap.addItem_not_mem hx, bind_ok, pure_ok] at h
      cases h
      simp [named, hx, idIn, Id.new, List.idxOf_append_of_notMem hx]

variable [DecidableEq NL] [DecidableEq EL]

theorem tabled_addNode {g g' : GraphMap m k NL EL} (hg : g.Inv) {id label b}
    (h : g.addNode id label = .ok (g', b)) :
    g'.tabled = Tabled.step g.directed g.tabled (.addNode id label) := by
  obtain ⟨g1, nl, lid, hi, h1, h2, h3, h4, h5, h6, h7, h8, h9⟩ := addNode_spec hg.toNWF id label
  rw [h1] at h
  obtain rfl : g1 = g' := by cases h; rfl
  obtain ⟨i1, i2⟩ := intern_named hi
  simp only [tabled, Tabled.step, h8, h5, h6, i1, i2]

theorem tabled_addEdge {g g' : GraphMap m k NL EL} (hg : g.Inv) {s t label b}
    (h : g.addEdge s t label = .ok (g', b)) :
    g'.tabled = Tabled.step g.directed g.tabled (.addEdge s t label) := by
  obtain ⟨g1, el, lid, hi, h1, h2, h3, h4, h5, h6, h7, h8, h9⟩ := addEdge_spec hg.toNWF s t label
  rw [h1] at h
  obtain rfl : g1 = g' := by cases h; rfl
  obtain ⟨i1, i2⟩ := intern_named hi
  simp only [tabled, Tabled.step, h8, h5, h6, i1, i2]

theorem tabled_apply {g g' : GraphMap m k NL EL} (hg : g.Inv) {op : Op m k NL EL}
    (h : g.apply op = .ok g') : g'.tabled = Tabled.step g.directed g.tabled op := by
  cases op with
  | addNode n l =>
    obtain ⟨r, h1, h2⟩ := bind_eq_ok h
    cases h2; exact tabled_addNode hg h1
  | addEdge s t l =>
    obtain ⟨r, h1, h2⟩ := bind_eq_ok h
    cases h2; exact tabled_addEdge hg h1
  | removeNode id =>
    obtain ⟨r, h0, h00⟩ := bind_eq_ok h
    cases h00
    obtain ⟨g1, h1, h2, h3, h4, h5, h6, h7, h8, h9, h10⟩ :=
      removeNode_spec hg id (removeNode_ok_noloop h0)
    rw [h1] at h0
    obtain rfl : (g1, g.getNode id) = r := by cases h0; rfl
    simp only [tabled, Tabled.step, h9, h4, h5]
  | removeEdge s t =>
    obtain ⟨r, h0, h00⟩ := bind_eq_ok h
    cases h00
    obtain ⟨g1, h1, h2, h3, h4, h5, h6, h7, h8, h9, h10⟩ := removeEdge_spec hg s t
    rw [h1] at h0
    obtain rfl : g1 = r.1 := by cases h0; rfl
    simp only [tabled, Tabled.step, h9, h4, h5]
  | updateNodeLabel n l =>
    obtain ⟨r, h1, h2⟩ := bind_eq_ok h
    cases h2
    unfold updateNodeLabel at h1
    have hdec : (g.tabled.graph.node n).isSome = g.hasNode n := (hasNode_eq_labE g n).symm
    split at h1
    · rename_i hn
      cases h1
      simp only [Tabled.step, hdec]
      rw [if_neg (by simpa using hn)]
    · rename_i hn
      obtain ⟨r, h3, h2⟩ := bind_eq_ok h1
      cases h2
      simp only [Tabled.step, hdec]
      rw [if_pos (by simpa using hn)]
      exact tabled_addNode hg h3
  | updateEdgeLabel s t l =>
    obtain ⟨r, h1, h2⟩ := bind_eq_ok h
    cases h2
    unfold updateEdgeLabel at h1
    have hdec : (g.tabled.graph.edge s t).isSome = g.hasEdge s t := (hasEdge_eq_outE g s t).symm
    split at h1
    · rename_i hn
      cases h1
      simp only [Tabled.step, hdec]
      rw [if_neg (by simpa using hn)]
    · rename_i hn
      have hn : g.hasEdge s t = true := by simpa using hn
      obtain ⟨r, h3, h2⟩ := bind_eq_ok h1
      cases h2
      simp only [Tabled.step, hdec]
      rw [if_pos hn]
      have e := tabled_addEdge hg h3
      have ho : (g.outE s t).isSome := by rw [← hasEdge_eq_outE]; exact hn
      have hs := outE_hasNode ho
      have ht := hg.target s t ho
      have e2 : ∀ o, g.tabled.graph.addEdge g.directed s t o =
          g.tabled.graph.updateEdgeLabel g.directed s t o := by
        intro o
        unfold AGraph.updateEdgeLabel
        rw [if_pos (by rw [hdec, hn])]
        apply AGraph_ext
        · intro x
          simp only [AGraph.addEdge]
          rw [if_neg]
          rintro ⟨hx, h0⟩
          have : g.hasNode x = true := by rcases hx with rfl | rfl <;> assumption
          rw [hasNode_eq_labE] at this
          have h0 : g.labE x = none := h0
          rw [h0] at this; cases this
        · intro a b; rfl
      simp only [Tabled.step, e2] at e
      exact e
  | addNodeLabel l =>
    obtain ⟨r, h1, h2⟩ := bind_eq_ok h
    cases h2
    obtain ⟨s', lid, e1, e2, -⟩ := intern_ok (k := k) g.nodeLabels l
    simp only [addNodeLabel, e1, bind_ok, pure_ok] at h1
    cases h1
    obtain ⟨i1, -⟩ := intern_named e1
    simp only [Tabled.step, tabled, ← i1]
    rfl
  | addEdgeLabel l =>
    obtain ⟨r, h1, h2⟩ := bind_eq_ok h
    cases h2
    obtain ⟨s', lid, e1, e2, -⟩ := intern_ok (k := k) g.edgeLabels l
    simp only [addEdgeLabel, e1, bind_ok, pure_ok] at h1
    cases h1
    obtain ⟨i1, -⟩ := intern_named e1
    simp only [Tabled.step, tabled, ← i1]
    rfl
  | refineEdgeCount => cases h; rfl
  | setNodeLabelId n l =>
    by_cases hn : g.hasNode n = true
    · obtain ⟨g1, h1, h2, h3, h4⟩ := setNodeLabelId_spec hg.toNWF n l hn
      have h : g.setNodeLabelId n l = .ok g' := h
      rw [h1] at h; cases h
      have hdec : (g.rep.node n).isSome = g.hasNode n := (hasNode_eq_labE g n).symm
      have e : g.rep.updateNodeLabel n l = g.rep.addNode n l := by
        unfold AGraph.updateNodeLabel; rw [if_pos (by rw [hdec, hn])]
      simp only [Tabled.step, tabled, h4, h3.rest.nodeLabels, h3.rest.edgeLabels, e]
    · exfalso
      have hn : AL.get g.nodeMap n = none := by simpa [hasNode] using hn
      simp [apply, setNodeLabelId, hn] at h
  | setEdgeLabelId s t l =>
    by_cases hn : g.hasEdge s t = true
    · obtain ⟨g1, h1, h2, h3, h4, h5⟩ := setEdgeLabelId_spec hg.toNWF s t l hn
      have h : g.setEdgeLabelId s t l = .ok g' := h
      rw [h1] at h; cases h
      have hdec : (g.rep.edge s t).isSome = g.hasEdge s t := (hasEdge_eq_outE g s t).symm
      have e : g'.rep = g.rep.updateEdgeLabel true s t l := by
        unfold AGraph.updateEdgeLabel; rw [if_pos (by rw [hdec, hn])]
        apply AGraph_ext
        · intro x; exact h4 x
        · intro a b
          have h5 : g'.rep.edge a b = _ := h5 a b
          rw [h5]
          simp [AGraph.same, rep]
      simp only [Tabled.step, tabled, h3.rest.nodeLabels, h3.rest.edgeLabels, e]
    · exfalso
      simp [apply, setEdgeLabelId, hn] at h
  | mapNodeLabelIds f =>
    cases h
    obtain ⟨h1, h3, h4, h5⟩ := mapNodeLabelIds_spec hg.toNWF f
    simp only [Tabled.step, tabled, h3.rest.nodeLabels, h3.rest.edgeLabels]
    congr 1
    exact AGraph_ext h4 h5
  | mapEdgeLabelIds f =>
    cases h
    obtain ⟨h1, h3, h4, h5⟩ := mapEdgeLabelIds_spec hg.toNWF f
    simp only [Tabled.step, tabled, h3.rest.nodeLabels, h3.rest.edgeLabels]
    congr 1
    exact AGraph_ext h4 h5

theorem run_tabled {d : Bool} {nl : SetMap NL} {el : SetMap EL} (hn : nl.labels.Nodup)
    (he : el.labels.Nodup) {ops : List (Op m k NL EL)} {g : GraphMap m k NL EL}
    (h : Run (withLabelMap d nl el) ops g) : g.tabled = Tabled.run d nl.labels el.labels ops := by
  induction h with
  | nil => rfl
  | @step ops op g g' hr h ih =>
    have hd := (run_shape hn he hr).1
    rw [tabled_apply (inv_run (inv_withLabelMap d nl el hn he) hr) h, hd, ih, Tabled.run, Tabled.run,
      List.foldl_append]
    rfl
  | @rehash ops g nm hr hp ih =>
    have hg := inv_run (inv_withLabelMap d nl el hn he) hr
    rw [← ih]
    simp only [tabled, rep_rehash hg.toNWF hp]

end GraphMap

/-! Label-only histories: the identifier graph is the label graph seen through the final tables. -/

namespace Spec

variable {m k : Nat} {NL EL X : Type}

theorem named_prefix [DecidableEq X] (U : List X) (l : Option X) : U <+: named U l := by
  cases l with
  | none => exact List.prefix_refl _
  | some x =>
    simp only [named]; split
    · exact List.prefix_refl _
    · exact List.prefix_append _ _

theorem mem_named [DecidableEq X] (U : List X) (x : X) : x ∈ named U (some x) := by
  simp only [named]; split
  · assumption
  · simp

theorem idIn_prefix [DecidableEq X] {U W : List X} (h : U <+: W) {x : X} (hx : x ∈ U) :
    idIn (k := k) W x = idIn U x := by
  obtain ⟨r, rfl⟩ := h
  simp only [idIn, List.idxOf_append_of_mem hx]

namespace AGraph

/-- Relabel a graph. -/
def mapLabels {I A B C D : Type} (g : AGraph I A B) (f : A → C) (h : B → D) : AGraph I C D :=
  ⟨fun n => (g.node n).map (Option.map f), fun s t => (g.edge s t).map (Option.map h)⟩

end AGraph

/-- Every label in use is in the table. -/
def InTables (A : AGraph (Id m) NL EL) (U : List NL) (V : List EL) : Prop :=
  (∀ n x, A.node n = some (some x) → x ∈ U) ∧ ∀ s t x, A.edge s t = some (some x) → x ∈ V

theorem InTables.mono {A : AGraph (Id m) NL EL} {U U' : List NL} {V V' : List EL}
    (h : InTables A U V) (hU : U <+: U') (hV : V <+: V') : InTables A U' V' :=
  ⟨fun n x hx => hU.subset (h.1 n x hx), fun s t x hx => hV.subset (h.2 s t x hx)⟩

variable [DecidableEq NL] [DecidableEq EL]

theorem mapLabels_prefix {A : AGraph (Id m) NL EL} {U U' : List NL} {V V' : List EL}
    (h : InTables A U V) (hU : U <+: U') (hV : V <+: V') :
    A.mapLabels (idIn (k := k) U) (idIn (k := k) V) = A.mapLabels (idIn U') (idIn V') := by
  apply GraphMap.AGraph_ext
  · intro n
    simp only [AGraph.mapLabels]
    cases h0 : A.node n with
    | none => rfl
    | some o =>
      cases o with
      | none => rfl
      | some x => simp [idIn_prefix hU (h.1 n x h0)]
  · intro s t
    simp only [AGraph.mapLabels]
    cases h0 : A.edge s t with
    | none => rfl
    | some o =>
      cases o with
      | none => rfl
      | some x => simp [idIn_prefix hV (h.2 s t x h0)]

theorem step_wrapped (d : Bool) {A : AGraph (Id m) NL EL} {T : Tabled m k NL EL} (hT : InTables A T.nodes T.edges)
    (hg : T.graph = A.mapLabels (idIn T.nodes) (idIn T.edges)) (op : Op m k NL EL)
    (ho : labelOnly op = true) :
    InTables (Spec.step d A op) (T.step d op).nodes (T.step d op).edges ∧
    (T.step d op).graph =
      (Spec.step d A op).mapLabels (idIn (T.step d op).nodes) (idIn (T.step d op).edges) := by
  have hnode : ∀ n, T.graph.node n = (A.node n).map (Option.map (idIn T.nodes)) := fun n => by rw [hg]; rfl
  have hedge : ∀ s t, T.graph.edge s t = (A.edge s t).map (Option.map (idIn T.edges)) :=
    fun s t => by rw [hg]; rfl
  have addN : ∀ n (l : Option NL),
      InTables (A.addNode n l) (named T.nodes l) T.edges ∧
      T.graph.addNode n (l.map (idIn (named T.nodes l))) =
        (A.addNode n l).mapLabels (idIn (named T.nodes l)) (idIn T.edges) := by
    intro n l
    refine ⟨⟨fun x y hx => ?_, hT.2⟩, ?_⟩
    · simp only [AGraph.addNode] at hx
      split at hx
      · cases hx; exact mem_named _ _
      · exact (named_prefix T.nodes l).subset (hT.1 x y hx)
    · rw [hg, mapLabels_prefix hT (named_prefix T.nodes l) (List.prefix_refl T.edges)]
      apply GraphMap.AGraph_ext
      · intro x; simp only [AGraph.addNode, AGraph.mapLabels]; split <;> rfl
      · intro a b; rfl
  have hedges : ∀ (l : Option EL) (F : Id m → Id m → Prop) [DecidableRel F],
      (∀ a b x, (if F a b then some l else A.edge a b) = some (some x) → x ∈ named T.edges l) ∧
      (∀ a b, (if F a b then some (l.map (idIn (k := k) (named T.edges l))) else T.graph.edge a b) =
        (if F a b then some l else A.edge a b).map (Option.map (idIn (named T.edges l)))) := by
    intro l F _
    refine ⟨fun a b x hx => ?_, fun a b => ?_⟩
    · split at hx
      · cases hx; exact mem_named _ _
      · exact (named_prefix T.edges l).subset (hT.2 a b x hx)
    · split
      · rfl
      · rw [hg, mapLabels_prefix hT (List.prefix_refl T.nodes) (named_prefix T.edges l)]; rfl
  cases op with
  | addNode n l => exact addN n l
  | updateNodeLabel n l =>
    simp only [Tabled.step, Spec.step, AGraph.updateNodeLabel]
    have : (T.graph.node n).isSome = (A.node n).isSome := by rw [hnode]; simp
    rw [this]
    split
    · exact addN n l
    · exact ⟨hT, hg⟩
  | addEdge s t l =>
    simp only [Tabled.step, Spec.step]
    obtain ⟨e1, e2⟩ := hedges l (AGraph.same d s t)
    refine ⟨⟨fun n x hx => ?_, e1⟩, ?_⟩
    · simp only [AGraph.addEdge] at hx
      split at hx
      · cases hx
      · exact hT.1 n x hx
    · apply GraphMap.AGraph_ext
      · intro n
        simp only [AGraph.addEdge, AGraph.mapLabels, hnode]
        cases A.node n <;> simp
      · exact e2
  | updateEdgeLabel s t l =>
    simp only [Tabled.step, Spec.step, AGraph.updateEdgeLabel]
    have : (T.graph.edge s t).isSome = (A.edge s t).isSome := by rw [hedge]; simp
    rw [this]
    split
    · obtain ⟨e1, e2⟩ := hedges l (AGraph.same d s t)
      refine ⟨⟨hT.1, e1⟩, ?_⟩
      apply GraphMap.AGraph_ext
      · intro n; exact hnode n
      · intro a b; simpa [this, AGraph.mapLabels] using e2 a b
    · exact ⟨hT, hg⟩
  | removeNode n =>
    refine ⟨⟨fun x y hx => ?_, fun a b y hx => ?_⟩, ?_⟩
    · simp only [Spec.step, AGraph.removeNode] at hx
      split at hx
      · cases hx
      · exact hT.1 x y hx
    · simp only [Spec.step, AGraph.removeNode] at hx
      split at hx
      · cases hx
      · exact hT.2 a b y hx
    · apply GraphMap.AGraph_ext
      · intro x
        simp only [Tabled.step, Spec.step, AGraph.removeNode, AGraph.mapLabels, hnode]
        split <;> rfl
      · intro a b
        simp only [Tabled.step, Spec.step, AGraph.removeNode, AGraph.mapLabels, hedge]
        split <;> rfl
  | removeEdge s t =>
    refine ⟨⟨hT.1, fun a b y hx => ?_⟩, ?_⟩
    · simp only [Spec.step, AGraph.removeEdge] at hx
      split at hx
      · cases hx
      · exact hT.2 a b y hx
    · apply GraphMap.AGraph_ext
      · intro x; exact hnode x
      · intro a b
        simp only [Tabled.step, Spec.step, AGraph.removeEdge, AGraph.mapLabels, hedge]
        split <;> rfl
  | addNodeLabel l =>
    refine ⟨hT.mono (named_prefix _ _) (List.prefix_refl _), ?_⟩
    show T.graph = _
    rw [hg]
    exact mapLabels_prefix hT (named_prefix _ _) (List.prefix_refl _)
  | addEdgeLabel l =>
    refine ⟨hT.mono (List.prefix_refl _) (named_prefix _ _), ?_⟩
    show T.graph = _
    rw [hg]
    exact mapLabels_prefix hT (List.prefix_refl _) (named_prefix _ _)
  | refineEdgeCount => exact ⟨hT, hg⟩
  | setNodeLabelId | setEdgeLabelId | mapNodeLabelIds | mapEdgeLabelIds => cases ho

theorem run_wrapped (d : Bool) (U : List NL) (V : List EL) (ops : List (Op m k NL EL))
    (ho : ∀ op ∈ ops, labelOnly op = true) :
    let T : Tabled m k NL EL := Tabled.run d U V ops
    InTables (Spec.run d ops) T.nodes T.edges ∧
    T.graph = (Spec.run d ops).mapLabels (idIn T.nodes) (idIn T.edges) := by
  induction ops using List.reverseRecOn with
  | nil => exact ⟨⟨fun _ _ h => (by cases h), fun _ _ _ h => (by cases h)⟩, rfl⟩
  | append_singleton ops op ih =>
    obtain ⟨i1, i2⟩ := ih (fun o h => ho o (by simp [h]))
    simp only [Tabled.run, Spec.run, List.foldl_append, List.foldl_cons, List.foldl_nil]
    exact step_wrapped d i1 i2 op (ho op (by simp))

end Spec

end Verif
