import Verif.Proof.GraphInv

/-! A history of calls refines the abstract labelled graph. -/

namespace Verif

open Spec

namespace Spec

/-- Two graphs with the same nodes and edges, labels aside. -/
def SameShape {I A B C D : Type} (g : AGraph I A B) (h : AGraph I C D) : Prop :=
  (∀ n, (g.node n).isSome = (h.node n).isSome) ∧ ∀ s t, (g.edge s t).isSome = (h.edge s t).isSome

namespace SameShape

variable {I A B C D : Type} [DecidableEq I] {g : AGraph I A B} {h : AGraph I C D}

theorem addNode (hs : SameShape g h) (n l l') : SameShape (g.addNode n l) (h.addNode n l') := by
  refine ⟨fun x => ?_, hs.2⟩
  simp only [AGraph.addNode]; split
  · rfl
  · exact hs.1 x

theorem removeNode (hs : SameShape g h) (n) : SameShape (g.removeNode n) (h.removeNode n) := by
  refine ⟨fun x => ?_, fun s t => ?_⟩
  · simp only [AGraph.removeNode]; split
    · rfl
    · exact hs.1 x
  · simp only [AGraph.removeNode]; split
    · rfl
    · exact hs.2 s t

theorem addEdge (hs : SameShape g h) (d s t l l') :
    SameShape (g.addEdge d s t l) (h.addEdge d s t l') := by
  refine ⟨fun x => ?_, fun a b => ?_⟩
  · simp only [AGraph.addEdge]
    have hx := hs.1 x
    cases h1 : g.node x <;> cases h2 : h.node x <;> simp_all
    split <;> rfl
  · simp only [AGraph.addEdge]; split
    · rfl
    · exact hs.2 a b

theorem removeEdge (hs : SameShape g h) (d s t) :
    SameShape (g.removeEdge d s t) (h.removeEdge d s t) := by
  refine ⟨hs.1, fun a b => ?_⟩
  simp only [AGraph.removeEdge]; split
  · rfl
  · exact hs.2 a b

theorem updateNodeLabel (hs : SameShape g h) (n l) : SameShape g (h.updateNodeLabel n l) := by
  unfold AGraph.updateNodeLabel
  split
  · rename_i hn
    refine ⟨fun x => ?_, hs.2⟩
    simp only [AGraph.addNode]; split
    · rename_i hx; subst hx; rw [hs.1, hn]; rfl
    · exact hs.1 x
  · exact hs

omit [DecidableEq I] in
theorem trans {E F : Type} {f : AGraph I E F} (h1 : SameShape g h) (h2 : SameShape h f) :
    SameShape g f := ⟨fun n => (h1.1 n).trans (h2.1 n), fun s t => (h1.2 s t).trans (h2.2 s t)⟩

end SameShape

end Spec

namespace GraphMap

variable {m k : Nat} {NL EL : Type}

/-- The graph with label ids replaced by the labels they stand for. -/
def decode (g : GraphMap m k NL EL) : AGraph (Id m) NL EL where
  node n := (g.labE n).map (fun o => o.bind (fun l => g.nodeLabels.getItem l.val))
  edge s t := (g.outE s t).map (fun o => o.bind (fun l => g.edgeLabels.getItem l.val))

/-- Every stored label id is the index of a label. -/
structure Valid (g : GraphMap m k NL EL) : Prop where
  node : ∀ n l, g.labE n = some (some l) → l.val < g.nodeLabels.len
  edge : ∀ s t l, g.outE s t = some (some l) → l.val < g.edgeLabels.len

theorem getNodeLabel_eq (g : GraphMap m k NL EL) (n : Id m) :
    g.getNodeLabel n = (g.decode.node n).join := by
  unfold getNodeLabel decode labE
  cases h0 : g.getNode n with
  | none => simp [h0]
  | some nd => cases h : nd.label <;> simp [h, h0]

theorem getEdgeLabel_eq (g : GraphMap m k NL EL) (s t : Id m) :
    g.getEdgeLabel s t = .ok (g.decode.edge s t).join := by
  unfold getEdgeLabel decode
  rw [getEdge_eq_outE]
  cases h0 : g.outE s t with
  | none => simp [bind_ok, pure_ok, h0]
  | some o => cases h : o <;> simp [bind_ok, pure_ok, h0, h]

theorem getItem_prefix {X : Type} {s s' : SetMap X} (h : s.labels <+: s'.labels) {i : Nat}
    (hi : i < s.len) : s'.getItem i = s.getItem i := by
  obtain ⟨r, hr⟩ := h
  unfold SetMap.getItem
  rw [← hr, List.getElem?_append_left hi]

theorem intern_decode {X : Type} [DecidableEq X] {s s' : SetMap X} {l : Option X}
    {lid : Option (Id k)} (h : intern s l = .ok (s', lid)) (hc : s'.len ≤ k + 1) :
    lid.bind (fun i => s'.getItem i.val) = l ∧ ∀ i, lid = some i → i.val < s'.len := by
  obtain ⟨s1, l1, h1, -, -, hn, hs, -⟩ := intern_ok (k := k) s l
  rw [h1] at h; cases h
  cases l with
  | none => obtain ⟨-, rfl⟩ := hn rfl; simp
  | some x =>
    obtain ⟨i, rfl, hi⟩ := hs x rfl
    have hlt : i < s'.labels.length := by
      by_contra hge
      rw [List.getElem?_eq_none (by omega)] at hi; cases hi
    have hv : (Id.new i : Id k).val = i := by
      simp only [Id.new, Fin.val_ofNat]
      exact Nat.mod_eq_of_lt (lt_of_lt_of_le hlt hc)
    refine ⟨?_, ?_⟩
    · simp only [Option.bind_some, hv, SetMap.getItem, hi]
    · rintro _ ⟨⟩; rw [hv]; exact hlt

theorem decode_node_prefix {g : GraphMap m k NL EL} (hv : g.Valid) {s' : SetMap NL}
    (hp : g.nodeLabels.labels <+: s'.labels) (n : Id m) :
    (g.labE n).map (fun o => o.bind (fun l => s'.getItem l.val)) = g.decode.node n := by
  unfold decode
  cases h : g.labE n with
  | none => simp [h]
  | some o =>
    cases o with
    | none => simp [h]
    | some l => simp [h, getItem_prefix hp (hv.node n l h)]

theorem decode_edge_prefix {g : GraphMap m k NL EL} (hv : g.Valid) {s' : SetMap EL}
    (hp : g.edgeLabels.labels <+: s'.labels) (s t : Id m) :
    (g.outE s t).map (fun o => o.bind (fun l => s'.getItem l.val)) = g.decode.edge s t := by
  unfold decode
  cases h : g.outE s t with
  | none => simp [h]
  | some o =>
    cases o with
    | none => simp [h]
    | some l => simp [h, getItem_prefix hp (hv.edge s t l h)]

theorem len_prefix {X : Type} {s s' : SetMap X} (h : s.labels <+: s'.labels) : s.len ≤ s'.len :=
  h.length_le

/-- What a step contributes to the refinement. -/
structure Refines [DecidableEq NL] [DecidableEq EL] (g g' : GraphMap m k NL EL)
    (op : Op m k NL EL) : Prop where
  directed : g'.directed = g.directed
  nl : g.nodeLabels.labels <+: g'.nodeLabels.labels
  el : g.edgeLabels.labels <+: g'.edgeLabels.labels
  shape : SameShape g'.rep (Spec.step g.directed g.decode op)
  lab : labelOnly op = true → g'.nodeLabels.len ≤ k + 1 → g'.edgeLabels.len ≤ k + 1 → g.Valid →
    g'.decode = Spec.step g.directed g.decode op ∧ g'.Valid

theorem shape_decode (g : GraphMap m k NL EL) : SameShape g.rep g.decode := by
  refine ⟨fun n => ?_, fun s t => ?_⟩ <;> simp [rep, decode]

variable [DecidableEq NL] [DecidableEq EL]

omit [DecidableEq NL] [DecidableEq EL] in
/-- Same labels maps, pointwise smaller graph. -/
theorem valid_mono {g g' : GraphMap m k NL EL} (hv : g.Valid) (h1 : g'.nodeLabels = g.nodeLabels)
    (h2 : g'.edgeLabels = g.edgeLabels)
    (h3 : ∀ n l, g'.labE n = some l → g.labE n = some l)
    (h4 : ∀ s t l, g'.outE s t = some l → g.outE s t = some l) : g'.Valid :=
  ⟨fun n l h => by rw [h1]; exact hv.node n l (h3 n _ h),
   fun s t l h => by rw [h2]; exact hv.edge s t l (h4 s t _ h)⟩

theorem refines_addNode {g g' : GraphMap m k NL EL} (hg : g.Inv) {id label b}
    (h : g.addNode id label = .ok (g', b)) : Refines g g' (.addNode id label) := by
  obtain ⟨g1, nl, lid, hi, h1, h2, h3, h4, h5, h6, h7, h8, h9⟩ := addNode_spec hg.toNWF id label
  rw [h1] at h
  obtain rfl : g1 = g' := by cases h; rfl
  have hpre : g.nodeLabels.labels <+: g1.nodeLabels.labels := by
    obtain ⟨s', l', e1, e2, -⟩ := intern_ok (k := k) g.nodeLabels label
    rw [e1] at hi; cases hi; rw [h5]; exact e2
  have hout : ∀ a b, g1.outE a b = g.outE a b := fun a b => congrArg (fun r => r.edge a b) h8
  have hlab : ∀ x, g1.labE x = if x = id then some lid else g.labE x :=
    fun x => congrArg (fun r => r.node x) h8
  refine ⟨h3, hpre, by rw [h6], ?_, ?_⟩
  · rw [h8]; exact (shape_decode g).addNode id lid label
  · intro _ hc1 hc2 hv
    rw [h5] at hc1
    obtain ⟨d1, d2⟩ := intern_decode hi hc1
    refine ⟨?_, ?_, ?_⟩
    · apply AGraph_ext
      · intro n
        show (g1.labE n).map (fun o => o.bind (fun l => g1.nodeLabels.getItem l.val)) =
          if n = id then some label else g.decode.node n
        rw [hlab]
        split
        · rw [h5]; simp only [Option.map_some, d1]
        · exact decode_node_prefix hv hpre n
      · intro a b
        show (g1.outE a b).map (fun o => o.bind (fun l => g1.edgeLabels.getItem l.val)) = _
        rw [hout, h6]; rfl
    · intro n l hl
      rw [hlab] at hl
      split at hl
      · rw [h5]; cases hl; exact d2 l rfl
      · exact lt_of_lt_of_le (hv.node n l hl) (len_prefix hpre)
    · intro a b l hl
      rw [hout] at hl; rw [h6]; exact hv.edge a b l hl

theorem refines_addEdge {g g' : GraphMap m k NL EL} (hg : g.Inv) {s t label b}
    (h : g.addEdge s t label = .ok (g', b)) : Refines g g' (.addEdge s t label) := by
  obtain ⟨g1, el, lid, hi, h1, h2, h3, h4, h5, h6, h7, h8, h9⟩ := addEdge_spec hg.toNWF s t label
  rw [h1] at h
  obtain rfl : g1 = g' := by cases h; rfl
  have hpre : g.edgeLabels.labels <+: g1.edgeLabels.labels := by
    obtain ⟨s', l', e1, e2, -⟩ := intern_ok (k := k) g.edgeLabels label
    rw [e1] at hi; cases hi; rw [h6]; exact e2
  have hout : ∀ a b, g1.outE a b = if AGraph.same g.directed s t a b then some lid else g.outE a b :=
    fun a b => congrArg (fun r => r.edge a b) h8
  have hlab : ∀ x, g1.labE x = if (x = s ∨ x = t) ∧ g.labE x = none then some none else g.labE x :=
    fun x => congrArg (fun r => r.node x) h8
  refine ⟨h3, by rw [h5], hpre, ?_, ?_⟩
  · rw [h8]; exact (shape_decode g).addEdge g.directed s t lid label
  · intro _ hc1 hc2 hv
    rw [h6] at hc2
    obtain ⟨d1, d2⟩ := intern_decode hi hc2
    refine ⟨?_, ?_, ?_⟩
    · apply AGraph_ext
      · intro n
        show (g1.labE n).map (fun o => o.bind (fun l => g1.nodeLabels.getItem l.val)) =
          if (n = s ∨ n = t) ∧ g.decode.node n = none then some none else g.decode.node n
        rw [hlab, h5]
        have : g.decode.node n = none ↔ g.labE n = none := by simp [decode]
        simp only [this]
        split
        · rfl
        · rfl
      · intro a b
        show (g1.outE a b).map (fun o => o.bind (fun l => g1.edgeLabels.getItem l.val)) =
          if AGraph.same g.directed s t a b then some label else g.decode.edge a b
        rw [hout]
        split
        · rw [h6]; simp only [Option.map_some, d1]
        · exact decode_edge_prefix hv hpre a b
    · intro n l hl
      rw [hlab] at hl
      split at hl
      · cases hl
      · rw [h5]; exact hv.node n l hl
    · intro a b l hl
      rw [hout] at hl
      split at hl
      · rw [h6]; cases hl; exact d2 l rfl
      · exact lt_of_lt_of_le (hv.edge a b l hl) (len_prefix hpre)

theorem refines_apply {g g' : GraphMap m k NL EL} (hg : g.Inv)
    {op : Op m k NL EL} (h : g.apply op = .ok g') : Refines g g' op := by
  cases op with
  | addNode n l =>
    obtain ⟨r, h1, h2⟩ := bind_eq_ok h
    cases h2; exact refines_addNode hg h1
  | addEdge s t l =>
    obtain ⟨r, h1, h2⟩ := bind_eq_ok h
    cases h2; exact refines_addEdge hg h1
  | removeNode id =>
    obtain ⟨r, h0, h00⟩ := bind_eq_ok h
    cases h00
    obtain ⟨g1, h1, h2, h3, h4, h5, h6, h7, h8, h9, h10⟩ :=
      removeNode_spec hg id (removeNode_ok_noloop h0)
    rw [h1] at h0
    obtain rfl : (g1, g.getNode id) = r := by cases h0; rfl
    have hout : ∀ a b, g1.outE a b = if a = id ∨ b = id then none else g.outE a b :=
      fun a b => congrArg (fun r => r.edge a b) h9
    have hlab : ∀ x, g1.labE x = if x = id then none else g.labE x :=
      fun x => congrArg (fun r => r.node x) h9
    refine ⟨h3, by rw [h4], by rw [h5], ?_, ?_⟩
    · rw [h9]; exact (shape_decode g).removeNode id
    · intro _ _ _ hv
      refine ⟨?_, valid_mono hv h4 h5 ?_ ?_⟩
      · apply AGraph_ext
        · intro n
          show (g1.labE n).map (fun o => o.bind (fun l => g1.nodeLabels.getItem l.val)) =
            if n = id then none else g.decode.node n
          rw [hlab, h4]
          split <;> rfl
        · intro a b
          show (g1.outE a b).map (fun o => o.bind (fun l => g1.edgeLabels.getItem l.val)) =
            if a = id ∨ b = id then none else g.decode.edge a b
          rw [hout, h5]
          split <;> rfl
      · intro n l hl
        rw [hlab] at hl
        split at hl
        · cases hl
        · exact hl
      · intro a b l hl
        rw [hout] at hl
        split at hl
        · cases hl
        · exact hl
  | removeEdge s t =>
    obtain ⟨r, h0, h00⟩ := bind_eq_ok h
    cases h00
    obtain ⟨g1, h1, h2, h3, h4, h5, h6, h7, h8, h9, h10⟩ := removeEdge_spec hg s t
    rw [h1] at h0
    obtain rfl : g1 = r.1 := by cases h0; rfl
    have hout : ∀ a b, r.1.outE a b = if AGraph.same g.directed s t a b then none else g.outE a b :=
      fun a b => congrArg (fun r => r.edge a b) h9
    have hlab : ∀ x, r.1.labE x = g.labE x := fun x => congrArg (fun r => r.node x) h9
    refine ⟨h3, by rw [h4], by rw [h5], ?_, ?_⟩
    · rw [h9]; exact (shape_decode g).removeEdge g.directed s t
    · intro _ _ _ hv
      refine ⟨?_, valid_mono hv h4 h5 ?_ ?_⟩
      · apply AGraph_ext
        · intro n
          show (r.1.labE n).map (fun o => o.bind (fun l => r.1.nodeLabels.getItem l.val)) = _
          rw [hlab, h4]; rfl
        · intro a b
          show (r.1.outE a b).map (fun o => o.bind (fun l => r.1.edgeLabels.getItem l.val)) =
            if AGraph.same g.directed s t a b then none else g.decode.edge a b
          rw [hout, h5]
          split <;> rfl
      · intro n l hl
        rw [hlab] at hl; exact hl
      · intro a b l hl
        rw [hout] at hl
        split at hl
        · cases hl
        · exact hl
  | updateNodeLabel n l =>
    obtain ⟨r, h1, h2⟩ := bind_eq_ok h
    cases h2
    unfold updateNodeLabel at h1
    have hdec : (g.decode.node n).isSome = g.hasNode n := by
      rw [hasNode_eq_labE]; simp [decode]
    split at h1
    · rename_i hn
      cases h1
      have e : Spec.step g.directed g.decode (.updateNodeLabel (k := k) (EL := EL) n l) = g.decode := by
        simp only [Spec.step, AGraph.updateNodeLabel, hdec]
        rw [if_neg (by simpa using hn)]
      exact ⟨rfl, List.prefix_refl _, List.prefix_refl _, by rw [e]; exact shape_decode g,
        fun _ _ _ hv => ⟨e.symm, hv⟩⟩
    · rename_i hn
      obtain ⟨r, h3, h2⟩ := bind_eq_ok h1
      cases h2
      have e : Spec.step g.directed g.decode (.updateNodeLabel (k := k) (EL := EL) n l) =
          Spec.step g.directed g.decode (.addNode (k := k) (EL := EL) n l) := by
        simp only [Spec.step, AGraph.updateNodeLabel, hdec]
        rw [if_pos (by simpa using hn)]
      obtain ⟨a1, a2, a3, a4, a5⟩ := refines_addNode hg h3
      exact ⟨a1, a2, a3, by rw [e]; exact a4, by rw [e]; exact fun _ => a5 rfl⟩
  | updateEdgeLabel s t l =>
    obtain ⟨r, h1, h2⟩ := bind_eq_ok h
    cases h2
    unfold updateEdgeLabel at h1
    have hdec : (g.decode.edge s t).isSome = g.hasEdge s t := by
      rw [hasEdge_eq_outE]; simp [decode]
    split at h1
    · rename_i hn
      cases h1
      have e : Spec.step g.directed g.decode (.updateEdgeLabel (k := k) (NL := NL) s t l) =
          g.decode := by
        simp only [Spec.step, AGraph.updateEdgeLabel, hdec]
        rw [if_neg (by simpa using hn)]
      exact ⟨rfl, List.prefix_refl _, List.prefix_refl _, by rw [e]; exact shape_decode g,
        fun _ _ _ hv => ⟨e.symm, hv⟩⟩
    · rename_i hn
      have hn : g.hasEdge s t = true := by simpa using hn
      obtain ⟨r, h3, h2⟩ := bind_eq_ok h1
      cases h2
      have e : Spec.step g.directed g.decode (.updateEdgeLabel (k := k) (NL := NL) s t l) =
          Spec.step g.directed g.decode (.addEdge (k := k) (NL := NL) s t l) := by
        simp only [Spec.step, AGraph.updateEdgeLabel, hdec]
        rw [if_pos hn]
        have ho : (g.outE s t).isSome := by rw [← hasEdge_eq_outE]; exact hn
        have hs := outE_hasNode ho
        have ht := hg.target s t ho
        apply AGraph_ext
        · intro x
          simp only [AGraph.addEdge]
          rw [if_neg]
          rintro ⟨hx, h0⟩
          have : g.hasNode x = true := by rcases hx with rfl | rfl <;> assumption
          rw [hasNode_eq_labE] at this
          simp only [decode, Option.map_eq_none_iff] at h0
          rw [h0] at this; cases this
        · intro a b; rfl
      obtain ⟨a1, a2, a3, a4, a5⟩ := refines_addEdge hg h3
      exact ⟨a1, a2, a3, by rw [e]; exact a4, by rw [e]; exact fun _ => a5 rfl⟩
  | addNodeLabel l =>
    obtain ⟨r, h1, h2⟩ := bind_eq_ok h
    cases h2
    obtain ⟨s', lid, e1, e2, -⟩ := intern_ok (k := k) g.nodeLabels l
    simp only [addNodeLabel, e1, bind_ok, pure_ok] at h1
    cases h1
    refine ⟨rfl, e2, List.prefix_refl _, shape_decode g, ?_⟩
    intro _ _ _ hv
    refine ⟨?_, ?_, hv.edge⟩
    · apply AGraph_ext
      · intro n; exact decode_node_prefix hv e2 n
      · intro a b; rfl
    · intro n l hl
      exact lt_of_lt_of_le (hv.node n l hl) (len_prefix e2)
  | addEdgeLabel l =>
    obtain ⟨r, h1, h2⟩ := bind_eq_ok h
    cases h2
    obtain ⟨s', lid, e1, e2, -⟩ := intern_ok (k := k) g.edgeLabels l
    simp only [addEdgeLabel, e1, bind_ok, pure_ok] at h1
    cases h1
    refine ⟨rfl, List.prefix_refl _, e2, shape_decode g, ?_⟩
    intro _ _ _ hv
    refine ⟨?_, hv.node, ?_⟩
    · apply AGraph_ext
      · intro n; rfl
      · intro a b; exact decode_edge_prefix hv e2 a b
    · intro a b l hl
      exact lt_of_lt_of_le (hv.edge a b l hl) (len_prefix e2)
  | refineEdgeCount =>
    cases h
    exact ⟨rfl, List.prefix_refl _, List.prefix_refl _, shape_decode g,
      fun _ _ _ hv => ⟨rfl, hv.node, hv.edge⟩⟩
  | setNodeLabelId n l =>
    by_cases hn : g.hasNode n = true
    · obtain ⟨g1, h1, h2, h3, -⟩ := setNodeLabelId_spec hg.toNWF n l hn
      have h : g.setNodeLabelId n l = .ok g' := h
      rw [h1] at h; cases h
      exact ⟨h3.rest.directed, by rw [h3.rest.nodeLabels], by rw [h3.rest.edgeLabels],
        SameShape.trans (h := g.rep) ⟨h3.lab, h3.out⟩ (shape_decode g), fun h => by cases h⟩
    · exfalso
      have hn : AL.get g.nodeMap n = none := by simpa [hasNode] using hn
      simp [apply, setNodeLabelId, hn] at h
  | setEdgeLabelId s t l =>
    by_cases hn : g.hasEdge s t = true
    · obtain ⟨g1, h1, h2, h3, -⟩ := setEdgeLabelId_spec hg.toNWF s t l hn
      have h : g.setEdgeLabelId s t l = .ok g' := h
      rw [h1] at h; cases h
      exact ⟨h3.rest.directed, by rw [h3.rest.nodeLabels], by rw [h3.rest.edgeLabels],
        SameShape.trans (h := g.rep) ⟨h3.lab, h3.out⟩ (shape_decode g), fun h => by cases h⟩
    · exfalso
      simp [apply, setEdgeLabelId, hn] at h
  | mapNodeLabelIds f =>
    cases h
    obtain ⟨h1, h3, -⟩ := mapNodeLabelIds_spec hg.toNWF f
    exact ⟨h3.rest.directed, by rw [h3.rest.nodeLabels], by rw [h3.rest.edgeLabels],
        SameShape.trans (h := g.rep) ⟨h3.lab, h3.out⟩ (shape_decode g), fun h => by cases h⟩
  | mapEdgeLabelIds f =>
    cases h
    obtain ⟨h1, h3, -⟩ := mapEdgeLabelIds_spec hg.toNWF f
    exact ⟨h3.rest.directed, by rw [h3.rest.nodeLabels], by rw [h3.rest.edgeLabels],
        SameShape.trans (h := g.rep) ⟨h3.lab, h3.out⟩ (shape_decode g), fun h => by cases h⟩

omit [DecidableEq NL] [DecidableEq EL] in
theorem step_shape (d : Bool) {a b : AGraph (Id m) NL EL} (h : SameShape a b)
    (op : Op m k NL EL) : SameShape (Spec.step d a op) (Spec.step d b op) := by
  cases op with
  | addNode n l => exact h.addNode n l l
  | addEdge s t l => exact h.addEdge d s t l l
  | removeNode n => exact h.removeNode n
  | removeEdge s t => exact h.removeEdge d s t
  | updateNodeLabel n l =>
    simp only [Spec.step, AGraph.updateNodeLabel, h.1 n]
    split
    · exact h.addNode n l l
    · exact h
  | updateEdgeLabel s t l =>
    simp only [Spec.step, AGraph.updateEdgeLabel, h.2 s t]
    split
    · refine ⟨h.1, fun x y => ?_⟩
      simp only
      split
      · rfl
      · exact h.2 x y
    · exact h
  | addNodeLabel | addEdgeLabel | refineEdgeCount | setNodeLabelId | setEdgeLabelId
  | mapNodeLabelIds | mapEdgeLabelIds => exact h

theorem run_shape {d : Bool} {nl : SetMap NL} {el : SetMap EL} (hn : nl.labels.Nodup)
    (he : el.labels.Nodup) {ops : List (Op m k NL EL)} {g : GraphMap m k NL EL}
    (h : Run (withLabelMap d nl el) ops g) :
    g.directed = d ∧ SameShape g.rep (Spec.run d ops) := by
  induction h with
  | nil => exact ⟨rfl, fun _ => rfl, fun _ _ => rfl⟩
  | @step ops op g g' hr h ih =>
    have hf := refines_apply (inv_run (inv_withLabelMap d nl el hn he) hr) h
    obtain ⟨i1, i2⟩ := ih
    subst i1
    refine ⟨hf.directed, ?_⟩
    rw [Spec.run, List.foldl_append]
    refine SameShape.trans hf.shape ?_
    apply step_shape
    exact SameShape.trans ⟨fun n => ((shape_decode g).1 n).symm, fun s t => ((shape_decode g).2 s t).symm⟩
      i2
  | @rehash ops g nm hr hp ih =>
    have hg := inv_run (inv_withLabelMap d nl el hn he) hr
    refine ⟨ih.1, ?_⟩
    rw [rep_rehash hg.toNWF hp]
    exact ih.2

theorem run_decode {d : Bool} {nl : SetMap NL} {el : SetMap EL} (hn : nl.labels.Nodup)
    (he : el.labels.Nodup) {ops : List (Op m k NL EL)} {g : GraphMap m k NL EL}
    (h : Run (withLabelMap d nl el) ops g) (ho : ∀ op ∈ ops, labelOnly op = true)
    (hc1 : g.nodeLabels.len ≤ k + 1) (hc2 : g.edgeLabels.len ≤ k + 1) :
    g.decode = Spec.run d ops ∧ g.Valid := by
  induction h with
  | nil => exact ⟨rfl, ⟨fun _ _ h => (by cases h), fun _ _ _ h => (by cases h)⟩⟩
  | @step ops op g g' hr h ih =>
    have hd := (run_shape hn he hr).1
    have hf := refines_apply (inv_run (inv_withLabelMap d nl el hn he) hr) h
    obtain ⟨i1, i2⟩ := ih (fun o h => ho o (by simp [h])) (le_trans (len_prefix hf.nl) hc1)
      (le_trans (len_prefix hf.el) hc2)
    subst hd
    obtain ⟨l1, l2⟩ := hf.lab (ho op (by simp)) hc1 hc2 i2
    refine ⟨?_, l2⟩
    rw [Spec.run, List.foldl_append, l1, i1]
    rfl
  | @rehash ops g nm hr hp ih =>
    have hg := inv_run (inv_withLabelMap d nl el hn he) hr
    obtain ⟨i1, i2⟩ := ih ho hc1 hc2
    have hrep := rep_rehash hg.toNWF hp
    have hl : ∀ n, ({ g with nodeMap := nm } : GraphMap m k NL EL).labE n = g.labE n :=
      fun n => congrArg (fun r => r.node n) hrep
    have hou : ∀ a b, ({ g with nodeMap := nm } : GraphMap m k NL EL).outE a b = g.outE a b :=
      fun a b => congrArg (fun r => r.edge a b) hrep
    refine ⟨?_, ⟨fun n l h => by rw [hl] at h; exact i2.node n l h,
      fun a b l h => by rw [hou] at h; exact i2.edge a b l h⟩⟩
    rw [← i1]
    apply AGraph_ext
    · intro n; simp only [decode, hl]
    · intro a b; simp only [decode, hou]

end GraphMap

end Verif
