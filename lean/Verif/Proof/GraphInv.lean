import Verif.Proof.GraphOps

/-! The invariant is preserved by every call; enumerations under the invariant. -/

namespace Verif

open Spec

theorem AL.get_map_val {K V W : Type} [DecidableEq K] (l : List (K × V)) (f : K → V → W) (x : K) :
    AL.get (l.map (fun p => (p.1, f p.1 p.2))) x = (AL.get l x).map (f x) := by
  induction l with
  | nil => rfl
  | cons p l ih =>
    obtain ⟨a, v⟩ := p
    simp only [List.map_cons, AL.get_cons, ih]
    split
    · rename_i h; subst h; rfl
    · rfl

theorem AL.keys_map_val {K V W : Type} (l : List (K × V)) (f : K → V → W) :
    AL.keys (l.map (fun p => (p.1, f p.1 p.2))) = AL.keys l := by
  unfold AL.keys; rw [List.map_map]; rfl

namespace GraphMap

variable {m k : Nat} {NL EL : Type}

theorem bumpMax_spec (mx : Option (Id m)) (n : Id m) :
    ∃ M, bumpMax mx n = some M ∧ n ≤ M ∧ ∀ M0, mx = some M0 → M0 ≤ M := by
  unfold bumpMax
  cases mx with
  | none => exact ⟨n, rfl, le_refl _, by simp⟩
  | some i =>
    by_cases h : i < n
    · exact ⟨n, by simp [h], le_refl _, by rintro _ ⟨⟩; exact h.le⟩
    · exact ⟨i, by simp [h], not_lt.1 h, by rintro _ ⟨⟩; exact le_refl _⟩

theorem inv_withLabelMap (d : Bool) (nl : SetMap NL) (el : SetMap EL) (hn : nl.labels.Nodup)
    (he : el.labels.Nodup) : (withLabelMap d nl el : GraphMap m k NL EL).Inv := by
  have hget : ∀ n, (withLabelMap d nl el : GraphMap m k NL EL).getNode n = none := fun _ => rfl
  have hout : ∀ s t, (withLabelMap d nl el : GraphMap m k NL EL).outE s t = none := fun _ _ => rfl
  refine ⟨⟨by simp [withLabelMap, AL.keys], ?_, ?_, ?_⟩, ?_, ?_, ?_, ?_, ?_, hn, he, ?_⟩
  · intro n nd h; rw [hget] at h; cases h
  · intro n nd h; rw [hget] at h; cases h
  · intro n nd h; rw [hget] at h; cases h
  · intro s t h; rw [hout] at h; cases h
  · intro _ s t
    constructor
    · rintro ⟨nd, h, -⟩; rw [hget] at h; cases h
    · intro h; rw [hout] at h; cases h
  · rintro _ t s ⟨nd, h, -⟩; rw [hget] at h; cases h
  · intro _ s t h; exact absurd h (by simp [rep, hout])
  · unfold edgeNum
    rw [AGraph.edgeNumber_eq]
    have : AGraph.edgeSet (withLabelMap d nl el : GraphMap m k NL EL).directed
        (withLabelMap d nl el : GraphMap m k NL EL).rep = ∅ := by
      ext p
      simp [AGraph.mem_edgeSet, rep, hout]
    rw [this]; simp
  · intro n h; rw [hasNode_eq_labE] at h; simp [labE, hget] at h

theorem edgeNum_addNode {d : Bool} {a : AGraph (Id m) (Id k) (Id k)} (id lid) :
    (a.addNode id lid).edgeNumber d = a.edgeNumber d := rfl

theorem inv_addNode [DecidableEq NL] {g g' : GraphMap m k NL EL} (hg : g.Inv) {id label b}
    (h : g.addNode id label = .ok (g', b)) : g'.Inv := by
  obtain ⟨g1, nl, lid, hi, h1, h2, h3, h4, h5, h6, h7, h8, h9⟩ := addNode_spec hg.toNWF id label
  rw [h1] at h
  obtain rfl : g1 = g' := by cases h; rfl
  have hout : ∀ a b, g1.outE a b = g.outE a b := fun a b => congrArg (fun r => r.edge a b) h8
  have hlab : ∀ x, g1.labE x = if x = id then some lid else g.labE x :=
    fun x => congrArg (fun r => r.node x) h8
  refine ⟨h2, ?_, ?_, ?_, ?_, ?_, ?_, ?_, ?_⟩
  · intro s t ht
    rw [hout] at ht
    rw [hasNode_eq_labE, hlab]
    split
    · rfl
    · rw [← hasNode_eq_labE]; exact hg.target s t ht
  · intro hd s t; rw [h9, hout]; exact hg.inSpec (h3 ▸ hd) s t
  · intro hd t s; rw [h9]; exact hg.inNil (h3 ▸ hd) t s
  · rw [h3, h8]; exact hg.sym
  · unfold edgeNum; rw [h3, h8, edgeNum_addNode, h4]; exact hg.count
  · obtain ⟨s', l', e1, -, e2, -⟩ := intern_ok (k := k) g.nodeLabels label
    rw [e1] at hi; cases hi
    rw [h5]; exact e2 hg.nlNodup
  · rw [h6]; exact hg.elNodup
  · intro n hn
    rw [h7]
    rw [hasNode_eq_labE, hlab] at hn
    by_cases hid : g.hasNode id = true
    · rw [if_pos hid]
      split at hn
      · rename_i hx; subst hx; exact hg.maxBound n hid
      · rw [← hasNode_eq_labE] at hn; exact hg.maxBound n hn
    · rw [if_neg hid]
      obtain ⟨M, e1, e2, e3⟩ := bumpMax_spec g.maxId id
      refine ⟨M, e1, ?_⟩
      split at hn
      · rename_i hx; subst hx; exact e2
      · rw [← hasNode_eq_labE] at hn
        obtain ⟨M0, f1, f2⟩ := hg.maxBound n hn
        exact le_trans f2 (e3 M0 f1)

theorem inv_addEdge [DecidableEq NL] [DecidableEq EL] {g g' : GraphMap m k NL EL} (hg : g.Inv)
    {s t label b} (h : g.addEdge s t label = .ok (g', b)) : g'.Inv := by
  obtain ⟨g1, el, lid, hi, h1, h2, h3, h4, h5, h6, h7, h8, h9⟩ := addEdge_spec hg.toNWF s t label
  rw [h1] at h
  obtain rfl : g1 = g' := by cases h; rfl
  have hout : ∀ a b, g1.outE a b = if AGraph.same g.directed s t a b then some lid else g.outE a b :=
    fun a b => congrArg (fun r => r.edge a b) h8
  have hlab : ∀ x, g1.labE x = if (x = s ∨ x = t) ∧ g.labE x = none then some none else g.labE x :=
    fun x => congrArg (fun r => r.node x) h8
  have hhas : ∀ x, g1.hasNode x = true ↔ x = s ∨ x = t ∨ g.hasNode x = true := by
    intro x
    rw [hasNode_eq_labE, hasNode_eq_labE, hlab]
    cases hx : g.labE x with
    | none =>
      by_cases hh : x = s ∨ x = t
      · simp [hh]
        try tauto
      · simp only [not_or] at hh; simp [hh]
    | some l => simp
  refine ⟨h2, ?_, ?_, ?_, ?_, ?_, ?_, ?_, ?_⟩
  · intro a b hab
    rw [hout] at hab
    rw [hhas]
    split at hab
    · rename_i hs
      rcases hs with ⟨rfl, rfl⟩ | ⟨-, rfl, rfl⟩
      · exact Or.inr (Or.inl rfl)
      · exact Or.inl rfl
    · exact Or.inr (Or.inr (hg.target a b hab))
  · intro hd a b
    rw [h3] at hd
    rw [h9, hout, hg.inSpec hd]
    simp only [AGraph.same, hd, Bool.true_eq_false, false_and, or_false, true_and]
    by_cases hab : a = s ∧ b = t
    · simp [hab]
    · simp only [hab, if_false]
      constructor
      · rintro (h | h)
        · exact absurd ⟨h.2, h.1⟩ hab
        · exact h
      · exact Or.inr
  · intro hd b a
    rw [h3] at hd
    rw [h9]
    rintro (⟨h, -⟩ | h)
    · rw [hd] at h; cases h
    · exact hg.inNil hd b a h
  · intro hd a b hab
    rw [h3] at hd
    have hab : (g1.outE a b).isSome := hab
    show (g1.outE b a).isSome
    rw [hout] at hab ⊢
    split
    · rfl
    · rename_i hn
      split at hab
      · rename_i hs
        exfalso; apply hn
        rcases hs with ⟨rfl, rfl⟩ | ⟨-, rfl, rfl⟩
        · exact Or.inr ⟨hd, rfl, rfl⟩
        · exact Or.inl ⟨rfl, rfl⟩
      · exact hg.sym hd a b hab
  · unfold edgeNum
    rw [h3, h8, h4, AGraph.edgeNumber_addEdge _ _ hg.sym]
    have := hg.count
    unfold edgeNum at this
    split <;> omega
  · rw [h5]; exact hg.nlNodup
  · obtain ⟨s', l', e1, -, e2, -⟩ := intern_ok (k := k) g.edgeLabels label
    rw [e1] at hi; cases hi
    rw [h6]; exact e2 hg.elNodup
  · have hseen : ∀ (mx : Option (Id m)) (n : Id m), (∀ x, g.hasNode x = true → ∃ M, mx = some M ∧ x ≤ M) →
        ∃ M, g.seen mx n = some M ∧ n ≤ M ∧ ∀ M0, mx = some M0 → M0 ≤ M := by
      intro mx n hb
      unfold seen
      split
      · rename_i hn
        obtain ⟨M, e1, e2⟩ := hb n hn
        exact ⟨M, e1, e2, by intro M0 h0; rw [e1] at h0; cases h0; exact le_refl _⟩
      · exact bumpMax_spec mx n
    obtain ⟨M1, e1, e2, e3⟩ := hseen g.maxId s hg.maxBound
    obtain ⟨M2, f1, f2, f3⟩ := hseen (g.seen g.maxId s) t (by
      intro x hx
      obtain ⟨M0, d1, d2⟩ := hg.maxBound x hx
      exact ⟨M1, e1, le_trans d2 (e3 M0 d1)⟩)
    intro n hn
    rw [h7]
    rw [hhas] at hn
    have hold : ∀ x, g.hasNode x = true → x ≤ M1 := by
      intro x hx
      obtain ⟨M0, d1, d2⟩ := hg.maxBound x hx
      exact le_trans d2 (e3 M0 d1)
    split
    · rename_i hts
      subst hts
      refine ⟨M1, e1, ?_⟩
      rcases hn with rfl | rfl | hn
      · exact e2
      · exact e2
      · exact hold n hn
    · refine ⟨M2, f1, ?_⟩
      have h12 := f3 M1 e1
      rcases hn with rfl | rfl | hn
      · exact le_trans e2 h12
      · exact f2
      · exact le_trans (hold n hn) h12

theorem inv_removeEdge {g g' : GraphMap m k NL EL} (hg : g.Inv)
    {s t b} (h : g.removeEdge s t = .ok (g', b)) : g'.Inv := by
  obtain ⟨g1, h1, h2, h3, h4, h5, h6, h7, h8, h9, h10⟩ := removeEdge_spec hg s t
  rw [h1] at h
  obtain rfl : g1 = g' := by cases h; rfl
  by_cases he : g.hasEdge s t = false
  · rw [h8 he]; exact hg
  have he : g.hasEdge s t = true := by simpa using he
  have hout : ∀ a b, g1.outE a b = if AGraph.same g.directed s t a b then none else g.outE a b :=
    fun a b => congrArg (fun r => r.edge a b) h9
  have hlab : ∀ x, g1.labE x = g.labE x := fun x => congrArg (fun r => r.node x) h9
  have hhas : ∀ x, g1.hasNode x = g.hasNode x := by
    intro x; rw [hasNode_eq_labE, hasNode_eq_labE, hlab]
  refine ⟨h2, ?_, ?_, ?_, ?_, ?_, ?_, ?_, ?_⟩
  · intro a b hab
    rw [hout] at hab
    rw [hhas]
    split at hab
    · cases hab
    · exact hg.target a b hab
  · intro hd a b
    rw [h3] at hd
    rw [h10, hout, hg.inSpec hd]
    simp only [AGraph.same, hd, Bool.true_eq_false, false_and, or_false, true_and]
    by_cases hab : a = s ∧ b = t
    · simp [hab]
    · simp only [hab, if_false]
      constructor
      · exact fun h => h.2
      · exact fun h => ⟨fun h' => hab ⟨h'.2, h'.1⟩, h⟩
  · intro hd b a
    rw [h3] at hd
    rw [h10]
    rintro ⟨-, h⟩
    exact hg.inNil hd b a h
  · intro hd a b hab
    rw [h3] at hd
    have hab : (g1.outE a b).isSome := hab
    show (g1.outE b a).isSome
    rw [hout] at hab ⊢
    split at hab
    · cases hab
    · rename_i hn
      rw [if_neg]
      · exact hg.sym hd a b hab
      · intro hs
        apply hn
        rcases hs with ⟨rfl, rfl⟩ | ⟨-, rfl, rfl⟩
        · exact Or.inr ⟨hd, rfl, rfl⟩
        · exact Or.inl ⟨rfl, rfl⟩
  · have e := AGraph.edgeNumber_removeEdge g.directed g.rep hg.sym s t
      (by rw [hasEdge_eq_outE] at he; exact he)
    unfold edgeNum
    rw [h3, h9]
    have := hg.count
    unfold edgeNum at this
    rw [if_pos he] at h7
    omega
  · rw [h4]; exact hg.nlNodup
  · rw [h5]; exact hg.elNodup
  · intro n hn
    rw [hhas] at hn
    rw [h6]; exact hg.maxBound n hn

theorem removeNode_ok_noloop {g g' : GraphMap m k NL EL} {id b}
    (h : g.removeNode id = .ok (g', b)) : g.hasEdge id id = false := by
  by_contra hne
  rw [removeNode_loop id (by simpa using hne)] at h
  cases h

theorem inv_removeNode {g g' : GraphMap m k NL EL} (hg : g.Inv)
    {id b} (h : g.removeNode id = .ok (g', b)) : g'.Inv := by
  obtain ⟨g1, h1, h2, h3, h4, h5, h6, h7, h8, h9, h10⟩ :=
    removeNode_spec hg id (removeNode_ok_noloop h)
  rw [h1] at h
  obtain rfl : g1 = g' := by cases h; rfl
  have hout : ∀ a b, g1.outE a b = if a = id ∨ b = id then none else g.outE a b :=
    fun a b => congrArg (fun r => r.edge a b) h9
  have hlab : ∀ x, g1.labE x = if x = id then none else g.labE x :=
    fun x => congrArg (fun r => r.node x) h9
  have hhas : ∀ x, g1.hasNode x = true ↔ x ≠ id ∧ g.hasNode x = true := by
    intro x; rw [hasNode_eq_labE, hasNode_eq_labE, hlab]
    by_cases h : x = id <;> simp [h]
  refine ⟨h2, ?_, ?_, ?_, ?_, ?_, ?_, ?_, ?_⟩
  · intro a b hab
    rw [hout] at hab
    rw [hhas]
    split at hab
    · cases hab
    · rename_i hn
      simp only [not_or] at hn
      exact ⟨hn.2, hg.target a b hab⟩
  · intro hd a b
    rw [h3] at hd
    rw [h10, hout, hg.inSpec hd]
    by_cases ha : a = id <;> by_cases hb : b = id <;> simp [ha, hb]
  · intro hd b a
    rw [h3] at hd
    rw [h10]
    rintro ⟨-, -, h⟩
    exact hg.inNil hd b a h
  · intro hd a b hab
    rw [h3] at hd
    have hab : (g1.outE a b).isSome := hab
    show (g1.outE b a).isSome
    rw [hout] at hab ⊢
    split at hab
    · cases hab
    · rename_i hn
      rw [if_neg (fun h => hn h.symm)]
      exact hg.sym hd a b hab
  · have := hg.count
    omega
  · rw [h4]; exact hg.nlNodup
  · rw [h5]; exact hg.elNodup
  · intro n hn
    rw [hhas] at hn
    rw [h6]; exact hg.maxBound n hn.2

/-! ### Raw label writes -/

/-- Same structure: everything except labels. -/
structure SameStruct (g g' : GraphMap m k NL EL) : Prop where
  rest : SameRest g g'
  keys : AL.keys g'.nodeMap = AL.keys g.nodeMap
  out : ∀ a b, (g'.outE a b).isSome = (g.outE a b).isSome
  inn : ∀ b a, g'.inE b a ↔ g.inE b a
  lab : ∀ x, (g'.labE x).isSome = (g.labE x).isSome

theorem SameStruct.hasNode {g g' : GraphMap m k NL EL} (h : SameStruct g g') (x : Id m) :
    g'.hasNode x = g.hasNode x := by
  rw [hasNode_eq_labE, hasNode_eq_labE, h.lab]

theorem SameStruct.edgeNum {g g' : GraphMap m k NL EL} (h : SameStruct g g') :
    g'.edgeNum = g.edgeNum := by
  unfold GraphMap.edgeNum
  rw [h.rest.directed, AGraph.edgeNumber_eq, AGraph.edgeNumber_eq]
  congr 1
  ext p
  rw [AGraph.mem_edgeSet, AGraph.mem_edgeSet]
  have : ((g'.rep).edge p.1 p.2).isSome = ((g.rep).edge p.1 p.2).isSome := h.out p.1 p.2
  rw [this]

theorem SameStruct.inv {g g' : GraphMap m k NL EL} (h : SameStruct g g') (hg : g.Inv)
    (hw : g'.NWF) : g'.Inv := by
  refine ⟨hw, ?_, ?_, ?_, ?_, ?_, ?_, ?_, ?_⟩
  · intro s t hst
    rw [h.hasNode]; rw [h.out] at hst; exact hg.target s t hst
  · intro hd s t
    rw [h.inn, h.out]; exact hg.inSpec (h.rest.directed ▸ hd) s t
  · intro hd t s
    rw [h.inn]; exact hg.inNil (h.rest.directed ▸ hd) t s
  · intro hd s t hst
    have hst : (g'.outE s t).isSome := hst
    show (g'.outE t s).isSome
    rw [h.out] at hst ⊢
    exact hg.sym (h.rest.directed ▸ hd) s t hst
  · rw [h.edgeNum, h.rest.numEdges]; exact hg.count
  · rw [h.rest.nodeLabels]; exact hg.nlNodup
  · rw [h.rest.edgeLabels]; exact hg.elNodup
  · intro n hn
    rw [h.hasNode] at hn; rw [h.rest.maxId]; exact hg.maxBound n hn

theorem setNodeLabelId_spec {g : GraphMap m k NL EL} (hg : g.NWF) (n : Id m) (l)
    (hn : g.hasNode n = true) :
    ∃ g', g.setNodeLabelId n l = .ok g' ∧ g'.NWF ∧ SameStruct g g' ∧ g'.rep = g.rep.addNode n l := by
  obtain ⟨nd, hnd⟩ := (hasNode_iff _ _).1 hn
  have hnd' : AL.get g.nodeMap n = some nd := hnd
  have hrep : (g.modNode n (fun nd => nd.setLabelId l)).rep = g.rep.addNode n l := by
    apply AGraph_ext
    · intro x
      simp only [rep, AGraph.addNode, labE, getNode_modNode]
      by_cases hx : n = x
      · subst hx; simp [hnd, NodeMap.setLabelId]
      · simp [hx, Ne.symm hx]
    · intro a b
      exact outE_modNode _ n (f := fun nd => nd.setLabelId l) (fun _ => rfl) a b
  refine ⟨g.modNode n (fun nd => nd.setLabelId l), by simp [setNodeLabelId, modNode, hnd', pure_ok],
    nwf_modNode hg n (fun _ => rfl) (fun _ h => h) (fun _ h => h), ⟨sameRest_modNode _ _ _,
      keys_modNode _ _ _, ?_, ?_, ?_⟩, hrep⟩
  · intro a b
    rw [outE_modNode]; intro nd; rfl
  · intro b a
    apply inE_modNode; intro nd; rfl
  · intro x
    rw [← hasNode_eq_labE, ← hasNode_eq_labE, hasNode_modNode]

theorem setEdgeLabelId_spec {g : GraphMap m k NL EL} (hg : g.NWF) (s t : Id m) (l)
    (he : g.hasEdge s t = true) :
    ∃ g', g.setEdgeLabelId s t l = .ok g' ∧ g'.NWF ∧ SameStruct g g' ∧
      (∀ x, g'.labE x = g.labE x) ∧
      (∀ a b, g'.outE a b = if a = s ∧ b = t then some l else g.outE a b) := by
  have ho : (g.outE s t).isSome := by rw [← hasEdge_eq_outE]; exact he
  have hs := outE_hasNode ho
  have hout : ∀ a b, (g.modNode s (fun nd => { nd with neighbors := AL.set nd.neighbors t l })).outE a b
      = if a = s ∧ b = t then some l else g.outE a b := by
    intro a b
    by_cases ha : a = s
    · subst ha
      obtain ⟨nd, hnd⟩ := (hasNode_iff _ _).1 hs
      have hx : (AL.get nd.neighbors t).isSome := by simpa [outE, hnd] using ho
      obtain ⟨w, hw⟩ := Option.isSome_iff_exists.1 hx
      simp only [outE, getNode_modNode, if_true, hnd, Option.map_some, Option.bind_some, AL.get_set,
        true_and]
      by_cases hb : t = b
      · subst hb; simp [hw]
      · simp [hb, Ne.symm hb]
    · unfold outE; rw [getNode_modNode, if_neg (Ne.symm ha)]; simp [ha]
  refine ⟨g.modNode s (fun nd => { nd with neighbors := AL.set nd.neighbors t l }),
    by simp [setEdgeLabelId, he, withNode_eq _ hs],
    nwf_modNode hg s (fun _ => rfl) (fun _ h => by rw [AL.keys_set]; exact h) (fun _ h => h),
    ⟨sameRest_modNode _ _ _, keys_modNode _ _ _, ?_, ?_, ?_⟩, ?_, hout⟩
  · intro a b
    rw [hout]
    split
    · rename_i h; rw [h.1, h.2, ho]; rfl
    · rfl
  · intro b a
    apply inE_modNode; intro nd; rfl
  · intro x
    rw [← hasNode_eq_labE, ← hasNode_eq_labE, hasNode_modNode]
  · intro x
    apply labE_modNode; intro nd; rfl

/-- Mapping all node records. -/
theorem mapNodes_spec {g : GraphMap m k NL EL} (hg : g.NWF) (f : NodeMap m k → NodeMap m k)
    (hid : ∀ nd, (f nd).id = nd.id) (hk : ∀ nd, AL.keys (f nd).neighbors = AL.keys nd.neighbors)
    (hi : ∀ nd, (f nd).inNeighbors = nd.inNeighbors) :
    let g' : GraphMap m k NL EL := { g with nodeMap := g.nodeMap.map (fun p => (p.1, f p.2)) }
    g'.NWF ∧ SameStruct g g' ∧ ∀ x, g'.getNode x = (g.getNode x).map f := by
  intro g'
  have hget : ∀ x, g'.getNode x = (g.getNode x).map f := fun x =>
    AL.get_map_val g.nodeMap (fun _ v => f v) x
  have hkeys : AL.keys g'.nodeMap = AL.keys g.nodeMap := AL.keys_map_val g.nodeMap (fun _ v => f v)
  refine ⟨⟨by rw [hkeys]; exact hg.keys, ?_, ?_, ?_⟩,
    ⟨⟨rfl, rfl, rfl, rfl, rfl⟩, hkeys, ?_, ?_, ?_⟩, hget⟩
  · intro n nd h
    rw [hget] at h
    cases h1 : g.getNode n with
    | none => simp [h1] at h
    | some nd' =>
      simp only [h1, Option.map_some, Option.some.injEq] at h; subst h
      rw [hid]; exact hg.ids n nd' h1
  · intro n nd h
    rw [hget] at h
    cases h1 : g.getNode n with
    | none => simp [h1] at h
    | some nd' =>
      simp only [h1, Option.map_some, Option.some.injEq] at h; subst h
      rw [hk]; exact hg.sortedOut n nd' h1
  · intro n nd h
    rw [hget] at h
    cases h1 : g.getNode n with
    | none => simp [h1] at h
    | some nd' =>
      simp only [h1, Option.map_some, Option.some.injEq] at h; subst h
      rw [hi]; exact hg.sortedIn n nd' h1
  · intro a b
    unfold outE
    rw [hget]
    cases g.getNode a with
    | none => rfl
    | some nd =>
      simp only [Option.map_some, Option.bind_some]
      rw [Bool.eq_iff_iff, AL.get_isSome_iff, AL.get_isSome_iff, hk]
  · intro b a
    unfold inE
    rw [hget]
    cases g.getNode b <;> simp [hi]
  · intro x
    unfold labE
    rw [hget]
    cases g.getNode x <;> simp

theorem mapNodeLabelIds_spec {g : GraphMap m k NL EL} (hg : g.NWF) (f) :
    (g.mapNodeLabelIds f).NWF ∧ SameStruct g (g.mapNodeLabelIds f) ∧
      (∀ x, (g.mapNodeLabelIds f).labE x = (g.labE x).map (f x)) ∧
      (∀ a b, (g.mapNodeLabelIds f).outE a b = g.outE a b) := by
  obtain ⟨h1, h2, h3⟩ := mapNodes_spec hg (fun nd => nd.setLabelId (f nd.id nd.label))
    (fun _ => rfl) (fun _ => rfl) (fun _ => rfl)
  refine ⟨h1, h2, ?_, ?_⟩
  · intro x
    have h3 : (g.mapNodeLabelIds f).getNode x = _ := h3 x
    unfold labE
    rw [h3]
    cases h : g.getNode x with
    | none => rfl
    | some nd => simp [NodeMap.setLabelId, hg.ids x nd h]
  · intro a b
    have h3 : (g.mapNodeLabelIds f).getNode a = _ := h3 a
    unfold outE
    rw [h3]
    cases h : g.getNode a with
    | none => rfl
    | some nd => simp [NodeMap.setLabelId]

theorem mapEdgeLabelIds_spec {g : GraphMap m k NL EL} (hg : g.NWF) (f) :
    (g.mapEdgeLabelIds f).NWF ∧ SameStruct g (g.mapEdgeLabelIds f) ∧
      (∀ x, (g.mapEdgeLabelIds f).labE x = g.labE x) ∧
      (∀ a b, (g.mapEdgeLabelIds f).outE a b =
        if g.directed = true ∨ a ≤ b then (g.outE a b).map (f a b) else g.outE a b) := by
  cases hd : g.directed with
  | true =>
    obtain ⟨h1, h2, h3⟩ := mapNodes_spec hg (fun nd => nd.mapNeighbors f)
      (fun _ => rfl) (fun nd => AL.keys_map_val nd.neighbors (f nd.id)) (fun _ => rfl)
    have e : g.mapEdgeLabelIds f =
        { g with nodeMap := g.nodeMap.map (fun p => (p.1, p.2.mapNeighbors f)) } := by
      simp [mapEdgeLabelIds, hd]
    rw [e]
    refine ⟨h1, h2, ?_, ?_⟩
    · intro x
      unfold labE
      rw [h3 x]
      cases h : g.getNode x <;> simp [NodeMap.mapNeighbors]
    · intro a b
      unfold outE
      rw [h3 a]
      cases h : g.getNode a with
      | none => simp
      | some nd =>
        simp only [Option.map_some, Option.bind_some, true_or, if_true]
        have := AL.get_map_val nd.neighbors (f nd.id) b
        rw [← hg.ids a nd h]
        exact this
  | false =>
    have key : ∀ nd : NodeMap m k, (nd.mapNonLess f).neighbors = nd.neighbors.map
        (fun p => (p.1, (fun i l => if nd.id ≤ i then f nd.id i l else l) p.1 p.2)) := by
      intro nd
      unfold NodeMap.mapNonLess
      apply List.map_congr_left
      rintro ⟨i, l⟩ -
      simp only
      split <;> rfl
    obtain ⟨h1, h2, h3⟩ := mapNodes_spec hg (fun nd => nd.mapNonLess f)
      (fun _ => rfl) (fun nd => by
        rw [key]
        exact AL.keys_map_val nd.neighbors (fun i l => if nd.id ≤ i then f nd.id i l else l))
      (fun _ => rfl)
    have e : g.mapEdgeLabelIds f =
        { g with nodeMap := g.nodeMap.map (fun p => (p.1, p.2.mapNonLess f)) } := by
      simp [mapEdgeLabelIds, hd]
    rw [e]
    refine ⟨h1, h2, ?_, ?_⟩
    · intro x
      unfold labE
      rw [h3 x]
      cases h : g.getNode x <;> simp [NodeMap.mapNonLess]
    · intro a b
      unfold outE
      rw [h3 a]
      cases h : g.getNode a with
      | none => simp
      | some nd =>
        have := AL.get_map_val nd.neighbors (fun i l => if nd.id ≤ i then f nd.id i l else l) b
        simp only [Option.map_some, Option.bind_some, Bool.false_eq_true, false_or]
        rw [key, this, hg.ids a nd h]
        split
        · rfl
        · simp

/-! ### Enumerations -/

theorem mem_values {g : GraphMap m k NL EL} (hg : g.NWF) (nd : NodeMap m k) :
    nd ∈ AL.values g.nodeMap ↔ g.getNode nd.id = some nd := by
  unfold AL.values
  constructor
  · intro h
    obtain ⟨⟨n, nd'⟩, h1, rfl⟩ := List.mem_map.1 h
    have h2 : g.getNode n = some nd' := AL.get_eq_of_mem hg.keys h1
    rw [hg.ids n nd' h2]; exact h2
  · intro h
    exact List.mem_map.2 ⟨_, AL.get_mem h, rfl⟩

theorem values_pairwise {g : GraphMap m k NL EL} (hg : g.NWF) :
    (AL.values g.nodeMap).Pairwise (fun a b => a.id ≠ b.id) := by
  have h : (AL.values g.nodeMap).map (·.id) = AL.keys g.nodeMap := by
    unfold AL.values AL.keys
    rw [List.map_map]
    apply List.map_congr_left
    rintro ⟨n, nd⟩ hm
    exact hg.ids n nd (AL.get_eq_of_mem hg.keys hm)
  have := hg.keys
  rw [← h] at this
  exact List.pairwise_map.1 this

theorem mem_nodeIndices (g : GraphMap m k NL EL) (n : Id m) :
    n ∈ g.nodeIndices ↔ g.hasNode n = true := (AL.get_isSome_iff _ _).symm

theorem edgeIndices_eq (g : GraphMap m k NL EL) :
    g.edgeIndices = g.edges.map (fun e => (e.src, e.dst)) := by
  unfold edgeIndices edges
  split <;>
  · rw [List.map_flatMap]
    congr 1
    funext nd
    simp [NodeMap.neighborIds, NodeMap.neighborEdges, NodeMap.nonLessNeighborIds,
      NodeMap.nonLessNeighborEdges, AL.keys]

theorem outE_of_get {g : GraphMap m k NL EL} {nd : NodeMap m k} {n : Id m}
    (h : g.getNode n = some nd) (t) : g.outE n t = AL.get nd.neighbors t := by
  simp [outE, h]

theorem mem_edges {g : GraphMap m k NL EL} (hg : g.NWF) (e : Edge m k) :
    e ∈ g.edges ↔ g.outE e.src e.dst = some e.label ∧ (g.directed = true ∨ e.src ≤ e.dst) := by
  obtain ⟨a, b, l⟩ := e
  simp only
  have key : ∀ nd : NodeMap m k, g.getNode nd.id = some nd → ∀ t l,
      (t, l) ∈ nd.neighbors ↔ g.outE nd.id t = some l := by
    intro nd h t l
    rw [outE_of_get h]
    exact AL.mem_iff_get (sorted_nodup (hg.sortedOut _ _ h))
  unfold edges
  cases hd : g.directed with
  | true =>
    simp only [if_true, List.mem_flatMap, true_or, and_true]
    constructor
    · rintro ⟨nd, h1, h2⟩
      rw [mem_values hg] at h1
      unfold NodeMap.neighborEdges at h2
      obtain ⟨⟨t, l'⟩, h3, h4⟩ := List.mem_map.1 h2
      cases h4
      exact (key nd h1 _ _).1 h3
    · intro h
      obtain ⟨nd, hnd⟩ := (hasNode_iff _ _).1 (outE_hasNode (g := g) (s := a) (t := b) (by rw [h]; rfl))
      have hid := hg.ids a nd hnd
      subst hid
      exact ⟨nd, (mem_values hg nd).2 hnd, List.mem_map.2 ⟨(b, l), (key nd hnd b l).2 h, rfl⟩⟩
  | false =>
    simp only [Bool.false_eq_true, if_false, List.mem_flatMap, false_or]
    constructor
    · rintro ⟨nd, h1, h2⟩
      rw [mem_values hg] at h1
      unfold NodeMap.nonLessNeighborEdges NodeMap.nonLess at h2
      obtain ⟨⟨t, l'⟩, h3, h4⟩ := List.mem_map.1 h2
      cases h4
      rw [List.mem_filter] at h3
      exact ⟨(key nd h1 _ _).1 h3.1, by simpa using h3.2⟩
    · rintro ⟨h, hle⟩
      obtain ⟨nd, hnd⟩ := (hasNode_iff _ _).1 (outE_hasNode (g := g) (s := a) (t := b) (by rw [h]; rfl))
      have hid := hg.ids a nd hnd
      subst hid
      refine ⟨nd, (mem_values hg nd).2 hnd, List.mem_map.2 ⟨(b, l), ?_, rfl⟩⟩
      exact List.mem_filter.2 ⟨(key nd hnd b l).2 h, by simpa using hle⟩

theorem edgeIndices_nodup {g : GraphMap m k NL EL} (hg : g.NWF) : g.edgeIndices.Nodup := by
  have key : ∀ f : NodeMap m k → List (Id m),
      (∀ nd, g.getNode nd.id = some nd → (f nd).Nodup) →
      ((AL.values g.nodeMap).flatMap (fun nd => (f nd).map (fun i => (nd.id, i)))).Nodup := by
    intro f hf
    rw [List.nodup_flatMap]
    constructor
    · intro nd hnd
      rw [mem_values hg] at hnd
      exact (hf nd hnd).map (fun a b h => by cases h; rfl)
    · apply (values_pairwise hg).imp
      intro a b hab
      simp only [Function.onFun, List.disjoint_left, List.mem_map]
      rintro p ⟨i, -, rfl⟩ ⟨j, -, h⟩
      simp only [Prod.mk.injEq] at h
      exact hab h.1.symm
  unfold edgeIndices
  split
  · exact key _ (fun nd h => sorted_nodup (hg.sortedOut _ _ h))
  · apply key
    intro nd h
    unfold NodeMap.nonLessNeighborIds NodeMap.nonLess
    exact (sorted_nodup (hg.sortedOut _ _ h)).sublist (List.filter_sublist.map _)

theorem mem_edgeIndices {g : GraphMap m k NL EL} (hg : g.NWF) (p : Id m × Id m) :
    p ∈ g.edgeIndices ↔ (g.outE p.1 p.2).isSome ∧ (g.directed = true ∨ p.1 ≤ p.2) := by
  rw [edgeIndices_eq, List.mem_map]
  constructor
  · rintro ⟨e, he, rfl⟩
    rw [mem_edges hg] at he
    rw [he.1]; exact ⟨rfl, he.2⟩
  · rintro ⟨h1, h2⟩
    obtain ⟨l, hl⟩ := Option.isSome_iff_exists.1 h1
    exact ⟨⟨p.1, p.2, l⟩, (mem_edges hg _).2 ⟨hl, h2⟩, rfl⟩

theorem edgeIndices_length {g : GraphMap m k NL EL} (hg : g.NWF) :
    g.edgeIndices.length = g.edgeNum := by
  unfold edgeNum AGraph.edgeNumber
  rw [length_eq_card _ (edgeIndices_nodup hg) _ (mem_edgeIndices hg)]
  rfl

/-! ### Every call -/

theorem inv_rehash {g : GraphMap m k NL EL} (hg : g.Inv) {nm} (hp : g.nodeMap.Perm nm) :
    Inv { g with nodeMap := nm } := by
  have hget : ∀ x, ({ g with nodeMap := nm } : GraphMap m k NL EL).getNode x = g.getNode x :=
    fun x => AL.get_perm hg.keys hp x
  have hrep : ({ g with nodeMap := nm } : GraphMap m k NL EL).rep = g.rep := by
    apply AGraph_ext
    · intro n; simp [rep, labE, hget]
    · intro a b; simp [rep, outE, hget]
  have hhas : ∀ x, ({ g with nodeMap := nm } : GraphMap m k NL EL).hasNode x = g.hasNode x := by
    intro x; rw [Bool.eq_iff_iff, hasNode_iff, hasNode_iff, hget]
  have hout : ∀ a b, ({ g with nodeMap := nm } : GraphMap m k NL EL).outE a b = g.outE a b := by
    intro a b; simp [outE, hget]
  have hin : ∀ a b, ({ g with nodeMap := nm } : GraphMap m k NL EL).inE a b ↔ g.inE a b := by
    intro a b; simp [inE, hget]
  refine ⟨⟨(hp.map Prod.fst).nodup_iff.1 hg.keys, ?_, ?_, ?_⟩, ?_, ?_, ?_, ?_, ?_,
    hg.nlNodup, hg.elNodup, ?_⟩
  · intro n nd h; rw [hget] at h; exact hg.ids n nd h
  · intro n nd h; rw [hget] at h; exact hg.sortedOut n nd h
  · intro n nd h; rw [hget] at h; exact hg.sortedIn n nd h
  · intro s t h; rw [hout] at h; rw [hhas]; exact hg.target s t h
  · intro hd s t; rw [hin, hout]; exact hg.inSpec hd s t
  · intro hd s t; rw [hin]; exact hg.inNil hd s t
  · rw [hrep]; exact hg.sym
  · unfold edgeNum; rw [hrep]; exact hg.count
  · intro n h; rw [hhas] at h; exact hg.maxBound n h

theorem getNode_rehash {g : GraphMap m k NL EL} (hg : g.NWF) {nm} (hp : g.nodeMap.Perm nm)
    (x : Id m) : ({ g with nodeMap := nm } : GraphMap m k NL EL).getNode x = g.getNode x :=
  AL.get_perm hg.keys hp x

theorem rep_rehash {g : GraphMap m k NL EL} (hg : g.NWF) {nm} (hp : g.nodeMap.Perm nm) :
    ({ g with nodeMap := nm } : GraphMap m k NL EL).rep = g.rep := by
  apply AGraph_ext
  · intro n; simp [rep, labE, getNode_rehash hg hp]
  · intro a b; simp [rep, outE, getNode_rehash hg hp]

theorem inv_apply [DecidableEq NL] [DecidableEq EL] {g g' : GraphMap m k NL EL} (hg : g.Inv)
    {op : Op m k NL EL} (h : g.apply op = .ok g') : g'.Inv := by
  cases op with
  | addNode n l =>
    obtain ⟨r, h1, h2⟩ := bind_eq_ok h
    cases h2; exact inv_addNode hg h1
  | removeNode n =>
    obtain ⟨r, h1, h2⟩ := bind_eq_ok h
    cases h2; exact inv_removeNode hg h1
  | addEdge s t l =>
    obtain ⟨r, h1, h2⟩ := bind_eq_ok h
    cases h2; exact inv_addEdge hg h1
  | removeEdge s t =>
    obtain ⟨r, h1, h2⟩ := bind_eq_ok h
    cases h2; exact inv_removeEdge hg h1
  | updateNodeLabel n l =>
    obtain ⟨r, h1, h2⟩ := bind_eq_ok h
    cases h2
    unfold updateNodeLabel at h1
    split at h1
    · cases h1; exact hg
    · obtain ⟨r, h3, h2⟩ := bind_eq_ok h1
      cases h2; exact inv_addNode hg h3
  | updateEdgeLabel s t l =>
    obtain ⟨r, h1, h2⟩ := bind_eq_ok h
    cases h2
    unfold updateEdgeLabel at h1
    split at h1
    · cases h1; exact hg
    · obtain ⟨r, h3, h2⟩ := bind_eq_ok h1
      cases h2; exact inv_addEdge hg h3
  | addNodeLabel l =>
    obtain ⟨r, h1, h2⟩ := bind_eq_ok h
    cases h2
    obtain ⟨s', lid, e1, -, e2, -⟩ := intern_ok (k := k) g.nodeLabels l
    simp only [addNodeLabel, e1, bind_ok, pure_ok] at h1
    cases h1
    exact ⟨⟨hg.keys, hg.ids, hg.sortedOut, hg.sortedIn⟩, hg.target, hg.inSpec, hg.inNil, hg.sym,
      hg.count, e2 hg.nlNodup, hg.elNodup, hg.maxBound⟩
  | addEdgeLabel l =>
    obtain ⟨r, h1, h2⟩ := bind_eq_ok h
    cases h2
    obtain ⟨s', lid, e1, -, e2, -⟩ := intern_ok (k := k) g.edgeLabels l
    simp only [addEdgeLabel, e1, bind_ok, pure_ok] at h1
    cases h1
    exact ⟨⟨hg.keys, hg.ids, hg.sortedOut, hg.sortedIn⟩, hg.target, hg.inSpec, hg.inNil, hg.sym,
      hg.count, hg.nlNodup, e2 hg.elNodup, hg.maxBound⟩
  | refineEdgeCount =>
    cases h
    exact ⟨⟨hg.keys, hg.ids, hg.sortedOut, hg.sortedIn⟩, hg.target, hg.inSpec, hg.inNil, hg.sym,
      (edgeIndices_length hg.toNWF).ge, hg.nlNodup, hg.elNodup, hg.maxBound⟩
  | setNodeLabelId n l =>
    by_cases hn : g.hasNode n = true
    · obtain ⟨g1, h1, h2, h3, -⟩ := setNodeLabelId_spec hg.toNWF n l hn
      have h : g.setNodeLabelId n l = .ok g' := h
      rw [h1] at h; cases h
      exact h3.inv hg h2
    · exfalso
      have hn : AL.get g.nodeMap n = none := by simpa [hasNode] using hn
      simp [apply, setNodeLabelId, hn] at h
  | setEdgeLabelId s t l =>
    by_cases hn : g.hasEdge s t = true
    · obtain ⟨g1, h1, h2, h3, -⟩ := setEdgeLabelId_spec hg.toNWF s t l hn
      have h : g.setEdgeLabelId s t l = .ok g' := h
      rw [h1] at h; cases h
      exact h3.inv hg h2
    · exfalso
      simp [apply, setEdgeLabelId, hn] at h
  | mapNodeLabelIds f =>
    cases h
    obtain ⟨h1, h2, -⟩ := mapNodeLabelIds_spec hg.toNWF f
    exact h2.inv hg h1
  | mapEdgeLabelIds f =>
    cases h
    obtain ⟨h1, h2, -⟩ := mapEdgeLabelIds_spec hg.toNWF f
    exact h2.inv hg h1

theorem inv_run [DecidableEq NL] [DecidableEq EL] {g0 g : GraphMap m k NL EL} (h0 : g0.Inv) {ops}
    (h : Run g0 ops g) : g.Inv := by
  induction h with
  | nil => exact h0
  | step _ h ih => exact inv_apply ih h
  | rehash _ hp ih => exact inv_rehash ih hp

end GraphMap

end Verif
