import Verif.Model.GraphMap
import Verif.Proof.LabelMap
import Verif.Proof.Collections

/-! Invariants of `GraphMap` and the effect of each mutator, in terms of flat views. -/

namespace Verif

/-! ### Interning -/

theorem intern_none {k : Nat} {X : Type} [DecidableEq X] (s : SetMap X) :
    intern (k := k) s none = .ok (s, none) := rfl

theorem intern_ok {k : Nat} {X : Type} [DecidableEq X] (s : SetMap X) (l : Option X) :
    ∃ s' lid, intern (k := k) s l = .ok (s', lid) ∧ s.labels <+: s'.labels ∧
      (s.labels.Nodup → s'.labels.Nodup) ∧ (l = none → s' = s ∧ lid = none) ∧
      (∀ x, l = some x → ∃ i, lid = some (Id.new i) ∧ s'.labels[i]? = some x) ∧
      (∀ y, y ∈ s'.labels ↔ y ∈ s.labels ∨ l = some y) := by
  cases l with
  | none => exact ⟨s, none, rfl, List.prefix_refl _, id, fun _ => ⟨rfl, rfl⟩, by simp, by simp⟩
  | some x =>
    obtain ⟨i, hi, hx⟩ := SetMap.addItem_fst s x
    refine ⟨s.insert x, some (Id.new i), ?_, SetMap.insert_prefix s x,
      fun h => SetMap.insert_nodup h x, by simp, ?_, ?_⟩
    · simp [intern, hi, bind_ok, pure_ok]
    · rintro y ⟨⟩; exact ⟨i, rfl, hx⟩
    · intro y; rw [SetMap.mem_insert]; simp [eq_comm]

namespace GraphMap

variable {m k : Nat} {NL EL : Type}

/-! ### Flat views -/

/-- The label id of node `n`, if present. -/
def labE (g : GraphMap m k NL EL) (n : Id m) : Option (Option (Id k)) := (g.getNode n).map (·.label)

/-- The label id of the stored arc `s → t`, if present. -/
def outE (g : GraphMap m k NL EL) (s t : Id m) : Option (Option (Id k)) :=
  (g.getNode s).bind (fun nd => AL.get nd.neighbors t)

/-- `s` is recorded as an in-neighbour of `t`. -/
def inE (g : GraphMap m k NL EL) (t s : Id m) : Prop :=
  ∃ nd, g.getNode t = some nd ∧ s ∈ nd.inNeighbors

/-- Local well-formedness: the keys are distinct and each node record is in order. -/
structure NWF (g : GraphMap m k NL EL) : Prop where
  keys : (AL.keys g.nodeMap).Nodup
  ids : ∀ n nd, g.getNode n = some nd → nd.id = n
  sortedOut : ∀ n nd, g.getNode n = some nd → (AL.keys nd.neighbors).Pairwise (· < ·)
  sortedIn : ∀ n nd, g.getNode n = some nd → nd.inNeighbors.Pairwise (· < ·)

theorem hasNode_iff (g : GraphMap m k NL EL) (n : Id m) :
    g.hasNode n = true ↔ ∃ nd, g.getNode n = some nd := by
  simp [hasNode, getNode, Option.isSome_iff_exists]

theorem hasNode_eq_labE (g : GraphMap m k NL EL) (n : Id m) :
    g.hasNode n = (g.labE n).isSome := by
  simp [hasNode, labE, getNode]

theorem hasEdge_eq_outE (g : GraphMap m k NL EL) (s t : Id m) :
    g.hasEdge s t = (g.outE s t).isSome := by
  unfold hasEdge outE
  cases g.getNode s <;> simp [NodeMap.hasNeighbor]

theorem getEdge_eq_outE (g : GraphMap m k NL EL) (s t : Id m) :
    g.getEdge s t = .ok ((g.outE s t).map (fun l => ⟨s, t, l⟩)) := by
  unfold getEdge
  rw [hasEdge_eq_outE]
  cases h : g.outE s t with
  | none => rfl
  | some l =>
    unfold outE at h
    cases h1 : g.getNode s with
    | none => simp [h1] at h
    | some nd =>
      simp only [h1, Option.bind_some] at h
      simp [unwrap, NodeMap.getNeighbor, h, bind_ok, pure_ok]

theorem outE_hasNode {g : GraphMap m k NL EL} {s t : Id m} (h : (g.outE s t).isSome) :
    g.hasNode s = true := by
  unfold outE at h
  rw [hasNode_iff]
  cases h1 : g.getNode s with
  | none => simp [h1] at h
  | some nd => exact ⟨nd, rfl⟩

/-! ### Primitive updates -/

/-- Change node `n` by `f` if it is present. -/
def modNode (g : GraphMap m k NL EL) (n : Id m) (f : NodeMap m k → NodeMap m k) :
    GraphMap m k NL EL :=
  match AL.get g.nodeMap n with
  | some nd => { g with nodeMap := AL.set g.nodeMap n (f nd) }
  | none => g

theorem withNode_eq {g : GraphMap m k NL EL} {n : Id m} (f) (h : g.hasNode n = true) :
    g.withNode n f = .ok (g.modNode n f) := by
  obtain ⟨nd, hnd⟩ := (hasNode_iff g n).1 h
  unfold getNode at hnd
  simp [withNode, modNode, hnd, unwrap, bind_ok, pure_ok]

theorem withNode_error {g : GraphMap m k NL EL} {n : Id m} (f) (h : g.hasNode n = false) :
    g.withNode n f = .error .unwrapNone := by
  have : AL.get g.nodeMap n = none := by simpa [hasNode] using h
  simp [withNode, this, unwrap]

theorem getNode_modNode (g : GraphMap m k NL EL) (n : Id m) (f) (x : Id m) :
    (g.modNode n f).getNode x = if n = x then (g.getNode x).map f else g.getNode x := by
  unfold modNode getNode
  cases h : AL.get g.nodeMap n with
  | none =>
    by_cases hx : n = x
    · subst hx; simp [h]
    · simp [hx]
  | some nd =>
    simp only [AL.get_set, h, Option.map_some]
    by_cases hx : n = x
    · subst hx; simp [h]
    · simp [hx]

theorem keys_modNode (g : GraphMap m k NL EL) (n : Id m) (f) :
    AL.keys (g.modNode n f).nodeMap = AL.keys g.nodeMap := by
  unfold modNode
  split
  · exact AL.keys_set _ _ _
  · rfl

theorem hasNode_modNode (g : GraphMap m k NL EL) (n : Id m) (f) (x : Id m) :
    (g.modNode n f).hasNode x = g.hasNode x := by
  rw [Bool.eq_iff_iff, hasNode_iff, hasNode_iff, getNode_modNode]
  split <;> simp

section
variable (g : GraphMap m k NL EL) (n : Id m) (f : NodeMap m k → NodeMap m k)

@[simp] theorem modNode_directed : (g.modNode n f).directed = g.directed := by
  unfold modNode; split <;> rfl
@[simp] theorem modNode_numEdges : (g.modNode n f).numEdges = g.numEdges := by
  unfold modNode; split <;> rfl
@[simp] theorem modNode_nodeLabels : (g.modNode n f).nodeLabels = g.nodeLabels := by
  unfold modNode; split <;> rfl
@[simp] theorem modNode_edgeLabels : (g.modNode n f).edgeLabels = g.edgeLabels := by
  unfold modNode; split <;> rfl
@[simp] theorem modNode_maxId : (g.modNode n f).maxId = g.maxId := by
  unfold modNode; split <;> rfl
end

/-- Everything but the node records. -/
structure SameRest (g g' : GraphMap m k NL EL) : Prop where
  directed : g'.directed = g.directed
  numEdges : g'.numEdges = g.numEdges
  nodeLabels : g'.nodeLabels = g.nodeLabels
  edgeLabels : g'.edgeLabels = g.edgeLabels
  maxId : g'.maxId = g.maxId

theorem SameRest.rfl (g : GraphMap m k NL EL) : SameRest g g := ⟨Eq.refl _, Eq.refl _, Eq.refl _, Eq.refl _, Eq.refl _⟩

theorem SameRest.trans {g g' g'' : GraphMap m k NL EL} (h : SameRest g g') (h' : SameRest g' g'') :
    SameRest g g'' :=
  ⟨h'.1.trans h.1, h'.2.trans h.2, h'.3.trans h.3, h'.4.trans h.4, h'.5.trans h.5⟩

theorem sameRest_modNode (g : GraphMap m k NL EL) (n f) : SameRest g (g.modNode n f) := by
  constructor <;> simp

theorem nwf_modNode {g : GraphMap m k NL EL} (hg : g.NWF) (n : Id m) {f}
    (hid : ∀ nd, (f nd).id = nd.id)
    (hout : ∀ nd, (AL.keys nd.neighbors).Pairwise (· < ·) →
      (AL.keys (f nd).neighbors).Pairwise (· < ·))
    (hin : ∀ nd, nd.inNeighbors.Pairwise (· < ·) → (f nd).inNeighbors.Pairwise (· < ·)) :
    (g.modNode n f).NWF := by
  refine ⟨by rw [keys_modNode]; exact hg.keys, ?_, ?_, ?_⟩ <;>
  · intro x nd h
    rw [getNode_modNode] at h
    split at h
    · cases h1 : g.getNode x with
      | none => simp [h1] at h
      | some nd' =>
        simp only [h1, Option.map_some, Option.some.injEq] at h
        subst h
        first
          | exact (hid nd').trans (hg.ids x nd' h1)
          | exact hout nd' (hg.sortedOut x nd' h1)
          | exact hin nd' (hg.sortedIn x nd' h1)
    · first
        | exact hg.ids x nd h
        | exact hg.sortedOut x nd h
        | exact hg.sortedIn x nd h

/-! #### addEdge on a node record -/

theorem nwf_mAddEdge {g : GraphMap m k NL EL} (hg : g.NWF) (s t : Id m) (l : Option (Id k)) :
    (g.modNode s (fun nd => (nd.addEdge t l).1)).NWF :=
  nwf_modNode hg s (fun _ => rfl) (fun _ h => AL.sorted_binsert h t l) (fun _ h => h)

theorem labE_modNode (g : GraphMap m k NL EL) (n : Id m) {f} (hf : ∀ nd, (f nd).label = nd.label)
    (x : Id m) : (g.modNode n f).labE x = g.labE x := by
  unfold labE
  rw [getNode_modNode]
  split
  · cases g.getNode x <;> simp [hf]
  · rfl

theorem outE_modNode (g : GraphMap m k NL EL) (n : Id m) {f}
    (hf : ∀ nd, (f nd).neighbors = nd.neighbors) (a b : Id m) :
    (g.modNode n f).outE a b = g.outE a b := by
  unfold outE
  rw [getNode_modNode]
  split
  · cases g.getNode a <;> simp [hf]
  · rfl

theorem inE_modNode (g : GraphMap m k NL EL) (n : Id m) {f}
    (hf : ∀ nd, (f nd).inNeighbors = nd.inNeighbors) (b a : Id m) :
    (g.modNode n f).inE b a ↔ g.inE b a := by
  unfold inE
  rw [getNode_modNode]
  split
  · cases g.getNode b <;> simp [hf]
  · rfl

theorem outE_mAddEdge (g : GraphMap m k NL EL) (s t : Id m) (l : Option (Id k))
    (hs : g.hasNode s = true) (a b : Id m) :
    (g.modNode s (fun nd => (nd.addEdge t l).1)).outE a b =
      if a = s ∧ b = t then some l else g.outE a b := by
  unfold outE
  rw [getNode_modNode]
  by_cases ha : s = a
  · subst ha
    obtain ⟨nd, hnd⟩ := (hasNode_iff g s).1 hs
    simp only [if_true, hnd, Option.map_some, Option.bind_some, NodeMap.addEdge, AL.get_binsert,
      true_and]
    by_cases hb : t = b
    · simp [hb]
    · simp [hb, Ne.symm hb]
  · simp [ha, Ne.symm ha]

theorem nwf_mAddIn {g : GraphMap m k NL EL} (hg : g.NWF) (t s : Id m) :
    (g.modNode t (fun nd => nd.addInEdge s)).NWF := by
  refine nwf_modNode hg t ?_ ?_ ?_
  · intro nd; unfold NodeMap.addInEdge; split <;> rfl
  · intro nd h; unfold NodeMap.addInEdge; split <;> exact h
  · intro nd h; unfold NodeMap.addInEdge; split
    · exact h
    · exact BSet.sorted_sinsert h s

theorem inE_mAddIn (g : GraphMap m k NL EL) (t s : Id m) (ht : g.hasNode t = true) (b a : Id m) :
    (g.modNode t (fun nd => nd.addInEdge s)).inE b a ↔ (b = t ∧ a = s) ∨ g.inE b a := by
  unfold inE
  rw [getNode_modNode]
  by_cases hb : t = b
  · subst hb
    obtain ⟨nd, hnd⟩ := (hasNode_iff g t).1 ht
    simp only [if_true, hnd, Option.map_some, Option.some.injEq, true_and, exists_eq_left']
    unfold NodeMap.addInEdge
    split
    · rename_i h
      simp only [NodeMap.hasInNeighbor, BSet.contains, decide_eq_true_eq] at h
      constructor
      · exact Or.inr
      · rintro (rfl | h')
        · exact h
        · exact h'
    · exact BSet.mem_sinsert _ _ _
  · simp [hb, Ne.symm hb]

theorem NodeMap_removeEdge_fst (nd : NodeMap m k) (t : Id m) :
    (nd.removeEdge t).1 = { nd with neighbors := AL.erase nd.neighbors t } := by
  unfold NodeMap.removeEdge
  split
  · rfl
  · rename_i h
    have : AL.erase nd.neighbors t = nd.neighbors := by
      unfold AL.erase
      rw [List.filter_eq_self]
      intro p hp
      have := (AL.get_eq_none_iff _ _).1 h
      simp only [decide_not, Bool.not_eq_eq_eq_not, Bool.not_true, decide_eq_false_iff_not]
      rintro rfl
      exact this (List.mem_map.2 ⟨p, hp, rfl⟩)
    rw [this]

theorem nwf_mRemEdge {g : GraphMap m k NL EL} (hg : g.NWF) (s t : Id m) :
    (g.modNode s (fun nd => (nd.removeEdge t).1)).NWF := by
  simp only [NodeMap_removeEdge_fst]
  exact nwf_modNode hg s (fun _ => rfl) (fun _ h => AL.sorted_erase h t) (fun _ h => h)

theorem outE_mRemEdge (g : GraphMap m k NL EL) (s t a b : Id m) :
    (g.modNode s (fun nd => (nd.removeEdge t).1)).outE a b =
      if a = s ∧ b = t then none else g.outE a b := by
  simp only [NodeMap_removeEdge_fst]
  unfold outE
  rw [getNode_modNode]
  by_cases ha : s = a
  · subst ha
    cases hnd : g.getNode s with
    | none => simp
    | some nd =>
      simp only [if_true, Option.map_some, Option.bind_some, AL.get_erase, true_and]
      by_cases hb : t = b
      · simp [hb]
      · simp [hb, Ne.symm hb]
  · simp [ha, Ne.symm ha]

theorem nwf_mRemIn {g : GraphMap m k NL EL} (hg : g.NWF) (t s : Id m) :
    (g.modNode t (fun nd => nd.removeInEdge s)).NWF :=
  nwf_modNode hg t (fun _ => rfl) (fun _ h => h) (fun _ h => BSet.sorted_erase h s)

theorem inE_mRemIn (g : GraphMap m k NL EL) (t s b a : Id m) :
    (g.modNode t (fun nd => nd.removeInEdge s)).inE b a ↔ ¬ (b = t ∧ a = s) ∧ g.inE b a := by
  unfold inE
  rw [getNode_modNode]
  by_cases hb : t = b
  · subst hb
    cases hnd : g.getNode t with
    | none => simp
    | some nd =>
      simp only [if_true, Option.map_some, Option.some.injEq, true_and, exists_eq_left',
        NodeMap.removeInEdge, BSet.mem_erase]
      tauto
  · simp [hb, Ne.symm hb]

/-! #### Inserting and erasing nodes -/

/-- Add the fresh node `n`. -/
def insNode (g : GraphMap m k NL EL) (n : Id m) (l : Option (Id k)) : GraphMap m k NL EL :=
  { g with nodeMap := AL.hinsert g.nodeMap n (NodeMap.new n l), maxId := bumpMax g.maxId n }

theorem getNode_insNode (g : GraphMap m k NL EL) (n : Id m) (l) (x : Id m) :
    (g.insNode n l).getNode x = if n = x then some (NodeMap.new n l) else g.getNode x :=
  AL.get_hinsert _ _ _ _

theorem nwf_insNode {g : GraphMap m k NL EL} (hg : g.NWF) (n : Id m) (l) : (g.insNode n l).NWF := by
  refine ⟨AL.keys_hinsert_nodup hg.keys _ _, ?_, ?_, ?_⟩ <;>
  · intro x nd h
    rw [getNode_insNode] at h
    split at h
    · rename_i hx; cases h; simp [NodeMap.new, hx, AL.keys]
    · first
        | exact hg.ids x nd h
        | exact hg.sortedOut x nd h
        | exact hg.sortedIn x nd h

theorem labE_insNode (g : GraphMap m k NL EL) (n : Id m) (l) (x : Id m) :
    (g.insNode n l).labE x = if x = n then some l else g.labE x := by
  unfold labE
  rw [getNode_insNode]
  by_cases h : n = x
  · subst h; simp [NodeMap.new]
  · simp [h, Ne.symm h]

theorem outE_insNode (g : GraphMap m k NL EL) (n : Id m) (l) (hn : g.hasNode n = false) (a b : Id m) :
    (g.insNode n l).outE a b = g.outE a b := by
  unfold outE
  rw [getNode_insNode]
  by_cases h : n = a
  · subst h
    have : g.getNode n = none := by simpa [hasNode, getNode] using hn
    simp [NodeMap.new, this, AL.get]
  · simp [h]

theorem inE_insNode (g : GraphMap m k NL EL) (n : Id m) (l) (hn : g.hasNode n = false) (b a : Id m) :
    (g.insNode n l).inE b a ↔ g.inE b a := by
  unfold inE
  rw [getNode_insNode]
  by_cases h : n = b
  · subst h
    have : g.getNode n = none := by simpa [hasNode, getNode] using hn
    simp [NodeMap.new, this]
  · simp [h]

/-- Drop the record of node `n`. -/
def delNode (g : GraphMap m k NL EL) (n : Id m) : GraphMap m k NL EL :=
  { g with nodeMap := AL.erase g.nodeMap n }

theorem getNode_delNode (g : GraphMap m k NL EL) (n x : Id m) :
    (g.delNode n).getNode x = if n = x then none else g.getNode x := AL.get_erase _ _ _

theorem nwf_delNode {g : GraphMap m k NL EL} (hg : g.NWF) (n : Id m) : (g.delNode n).NWF := by
  refine ⟨by show (AL.keys (AL.erase _ _)).Nodup; rw [AL.keys_erase]; exact hg.keys.filter _,
    ?_, ?_, ?_⟩ <;>
  · intro x nd h
    rw [getNode_delNode] at h
    split at h
    · cases h
    · first
        | exact hg.ids x nd h
        | exact hg.sortedOut x nd h
        | exact hg.sortedIn x nd h

theorem labE_delNode (g : GraphMap m k NL EL) (n x : Id m) :
    (g.delNode n).labE x = if x = n then none else g.labE x := by
  unfold labE
  rw [getNode_delNode]
  by_cases h : n = x
  · subst h; simp
  · simp [h, Ne.symm h]

theorem outE_delNode (g : GraphMap m k NL EL) (n a b : Id m) :
    (g.delNode n).outE a b = if a = n then none else g.outE a b := by
  unfold outE
  rw [getNode_delNode]
  by_cases h : n = a
  · subst h; simp
  · simp [h, Ne.symm h]

theorem inE_delNode (g : GraphMap m k NL EL) (n b a : Id m) :
    (g.delNode n).inE b a ↔ b ≠ n ∧ g.inE b a := by
  unfold inE
  rw [getNode_delNode]
  by_cases h : n = b
  · subst h; simp
  · simp [h, Ne.symm h]

/-! #### Loops over neighbours -/

theorem foldlM_withNode {g : GraphMap m k NL EL} (ns : List (Id m)) (f)
    (h : ∀ n ∈ ns, g.hasNode n = true) :
    ns.foldlM (fun g n => withNode g n f) g = (.ok (ns.foldl (fun g n => g.modNode n f) g) : Res _) := by
  induction ns generalizing g with
  | nil => rfl
  | cons a ns ih =>
    rw [List.foldlM_cons, withNode_eq f (h a (by simp)), bind_ok, List.foldl_cons, ih]
    intro n hn
    rw [hasNode_modNode]
    exact h n (by simp [hn])

theorem foldlM_withNode_error {g : GraphMap m k NL EL} (ns : List (Id m)) (f)
    (h : ∃ n ∈ ns, g.hasNode n = false) :
    ns.foldlM (fun g n => withNode g n f) g = (.error .unwrapNone : Res (GraphMap m k NL EL)) := by
  induction ns generalizing g with
  | nil => simp at h
  | cons a ns ih =>
    rw [List.foldlM_cons]
    by_cases ha : g.hasNode a = true
    · rw [withNode_eq f ha, bind_ok, ih]
      obtain ⟨n, hn, hf⟩ := h
      refine ⟨n, ?_, by rw [hasNode_modNode]; exact hf⟩
      rcases List.mem_cons.1 hn with rfl | hn
      · simp [ha] at hf
      · exact hn
    · rw [withNode_error f (by simpa using ha), bind_error]

theorem sameRest_foldl (ns : List (Id m)) (f) (g : GraphMap m k NL EL) :
    SameRest g (ns.foldl (fun g n => g.modNode n f) g) := by
  induction ns generalizing g with
  | nil => exact SameRest.rfl g
  | cons a ns ih => exact (sameRest_modNode g a f).trans (ih _)

theorem hasNode_foldl (ns : List (Id m)) (f) (g : GraphMap m k NL EL) (x : Id m) :
    (ns.foldl (fun g n => g.modNode n f) g).hasNode x = g.hasNode x := by
  induction ns generalizing g with
  | nil => rfl
  | cons a ns ih => rw [List.foldl_cons, ih, hasNode_modNode]

theorem remIn_foldl (id : Id m) (ns : List (Id m)) (g : GraphMap m k NL EL) (hg : g.NWF) :
    let g' := ns.foldl (fun g n => g.modNode n (fun nd => nd.removeInEdge id)) g
    g'.NWF ∧ (∀ x, g'.labE x = g.labE x) ∧ (∀ a b, g'.outE a b = g.outE a b) ∧
      (∀ b a, g'.inE b a ↔ ¬ (b ∈ ns ∧ a = id) ∧ g.inE b a) := by
  induction ns generalizing g with
  | nil => exact ⟨hg, fun _ => rfl, fun _ _ => rfl, by simp⟩
  | cons c ns ih =>
    obtain ⟨h1, h2, h3, h4⟩ := ih _ (nwf_mRemIn hg c id)
    refine ⟨h1, fun x => ?_, fun a b => ?_, fun b a => ?_⟩
    · rw [List.foldl_cons, h2]; apply labE_modNode; intro nd; rfl
    · rw [List.foldl_cons, h3]; apply outE_modNode; intro nd; rfl
    · rw [List.foldl_cons, h4, inE_mRemIn]
      simp only [List.mem_cons]
      tauto

theorem remOut_foldl (id : Id m) (ns : List (Id m)) (g : GraphMap m k NL EL) (hg : g.NWF) :
    let g' := ns.foldl (fun g n => g.modNode n (fun nd => (nd.removeEdge id).1)) g
    g'.NWF ∧ (∀ x, g'.labE x = g.labE x) ∧
      (∀ a b, g'.outE a b = if a ∈ ns ∧ b = id then none else g.outE a b) ∧
      (∀ b a, g'.inE b a ↔ g.inE b a) := by
  induction ns generalizing g with
  | nil => exact ⟨hg, fun _ => rfl, fun _ _ => by simp, by simp⟩
  | cons c ns ih =>
    obtain ⟨h1, h2, h3, h4⟩ := ih _ (nwf_mRemEdge hg c id)
    refine ⟨h1, fun x => ?_, fun a b => ?_, fun b a => ?_⟩
    · rw [List.foldl_cons, h2, labE_modNode]
      intro nd; rw [NodeMap_removeEdge_fst]
    · rw [List.foldl_cons, h3, outE_mRemEdge]
      by_cases hb : b = id <;> by_cases ha : a = c <;> by_cases han : a ∈ ns <;> simp [hb, ha, han]
    · rw [List.foldl_cons, h4, inE_modNode]
      intro nd; rw [NodeMap_removeEdge_fst]

end GraphMap

end Verif
