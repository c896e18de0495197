import Verif.Proof.Caught
import Verif.Proof.TraversalParts
import Verif.Proof.View

/-! Searches of graphs with edges to nodes that are gone. -/

namespace Verif

open Spec

variable {m k : Nat} {NL EL : Type}

namespace GraphMap

/-- No edge leads beyond `max_seen_id`. -/
def TargetsBound (g : GraphMap m k NL EL) : Prop :=
  ∀ s t, (g.outE s t).isSome = true → ∃ M, g.maxId = some M ∧ t ≤ M

theorem Inv.targetsBound {g : GraphMap m k NL EL} (h : g.Inv) : g.TargetsBound :=
  fun s t he => h.maxBound t (h.target s t he)

theorem TargetsBound.mono {g g' : GraphMap m k NL EL} (h : g.TargetsBound)
    (hm : ∀ M, g.maxId = some M → ∃ M', g'.maxId = some M' ∧ M ≤ M')
    (he : ∀ s t, (g'.outE s t).isSome = true →
      (g.outE s t).isSome = true ∨ ∃ M', g'.maxId = some M' ∧ t ≤ M') : g'.TargetsBound := by
  intro s t hst
  rcases he s t hst with h1 | h1
  · obtain ⟨M, e1, e2⟩ := h s t h1
    obtain ⟨M', f1, f2⟩ := hm M e1
    exact ⟨M', f1, le_trans e2 f2⟩
  · exact h1

theorem seen_mono (g : GraphMap m k NL EL) (mx : Option (Id m)) (n : Id m) :
    ∀ M, mx = some M → ∃ M', g.seen mx n = some M' ∧ M ≤ M' := by
  intro M h
  unfold seen
  split
  · exact ⟨M, h, le_refl _⟩
  · obtain ⟨M', e1, -, e3⟩ := bumpMax_spec mx n
    exact ⟨M', e1, e3 M h⟩

variable [DecidableEq NL] [DecidableEq EL]

theorem addNode_targets {g g' : GraphMap m k NL EL} (hg : g.CInv) (hb : g.TargetsBound) {id label b}
    (h : g.addNode id label = .ok (g', b)) : g'.TargetsBound := by
  obtain ⟨g1, nl, lid, hi, h1, h2, h3, h4, h5, h6, h7, h8, h9⟩ := addNode_spec hg.toNWF id label
  rw [h1] at h
  obtain rfl : g1 = g' := by cases h; rfl
  have hout : ∀ s t, g1.outE s t = g.outE s t := fun s t => congrArg (fun r => r.edge s t) h8
  refine hb.mono (fun M hM => ?_) (fun s t h => .inl (by rw [← hout]; exact h))
  rw [h7]
  exact seen_mono g g.maxId id M hM

theorem addEdge_targets {g g' : GraphMap m k NL EL} (hg : g.CInv) (hb : g.TargetsBound) {s t label b}
    (h : g.addEdge s t label = .ok (g', b)) : g'.TargetsBound := by
  have hc := (addEdge_cinv hg h).1
  obtain ⟨g1, el, lid, hi, h1, h2, h3, h4, h5, h6, h7, h8, h9⟩ := addEdge_spec hg.toNWF s t label
  rw [h1] at h
  obtain rfl : g1 = g' := by cases h; rfl
  have hlab : ∀ x, g1.labE x = if (x = s ∨ x = t) ∧ g.labE x = none then some none else g.labE x :=
    fun x => congrArg (fun r => r.node x) h8
  have hhas : ∀ x, x = s ∨ x = t → g1.hasNode x = true := by
    intro x hx
    rw [hasNode_eq_labE, hlab]
    cases hl : g.labE x <;> simp [hx]
  have hout : ∀ a b, g1.outE a b = if AGraph.same g.directed s t a b then some lid else g.outE a b :=
    fun a b => congrArg (fun r => r.edge a b) h8
  refine hb.mono (fun M hM => ?_) (fun a b h => ?_)
  · rw [h7]
    obtain ⟨M1, e1, e2⟩ := seen_mono g g.maxId s M hM
    split
    · exact ⟨M1, e1, e2⟩
    · obtain ⟨M2, f1, f2⟩ := seen_mono g _ t M1 e1
      exact ⟨M2, f1, le_trans e2 f2⟩
  · rw [hout] at h
    split at h
    · rename_i hs
      right
      refine hc.maxBound b (hhas b ?_)
      unfold AGraph.same at hs
      tauto
    · exact .inl h

theorem SameStruct.targets {g g' : GraphMap m k NL EL} (h : SameStruct g g') (hb : g.TargetsBound) :
    g'.TargetsBound :=
  hb.mono (fun M hM => ⟨M, by rw [h.rest.maxId]; exact hM, le_refl _⟩)
    (fun s t he => .inl (by rw [← h.out]; exact he))

theorem apply_targets {g g' : GraphMap m k NL EL} (hg : g.CInv) (hb : g.TargetsBound) {op : Op m k NL EL}
    (h1 : ∀ n, op ≠ .removeNode n) (h2 : ∀ s t, op ≠ .removeEdge s t) (h : g.apply op = .ok g') :
    g'.TargetsBound := by
  cases op with
  | removeNode n => exact absurd rfl (h1 n)
  | removeEdge s t => exact absurd rfl (h2 s t)
  | addNode n l =>
    simp only [apply] at h
    obtain ⟨r, e1, e2⟩ := bind_eq_ok h
    cases e2
    exact addNode_targets hg hb (b := r.2) e1
  | addEdge s t l =>
    simp only [apply] at h
    obtain ⟨r, e1, e2⟩ := bind_eq_ok h
    cases e2
    exact addEdge_targets hg hb (b := r.2) e1
  | updateNodeLabel n l =>
    simp only [apply, updateNodeLabel] at h
    split at h
    · cases h; exact hb
    · obtain ⟨r, e1, e2⟩ := bind_eq_ok h
      obtain ⟨r', e3, e4⟩ := bind_eq_ok e1
      cases e4; cases e2
      exact addNode_targets hg hb (b := r'.2) e3
  | updateEdgeLabel s t l =>
    simp only [apply, updateEdgeLabel] at h
    split at h
    · cases h; exact hb
    · obtain ⟨r, e1, e2⟩ := bind_eq_ok h
      obtain ⟨r', e3, e4⟩ := bind_eq_ok e1
      cases e4; cases e2
      exact addEdge_targets hg hb (b := r'.2) e3
  | addNodeLabel l =>
    obtain ⟨s', lid, e1, -, e2, -⟩ := intern_ok (k := k) g.nodeLabels l
    simp only [apply, addNodeLabel, e1, bind_ok, pure_ok, Except.ok.injEq] at h
    subst h
    exact hb
  | addEdgeLabel l =>
    obtain ⟨s', lid, e1, -, e2, -⟩ := intern_ok (k := k) g.edgeLabels l
    simp only [apply, addEdgeLabel, e1, bind_ok, pure_ok, Except.ok.injEq] at h
    subst h
    exact hb
  | refineEdgeCount =>
    simp only [apply, pure_ok, Except.ok.injEq] at h
    subst h
    exact hb
  | setNodeLabelId n l =>
    simp only [apply] at h
    cases hn : g.hasNode n with
    | false =>
      have : AL.get g.nodeMap n = none := by simpa [hasNode] using hn
      simp [setNodeLabelId, this] at h
    | true =>
      obtain ⟨g1, e1, e2, e3, -⟩ := setNodeLabelId_spec hg.toNWF n l hn
      rw [e1] at h; cases h
      exact e3.targets hb
  | setEdgeLabelId s t l =>
    simp only [apply] at h
    cases hn : g.hasEdge s t with
    | false => simp [setEdgeLabelId, hn] at h
    | true =>
      obtain ⟨g1, e1, e2, e3, -⟩ := setEdgeLabelId_spec hg.toNWF s t l hn
      rw [e1] at h; cases h
      exact e3.targets hb
  | mapNodeLabelIds f =>
    simp only [apply, pure_ok, Except.ok.injEq] at h
    subst h
    obtain ⟨e1, e2, -⟩ := mapNodeLabelIds_spec hg.toNWF f
    exact e2.targets hb
  | mapEdgeLabelIds f =>
    simp only [apply, pure_ok, Except.ok.injEq] at h
    subst h
    obtain ⟨e1, e2, -⟩ := mapEdgeLabelIds_spec hg.toNWF f
    exact e2.targets hb

theorem applyCaught_targets {g : GraphMap m k NL EL} (hg : g.CInv) (hb : g.TargetsBound)
    (op : Op m k NL EL) : (g.applyCaught op).1.TargetsBound := by
  by_cases h1 : ∃ n, op = .removeNode n
  · obtain ⟨n, rfl⟩ := h1
    show (g.removeNodeCaught n).1.TargetsBound
    cases hnd : g.getNode n with
    | none =>
      have hnd' : AL.get g.nodeMap n = none := hnd
      simp only [removeNodeCaught, hnd']
      exact hb
    | some node =>
      obtain ⟨g2, h1, h2, h3, h4, h5, h6, h7, h8, h9, h10, h11⟩ := removeNodeCaught_spec hg hnd
      rw [h1]
      refine hb.mono (fun M hM => ⟨M, by rw [h7]; exact hM, le_refl _⟩) (fun s t he => .inl ?_)
      rw [h10] at he
      by_contra hno
      have : g.outE s t = none := by simpa using hno
      rw [this, ite_self] at he
      cases he
  by_cases h2 : ∃ s t, op = .removeEdge s t
  · obtain ⟨s, t, rfl⟩ := h2
    show (g.removeEdgeCaught s t).1.TargetsBound
    cases he : g.outE s t with
    | none =>
      have : g.hasEdge s t = false := by rw [hasEdge_eq_outE, he]; rfl
      simp only [removeEdgeCaught, this, Bool.not_false, if_true]
      exact hb
    | some l =>
      obtain ⟨g2, h1, h2, h3, h4, h5, h6, h7, h8, h9, h10, h11⟩ := removeEdgeCaught_spec hg he
      rw [h1]
      refine hb.mono (fun M hM => ⟨M, by rw [h7]; exact hM, le_refl _⟩) (fun s t he => .inl ?_)
      rw [h10] at he
      split at he
      · cases he
      · exact he
  have key : g.applyCaught op =
      match g.apply op with | .ok g' => (g', .ok ()) | .error p => (g, .error p) := by
    cases op <;> first | rfl | (exfalso; exact h1 ⟨_, rfl⟩) | (exfalso; exact h2 ⟨_, _, rfl⟩)
  rw [key]
  cases h : g.apply op with
  | ok g' => exact apply_targets hg hb (fun n e => h1 ⟨n, e⟩) (fun s t e => h2 ⟨s, t, e⟩) h
  | error p => exact hb

theorem caught_targets {g0 g : GraphMap m k NL EL} (h0 : g0.Inv) {ops} (h : Caught g0 ops g) :
    g.TargetsBound := by
  induction h with
  | nil => exact h0.targetsBound
  | step op h ih => exact applyCaught_targets (caught_cinv h0.cinv h).1 ih op
  | @rehash ops g nm h hp ih =>
    have hw := (caught_cinv h0.cinv h).1.toNWF
    intro s t he
    refine ih s t ?_
    have : ({ g with nodeMap := nm } : GraphMap m k NL EL).getNode s = g.getNode s := getNode_rehash hw hp s
    unfold outE at he ⊢
    rw [this] at he
    exact he

end GraphMap

namespace Traversal

/-- A graph whose nodes have neighbours and whose other ids make `neighbors` panic. -/
structure Walkable (g : GView m k NL EL) : Prop where
  node : ∀ n, g.hasNode n = true → ∃ l, g.neighbors n = .ok l ∧ l.Nodup
  other : ∀ n, g.hasNode n = false → g.neighbors n = .error .nodeMissing

/-- Every id a node. -/
def everything : AGraph (Id m) NL EL := ⟨fun _ => some none, fun _ _ => none⟩

/-- The calls a search still has to answer. -/
def left (st : Traversal m) : Nat :=
  st.work.length + (todo (everything (m := m) (NL := Unit) (EL := Unit)) st.undiscovered).card

variable {g : GView m k NL EL}

/-- One call with an entry waiting. -/
theorem next_waiting {pop : List (Id m) → Option (Id m × List (Id m))} (hp : Pops pop) (hw : Walkable g)
    {st : Traversal m} (hne : st.work ≠ []) :
    nextWith pop g st = .error .nodeMissing ∨
    ∃ x l st', nextWith pop g st = .ok (some x, st') ∧ g.hasNode x = true ∧ g.neighbors x = .ok l ∧
      x ∈ st.work ∧ left st' + 1 = left st ∧ st'.undiscovered.length = st.undiscovered.length ∧
      (∀ y ∈ st.work, y = x ∨ y ∈ st'.work) ∧
      (∀ y : Id m, st.undiscovered.contains y.val = true →
        st'.undiscovered.contains y.val = true ∨ y ∈ st'.work) ∧
      (∀ y ∈ l, st.undiscovered.contains y.val = true → y ∈ st'.work) := by
  obtain ⟨x, rest, hpop, hperm⟩ := hp.cons st.work hne
  cases hx : g.hasNode x with
  | false => exact .inl (next_absent hne hpop (hw.other x hx))
  | true =>
    right
    obtain ⟨l, hl, hnd⟩ := hw.node x hx
    obtain ⟨st', h1, h2, h3, h4, h5⟩ := discover_any l ⟨rest, st.undiscovered⟩ hnd
    have h2 : st'.work = rest ++ l.filter (fun n => st.undiscovered.contains n.val) := h2
    have h4 : ∀ n : Id m, st'.undiscovered.contains n.val =
        (st.undiscovered.contains n.val && decide (n ∉ l)) := h4
    refine ⟨x, l, st', ?_, hx, hl, hperm.mem_iff.2 (List.mem_cons_self ..), ?_, h3, ?_, ?_, ?_⟩
    · unfold nextWith
      have hr : st.refill g = .ok st := by
        unfold refill
        rw [if_neg (by simpa using hne)]; rfl
      rw [hr, bind_ok]
      simp only [hpop]
      unfold expand
      rw [hl, bind_ok, h1, bind_ok]; rfl
    · have hc := todo_remove (A := everything (NL := Unit) (EL := Unit))
        (b := st.undiscovered) (b' := st'.undiscovered)
        (news := l.filter (fun n => st.undiscovered.contains n.val)) (hnd.filter _)
        (fun n hn => ⟨(List.mem_filter.1 hn).2, rfl⟩)
        (by
          intro n
          rw [h4]
          by_cases hb : st.undiscovered.contains n.val = true
          · simp [hb]
          · simp [hb])
      have hlen : st.work.length = rest.length + 1 := by rw [hperm.length_eq]; rfl
      unfold left
      rw [h2, List.length_append, hlen, ← hc]
      omega
    · intro y hy
      rcases List.mem_cons.1 (hperm.mem_iff.1 hy) with e | e
      · exact .inl e
      · exact .inr (by rw [h2]; exact List.mem_append_left _ e)
    · intro y hy
      by_cases hyl : y ∈ l
      · exact .inr (by rw [h2]; exact List.mem_append_right _ (List.mem_filter.2 ⟨hyl, hy⟩))
      · exact .inl (by rw [h4, hy]; simp [hyl])
    · intro y hyl hy
      rw [h2]; exact List.mem_append_right _ (List.mem_filter.2 ⟨hyl, hy⟩)

/-- One call. -/
theorem next_any_way {pop : List (Id m) → Option (Id m × List (Id m))} (hp : Pops pop) (hw : Walkable g)
    (st : Traversal m) (hlen : st.undiscovered.length ≤ m + 1) :
    nextWith pop g st = .error .nodeMissing ∨
    (nextWith pop g st = .ok (none, st) ∧ st.work = [] ∧
      ∀ n : Id m, st.undiscovered.contains n.val = true → g.hasNode n = false) ∨
    ∃ x l st', nextWith pop g st = .ok (some x, st') ∧ g.hasNode x = true ∧ g.neighbors x = .ok l ∧
      left st' + 1 = left st ∧ st'.undiscovered.length = st.undiscovered.length ∧
      (∀ y ∈ st.work, y = x ∨ y ∈ st'.work) ∧
      (∀ y : Id m, st.undiscovered.contains y.val = true →
        st'.undiscovered.contains y.val = true ∨ y ∈ st'.work ∨ y = x) ∧
      (∀ y ∈ l, st.undiscovered.contains y.val = true → y ∈ st'.work ∨ y = x) := by
  by_cases hne : st.work = []
  · cases hf : st.undiscovered.ones.find? (fun i => g.hasNode (Id.new i)) with
    | none =>
      right; left
      have hr : st.refill g = .ok st := by
        unfold refill nextUnvisited
        rw [if_pos (by simp [hne]), hf]; rfl
      refine ⟨?_, hne, ?_⟩
      · unfold nextWith
        rw [hr, bind_ok, hne, hp.nil]; rfl
      · intro n hn
        rw [List.find?_eq_none] at hf
        have := hf n.val (BitSet.mem_ones.2 hn)
        have e : (Id.new n.val : Id m) = n := by
          apply Fin.ext; simp [Id.new, Nat.mod_eq_of_lt n.isLt]
        rw [e] at this
        simpa using this
    | some i =>
      have hm := List.mem_of_find?_eq_some hf
      have hi := BitSet.mem_ones.1 hm
      have hlt : i < st.undiscovered.length := by
        rw [BitSet.ones, List.mem_filter, List.mem_range] at hm
        exact hm.1
      have hv : (Id.new i : Id m).val = i := by
        simp [Id.new, Nat.mod_eq_of_lt (show i < m + 1 by omega)]
      generalize hn : (Id.new i : Id m) = n at hv
      have hlt' : n.val < st.undiscovered.length := by rw [hv]; exact hlt
      have hr : st.refill g = .ok ⟨[n], st.undiscovered.set n.val false⟩ := by
        unfold refill nextUnvisited
        rw [if_pos (by simp [hne]), hf]
        simp only [Option.map_some, hn]
        rw [BitSet.put_ok hlt', bind_ok, hne]; rfl
      have hcont : ∀ j, BitSet.contains (st.undiscovered.set n.val false) j =
          if n.val = j then false else st.undiscovered.contains j := by
        intro j; rw [BitSet.contains_set hlt']
      have hsame : nextWith pop g st = nextWith pop g ⟨[n], st.undiscovered.set n.val false⟩ := by
        unfold nextWith
        rw [hr, bind_ok]
        have : refill g (⟨[n], st.undiscovered.set n.val false⟩ : Traversal m) =
            .ok ⟨[n], st.undiscovered.set n.val false⟩ := by
          unfold refill; rw [if_neg (by simp)]; rfl
        rw [this, bind_ok]
      have hleft : left (⟨[n], st.undiscovered.set n.val false⟩ : Traversal m) = left st := by
        have hc := todo_remove (A := everything (NL := Unit) (EL := Unit))
          (b := st.undiscovered) (b' := st.undiscovered.set n.val false) (news := [n]) (by simp)
          (by intro x hx; rw [List.mem_singleton] at hx; subst hx; exact ⟨by rw [hv]; exact hi, rfl⟩)
          (by
            intro x
            rw [hcont]
            by_cases e : n = x
            · subst e; simp
            · have e1 : n.val ≠ x.val := fun h => e (Fin.ext h)
              have e2 : x ≠ n := fun h => e h.symm
              simp [e1, e2])
        unfold left
        rw [hne, ← hc]
        simp; omega
      rw [hsame]
      rcases next_waiting hp hw (st := ⟨[n], st.undiscovered.set n.val false⟩) (by simp) with h | h
      · exact .inl h
      · right; right
        obtain ⟨x, l, st', h1, h2, h3, h4, h5, h6, h7, h8, h9⟩ := h
        have hx : x = n := by simpa using h4
        refine ⟨x, l, st', h1, h2, h3, h5.trans hleft, h6.trans (by simp), ?_, ?_, ?_⟩
        · intro y hy; rw [hne] at hy; cases hy
        · intro y hy
          by_cases e : n = y
          · exact .inr (.inr (by rw [hx, e]))
          · have e1 : n.val ≠ y.val := fun h => e (Fin.ext h)
            rcases h8 y (by rw [hcont, if_neg e1]; exact hy) with h | h
            · exact .inl h
            · exact .inr (.inl h)
        · intro y hyl hy
          by_cases e : n = y
          · exact .inr (by rw [hx, e])
          · have e1 : n.val ≠ y.val := fun h => e (Fin.ext h)
            exact .inl (h9 y hyl (by rw [hcont, if_neg e1]; exact hy))
  · rcases next_waiting hp hw hne with h | h
    · exact .inl h
    · right; right
      obtain ⟨x, l, st', h1, h2, h3, h4, h5, h6, h7, h8, h9⟩ := h
      refine ⟨x, l, st', h1, h2, h3, h5, h6, h7, ?_, fun y a b => .inl (h9 y a b)⟩
      intro y hy
      rcases h8 y hy with h | h
      · exact .inl h
      · exact .inr (.inl h)

/-- Either the search ends or it comes to an id that is no node. -/
theorem drain_ends {pop : List (Id m) → Option (Id m × List (Id m))} (hp : Pops pop) (hw : Walkable g) :
    ∀ (f : Nat) (st : Traversal m), st.undiscovered.length ≤ m + 1 → left st < f →
      (∃ r, drain (nextWith pop g) f st = .ok r) ∨ drain (nextWith pop g) f st = .error .nodeMissing := by
  intro f
  induction f with
  | zero => intro st _ h; omega
  | succ f ih =>
    intro st hlen hf
    unfold drain
    rcases next_any_way hp hw st hlen with h | ⟨h, -⟩ | ⟨x, l, st', h, -, -, h4, h5, -⟩
    · rw [h]; exact .inr rfl
    · rw [h]; exact .inl ⟨_, rfl⟩
    · rw [h, bind_ok]
      rcases ih st' (by rw [h5]; exact hlen) (by omega) with ⟨r, hr⟩ | hr
      · exact .inl ⟨_, by simp only; rw [hr, bind_ok]; rfl⟩
      · exact .inr (by simp only; rw [hr]; rfl)

/-- What a search that ends has come by. -/
theorem drain_covers {pop : List (Id m) → Option (Id m × List (Id m))} (hp : Pops pop) (hw : Walkable g) :
    ∀ (f : Nat) (st : Traversal m), st.undiscovered.length ≤ m + 1 → ∀ l st',
      drain (nextWith pop g) f st = .ok (l, st') →
      (∀ y ∈ st.work, y ∈ l) ∧
      (∀ y : Id m, st.undiscovered.contains y.val = true → g.hasNode y = true → y ∈ l) ∧
      (∀ x ∈ l, g.hasNode x = true) ∧
      ∀ x ∈ l, ∀ ns, g.neighbors x = .ok ns → ∀ y ∈ ns, st.undiscovered.contains y.val = true → y ∈ l := by
  intro f
  induction f with
  | zero => intro st _ l st' h; cases h
  | succ f ih =>
    intro st hlen l st' h
    unfold drain at h
    rcases next_any_way hp hw st hlen with h1 | ⟨h1, h2, h3⟩ | ⟨x, ns, st1, h1, h2, h3, h4, h5, h6, h7, h8⟩
    · rw [h1] at h; cases h
    · rw [h1] at h; cases h
      refine ⟨by simp [h2], ?_, by simp, by simp⟩
      intro y hy hn; rw [h3 y hy] at hn; cases hn
    · rw [h1, bind_ok] at h
      simp only at h
      obtain ⟨⟨l1, st2⟩, e1, e2⟩ := bind_eq_ok h
      cases e2
      obtain ⟨i1, i2, i3, i4⟩ := ih st1 (by rw [h5]; exact hlen) l1 st2 e1
      refine ⟨?_, ?_, ?_, ?_⟩
      · intro y hy
        rcases h6 y hy with e | e
        · subst e; exact List.mem_cons_self ..
        · exact List.mem_cons_of_mem _ (i1 y e)
      · intro y hy hn
        rcases h7 y hy with e | e | e
        · exact List.mem_cons_of_mem _ (i2 y e hn)
        · exact List.mem_cons_of_mem _ (i1 y e)
        · subst e; exact List.mem_cons_self ..
      · intro y hy
        rcases List.mem_cons.1 hy with e | e
        · subst e; exact h2
        · exact i3 y e
      · intro z hz nz hnz y hy hb
        rcases List.mem_cons.1 hz with e | e
        · subst e
          rw [h3] at hnz; cases hnz
          rcases h8 y hy hb with e | e
          · exact List.mem_cons_of_mem _ (i1 y e)
          · subst e; exact List.mem_cons_self ..
        · rcases h7 y hb with e' | e' | e'
          · exact List.mem_cons_of_mem _ (i4 z e nz hnz y hy e')
          · exact List.mem_cons_of_mem _ (i1 y e')
          · subst e'; exact List.mem_cons_self ..

end Traversal

end Verif
