import Verif.Spec.AnyEqual
import Verif.Props.AnySets
import Verif.Props.Equality
import Verif.Props.RawCsr

/-! C176: comparing, hashing and counting graphs of which nothing is known. -/

namespace Verif.Props

open Spec

variable {m k k' : Nat} {NL EL : Type}

section
variable {X : Type}

theorem firstIs_cons {P Q : X → Prop} (hPQ : ∀ x, P x → ¬ Q x) (x : X) (l : List X) :
    FirstIs P Q (x :: l) ↔ Q x ∨ P x ∧ FirstIs P Q l := by
  constructor
  · rintro ⟨a, y, b, e, h1, h2⟩
    cases a with
    | nil => cases e; exact .inl h2
    | cons z a =>
      cases e
      exact .inr ⟨h1 _ (by simp), a, y, b, rfl, fun w hw => h1 w (by simp [hw]), h2⟩
  · rintro (h | ⟨h, a, y, b, rfl, h1, h2⟩)
    · exact ⟨[], x, l, rfl, by simp, h⟩
    · exact ⟨x :: a, y, b, rfl, by simpa [h] using h1, h2⟩

/-- The outcomes of a loop that leaves at the first failing item. -/
theorem allM_any {f : X → Res Bool} {P Q : X → Prop} {R : X → Panic → Prop}
    (hP : ∀ x, f x = .ok true ↔ P x) (hQ : ∀ x, f x = .ok false ↔ Q x) (hR : ∀ x p, f x = .error p ↔ R x p)
    (l : List X) :
    (GView.allM f l = .ok true ↔ ∀ x ∈ l, P x) ∧ (GView.allM f l = .ok false ↔ FirstIs P Q l) ∧
      ∀ p, GView.allM f l = .error p ↔ FirstIs P (R · p) l := by
  have hPQ : ∀ x, P x → ¬ Q x := fun x h1 h2 => by
    rw [← hP] at h1; rw [← hQ, h1] at h2; cases h2
  have hPR : ∀ p x, P x → ¬ R x p := fun p x h1 h2 => by
    rw [← hP] at h1; rw [← hR, h1] at h2; cases h2
  induction l with
  | nil =>
    have hn : ∀ (P Q : X → Prop), ¬ FirstIs P Q [] := by
      rintro P Q ⟨a, x, b, e, -⟩
      simp at e
    simp [GView.allM, pure_ok, hn]
  | cons x l ih =>
    obtain ⟨i1, i2, i3⟩ := ih
    simp only [firstIs_cons hPQ, firstIs_cons (hPR _), List.forall_mem_cons]
    unfold GView.allM
    simp only [← hP x, ← hQ x, ← hR x]
    rcases hfx : f x with p | b
    · simp [bind_error]
    · cases b
      · simp [bind_ok, pure_ok]
      · simp [bind_ok, i1, i2, i3]

end

variable [DecidableEq NL] [DecidableEq EL]

omit [DecidableEq EL] in
theorem node_agrees_any (g : GView m k NL EL) (h : GView m k' NL EL) (n : Id m) :
    (g.nodeAgrees h n = .ok true ↔ NodeSame g h n) ∧ (g.nodeAgrees h n = .ok false ↔ NodeOther g h n) ∧
      ∀ p, g.nodeAgrees h n = .error p ↔ NodeStops g h n p := by
  unfold GView.nodeAgrees NodeSame NodeOther NodeStops
  cases hn : h.hasNode n
  · simp [pure_ok]
  · rcases h1 : g.getNodeLabel n with p | l <;> rcases h2 : h.getNodeLabel n with p' | l' <;>
      simp [bind_ok, bind_error, pure_ok, eq_comm]

omit [DecidableEq NL] in
theorem edge_agrees_any (g : GView m k NL EL) (h : GView m k' NL EL) (e : Id m × Id m) :
    (g.edgeAgrees h e = .ok true ↔ EdgeSame g h e) ∧ (g.edgeAgrees h e = .ok false ↔ EdgeOther g h e) ∧
      ∀ p, g.edgeAgrees h e = .error p ↔ EdgeStops g h e p := by
  unfold GView.edgeAgrees EdgeSame EdgeOther EdgeStops
  rcases hn : h.hasEdge e.1 e.2 with q | b
  · simp [bind_error]
  · cases b
    · simp [pure_ok, bind_ok]
    · generalize g.getEdgeLabel e.1 e.2 = a
      generalize h.getEdgeLabel e.1 e.2 = b
      rcases a with p | l <;> rcases b with p' | l' <;> simp [bind_ok, bind_error, pure_ok]
      exact ⟨Eq.symm, Eq.symm⟩

theorem contained_any (g : GView m k NL EL) (h : GView m k' NL EL) :
    (g.contained h = .ok true ↔ AllSame g h) ∧ (g.contained h = .ok false ↔ SomeOther g h) ∧
      ∀ p, g.contained h = .error p ↔ SomeStops g h p := by
  obtain ⟨n1, n2, n3⟩ := allM_any (fun n => (node_agrees_any g h n).1) (fun n => (node_agrees_any g h n).2.1)
    (fun n => (node_agrees_any g h n).2.2) g.nodeIndices
  obtain ⟨e1, e2, e3⟩ := allM_any (fun n => (edge_agrees_any g h n).1) (fun n => (edge_agrees_any g h n).2.1)
    (fun n => (edge_agrees_any g h n).2.2) g.edgeIndices
  unfold GView.contained AllSame SomeOther SomeStops
  simp only [← n1, ← n2, ← n3, ← e1, ← e2, ← e3]
  rcases hx : GView.allM (g.nodeAgrees h) g.nodeIndices with p | b
  · simp [bind_error]
  · cases b
    · simp [bind_ok, pure_ok]
    · simp [bind_ok]

/-- **C176.** What `equal` does with any two graphs behind the traits. -/
theorem c176_equal (g : GView m k NL EL) (h : GView m k' NL EL) :
    (g.equal h = .ok true ↔ SameSizes g h ∧ AllSame g h) ∧
    (g.equal h = .ok false ↔ ¬ SameSizes g h ∨ SomeOther g h) ∧
    ∀ p, g.equal h = .error p ↔ SameSizes g h ∧ SomeStops g h p := by
  obtain ⟨c1, c2, c3⟩ := contained_any g h
  unfold GView.equal
  by_cases hs : SameSizes g h
  · have hf : (g.directed != h.directed || g.nodeCount != h.nodeCount || g.edgeCount != h.edgeCount) = false := by
      obtain ⟨a, b, c⟩ := hs
      simp [a, b, c]
    simp only [hf, Bool.false_eq_true, if_false, c1, c2, c3, hs, true_and, not_true_eq_false, false_or]
    simp
  · have hf : (g.directed != h.directed || g.nodeCount != h.nodeCount || g.edgeCount != h.edgeCount) = true := by
      by_contra hc
      apply hs
      simp only [Bool.or_eq_true, bne_iff_ne, not_or, ne_eq, not_not] at hc
      exact ⟨hc.1.1, hc.1.2, hc.2⟩
    simp [hf, hs, pure_ok]

/-- **C176.** What `==` of two typed graphs of one implementation does, as long as their counts are no numbers in the
upper half of the 64-bit range: it does not look at the sizes at all. -/
theorem c176_typed (g h : GView m k NL EL) (hn : g.nodeCount < 2 ^ 63) (hn' : h.nodeCount < 2 ^ 63)
    (he : g.edgeCount < 2 ^ 63) (he' : h.edgeCount < 2 ^ 63) :
    (g.typedEq h = .ok true ↔ AllSame g h) ∧ (g.typedEq h = .ok false ↔ SomeOther g h) ∧
    ∀ p, g.typedEq h = .error p ↔ SomeStops g h p := by
  unfold GView.typedEq
  have hf : (GView.bnot g.nodeCount == h.nodeCount || GView.bnot g.edgeCount == h.edgeCount) = false := by
    unfold GView.bnot
    simp only [Bool.or_eq_false_iff, beq_eq_false_iff_ne]
    omega
  rw [hf]
  exact contained_any g h

/-- **C176.** A graph is equal to itself exactly if it has what it lists and its labels can be asked for. -/
theorem c176_self (g : GView m k NL EL) : g.equal g = .ok true ↔
    (∀ n ∈ g.nodeIndices, g.hasNode n = true ∧ ∃ l, g.getNodeLabel n = .ok l) ∧
    ∀ e ∈ g.edgeIndices, g.hasEdge e.1 e.2 = .ok true ∧ ∃ l, g.getEdgeLabel e.1 e.2 = .ok l := by
  rw [(c176_equal g g).1]
  unfold SameSizes AllSame NodeSame EdgeSame
  simp

/-- **C176.** `equal` is transitive on graphs that have and list the same. -/
theorem c176_trans {k'' : Nat} {f : GView m k NL EL} {g : GView m k' NL EL} {h : GView m k'' NL EL}
    (hn : ∀ n, g.hasNode n = true → n ∈ g.nodeIndices)
    (he : ∀ e ∈ f.edgeIndices, g.hasEdge e.1 e.2 = .ok true → e ∈ g.edgeIndices)
    (h1 : f.equal g = .ok true) (h2 : g.equal h = .ok true) : f.equal h = .ok true := by
  rw [(c176_equal _ _).1] at *
  obtain ⟨⟨a1, a2, a3⟩, a4, a5⟩ := h1
  obtain ⟨⟨b1, b2, b3⟩, b4, b5⟩ := h2
  refine ⟨⟨a1.trans b1, a2.trans b2, a3.trans b3⟩, fun n hm => ?_, fun e hm => ?_⟩
  · obtain ⟨c1, l, c2, c3⟩ := a4 n hm
    obtain ⟨d1, l', d2, d3⟩ := b4 n (hn n c1)
    rw [c3] at d2; cases d2
    exact ⟨d1, l, c2, d3⟩
  · obtain ⟨c1, l, c2, c3⟩ := a5 e hm
    obtain ⟨d1, l', d2, d3⟩ := b5 e (he e hm c1)
    rw [c3] at d2; cases d2
    exact ⟨d1, l, c2, d3⟩

theorem mapM_firstPanic {X Y : Type} (f : X → Res Y) (l : List X) :
    (∀ p, l.mapM f = .error p ↔ firstPanic (l.map f) = some p) ∧
      ((∀ x ∈ l, ∃ y, f x = .ok y) → ∃ r, l.mapM f = .ok r) := by
  induction l with
  | nil => exact ⟨fun p => by simp [firstPanic, pure_ok], fun _ => ⟨[], rfl⟩⟩
  | cons x l ih =>
    rw [List.mapM_cons, List.map_cons]
    rcases hx : f x with q | y
    · refine ⟨fun p => ?_, fun h => ?_⟩
      · simp [bind_error, firstPanic]
      · obtain ⟨y, hy⟩ := h x (by simp)
        rw [hx] at hy; cases hy
    · rw [bind_ok]
      refine ⟨fun p => ?_, fun h => ?_⟩
      · show _ ↔ firstPanic (l.map f) = some p
        rw [← ih.1 p]
        rcases l.mapM f with q | r <;> simp [bind_ok, bind_error, pure_ok]
      · obtain ⟨r, hr⟩ := ih.2 (fun x hx => h x (by simp [hx]))
        rw [hr]
        exact ⟨_, rfl⟩

theorem counted_any {X Y : Type} [DecidableEq Y] (f : X → Res (Option Y)) (l : List X) :
    (∀ p, (l.mapM f >>= fun ls => pure (counterOf (ls.filterMap id)) : Res (List (Y × Nat))) = .error p ↔
      firstPanic (l.map f) = some p) ∧
    ∀ c, (l.mapM f >>= fun ls => pure (counterOf (ls.filterMap id)) : Res (List (Y × Nat))) = .ok c →
      (∀ n ∈ l, ∃ x, f n = .ok x) ∧ (AL.keys c).Nodup ∧ ∀ x v, AL.get c x = some v ↔
        0 < v ∧ v = (l.filter (fun n => decide ((f n).toOption = some (some x)))).length := by
  obtain ⟨q1, q2⟩ := mapM_firstPanic f l
  refine ⟨fun p => ?_, fun c hc => ?_⟩
  · rw [← q1]
    rcases l.mapM f with q | r <;> simp [bind_ok, bind_error, pure_ok]
  · obtain ⟨r, hr, hc⟩ := bind_eq_ok hc
    cases hc
    have hall : ∀ n ∈ l, ∃ x, f n = .ok x := by
      have hnone : firstPanic (l.map f) = none := by
        cases hfp : firstPanic (l.map f) with
        | none => rfl
        | some p => rw [(q1 p).2 hfp] at hr; cases hr
      intro n hn
      exact firstPanic_none.1 hnone _ (List.mem_map_of_mem hn)
    have hr' : r = l.map (fun n => ((f n).toOption).getD none) := by
      have := mapM_ok f (fun n => ((f n).toOption).getD none) l (fun n hn => by
        obtain ⟨x, hx⟩ := hall n hn
        rw [hx]; rfl)
      rw [this] at hr; cases hr; rfl
    refine ⟨hall, counterOf_keys_nodup _, fun x v => ?_⟩
    rw [hr', List.filterMap_map, counter_spec]
    have : l.filter (fun n => decide ((id ∘ fun n => ((f n).toOption).getD none) n = some x)) =
        l.filter (fun n => decide ((f n).toOption = some (some x))) := by
      refine List.filter_congr (fun n hn => ?_)
      obtain ⟨y, hy⟩ := hall n hn
      simp [hy, Except.toOption]
    rw [this]

omit [DecidableEq EL] in
/-- **C176.** `get_node_label_counter` of any graph: the first panic of its label queries, or how often each label
is found on the nodes listed. -/
theorem c176_node_counter (g : GView m k NL EL) :
    (∀ p, g.nodeLabelCounter = .error p ↔ firstPanic (g.nodeIndices.map g.getNodeLabel) = some p) ∧
    ∀ c, g.nodeLabelCounter = .ok c → (∀ n ∈ g.nodeIndices, ∃ l, g.getNodeLabel n = .ok l) ∧
      (AL.keys c).Nodup ∧ ∀ x v, AL.get c x = some v ↔
        0 < v ∧ v = (g.nodeIndices.filter (fun n => decide ((g.getNodeLabel n).toOption = some (some x)))).length :=
  counted_any g.getNodeLabel g.nodeIndices

omit [DecidableEq NL] in
/-- **C176.** The same for `get_edge_label_counter`. -/
theorem c176_edge_counter (g : GView m k NL EL) :
    (∀ p, g.edgeLabelCounter = .error p ↔
      firstPanic (g.edgeIndices.map (fun e => g.getEdgeLabel e.1 e.2)) = some p) ∧
    ∀ c, g.edgeLabelCounter = .ok c → (∀ e ∈ g.edgeIndices, ∃ l, g.getEdgeLabel e.1 e.2 = .ok l) ∧
      (AL.keys c).Nodup ∧ ∀ x v, AL.get c x = some v ↔
        0 < v ∧ v = (g.edgeIndices.filter
          (fun e => decide ((g.getEdgeLabel e.1 e.2).toOption = some (some x)))).length :=
  counted_any (fun e : Id m × Id m => g.getEdgeLabel e.1 e.2) g.edgeIndices

omit [DecidableEq NL] [DecidableEq EL] in
/-- **C176.** The counters of label ids, which do not panic, count what `nodes` and `edges` give. -/
theorem c176_id_counters (g : GView m k NL EL) (x : Id k) (v : Nat) :
    (AL.get g.nodeLabelIdCounter x = some v ↔
      0 < v ∧ v = (g.nodes.filter (fun p => decide (p.2 = some x))).length) ∧
    (AL.get g.edgeLabelIdCounter x = some v ↔
      0 < v ∧ v = (g.edges.filter (fun e => decide (e.label = some x))).length) :=
  ⟨counter_spec _ _ _ _, counter_spec _ _ _ _⟩

/-! ### Hashes -/

theorem sorted_eq_iff {X : Type} (le : X → X → Bool) (htr : ∀ a b c, le a b = true → le b c = true → le a c = true)
    (htot : ∀ a b, (le a b || le b a) = true) (hanti : ∀ a b, le a b = true → le b a = true → a = b) (l l' : List X) :
    l.mergeSort le = l'.mergeSort le ↔ l.Perm l' := by
  constructor
  · intro h
    exact (List.mergeSort_perm l le).symm.trans (h ▸ List.mergeSort_perm l' le)
  · intro h
    have h1 := List.pairwise_mergeSort htr htot l
    have h2 := List.pairwise_mergeSort htr htot l'
    refine List.Perm.eq_of_pairwise (fun a b _ _ => hanti a b) h1 h2 ?_
    exact ((List.mergeSort_perm l le).trans h).trans (List.mergeSort_perm l' le).symm

theorem mapM_same {X Y : Type} {f f' : X → Res Y} {l : List X} {r r' : List Y} (h : l.mapM f = .ok r)
    (h' : l.mapM f' = .ok r') : r = r' ↔ ∀ x ∈ l, f x = f' x := by
  induction l generalizing r r' with
  | nil => cases h; cases h'; simp
  | cons x l ih =>
    rw [List.mapM_cons] at h h'
    obtain ⟨y, e1, h⟩ := bind_eq_ok h
    obtain ⟨s, e2, h⟩ := bind_eq_ok h
    obtain ⟨y', e1', h'⟩ := bind_eq_ok h'
    obtain ⟨s', e2', h'⟩ := bind_eq_ok h'
    cases h; cases h'
    simp only [List.cons.injEq, List.forall_mem_cons, e1, e1', Except.ok.injEq, ih e2 e2']

omit [DecidableEq NL] [DecidableEq EL] in
/-- **C176.** Two graphs of one implementation are fed to the hasher alike, neither panicking, exactly if they list the
same nodes and the same pairs, each as often, and give the same labels for them. -/
theorem c176_hash {g : GView m k NL EL} {h : GView m k' NL EL} {a b} (hg : g.hashData = .ok a) (hh : h.hashData = .ok b) :
    a = b ↔ g.nodeIndices.Perm h.nodeIndices ∧ (∀ n ∈ g.nodeIndices, g.getNodeLabel n = h.getNodeLabel n) ∧
      g.edgeIndices.Perm h.edgeIndices ∧ ∀ e ∈ g.edgeIndices, g.getEdgeLabel e.1 e.2 = h.getEdgeLabel e.1 e.2 := by
  unfold GView.hashData at hg hh
  obtain ⟨n1, a1, hg⟩ := bind_eq_ok hg
  obtain ⟨e1, a2, hg⟩ := bind_eq_ok hg
  obtain ⟨n2, b1, hh⟩ := bind_eq_ok hh
  obtain ⟨e2, b2, hh⟩ := bind_eq_ok hh
  cases hg; cases hh
  have hN := sorted_eq_iff (fun a b : Id m => decide (a ≤ b)) (by intro a b c; simp only [Bool.or_eq_true, decide_eq_true_eq, Fin.le_def]; omega)
    (by intro a b; simp only [Bool.or_eq_true, decide_eq_true_eq, Fin.le_def]; omega) (by intro a b; simp only [decide_eq_true_eq, Fin.le_def, Fin.ext_iff]; omega)
    g.nodeIndices h.nodeIndices
  have hE := sorted_eq_iff (GView.pairLe (m := m))
    (by intro a b c; simp only [GView.pairLe, Bool.or_eq_true, decide_eq_true_eq, Fin.le_def, Fin.lt_def, Fin.ext_iff, Prod.mk.injEq]; omega)
    (by intro a b; simp only [GView.pairLe, Bool.or_eq_true, decide_eq_true_eq, Fin.le_def, Fin.lt_def, Fin.ext_iff, Prod.mk.injEq]; omega)
    (by rintro ⟨a, a'⟩ ⟨b, b'⟩; simp only [GView.pairLe, Bool.or_eq_true, decide_eq_true_eq, Fin.le_def, Fin.lt_def, Fin.ext_iff, Prod.mk.injEq]; omega)
    g.edgeIndices h.edgeIndices
  simp only [Prod.mk.injEq]
  constructor
  · rintro ⟨h1, h2, h3, h4⟩
    rw [← h1] at b1
    rw [← h3] at b2
    refine ⟨hN.1 h1, fun n hn => ?_, hE.1 h3, fun e he => ?_⟩
    · exact (mapM_same a1 b1).1 h2 n (by simpa using hn)
    · exact (mapM_same a2 b2).1 h4 e (by simpa using he)
  · rintro ⟨h1, h2, h3, h4⟩
    rw [← hN.2 h1] at b1
    rw [← hE.2 h3] at b2
    refine ⟨hN.2 h1, (mapM_same a1 b1).2 (fun n hn => h2 n (by simpa using hn)), hE.2 h3,
      (mapM_same a2 b2).2 (fun n hn => h4 n (by simpa using hn))⟩

/-! ### Frozen graphs read from any file -/

/-- **C176.** A frozen graph with rows in order, of which nothing else is known but that its edges can be enumerated,
is equal to itself exactly if its node labels, if any, reach to its last node and no listed edge leads to a node without
a row. -/
theorem c176_frozen (g : StaticGraph m k NL EL) (h0 : g.edgeVec.offsets ≠ [])
    (hm : g.edgeVec.offsets.length ≤ m + 1) (hrow : ∀ n, (Spec.rowOf g.edgeVec n).Pairwise (· < ·))
    {v : GView m k NL EL} (hv : g.view = .ok v) :
    v.equal v = .ok true ↔ (∀ ls, g.labels = some ls → min g.numNodes (m + 1) ≤ ls.length) ∧
      ∀ e ∈ rowPairs g.edgeVec g.directed, e.2.val + 1 < g.edgeVec.offsets.length := by
  obtain ⟨hclone, -, -⟩ := c159_frozen g h0 hm (.inr hrow) hv
  have hasks : (∃ c, GraphMap.cloneBox v = .ok c) ↔ (∀ n ∈ v.nodeIndices, ∃ l, v.getNodeLabel n = .ok l) ∧
      ∀ e ∈ v.edgeIndices, ∃ l, v.getEdgeLabel e.1 e.2 = .ok l := by
    have hq := (c159_clone v).1
    have hi : ∀ {X Y : Type} (r : Res X) (f : X → Y), (∃ y, r.map f = .ok y) ↔ ∃ x, r = .ok x := by
      intro X Y r f
      cases r <;> simp [Except.map]
    have hno : (∃ c, GraphMap.cloneBox v = .ok c) ↔ firstPanic (nodeAsks v ++ edgeAsks v) = none := by
      cases hc : GraphMap.cloneBox v with
      | ok c =>
        refine ⟨fun _ => ?_, fun _ => ⟨c, rfl⟩⟩
        cases hf : firstPanic (nodeAsks v ++ edgeAsks v) with
        | none => rfl
        | some p => rw [(hq p).2 hf] at hc; cases hc
      | error p => rw [(hq p).1 hc]; simp
    rw [hno, firstPanic_none]
    unfold nodeAsks edgeAsks
    rw [List.forall_mem_append, List.forall_mem_map, List.forall_mem_map]
    simp only [hi]
  rw [c176_self, ← hclone, hasks]
  obtain ⟨hiff, -⟩ := c158_frozen g h0 hm (.inr hrow)
  have hpass := hiff.1 ⟨v, hv⟩
  obtain ⟨c1, -, -⟩ := c156_edges g.edgeVec h0 hm g.directed (.inr hrow) _ (le_refl _)
  have hE : g.edgeIndices = .ok (rowPairs g.edgeVec g.directed) := (c1 _).2 ⟨hpass, rfl⟩
  unfold StaticGraph.view at hv
  rw [hE, bind_ok, StaticGraph.edges_of hE, bind_ok] at hv
  have hve : v.edgeIndices = rowPairs g.edgeVec g.directed := by cases hv; rfl
  have hvn : ∀ n ∈ v.nodeIndices, v.hasNode n = true := by
    cases hv
    intro n hn
    simp only [StaticGraph.nodeIndices, List.mem_map, List.mem_range] at hn
    obtain ⟨i, hi, rfl⟩ := hn
    have := Nat.mod_le i (m + 1)
    simp only [StaticGraph.hasNode, decide_eq_true_eq]
    show i % (m + 1) < _
    omega
  have hvh : v.hasEdge = g.hasEdge := by cases hv; rfl
  have hhas : ∀ e ∈ rowPairs g.edgeVec g.directed,
      (g.hasEdge e.1 e.2 = .ok true ↔ e.2.val + 1 < g.edgeVec.offsets.length) := by
    rintro ⟨s, t⟩ he
    have hmem : t ∈ Spec.rowOf g.edgeVec s.val ∧ s.val + 1 < g.edgeVec.offsets.length := by
      unfold rowPairs at he
      simp only [List.mem_flatMap, List.mem_range, List.mem_map, List.mem_filter, Prod.mk.injEq] at he
      obtain ⟨n, hn, t', ⟨ht, -⟩, rfl, rfl⟩ := he
      have : (Id.new n : Id m).val = n := Nat.mod_eq_of_lt (by omega)
      rw [this]
      exact ⟨ht, by omega⟩
    obtain ⟨-, d1, d2⟩ := c156_has_edge g s t
    have hthere : RowThere g.edgeVec s.val := by
      obtain ⟨a, b, hb, hab, h⟩ := hpass _ hmem.2
      rcases h with rfl | h
      · have hx := hmem.1
        unfold Spec.rowOf at hx
        have h1 : g.edgeVec.offsets.getD s.val 0 = a := by
          rw [List.getD_eq_getElem?_getD, hb.1]; rfl
        have h2 : g.edgeVec.offsets.getD (s.val + 1) 0 = a := by
          rw [List.getD_eq_getElem?_getD, hb.2]; rfl
        rw [h1, h2, List.drop_eq_nil_of_le (by simp)] at hx
        simp at hx
      · exact ⟨a, b, hb, hab, h⟩
    exact ⟨fun h => (d1 h).1, fun h => d2 (hrow _) hthere h hmem.1⟩
  rw [hve, hvh]
  constructor
  · rintro ⟨h1, h2⟩
    exact ⟨⟨fun n hn => (h1 n hn).2, fun e he => (h2 e he).2⟩, fun e he => (hhas e he).1 (h2 e he).1⟩
  · rintro ⟨⟨h1, h2⟩, h3⟩
    exact ⟨fun n hn => ⟨hvn n hn, h1 n hn⟩, fun e he => ⟨(hhas e he).2 (h3 e he), h2 e he⟩⟩

/-- **C176.** A frozen graph with a row out of order, as a file may give it, is not equal to itself. One with a label for
the first of its two nodes only: comparing it to another graph gives `false` or panics by which of the two comes first. -/
theorem c176_odd : ∃ v w, (⟨true, 4, 2, ⟨[0, 2, 2, 2, 2], [3, 1], none⟩, none, none, ⟨[]⟩, ⟨[]⟩⟩ :
      StaticGraph 9 3 String String).view = .ok v ∧ v.equal v = .ok false ∧
    (⟨true, 2, 0, ⟨[0, 0, 0], [], none⟩, none, some [0], ⟨["a"]⟩, ⟨[]⟩⟩ : StaticGraph 9 3 String String).view = .ok w ∧
    w.equal w = .error .indexOutOfBounds ∧
    ∃ g : GraphMap 9 3 String String, GraphMap.Reachable g ∧ g.view.equal w = .error .indexOutOfBounds ∧
      w.equal g.view = .ok false := by
  refine ⟨_, _, rfl, by decide, rfl, by decide, ?_⟩
  have hr : ∀ g : GraphMap 9 3 String String, (GraphMap.withLabelMap true SetMap.empty SetMap.empty).exec
      [.addNode 1 none, .addNode 0 (some "b")] = .ok g → GraphMap.Reachable g :=
    fun g h => (GraphMap.exec_run h).reachable List.nodup_nil List.nodup_nil
  exact ⟨_, hr _ rfl, by decide, by decide⟩

/-- The hypotheses of `c176_frozen` are met by a graph equal to itself and by one that is not. -/
example : ∃ v w, (⟨true, 2, 1, ⟨[0, 1, 1], [1], none⟩, none, none, ⟨[]⟩, ⟨[]⟩⟩ : StaticGraph 9 3 String String).view = .ok v ∧
    v.equal v = .ok true ∧
    (⟨true, 2, 1, ⟨[0, 1, 1], [7], none⟩, none, none, ⟨[]⟩, ⟨[]⟩⟩ : StaticGraph 9 3 String String).view = .ok w ∧
    w.equal w = .ok false := ⟨_, _, rfl, by decide, rfl, by decide⟩

end Verif.Props
