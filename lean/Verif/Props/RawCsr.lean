import Verif.Proof.RawCsr
import Verif.Model.Mmap

/-! Property theorems about frozen graphs of which nothing is known, as a file may give them: C156. -/

namespace Verif.Props

open Spec EdgeVec

variable {m k : Nat} {NL EL : Type} {ev : EdgeVec m k}

theorem row_ok_iff {n a b : Nat} (h : Bounds ev n a b) : RowThere ev n ↔ a ≤ b ∧ b ≤ ev.edges.length := by
  constructor
  · rintro ⟨a', b', ⟨h1, h2⟩, h3⟩
    rw [h.1] at h1; rw [h.2] at h2
    cases h1; cases h2; exact h3
  · intro h3; exact ⟨a, b, h, h3⟩

theorem row_ok_lt {n : Nat} (h : RowThere ev n) : n + 1 < ev.offsets.length := by
  obtain ⟨a, b, ⟨-, h2⟩, -⟩ := h
  exact (List.getElem?_eq_some_iff.1 h2).1

theorem bounds_lt {n a b : Nat} (h : Bounds ev n a b) : n + 1 < ev.offsets.length :=
  (List.getElem?_eq_some_iff.1 h.2).1

/-- `neighbors`, all cases. -/
theorem neighbors_cases (ev : EdgeVec m k) (n : Id m) :
    (ev.offsets = [] ∧ ev.neighbors n = .error .underflow) ∨
    (ev.offsets ≠ [] ∧ ev.offsets.length ≤ n.val + 1 ∧ ev.neighbors n = .error .explicit) ∨
    (n.val + 1 < ev.offsets.length ∧ RowThere ev n.val ∧ ev.neighbors n = .ok (rowOf ev n.val)) ∨
    (n.val + 1 < ev.offsets.length ∧ ¬ RowThere ev n.val ∧ ev.neighbors n = .error .indexOutOfBounds) := by
  by_cases h0 : ev.offsets = []
  · exact .inl ⟨h0, (no_offsets (by simp [h0])).1⟩
  · have h0' : ev.offsets.length ≠ 0 := by simpa using h0
    by_cases hn : n.val < ev.offsets.length - 1
    · obtain ⟨a, b, hab⟩ := bounds_of hn
      have := neighbors_raw hn hab
      by_cases hr : RowThere ev n.val
      · rw [if_pos ((row_ok_iff hab).1 hr)] at this
        exact .inr (.inr (.inl ⟨by omega, hr, this⟩))
      · rw [if_neg (fun e => hr ((row_ok_iff hab).2 e))] at this
        exact .inr (.inr (.inr ⟨by omega, hr, this⟩))
    · exact .inr (.inl ⟨h0, by omega, (outside h0' hn).1⟩)

/-- **C156.** Whatever the arrays hold: `neighbors` gives the row if its two offsets are there, in order and
within the edges; otherwise it panics, and how is told. -/
theorem c156_neighbors (ev : EdgeVec m k) (n : Id m) :
    (∀ l, ev.neighbors n = .ok l ↔ RowThere ev n.val ∧ l = rowOf ev n.val) ∧
    (ev.neighbors n = .error .underflow ↔ ev.offsets = []) ∧
    (ev.neighbors n = .error .explicit ↔ ev.offsets ≠ [] ∧ ev.offsets.length ≤ n.val + 1) ∧
    (ev.neighbors n = .error .indexOutOfBounds ↔ n.val + 1 < ev.offsets.length ∧ ¬ RowThere ev n.val) := by
  have hlt := row_ok_lt (ev := ev) (n := n.val)
  rcases neighbors_cases ev n with ⟨h0, h⟩ | ⟨h0, h1, h⟩ | ⟨h1, h2, h⟩ | ⟨h1, h2, h⟩
  · rw [h]
    refine ⟨fun l => ⟨fun e => (by cases e), fun e => ?_⟩, by simp [h0], by simp [h0], by simp [h0]⟩
    have := hlt e.1; simp [h0] at this
  · rw [h]
    refine ⟨fun l => ⟨fun e => (by cases e), fun e => ?_⟩, by simp [h0], by simp [h0, h1], ?_⟩
    · have := hlt e.1; omega
    · simp only [Except.error.injEq, reduceCtorEq, false_iff]; omega
  · have h0 : ev.offsets ≠ [] := by rintro e; simp [e] at h1
    rw [h]
    refine ⟨fun l => ⟨fun e => ⟨h2, by cases e; rfl⟩, fun e => by rw [e.2]⟩, by simp [h0], ?_, by simp [h2]⟩
    simp only [reduceCtorEq, false_iff]; omega
  · have h0 : ev.offsets ≠ [] := by rintro e; simp [e] at h1
    rw [h]
    refine ⟨fun l => ⟨fun e => (by cases e), fun e => absurd e.1 h2⟩, by simp [h0], ?_, by simp [h1, h2]⟩
    simp only [Except.error.injEq, reduceCtorEq, false_iff]; omega

/-- **C156.** `degree` looks at the two offsets alone; it underflows if they are in the wrong order. -/
theorem c156_degree (ev : EdgeVec m k) (n : Id m) :
    (∀ d, ev.degree n = .ok d ↔ ∃ a b, Bounds ev n.val a b ∧ a ≤ b ∧ d = b - a) ∧
    (ev.degree n = .error .underflow ↔ ev.offsets = [] ∨ ∃ a b, Bounds ev n.val a b ∧ b < a) ∧
    (ev.degree n = .error .explicit ↔ ev.offsets ≠ [] ∧ ev.offsets.length ≤ n.val + 1) ∧
    (∀ l, ev.neighbors n = .ok l → ev.degree n = .ok l.length) := by
  by_cases h0 : ev.offsets = []
  · have hno := no_offsets (ev := ev) (n := n) (by simp [h0])
    rw [hno.1, hno.2]
    have hb : ∀ a b, ¬ Bounds ev n.val a b := fun a b h => by have := bounds_lt h; simp [h0] at this
    refine ⟨fun d => ⟨fun e => (by cases e), ?_⟩, by simp [h0], by simp [h0], fun l e => (by cases e)⟩
    rintro ⟨a, b, h, -⟩; exact absurd h (hb a b)
  · have h0' : ev.offsets.length ≠ 0 := by simpa using h0
    by_cases hn : n.val < ev.offsets.length - 1
    · obtain ⟨a, b, hab⟩ := bounds_of hn
      have hd := degree_raw hn hab
      have hun : ∀ a' b', Bounds ev n.val a' b' → a' = a ∧ b' = b := by
        rintro a' b' ⟨h1, h2⟩
        rw [hab.1] at h1; rw [hab.2] at h2
        cases h1; cases h2; exact ⟨rfl, rfl⟩
      have hnb : ∀ l, ev.neighbors n = .ok l → ev.degree n = .ok l.length := by
        intro l hl
        obtain ⟨hr, rfl⟩ := ((c156_neighbors ev n).1 l).1 hl
        have := (row_ok_iff hab).1 hr
        rw [hd, if_neg (by omega), rowOf_length hab this.1 (.inr this.2)]
      refine ⟨fun d => ⟨fun e => ?_, ?_⟩, ⟨fun e => ?_, ?_⟩, ?_, hnb⟩
      · rw [hd] at e
        split at e
        · cases e
        · cases e; exact ⟨a, b, hab, by omega, rfl⟩
      · rintro ⟨a', b', h, h1, rfl⟩
        obtain ⟨rfl, rfl⟩ := hun _ _ h
        rw [hd, if_neg (by omega)]
      · rw [hd] at e
        split at e
        · rename_i hlt; exact .inr ⟨a, b, hab, hlt⟩
        · cases e
      · rintro (e | ⟨a', b', h, h1⟩)
        · exact absurd e h0
        · obtain ⟨rfl, rfl⟩ := hun _ _ h
          rw [hd, if_pos h1]
      · rw [hd]
        constructor
        · intro e; split at e <;> cases e
        · intro e; omega
    · have ho := outside h0' hn
      rw [ho.1, ho.2]
      have hb : ∀ a b, ¬ Bounds ev n.val a b := fun a b h => by have := bounds_lt h; omega
      refine ⟨fun d => ⟨fun e => (by cases e), ?_⟩, ?_, ?_, fun l e => (by cases e)⟩
      · rintro ⟨a, b, h, -⟩; exact absurd h (hb a b)
      · simp only [Except.error.injEq, reduceCtorEq, false_iff, not_or, not_exists, not_and]
        exact ⟨h0, fun a b h => absurd h (hb a b)⟩
      · simp only [true_iff]; exact ⟨h0, by omega⟩

/-! ### Edges -/

theorem hasEdge_cases (ev : EdgeVec m k) (s t : Id m) (h0 : ev.offsets ≠ []) :
    (¬ (s.val + 1 < ev.offsets.length ∧ t.val + 1 < ev.offsets.length) ∧ ev.findEdgeIndex s t = .ok none) ∨
    (s.val + 1 < ev.offsets.length ∧ t.val + 1 < ev.offsets.length ∧
      ev.findEdgeIndex s t = ev.searchRow s t) := by
  have h0' : ev.offsets.length ≠ 0 := by simpa using h0
  unfold findEdgeIndex
  rw [hasNode_raw, hasNode_raw, if_neg h0', if_neg h0', bind_ok, bind_ok]
  by_cases hs : s.val < ev.offsets.length - 1
  · by_cases ht : t.val < ev.offsets.length - 1
    · exact .inr ⟨by omega, by omega, by simp [hs, ht]⟩
    · exact .inl ⟨by omega, by simp [ht, pure_ok]⟩
  · exact .inl ⟨by omega, by simp [hs, pure_ok]⟩

theorem searchRow_cases {s t : Id m} (hs : s.val + 1 < ev.offsets.length) :
    (¬ RowThere ev s.val ∧ ev.searchRow s t = .error .indexOutOfBounds) ∨
    (RowThere ev s.val ∧ ((∃ o i, ev.offsets[s.val]? = some o ∧ (rowOf ev s.val)[i]? = some t ∧
        ev.searchRow s t = .ok (some (o + i))) ∨
      (ev.searchRow s t = .ok none ∧ ((rowOf ev s.val).Pairwise (· < ·) → t ∉ rowOf ev s.val)))) := by
  rcases neighbors_cases ev s with ⟨h0, h⟩ | ⟨h0, h1, h⟩ | ⟨h1, h2, h⟩ | ⟨h1, h2, h⟩
  · simp [h0] at hs
  · omega
  · right
    refine ⟨h2, ?_⟩
    obtain ⟨a, b, hab⟩ := bounds_of (ev := ev) (n := s.val) (by omega)
    unfold searchRow
    rw [h, bind_ok]
    rcases binarySearch_total (rowOf ev s.val) t with ⟨i, e1, e2⟩ | ⟨i, e1, -⟩
    · left
      refine ⟨a, i, hab.1, e2, ?_⟩
      rw [e1, bind_ok]
      simp only
      rw [index_eq hab.1]; rfl
    · right
      refine ⟨by rw [e1]; rfl, fun hp hmem => ?_⟩
      rcases binarySearch_spec _ t hp with ⟨j, e, -⟩ | ⟨j, e, hno, -⟩
      · rw [e1] at e; cases e
      · exact hno hmem
  · left
    refine ⟨h2, ?_⟩
    unfold searchRow
    rw [h]; rfl

/-- **C156.** `has_edge` of a frozen graph: when it answers; it never claims an edge that the row does not
hold; and if the row is sorted it is right. -/
theorem c156_has_edge (g : StaticGraph m k NL EL) (s t : Id m) :
    ((∃ b, g.hasEdge s t = .ok b) ↔ g.edgeVec.offsets ≠ [] ∧
      (s.val + 1 < g.edgeVec.offsets.length → t.val + 1 < g.edgeVec.offsets.length → RowThere g.edgeVec s.val)) ∧
    (g.hasEdge s t = .ok true → t.val + 1 < g.edgeVec.offsets.length ∧ RowThere g.edgeVec s.val ∧
      t ∈ rowOf g.edgeVec s.val) ∧
    ((rowOf g.edgeVec s.val).Pairwise (· < ·) → RowThere g.edgeVec s.val →
      t.val + 1 < g.edgeVec.offsets.length → t ∈ rowOf g.edgeVec s.val → g.hasEdge s t = .ok true) := by
  unfold StaticGraph.hasEdge EdgeVec.hasEdge
  generalize g.edgeVec = ev
  by_cases h0 : ev.offsets = []
  · have : ev.findEdgeIndex s t = .error .underflow := by
      unfold findEdgeIndex; rw [hasNode_raw, if_pos (by simp [h0])]; rfl
    rw [this, bind_error]
    refine ⟨⟨fun ⟨b, e⟩ => (by cases e), fun e => absurd h0 e.1⟩, fun e => (by cases e), fun _ h => ?_⟩
    have := row_ok_lt h; simp [h0] at this
  · rcases hasEdge_cases ev s t h0 with ⟨h1, h⟩ | ⟨h1, h2, h⟩
    · rw [h, bind_ok]
      refine ⟨⟨fun _ => ⟨h0, fun a b => absurd ⟨a, b⟩ h1⟩, fun _ => ⟨_, rfl⟩⟩, fun e => (by cases e), ?_⟩
      intro _ hr ht; exact absurd ⟨row_ok_lt hr, ht⟩ h1
    · rw [h]
      rcases searchRow_cases (ev := ev) (t := t) h1 with ⟨hr, e⟩ | ⟨hr, ⟨o, i, -, e2, e⟩ | ⟨e, e2⟩⟩
      · rw [e, bind_error]
        exact ⟨⟨fun ⟨b, e⟩ => (by cases e), fun e => absurd (e.2 h1 h2) hr⟩, fun e => (by cases e),
          fun _ h => absurd h hr⟩
      · rw [e, bind_ok]
        exact ⟨⟨fun _ => ⟨h0, fun _ _ => hr⟩, fun _ => ⟨_, rfl⟩⟩,
          fun _ => ⟨h2, hr, List.mem_of_getElem? e2⟩, fun _ _ _ _ => rfl⟩
      · rw [e, bind_ok]
        exact ⟨⟨fun _ => ⟨h0, fun _ _ => hr⟩, fun _ => ⟨_, rfl⟩⟩, fun e => (by cases e),
          fun hp _ _ hmem => absurd hmem (e2 hp)⟩

/-- **C156.** The same for a mapped graph, which looks at the row of the first node alone. -/
theorem c156_mapped_has_edge (g : MmapGraph m k NL EL) (s t : Id m) :
    ((∃ b, g.hasEdge s t = .ok b) ↔ RowThere g.edges s.val) ∧
    (g.hasEdge s t = .ok true → t ∈ rowOf g.edges s.val) ∧
    ((rowOf g.edges s.val).Pairwise (· < ·) → RowThere g.edges s.val → t ∈ rowOf g.edges s.val →
      g.hasEdge s t = .ok true) := by
  unfold MmapGraph.hasEdge MmapGraph.neighbors
  generalize g.edges = ev
  have hnb := c156_neighbors ev s
  by_cases hr : RowThere ev s.val
  · rw [(hnb.1 _).2 ⟨hr, rfl⟩, bind_ok]
    rcases binarySearch_total (rowOf ev s.val) t with ⟨i, e1, e2⟩ | ⟨i, e1, -⟩
    · rw [e1, bind_ok]
      exact ⟨⟨fun _ => hr, fun _ => ⟨_, rfl⟩⟩, fun _ => List.mem_of_getElem? e2, fun _ _ _ => rfl⟩
    · rw [e1, bind_ok]
      refine ⟨⟨fun _ => hr, fun _ => ⟨_, rfl⟩⟩, fun e => (by cases e), fun hp _ hmem => ?_⟩
      rcases binarySearch_spec _ t hp with ⟨j, e, -⟩ | ⟨j, e, hno, -⟩
      · rw [e1] at e; cases e
      · exact absurd hmem hno
  · cases h : ev.neighbors s with
    | ok l => exact absurd ((hnb.1 l).1 h).1 hr
    | error p =>
      rw [bind_error]
      exact ⟨⟨fun ⟨b, e⟩ => (by cases e), fun e => absurd e hr⟩, fun e => (by cases e), fun _ e => absurd e hr⟩

/-- **C156.** The label id found for an edge stands at the place of one of its entries; where the array of
labels is too short there is none. -/
theorem c156_edge_label (ev : EdgeVec m k) {s t : Id m} {l : Id k} (h : ev.findEdgeLabelId s t = .ok (some l)) :
    ∃ o i, ev.offsets[s.val]? = some o ∧ (rowOf ev s.val)[i]? = some t ∧ ev.edges[o + i]? = some t ∧
      ev.getLabels[o + i]? = some l := by
  unfold findEdgeLabelId at h
  split at h
  · cases h
  · obtain ⟨r, hr, h⟩ := bind_eq_ok h
    cases r with
    | none => cases h
    | some j =>
      have hl : ev.getLabels[j]? = some l := by
        simp only [pure_ok, Except.ok.injEq] at h; exact h
      by_cases h0 : ev.offsets = []
      · unfold findEdgeIndex at hr
        rw [hasNode_raw, if_pos (by simp [h0])] at hr; cases hr
      · rcases hasEdge_cases ev s t h0 with ⟨-, e⟩ | ⟨h1, -, e⟩
        · rw [e] at hr; cases hr
        · rw [e] at hr
          rcases searchRow_cases (ev := ev) (t := t) h1 with ⟨-, e⟩ | ⟨hok, ⟨o, i, e1, e2, e⟩ | ⟨e, -⟩⟩
          · rw [e] at hr; cases hr
          · rw [e] at hr; cases hr
            refine ⟨o, i, e1, e2, ?_, hl⟩
            obtain ⟨a, b, hab, hle⟩ := hok
            have : a = o := by rw [hab.1] at e1; exact Option.some.inj e1
            subst this
            rw [Bounds.rowOf hab, List.getElem?_drop] at e2
            rw [List.getElem?_take] at e2
            split at e2
            · exact e2
            · cases e2
          · rw [e] at hr; cases hr

/-- **C156.** The label id of a node: a panic exactly if the array of labels is too short. -/
theorem c156_node_label (g : StaticGraph m k NL EL) (n : Id m) :
    (g.nodeLid n = .error .indexOutOfBounds ↔
      n.val < g.numNodes ∧ ∃ ls, g.labels = some ls ∧ ls.length ≤ n.val) ∧
    (g.nodeLid n = .error .indexOutOfBounds ∨ ∃ l, g.nodeLid n = .ok l) := by
  unfold StaticGraph.nodeLid StaticGraph.hasNode
  by_cases hn : n.val < g.numNodes
  · simp only [hn, decide_true, Bool.not_true, Bool.false_eq_true, if_false, true_and]
    cases hl : g.labels with
    | none => simp [pure_ok]
    | some ls =>
      by_cases hlt : n.val < ls.length
      · simp only [index_lt hlt, bind_ok, pure_ok, reduceCtorEq, Option.some.injEq, exists_eq_left', false_iff,
          not_le, hlt, false_or, Except.ok.injEq, exists_eq', and_self]
      · have : index ls n.val = .error .indexOutOfBounds := by
          unfold index; rw [List.getElem?_eq_none (by omega)]
        simp only [this, bind_error, Option.some.injEq, exists_eq_left', true_iff, true_or, and_true]
        omega
  · simp [hn, pure_ok]

/-! ### Enumeration -/

/-- **C156.** The enumeration of the edges, directed or with sorted rows, however much fuel: it panics exactly if
some row has its offsets in the wrong order or is nonempty and leaves the array; otherwise it lists the rows in
order. -/
theorem c156_edges (ev : EdgeVec m k) (h0 : ev.offsets ≠ []) (hm : ev.offsets.length ≤ m + 1) (d : Bool)
    (hrow : d = true ∨ ∀ n, (rowOf ev n).Pairwise (· < ·)) (fuel : Nat)
    (hf : ev.offsets.length + ev.edges.length + 1 ≤ fuel) :
    (∀ l, EdgeIter.collect ev d fuel ⟨0, 0⟩ = .ok l ↔
      (∀ n, n + 1 < ev.offsets.length → Passable ev n) ∧ l = rowPairs ev d) ∧
    ((∃ n, n + 1 < ev.offsets.length ∧ ¬ Passable ev n) →
      EdgeIter.collect ev d fuel ⟨0, 0⟩ = .error .underflow ∨
      EdgeIter.collect ev d fuel ⟨0, 0⟩ = .error .indexOutOfBounds) ∧
    ev.edgeIndices d = EdgeIter.collect ev d fuel ⟨0, 0⟩ := by
  have h0' : ev.offsets.length ≠ 0 := by simpa using h0
  obtain ⟨c, hc⟩ : ∃ c, ev.offsets.length = c + 1 := ⟨ev.offsets.length - 1, by omega⟩
  have key : ∀ F, ev.offsets.length + ev.edges.length + 1 ≤ F →
      EdgeIter.collect ev d F ⟨0, 0⟩ = EdgeIter.expected ev d c 0 0 := fun F hF =>
    EdgeIter.collect_raw c hc (by omega) d (hrow.imp id (fun h n _ => h n)) F c 0 0 (by omega)
      (fun _ _ _ => Nat.zero_le _) (by omega)
  have hbad : (∃ n, n + 1 < ev.offsets.length ∧ ¬ Passable ev n) →
      EdgeIter.expected ev d c 0 0 = .error .underflow ∨
      EdgeIter.expected ev d c 0 0 = .error .indexOutOfBounds := by
    rintro ⟨n, hn, hp⟩
    exact EdgeIter.expected_error c hc (by omega) d c 0 (by omega) ⟨n, by omega, by omega, hp⟩
  refine ⟨fun l => ?_, ?_, ?_⟩
  · rw [key fuel hf]
    by_cases hp : ∀ n, n + 1 < ev.offsets.length → Passable ev n
    · rw [EdgeIter.expected_ok c hc (by omega) d c 0 (by omega) (fun j _ hj => hp j (by omega))]
      unfold rowPairs
      rw [hc, Nat.add_sub_cancel, List.range_eq_range']
      constructor
      · intro e; exact ⟨hc ▸ hp, by cases e; rfl⟩
      · rintro ⟨-, rfl⟩; rfl
    · have : ∃ n, n + 1 < ev.offsets.length ∧ ¬ Passable ev n := by
        by_contra hcon
        exact hp (fun n hn => by by_contra hq; exact hcon ⟨n, hn, hq⟩)
      constructor
      · intro e; rcases hbad this with h | h <;> rw [h] at e <;> cases e
      · intro e; exact absurd e.1 hp
  · rw [key fuel hf]; exact hbad
  · rw [key fuel hf]; exact key _ (le_refl _)

/-- Without offsets the enumeration panics. -/
theorem c156_no_offsets (ev : EdgeVec m k) (h : ev.offsets = []) (d : Bool) :
    ev.edgeIndices d = .error .underflow := by
  unfold edgeIndices EdgeIter.collect EdgeIter.next EdgeIter.skipEmpty
  simp only
  rw [hasNode_raw, if_pos (by simp [h])]; rfl

/-! ### Arrays as a file may give them -/

/-- Offsets beyond the edges, in the wrong order, a row out of order. -/
def odd : EdgeVec 9 3 := ⟨[0, 2, 2, 9, 4, 7], [4, 1, 8, 0], none⟩

example : RowThere odd 0 ∧ ¬ RowThere odd 2 ∧ ¬ Passable odd 2 ∧ rowOf odd 0 = [4, 1] ∧
    odd.neighbors 2 = .error .indexOutOfBounds ∧ odd.degree 2 = .ok 7 ∧ odd.degree 3 = .error .underflow ∧
    odd.neighbors 5 = .error .explicit := by
  refine ⟨⟨0, 2, ⟨rfl, rfl⟩, by decide, by decide⟩, ?_, ?_, by decide, by decide, by decide, by decide, by decide⟩
  · rintro ⟨a, b, ⟨h1, h2⟩, h3, h4⟩
    cases h1; cases h2; revert h4; decide
  · rintro ⟨a, b, ⟨h1, h2⟩, h3, h4⟩
    cases h1; cases h2; revert h4; decide

theorem next_some (ev : EdgeVec m k) (hm : m + 1 < ev.offsets.length) (d : Bool) :
    ∀ fuel it, EdgeIter.next ev d fuel it ≠ .ok none := by
  have hnode : ∀ n : Id m, ev.hasNode n = .ok true := by
    intro n
    rw [hasNode_raw, if_neg (by omega)]
    have := n.isLt
    simp; omega
  intro fuel
  induction fuel with
  | zero => intro it h; cases h
  | succ fuel ih =>
    intro it h
    unfold EdgeIter.next at h
    obtain ⟨it', -, h⟩ := bind_eq_ok h
    rw [hnode, bind_ok] at h
    simp only [if_true] at h
    obtain ⟨nb, -, h⟩ := bind_eq_ok h
    obtain ⟨o, -, h⟩ := bind_eq_ok h
    cases o with
    | none => exact ih _ h
    | some i =>
      simp only at h
      unfold EdgeIter.yieldAt at h
      obtain ⟨t, -, h⟩ := bind_eq_ok h
      cases h

/-- **C156.** With more rows than there are ids below the largest, the enumeration never comes to an end, whatever the
arrays hold: every id is a row again and again. -/
theorem c156_never_ends (ev : EdgeVec m k) (hm : m + 1 < ev.offsets.length) (d : Bool) (fuel : Nat)
    (it : EdgeIter) (l : List (Id m × Id m)) : EdgeIter.collect ev d fuel it ≠ .ok l := by
  induction fuel generalizing it l with
  | zero => intro h; cases h
  | succ fuel ih =>
    intro h
    unfold EdgeIter.collect at h
    obtain ⟨o, ho, h⟩ := bind_eq_ok h
    cases o with
    | none => exact next_some ev hm d _ _ ho
    | some p =>
      obtain ⟨e, it'⟩ := p
      simp only at h
      obtain ⟨l', hl, -⟩ := bind_eq_ok h
      exact ih _ _ hl

/-- Non-vacuity: four offsets, and ids up to 1. -/
example : (1 : Nat) + 1 < (⟨[0, 1, 1, 9], [1], none⟩ : EdgeVec 1 3).offsets.length := by decide

/-- **C156.** `degree` may tell a number for a row that `neighbors` cannot give; an edge in a row out of order may
be denied; and the two kinds of frozen graphs answer differently for a target that is no node. -/
theorem c156_disagree :
    odd.degree 2 = .ok 7 ∧ odd.neighbors 2 = .error .indexOutOfBounds ∧
    odd.neighbors 0 = .ok [4, 1] ∧
    StaticGraph.hasEdge (k := 3) (NL := String) (EL := String) ⟨true, 5, 4, odd, none, none, ⟨[]⟩, ⟨[]⟩⟩ 0 1 = .ok true ∧
    StaticGraph.hasEdge (k := 3) (NL := String) (EL := String) ⟨true, 5, 4, odd, none, none, ⟨[]⟩, ⟨[]⟩⟩ 0 4 = .ok false ∧
    StaticGraph.hasEdge (k := 3) (NL := String) (EL := String)
      ⟨true, 2, 1, ⟨[0, 1, 1], [7], none⟩, none, none, ⟨[]⟩, ⟨[]⟩⟩ (0 : Id 9) 7 = .ok false ∧
    MmapGraph.hasEdge (k := 3) (NL := String) (EL := String)
      ⟨⟨[0, 1, 1], [7], none⟩, none, none, 2, 1, ⟨[]⟩, ⟨[]⟩⟩ (0 : Id 9) 7 = .ok true := by
  decide

/-- Fine rows, except for an empty one beyond the array. -/
def fineRows : EdgeVec 9 3 := ⟨[1, 3, 3, 4, 9, 9], [6, 1, 3, 2, 4, 5, 7, 8, 9], none⟩

example : fineRows.offsets ≠ [] ∧ fineRows.offsets.length ≤ 10 ∧
    (∀ n, n < 5 → (rowOf fineRows n).Pairwise (· < ·)) ∧
    fineRows.edgeIndices false = .ok (rowPairs fineRows false) ∧
    rowPairs fineRows false = [(0, 1), (0, 3), (2, 2), (3, 4), (3, 5), (3, 7), (3, 8), (3, 9)] ∧
    fineRows.edgeIndices true = .ok (rowPairs fineRows true) := by
  decide

/-- An undirected graph the row of whose node `3` is out of order. -/
def round : EdgeVec 9 3 := ⟨[0, 0, 0, 0, 3], [5, 4, 1], none⟩

theorem round_turn (f : Nat) :
    EdgeIter.next round false (f + 1) ⟨3, 0⟩ = .ok (some ((3, 5), ⟨3, 1⟩)) ∧
    EdgeIter.next round false (f + 1) ⟨3, 1⟩ = .ok (some ((3, 4), ⟨3, 2⟩)) ∧
    EdgeIter.next round false (f + 1) ⟨3, 2⟩ = .ok (some ((3, 5), ⟨3, 1⟩)) := ⟨rfl, rfl, rfl⟩

theorem round_endless : ∀ f, EdgeIter.collect round false f ⟨3, 1⟩ = .error .diverge ∧
    EdgeIter.collect round false f ⟨3, 2⟩ = .error .diverge := by
  intro f
  induction f with
  | zero => exact ⟨rfl, rfl⟩
  | succ f ih =>
    unfold EdgeIter.collect
    rw [(round_turn f).2.1, (round_turn f).2.2]
    simp only [bind_ok, ih.1, ih.2, bind_error, and_self]

/-- **C156.** Why sortedness is needed: with a row out of order the enumeration of an undirected graph may start
the row again and again; it never ends, whatever the fuel. -/
theorem c156_endless : ∀ fuel, EdgeIter.collect round false fuel ⟨0, 0⟩ = .error .diverge
  | 0 => rfl
  | 1 => rfl
  | 2 => rfl
  | 3 => rfl
  | f + 4 => by
    unfold EdgeIter.collect
    have : EdgeIter.next round false (f + 3 + 1) ⟨0, 0⟩ = .ok (some ((3, 5), ⟨3, 1⟩)) := rfl
    rw [this, bind_ok]
    simp only
    rw [(round_endless _).1, bind_error]

end Verif.Props
