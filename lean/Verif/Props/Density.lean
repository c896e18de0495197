import Verif.Model.Programs
import Verif.Props.GraphState
import Verif.Props.Csv
import Mathlib.Data.Nat.Pairing

/-! Property theorems about the program `vary_density`: C93, C94, C95. -/

namespace Verif.Props

open GraphMap Spec Programs

variable {m k : Nat} {NL EL : Type} [DecidableEq NL] [DecidableEq EL]

/-- The number of unordered pairs of distinct nodes without an edge. -/
def freePairs (g : GraphMap m k NL EL) : Nat :=
  (Finset.univ.filter (fun p : Id m × Id m => p.1 < p.2 ∧ g.hasNode p.1 = true ∧ g.hasNode p.2 = true ∧
    g.hasEdge p.1 p.2 = false)).card

/-- `g'` is `g` with `i` more edges, which have no labels and join distinct nodes of `g`. -/
structure Denser (i : Nat) (g g' : GraphMap m k NL EL) : Prop where
  directed : g'.isDirected = g.isDirected
  nodes : ∀ n, g'.hasNode n = g.hasNode n
  nodeLabel : ∀ n, g'.getNodeLabel n = g.getNodeLabel n
  nodeCount : g'.nodeCount = g.nodeCount
  maxSeen : g'.maxSeenId = g.maxSeenId
  nodeTable : g'.nodeLabels = g.nodeLabels
  edgeTable : g'.edgeLabels = g.edgeLabels
  old : ∀ s t, g.hasEdge s t = true → g'.hasEdge s t = true ∧ g'.getEdgeLabel s t = g.getEdgeLabel s t
  fresh : ∀ s t, g'.hasEdge s t = true → g.hasEdge s t = false →
    s ≠ t ∧ g.hasNode s = true ∧ g.hasNode t = true ∧ g'.getEdgeLabel s t = .ok none
  edgeCount : g'.edgeCount = g.edgeCount + i
  listed : g'.edgeIndices.length = g.edgeIndices.length + i
  free : freePairs g' + i = freePairs g

omit [DecidableEq NL] [DecidableEq EL] in
theorem Denser.refl (g : GraphMap m k NL EL) : Denser 0 g g :=
  ⟨rfl, fun _ => rfl, fun _ => rfl, rfl, rfl, rfl, rfl, fun _ _ h => ⟨h, rfl⟩,
    fun _ _ h1 h2 => absurd (h1.symm.trans h2) (by simp), rfl, rfl, rfl⟩

omit [DecidableEq NL] [DecidableEq EL] in
theorem Denser.trans {i j : Nat} {g h f : GraphMap m k NL EL} (a : Denser i g h) (b : Denser j h f) :
    Denser (i + j) g f := by
  refine ⟨b.directed.trans a.directed, fun n => (b.nodes n).trans (a.nodes n),
    fun n => (b.nodeLabel n).trans (a.nodeLabel n), b.nodeCount.trans a.nodeCount,
    b.maxSeen.trans a.maxSeen, b.nodeTable.trans a.nodeTable, b.edgeTable.trans a.edgeTable,
    fun s t h => ?_, fun s t h1 h2 => ?_, ?_, ?_, ?_⟩
  · obtain ⟨x, y⟩ := a.old s t h
    obtain ⟨x', y'⟩ := b.old s t x
    exact ⟨x', y'.trans y⟩
  · cases h : h.hasEdge s t with
    | true =>
      obtain ⟨x1, x2, x3, x4⟩ := a.fresh s t h h2
      exact ⟨x1, x2, x3, (b.old s t h).2.trans x4⟩
    | false =>
      obtain ⟨x1, x2, x3, x4⟩ := b.fresh s t h1 h
      exact ⟨x1, by rw [← a.nodes]; exact x2, by rw [← a.nodes]; exact x3, x4⟩
  · rw [b.edgeCount, a.edgeCount]; omega
  · rw [b.listed, a.listed]; omega
  · have := a.free
    have := b.free
    omega

theorem addEdge_denser {g g' : GraphMap m k NL EL} (hg : Reachable g) (hd : g.directed = false)
    {s t : Id m} (hs : g.hasNode s = true) (ht : g.hasNode t = true) (hne : s ≠ t)
    (he : g.hasEdge s t = false) {b} (h : g.addEdge s t none = .ok (g', b)) :
    Reachable g' ∧ Denser 1 g g' := by
  have hr : Reachable g' := reachable_exec hg (ops := [.addEdge s t none])
    (by simp [exec, GraphMap.apply, h, bind_ok, pure_ok])
  obtain ⟨g1, el, lid, hi, h1, h2, h3, h4, h5, h6, h7, h8, h9⟩ := addEdge_spec hg.inv.toNWF s t none
  rw [h1] at h
  obtain rfl : g1 = g' := by cases h; rfl
  cases hi
  have hout : ∀ a b, g1.outE a b = if AGraph.same false s t a b then some none else g.outE a b :=
    fun a b => by rw [← hd]; exact congrArg (fun r => r.edge a b) h8
  have hlab : ∀ x, g1.labE x = g.labE x := by
    intro x
    have := congrArg (fun r => r.node x) h8
    have e : g1.labE x = if (x = s ∨ x = t) ∧ g.labE x = none then some none else g.labE x := this
    rw [e, if_neg]
    rintro ⟨rfl | rfl, hx⟩
    · rw [hasNode_eq_labE, hx] at hs; cases hs
    · rw [hasNode_eq_labE, hx] at ht; cases ht
  have hnodes : ∀ n, g1.hasNode n = g.hasNode n := fun n => by
    rw [hasNode_eq_labE, hasNode_eq_labE, hlab]
  have hedge : ∀ a b, g1.hasEdge a b = true ↔ AGraph.same false s t a b ∨ g.hasEdge a b = true := by
    intro a b
    rw [hasEdge_eq_outE, hasEdge_eq_outE, hout]
    split <;> simp_all
  have hsym : ∀ a b, g.hasEdge a b = g.hasEdge b a := by
    intro a b
    rw [hasEdge_eq_outE, hasEdge_eq_outE]
    exact Bool.eq_iff_iff.2 ⟨hg.inv.sym hd a b, hg.inv.sym hd b a⟩
  have hsame : ∀ a b, AGraph.same false s t a b → g.hasEdge a b = false := by
    rintro a b (⟨rfl, rfl⟩ | ⟨-, rfl, rfl⟩)
    · exact he
    · rw [hsym]; exact he
  refine ⟨hr, h3, hnodes, ?_, ?_, ?_, h5, h6, ?_, ?_, h4, ?_, ?_⟩
  · intro n
    rw [getNodeLabel_eq, getNodeLabel_eq]
    simp only [decode, hlab, h5]
  · obtain ⟨a1, a2, a3, -⟩ := c11_nodes hg
    obtain ⟨b1, b2, b3, -⟩ := c11_nodes hr
    rw [a3, b3]
    exact ((List.perm_ext_iff_of_nodup b1 a1).2 (fun n => by rw [a2, b2, hnodes])).length_eq
  · show g1.maxId = g.maxId
    rw [h7]
    simp [seen, hs, ht]
  · intro a b h
    have hn : ¬ AGraph.same false s t a b := fun hc => by rw [hsame a b hc] at h; cases h
    refine ⟨(hedge a b).2 (.inr h), ?_⟩
    rw [getEdgeLabel_eq, getEdgeLabel_eq]
    simp only [decode, hout, if_neg hn, h6]
  · intro a b h hn
    have hc : AGraph.same false s t a b := ((hedge a b).1 h).resolve_right (by simp [hn])
    refine ⟨?_, ?_, ?_, ?_⟩
    · rcases hc with ⟨rfl, rfl⟩ | ⟨-, rfl, rfl⟩
      · exact hne
      · exact hne.symm
    · rcases hc with ⟨rfl, rfl⟩ | ⟨-, rfl, rfl⟩
      · exact hs
      · exact ht
    · rcases hc with ⟨rfl, rfl⟩ | ⟨-, rfl, rfl⟩
      · exact ht
      · exact hs
    · rw [getEdgeLabel_eq]
      simp only [decode, hout, if_pos hc]
      rfl
  · rw [edgeIndices_length hg.inv.toNWF, edgeIndices_length h2]
    unfold edgeNum
    rw [h3, h8, AGraph.edgeNumber_addEdge _ _ hg.inv.sym]
    have : (g.rep.edge s t).isSome = g.hasEdge s t := (hasEdge_eq_outE g s t).symm
    rw [this, he]; rfl
  · -- the pair, ordered, is no longer free
    have key : ∀ x y : Id m, x < y → (x = s ∧ y = t ∨ x = t ∧ y = s) →
        freePairs g1 + 1 = freePairs g := by
      intro x y hxy hp
      have hxs : AGraph.same false s t x y := hp.imp id (fun h => ⟨rfl, h⟩)
      have hnx : g.hasNode x = true ∧ g.hasNode y = true := by
        rcases hp with ⟨rfl, rfl⟩ | ⟨rfl, rfl⟩ <;> exact ⟨by assumption, by assumption⟩
      unfold freePairs
      rw [← Finset.card_erase_add_one (s := Finset.univ.filter (fun p : Id m × Id m => p.1 < p.2 ∧
        g.hasNode p.1 = true ∧ g.hasNode p.2 = true ∧ g.hasEdge p.1 p.2 = false)) (a := (x, y))
        (by simp [hxy, hnx.1, hnx.2, hsame x y hxs])]
      congr 2
      ext ⟨a, b⟩
      simp only [Finset.mem_filter, Finset.mem_univ, true_and, Finset.mem_erase, ne_eq, Prod.mk.injEq,
        hnodes]
      constructor
      · rintro ⟨q1, q2, q3, q4⟩
        rw [← Bool.not_eq_true, hedge] at q4
        refine ⟨?_, q1, q2, q3, by simpa using fun h => q4 (.inr h)⟩
        rintro ⟨rfl, rfl⟩
        exact q4 (.inl hxs)
      · rintro ⟨q0, q1, q2, q3, q4⟩
        refine ⟨q1, q2, q3, ?_⟩
        rw [← Bool.not_eq_true, hedge]
        rintro (hc | hc)
        · refine q0 ?_
          rcases hc with ⟨rfl, rfl⟩ | ⟨-, rfl, rfl⟩ <;> rcases hp with ⟨rfl, rfl⟩ | ⟨rfl, rfl⟩
          · exact ⟨rfl, rfl⟩
          · exact absurd (q1.trans hxy) (lt_irrefl _)
          · exact absurd (q1.trans hxy) (lt_irrefl _)
          · exact ⟨rfl, rfl⟩
        · rw [q4] at hc; cases hc
    rcases lt_or_gt_of_ne hne with h | h
    · exact key s t h (.inl ⟨rfl, rfl⟩)
    · exact key t s h (.inr ⟨rfl, rfl⟩)

/-! ### drawing -/

/-- The nodes are exactly the ids below `n`. -/
def Dense (n : Nat) (g : GraphMap m k NL EL) : Prop := ∀ i : Id m, g.hasNode i = true ↔ i.val < n

theorem checks_dense {g : GraphMap m k NL EL} (hg : Reachable g) :
    densityChecks g = .ok () ↔ g.nodeCount ≠ 0 ∧ g.maxSeenId.map (·.val) = some (g.nodeCount - 1) ∧
      Dense g.nodeCount g := by
  obtain ⟨a1, a2, a3, -⟩ := c11_nodes hg
  unfold densityChecks
  by_cases h0 : g.nodeCount = 0
  · simp [h0]
  rw [if_neg h0]
  cases hM : g.maxSeenId with
  | none => simp [unwrap, bind_error]
  | some M =>
    simp only [unwrap, bind_ok, pure_ok, Option.map_some, Option.some.injEq]
    constructor
    · intro h
      by_cases he : M.val = g.nodeCount - 1
      · refine ⟨h0, he, ?_⟩
        have hsub : (g.nodeIndices.map Fin.val).toFinset ⊆ Finset.range g.nodeCount := by
          intro x hx
          simp only [List.mem_toFinset, List.mem_map] at hx
          obtain ⟨n, hn, rfl⟩ := hx
          obtain ⟨M', e1, e2⟩ := hg.inv.maxBound n ((a2 n).1 hn)
          rw [show g.maxId = some M from hM] at e1
          cases e1
          have e2 : n.val ≤ M.val := e2
          simp only [Finset.mem_range]
          omega
        have hc : (g.nodeIndices.map Fin.val).toFinset.card = g.nodeCount := by
          rw [List.toFinset_card_of_nodup (a1.map Fin.val_injective), List.length_map, a3]
        have := Finset.eq_of_subset_of_card_le hsub (by rw [hc, Finset.card_range])
        intro i
        rw [← a2]
        constructor
        · intro hi
          have : i.val ∈ Finset.range g.nodeCount := hsub (List.mem_toFinset.2 (List.mem_map_of_mem hi))
          simpa using this
        · intro hi
          have hi : i.val ∈ (g.nodeIndices.map Fin.val).toFinset := by rw [this]; simpa using hi
          simp only [List.mem_toFinset, List.mem_map] at hi
          obtain ⟨n, hn, he⟩ := hi
          rwa [Fin.val_injective he] at hn
      · rw [if_neg he] at h; cases h
    · rintro ⟨-, h, -⟩
      rw [if_pos h]

/-- The `j`-th pair of ids that a generator draws from `0..n`. -/
def drawn (r : Rng) (n j : Nat) : Nat × Nat := ((r (2 * j)).word % n, (r (2 * j + 1)).word % n)

/-- The generator after `j` pairs. -/
def after (r : Rng) (j : Nat) : Rng := fun i => r (i + 2 * j)

/-- A new edge may be put there. -/
def FreeAt (g : GraphMap m k NL EL) (p : Nat × Nat) : Prop :=
  p.1 ≠ p.2 ∧ g.hasEdge (Id.new p.1) (Id.new p.2) = false

instance (g : GraphMap m k NL EL) (p : Nat × Nat) : Decidable (FreeAt g p) :=
  inferInstanceAs (Decidable (_ ∧ _))

theorem drawn_after (r : Rng) (n c j : Nat) : drawn (after r c) n j = drawn r n (j + c) := by
  unfold drawn after
  rw [show 2 * j + 2 * c = 2 * (j + c) by omega, show 2 * j + 1 + 2 * c = 2 * (j + c) + 1 by omega]

theorem after_after (r : Rng) (c j : Nat) : after (after r c) j = after r (j + c) := by
  funext i
  unfold after
  congr 1; omega

theorem new_val' {x : Nat} (h : x ≤ m) : (Id.new x : Id m).val = x := Nat.mod_eq_of_lt (by omega)

theorem drawEdge_succ {nodes : Id m} (h0 : nodes.val ≠ 0) (fuel : Nat) (g : GraphMap m k NL EL) (r : Rng) :
    drawEdge nodes (fuel + 1) g r =
      (if FreeAt g (drawn r nodes.val 0) then do
        let q ← g.addEdge (Id.new (drawn r nodes.val 0).1) (Id.new (drawn r nodes.val 0).2) none
        pure (q.1, after r 1)
      else drawEdge nodes fuel g (after r 1)) := by
  rw [drawEdge]
  simp only [Rng.range, if_neg h0, pure_ok, bind_ok]
  by_cases hf : FreeAt g (drawn r nodes.val 0)
  · rw [if_pos hf, if_pos (by
      obtain ⟨a, b⟩ := hf
      have a : (r 0).word % nodes.val ≠ (r.rest 0).word % nodes.val := a
      have b : g.hasEdge (Id.new ((r 0).word % nodes.val)) (Id.new ((r.rest 0).word % nodes.val)) = false := b
      simp [a, b])]
    rfl
  · rw [if_neg hf, if_neg (by
      intro h
      refine hf ⟨?_, ?_⟩
      · show (r 0).word % nodes.val ≠ (r.rest 0).word % nodes.val
        intro e; simp [e] at h
      · show g.hasEdge (Id.new ((r 0).word % nodes.val)) (Id.new ((r.rest 0).word % nodes.val)) = false
        simp only [Bool.and_eq_true, Bool.not_eq_true'] at h; exact h.2)]
    rfl

theorem drawEdge_cases {g : GraphMap m k NL EL} (hg : Reachable g) (hd : g.directed = false)
    {nodes : Id m} (h0 : nodes.val ≠ 0) (hD : Dense nodes.val g) : ∀ (fuel : Nat) (r : Rng),
    (∃ j g', drawEdge nodes fuel g r = .ok (g', after r (j + 1)) ∧ Reachable g' ∧ Denser 1 g g') ∨
      (drawEdge nodes fuel g r = .error .diverge ∧ ∀ j < fuel, ¬ FreeAt g (drawn r nodes.val j)) := by
  intro fuel
  induction fuel with
  | zero => exact fun r => .inr ⟨rfl, fun j hj => absurd hj (Nat.not_lt_zero j)⟩
  | succ fuel ih =>
    intro r
    rw [drawEdge_succ h0]
    by_cases hf : FreeAt g (drawn r nodes.val 0)
    · rw [if_pos hf]
      have b1 : (drawn r nodes.val 0).1 < nodes.val := Nat.mod_lt _ (by omega)
      have b2 : (drawn r nodes.val 0).2 < nodes.val := Nat.mod_lt _ (by omega)
      have := nodes.isLt
      have e1 : (Id.new (drawn r nodes.val 0).1 : Id m).val = _ := new_val' (by omega)
      have e2 : (Id.new (drawn r nodes.val 0).2 : Id m).val = _ := new_val' (by omega)
      obtain ⟨g', h⟩ := c07_add_edge hg (Id.new (drawn r nodes.val 0).1) (Id.new (drawn r nodes.val 0).2) none
      obtain ⟨q1, q2⟩ := addEdge_denser hg hd ((hD _).2 (by rw [e1]; exact b1))
        ((hD _).2 (by rw [e2]; exact b2)) (fun he => hf.1 (by rw [← e1, ← e2, he])) hf.2 h
      exact .inl ⟨0, g', by rw [h]; rfl, q1, q2⟩
    · rw [if_neg hf]
      rcases ih (after r 1) with ⟨j, g', h1, h2⟩ | ⟨h1, h2⟩
      · exact .inl ⟨j + 1, g', by rw [h1, after_after], h2⟩
      · refine .inr ⟨h1, fun j hj => ?_⟩
        cases j with
        | zero => exact hf
        | succ j =>
          have := h2 j (by omega)
          rwa [drawn_after] at this

theorem drawEdge_mono {nodes : Id m} {g : GraphMap m k NL EL} : ∀ {fuel : Nat} {r : Rng} {x},
    drawEdge nodes fuel g r = .ok x → ∀ {fuel'}, fuel ≤ fuel' → drawEdge nodes fuel' g r = .ok x := by
  intro fuel
  induction fuel with
  | zero => intro r x h; cases h
  | succ fuel ih =>
    intro r x h fuel' hle
    obtain ⟨f, rfl⟩ : ∃ f, fuel' = f + 1 := ⟨fuel' - 1, by omega⟩
    by_cases h0 : nodes.val = 0
    · rw [drawEdge] at h
      simp only [Rng.range, h0, if_true, bind_error] at h
      cases h
    rw [drawEdge_succ h0] at h ⊢
    by_cases hf : FreeAt g (drawn r nodes.val 0)
    · rw [if_pos hf] at h ⊢; exact h
    · rw [if_neg hf] at h ⊢
      exact ih h (by omega)

omit [DecidableEq NL] [DecidableEq EL] in
theorem Denser.dense {i n : Nat} {g h : GraphMap m k NL EL} (a : Denser i g h) (d : Dense n g) :
    Dense n h := fun x => by rw [a.nodes]; exact d x

theorem drawEdges_cases {nodes : Id m} (h0 : nodes.val ≠ 0) (fuel : Nat) : ∀ (i : Nat)
    {g : GraphMap m k NL EL}, Reachable g → g.directed = false → Dense nodes.val g → ∀ r : Rng,
    (∃ j g', drawEdges nodes fuel i g r = .ok (g', after r j) ∧ Reachable g' ∧ Denser i g g') ∨
      drawEdges nodes fuel i g r = .error .diverge := by
  intro i
  induction i with
  | zero => exact fun {g} hg _ _ r => .inl ⟨0, g, rfl, hg, Denser.refl g⟩
  | succ i ih =>
    intro g hg hd hD r
    rw [drawEdges]
    rcases drawEdge_cases hg hd h0 hD fuel r with ⟨j, g1, h1, h2, h3⟩ | ⟨h1, -⟩
    · rw [h1, bind_ok]
      rcases ih h2 (h3.directed.trans hd) (h3.dense hD) (after r (j + 1)) with ⟨j', g2, q1, q2, q3⟩ | q
      · refine .inl ⟨_, g2, by rw [q1, after_after], q2, ?_⟩
        rw [Nat.add_comm]; exact h3.trans q3
      · exact .inr q
    · rw [h1]; exact .inr rfl

theorem drawEdges_mono {nodes : Id m} : ∀ {i : Nat} {g : GraphMap m k NL EL} {fuel : Nat} {r : Rng} {x},
    drawEdges nodes fuel i g r = .ok x → ∀ {fuel'}, fuel ≤ fuel' → drawEdges nodes fuel' i g r = .ok x := by
  intro i
  induction i with
  | zero => intro g fuel r x h fuel' _; exact h
  | succ i ih =>
    intro g fuel r x h fuel' hle
    rw [drawEdges] at h ⊢
    obtain ⟨q, h1, h2⟩ := bind_eq_ok h
    rw [drawEdge_mono h1 hle, bind_ok]
    exact ih h2 hle

/-- Every pair of ids below `n` comes again and again. -/
def Fair (n : Nat) (r : Rng) : Prop := ∀ i a b, a < n → b < n → ∃ j, i ≤ j ∧ drawn r n j = (a, b)

theorem Fair.after {n : Nat} {r : Rng} (h : Fair n r) (c : Nat) : Fair n (after r c) := by
  intro i a b ha hb
  obtain ⟨j, h1, h2⟩ := h (i + c) a b ha hb
  exact ⟨j - c, by omega, by rw [drawn_after, ← h2]; congr 1; omega⟩

theorem drawEdge_fair {g : GraphMap m k NL EL} (hg : Reachable g) (hd : g.directed = false)
    {nodes : Id m} (h0 : nodes.val ≠ 0) (hD : Dense nodes.val g) (hf : 0 < freePairs g) {r : Rng}
    (hr : Fair nodes.val r) :
    ∃ fuel j g', drawEdge nodes fuel g r = .ok (g', Verif.Props.after r j) ∧ Reachable g' ∧ Denser 1 g g' := by
  obtain ⟨⟨a, b⟩, hp⟩ := Finset.card_pos.1 hf
  simp only [Finset.mem_filter, Finset.mem_univ, true_and] at hp
  obtain ⟨p1, p2, p3, p4⟩ := hp
  obtain ⟨j, -, hj⟩ := hr 0 a.val b.val ((hD a).1 p2) ((hD b).1 p3)
  rcases drawEdge_cases hg hd h0 hD (j + 1) r with ⟨i, g', q⟩ | ⟨-, q⟩
  · exact ⟨j + 1, i + 1, g', q⟩
  · refine absurd ?_ (q j (by omega))
    rw [hj]
    have ea : (Id.new a.val : Id m) = a := Fin.ext (new_val' (by have := a.isLt; omega))
    have eb : (Id.new b.val : Id m) = b := Fin.ext (new_val' (by have := b.isLt; omega))
    exact ⟨by have : a.val < b.val := p1
              show a.val ≠ b.val; omega, by rw [ea, eb]; exact p4⟩

theorem drawEdges_fair {nodes : Id m} (h0 : nodes.val ≠ 0) : ∀ (i : Nat) {g : GraphMap m k NL EL},
    Reachable g → g.directed = false → Dense nodes.val g → i ≤ freePairs g → ∀ {r : Rng},
    Fair nodes.val r →
    ∃ fuel j g', drawEdges nodes fuel i g r = .ok (g', Verif.Props.after r j) ∧ Reachable g' ∧ Denser i g g' := by
  intro i
  induction i with
  | zero => exact fun {g} hg _ _ _ {r} _ => ⟨0, 0, g, rfl, hg, Denser.refl g⟩
  | succ i ih =>
    intro g hg hd hD hf r hr
    obtain ⟨f1, j1, g1, a1, a2, a3⟩ := drawEdge_fair hg hd h0 hD (by omega) hr
    have := a3.free
    obtain ⟨f2, j2, g2, b1, b2, b3⟩ := ih a2 (a3.directed.trans hd) (a3.dense hD) (by omega) (hr.after j1)
    refine ⟨max f1 f2, j2 + j1, g2, ?_, b2, by rw [Nat.add_comm]; exact a3.trans b3⟩
    rw [drawEdges, drawEdge_mono a1 (le_max_left _ _), bind_ok,
      drawEdges_mono b1 (le_max_right _ _), after_after]

/-! ### C93, C94 -/

/-- The number of edges `vary_density` adds for these degrees: each time the target less the number of
edges of the graph it loaded. -/
def added (n e : Nat) (ds : List Nat) : Nat := (ds.map (fun d => d * n / 2 - e)).sum

theorem densities_spec {n e fuel : Nat} : ∀ (ds : List Nat) {g : GraphMap m k NL EL}, Reachable g →
    g.directed = false → Dense n g → n ≤ m + 1 → ∀ {r : Rng} {l res}, densities n e fuel ds g r = (l, res) →
    l.map Prod.fst <+: ds ∧ (res = .ok () → l.map Prod.fst = ds) ∧
    ∀ i d gi, l[i]? = some (d, gi) → Reachable gi ∧ Denser (added n e (ds.take (i + 1))) g gi ∧
      ∀ d ∈ ds.take (i + 1), e < d * n / 2 := by
  intro ds
  induction ds with
  | nil =>
    intro g _ _ _ _ r l res h
    cases h
    exact ⟨List.prefix_rfl, fun _ => rfl, fun i d gi h => by simp at h⟩
  | cons d ds ih =>
    intro g hg hd hD hle r l res h
    have stop : ∀ p, ([], Except.error p) = (l, res) → l.map Prod.fst <+: d :: ds ∧
        (res = .ok () → l.map Prod.fst = d :: ds) ∧
        ∀ i d' gi, l[i]? = some (d', gi) → Reachable gi ∧ Denser (added n e ((d :: ds).take (i + 1))) g gi ∧
          ∀ d' ∈ (d :: ds).take (i + 1), e < d' * n / 2 := by
      intro p h
      cases h
      exact ⟨List.nil_prefix, (fun h => by cases h), fun i d gi h => by simp at h⟩
    rw [densities] at h
    unfold densify at h
    by_cases ht : d * n / 2 ≤ e
    · simp only [if_pos ht] at h
      exact stop _ h
    simp only [if_neg ht] at h
    obtain ⟨c, hc⟩ : ∃ c, d * n / 2 - e = c + 1 := ⟨d * n / 2 - e - 1, by omega⟩
    by_cases hn : (Id.new n : Id m).val = 0
    · rw [hc, drawEdges] at h
      cases fuel with
      | zero => exact stop _ h
      | succ fuel =>
        rw [drawEdge] at h
        simp only [Rng.range, hn, if_true, bind_error] at h
        exact stop _ h
    have hn' : (Id.new n : Id m).val = n := by
      by_contra hcon
      -- all ids are nodes
      have hlt : m < n := by
        by_contra hle
        exact hcon (new_val' (by omega))
      have : n = m + 1 := by omega
      subst this
      exact hn (Nat.mod_self _)
    rcases drawEdges_cases hn fuel (d * n / 2 - e) hg hd (by rw [hn']; exact hD) r with
      ⟨j, g1, h1, h2, h3⟩ | h1
    · rw [h1] at h
      simp only [Prod.mk.injEq] at h
      obtain ⟨rfl, rfl⟩ := h
      obtain ⟨q1, q2, q3⟩ := ih h2 (h3.directed.trans hd) (h3.dense hD) hle (r := after r j) rfl
      refine ⟨?_, fun h => ?_, fun i d' gi hi => ?_⟩
      · rw [List.map_cons]
        exact (List.prefix_cons_inj d).2 q1
      · rw [List.map_cons, q2 h]
      · cases i with
        | zero =>
          simp only [List.getElem?_cons_zero, Option.some.injEq, Prod.mk.injEq] at hi
          obtain ⟨rfl, rfl⟩ := hi
          refine ⟨h2, by simpa [added] using h3, ?_⟩
          simp; omega
        | succ i =>
          rw [List.getElem?_cons_succ] at hi
          obtain ⟨x1, x2, x3⟩ := q3 i d' gi hi
          refine ⟨x1, ?_, ?_⟩
          · have := h3.trans x2
            simpa [added] using this
          · rw [List.take_succ_cons]
            intro y hy
            rcases List.mem_cons.1 hy with rfl | hy
            · omega
            · exact x3 y hy
    · rw [h1] at h
      exact stop _ h

omit [DecidableEq NL] [DecidableEq EL] in
theorem dense_le {g : GraphMap m k NL EL} (hn : g.nodeIndices.Nodup)
    (hc : g.nodeCount = g.nodeIndices.length) : g.nodeCount ≤ m + 1 := by
  rw [hc]
  simpa using hn.length_le_card

/-- **C93.** The graphs `vary_density` exports belong to a beginning of the list of degrees, to all of it if
the loop comes to its end. Each is the loaded graph with more edges, without labels, between distinct
nodes; their number is the sum, over the degrees so far, of the target less the original number of edges. -/
theorem c93_graphs {g : GraphMap m k NL EL} (hg : Reachable g) (hd : g.isDirected = false)
    (hc : densityChecks g = .ok ()) {fuel : Nat} {ds : List Nat} {r : Rng} {l res}
    (h : densities g.nodeCount g.edgeCount fuel ds g r = (l, res)) :
    l.map Prod.fst <+: ds ∧ (res = .ok () → l.map Prod.fst = ds) ∧
    ∀ i d gi, l[i]? = some (d, gi) → Reachable gi ∧
      Denser (added g.nodeCount g.edgeCount (ds.take (i + 1))) g gi := by
  obtain ⟨-, -, hD⟩ := (checks_dense hg).1 hc
  obtain ⟨a1, a2, a3, -⟩ := c11_nodes hg
  obtain ⟨x, y, z⟩ := densities_spec ds hg hd hD (dense_le a1 a3) h
  exact ⟨x, y, fun i d gi hi => ⟨(z i d gi hi).1, (z i d gi hi).2.1⟩⟩

/-- **C93**: the checks before the loop pass exactly if there is a node, the largest id ever seen is one less
than the number of nodes, and so the nodes are `0..n-1`. -/
theorem c93_checks {g : GraphMap m k NL EL} (hg : Reachable g) :
    densityChecks g = .ok () ↔ g.nodeCount ≠ 0 ∧ g.maxSeenId.map (·.val) = some (g.nodeCount - 1) ∧
      ∀ i, g.hasNode i = true ↔ i.val < g.nodeCount := checks_dense hg

/-- **C94.** The number of edges of the `i`-th exported graph exceeds the target of its degree by the number
of edges added for the degrees before it, so the target is met for the first degree only. -/
theorem c94_targets {g : GraphMap m k NL EL} (hg : Reachable g) (hd : g.isDirected = false)
    (hc : densityChecks g = .ok ()) {fuel : Nat} {ds : List Nat} {r : Rng} {l res}
    (h : densities g.nodeCount g.edgeCount fuel ds g r = (l, res)) {i d : Nat} {gi : GraphMap m k NL EL}
    (hi : l[i]? = some (d, gi)) :
    gi.edgeCount = d * g.nodeCount / 2 + added g.nodeCount g.edgeCount (ds.take i) ∧
    (gi.edgeCount = d * g.nodeCount / 2 ↔ i = 0) := by
  obtain ⟨-, -, hD⟩ := (checks_dense hg).1 hc
  obtain ⟨a1, a2, a3, -⟩ := c11_nodes hg
  obtain ⟨x, y, z⟩ := densities_spec ds hg hd hD (dense_le a1 a3) h
  obtain ⟨-, z2, z3⟩ := z i d gi hi
  have hdi : ds[i]? = some d := by
    have h1 : (l.map Prod.fst)[i]? = some d := by rw [List.getElem?_map, hi]; rfl
    obtain ⟨t, ht⟩ := x
    rw [← ht, List.getElem?_append_left (by
      rcases List.getElem?_eq_some_iff.1 h1 with ⟨q, -⟩; exact q)]
    exact h1
  have htake : ds.take (i + 1) = ds.take i ++ [d] := by rw [List.take_add_one, hdi]; rfl
  have hlt : g.edgeCount < d * g.nodeCount / 2 := z3 d (by rw [htake]; simp)
  have hsum : added g.nodeCount g.edgeCount (ds.take (i + 1)) =
      added g.nodeCount g.edgeCount (ds.take i) + (d * g.nodeCount / 2 - g.edgeCount) := by
    rw [htake]; simp [added]
  have hcount : gi.edgeCount = d * g.nodeCount / 2 + added g.nodeCount g.edgeCount (ds.take i) := by
    rw [z2.edgeCount, hsum]; omega
  refine ⟨hcount, ?_⟩
  rw [hcount]
  constructor
  · intro he
    by_contra h0
    obtain ⟨j, rfl⟩ : ∃ j, i = j + 1 := ⟨i - 1, by omega⟩
    cases ds with
    | nil => simp at hdi
    | cons d0 ds =>
      have : g.edgeCount < d0 * g.nodeCount / 2 := z3 d0 (by simp)
      simp only [added, List.take_succ_cons, List.map_cons, List.sum_cons] at he
      omega
  · rintro rfl
    simp [added]

/-! ### C95 -/

theorem densities_fair {n e : Nat} : ∀ (ds : List Nat) {g : GraphMap m k NL EL}, Reachable g →
    g.directed = false → Dense n g → n ≠ 0 → n ≤ m → (∀ d ∈ ds, e < d * n / 2) →
    added n e ds ≤ freePairs g → ∀ {r : Rng}, Fair n r →
    ∃ fuel l, ∀ fuel', fuel ≤ fuel' → densities n e fuel' ds g r = (l, .ok ()) := by
  intro ds
  induction ds with
  | nil => intro g _ _ _ _ _ _ _ r _; exact ⟨0, [], fun _ _ => rfl⟩
  | cons d ds ih =>
    intro g hg hd hD h0 hm hall hf r hr
    have hv : (Id.new n : Id m).val = n := new_val' hm
    have hs : added n e (d :: ds) = (d * n / 2 - e) + added n e ds := by simp [added]
    obtain ⟨f1, j, g1, a1, a2, a3⟩ := drawEdges_fair (nodes := Id.new n) (by rw [hv]; exact h0)
      (d * n / 2 - e) hg hd (by rw [hv]; exact hD) (by omega) (r := r) (by rw [hv]; exact hr)
    have := a3.free
    obtain ⟨f2, l, b⟩ := ih a2 (a3.directed.trans hd) (a3.dense hD) h0 hm
      (fun d hd => hall d (by simp [hd])) (by omega) (hr.after j)
    refine ⟨max f1 f2, (d, g1) :: l, fun f hf => ?_⟩
    have ht : ¬ d * n / 2 ≤ e := by
      have := hall d (by simp)
      omega
    rw [densities]
    unfold densify
    simp only [if_neg ht]
    rw [drawEdges_mono a1 ((le_max_left _ _).trans hf)]
    simp only [b f ((le_max_right _ _).trans hf)]

/-- There is a generator that draws every pair again and again. -/
theorem exists_fair (n : Nat) : ∃ r : Rng, Fair n r := by
  refine ⟨fun i => ⟨if i % 2 = 0 then (i / 2).unpair.1.unpair.1 else (i / 2).unpair.1.unpair.2, 0,
    le_refl _, zero_lt_one⟩, fun i a b ha hb => ⟨Nat.pair (Nat.pair a b) i, Nat.right_le_pair _ _, ?_⟩⟩
  unfold drawn
  have e1 : (2 * Nat.pair (Nat.pair a b) i) % 2 = 0 := by omega
  have e2 : (2 * Nat.pair (Nat.pair a b) i + 1) % 2 ≠ 0 := by omega
  have e3 : (2 * Nat.pair (Nat.pair a b) i) / 2 = Nat.pair (Nat.pair a b) i := by omega
  have e4 : (2 * Nat.pair (Nat.pair a b) i + 1) / 2 = Nat.pair (Nat.pair a b) i := by omega
  simp only [e1, if_true, if_neg e2, e3, e4, Nat.unpair_pair, Nat.mod_eq_of_lt ha, Nat.mod_eq_of_lt hb]

/-- **C95.** The loop of `vary_density` can come to its end exactly if all targets exceed the original
number of edges, the number of nodes can be written as an id (so that drawing does not panic), and the
edges to be added in all are no more than the free pairs of distinct nodes. -/
theorem c95_ends_iff {g : GraphMap m k NL EL} (hg : Reachable g) (hd : g.isDirected = false)
    (hc : densityChecks g = .ok ()) (ds : List Nat) :
    (∃ fuel r, (densities g.nodeCount g.edgeCount fuel ds g r).2 = .ok ()) ↔
      (∀ d ∈ ds, g.edgeCount < d * g.nodeCount / 2) ∧ (ds = [] ∨ g.nodeCount ≤ m) ∧
      added g.nodeCount g.edgeCount ds ≤ freePairs g := by
  obtain ⟨h0, -, hD⟩ := (checks_dense hg).1 hc
  obtain ⟨a1, a2, a3, -⟩ := c11_nodes hg
  have hle := dense_le a1 a3
  constructor
  · rintro ⟨fuel, r, h⟩
    cases hds : ds with
    | nil => simp [added]
    | cons d0 ds0 =>
      obtain ⟨x, y, z⟩ := densities_spec ds hg hd hD hle
        (l := (densities g.nodeCount g.edgeCount fuel ds g r).1) (fuel := fuel) (r := r) rfl
      have y := y h
      have hlen := congrArg List.length y
      rw [List.length_map] at hlen
      have hpos : ds.length - 1 < (densities g.nodeCount g.edgeCount fuel ds g r).1.length := by
        rw [hlen, hds]; simp
      obtain ⟨z1, z2, z3⟩ := z (ds.length - 1) _ _ (List.getElem?_eq_getElem hpos)
      have htake : ds.take (ds.length - 1 + 1) = ds := by
        apply List.take_of_length_le; omega
      rw [htake] at z2 z3
      rw [← hds]
      refine ⟨z3, .inr ?_, by have := z2.free; omega⟩
      by_contra hm
      have hN : g.nodeCount = m + 1 := by omega
      have hlt := z3 d0 (by simp [hds])
      have ht : ¬ d0 * g.nodeCount / 2 ≤ g.edgeCount := by omega
      rw [hds, densities] at h
      unfold densify at h
      simp only [if_neg ht] at h
      obtain ⟨c, hcc⟩ : ∃ c, d0 * g.nodeCount / 2 - g.edgeCount = c + 1 :=
        ⟨d0 * g.nodeCount / 2 - g.edgeCount - 1, by omega⟩
      have hz : (Id.new g.nodeCount : Id m).val = 0 := by rw [hN]; exact Nat.mod_self _
      rw [hcc, drawEdges] at h
      cases fuel with
      | zero => cases h
      | succ fuel =>
        rw [drawEdge] at h
        simp only [Rng.range, hz, if_true, bind_error] at h
        cases h
  · rintro ⟨b1, b2, b3⟩
    rcases b2 with rfl | b2
    · exact ⟨0, fun _ => ⟨0, 0, le_refl _, zero_lt_one⟩, rfl⟩
    · obtain ⟨r, hr⟩ := exists_fair g.nodeCount
      obtain ⟨fuel, l, h⟩ := densities_fair ds hg hd hD h0 b2 b1 b3 hr
      exact ⟨fuel, r, by rw [h fuel le_rfl]⟩

/-- **C95**: it does come to its end, always with the same graphs, if every pair is drawn again and again. -/
theorem c95_fair {g : GraphMap m k NL EL} (hg : Reachable g) (hd : g.isDirected = false)
    (hc : densityChecks g = .ok ()) {ds : List Nat} (h1 : ∀ d ∈ ds, g.edgeCount < d * g.nodeCount / 2)
    (h2 : g.nodeCount ≤ m) (h3 : added g.nodeCount g.edgeCount ds ≤ freePairs g) {r : Rng}
    (hr : ∀ i a b, a < g.nodeCount → b < g.nodeCount → ∃ j, i ≤ j ∧
      (r (2 * j)).word % g.nodeCount = a ∧ (r (2 * j + 1)).word % g.nodeCount = b) :
    ∃ fuel l, ∀ fuel', fuel ≤ fuel' → densities g.nodeCount g.edgeCount fuel' ds g r = (l, .ok ()) := by
  obtain ⟨h0, -, hD⟩ := (checks_dense hg).1 hc
  refine densities_fair ds hg hd hD h0 h2 h1 h3 (fun i a b ha hb => ?_)
  obtain ⟨j, q1, q2, q3⟩ := hr i a b ha hb
  exact ⟨j, q1, Prod.ext q2 q3⟩

/-- **C95**: if only the last condition fails, the loop never ends: no generator and no number of turns is
enough. -/
theorem c95_never_ends {g : GraphMap m k NL EL} (hg : Reachable g) (hd : g.isDirected = false)
    (hc : densityChecks g = .ok ()) {ds : List Nat} (h1 : ∀ d ∈ ds, g.edgeCount < d * g.nodeCount / 2)
    (h2 : g.nodeCount ≤ m) (h3 : freePairs g < added g.nodeCount g.edgeCount ds) (fuel : Nat) (r : Rng) :
    (densities g.nodeCount g.edgeCount fuel ds g r).2 = .error .diverge := by
  obtain ⟨h0, -, hD⟩ := (checks_dense hg).1 hc
  have key : ∀ (ds : List Nat) (h : GraphMap m k NL EL), Reachable h → h.directed = false →
      Dense g.nodeCount h → (∀ d ∈ ds, g.edgeCount < d * g.nodeCount / 2) → ∀ r : Rng,
      (densities g.nodeCount g.edgeCount fuel ds h r).2 = .ok () ∨
      (densities g.nodeCount g.edgeCount fuel ds h r).2 = .error .diverge := by
    intro ds
    induction ds with
    | nil => intros; exact .inl rfl
    | cons d ds ih =>
      intro h hh hdh hDh hall r
      have ht : ¬ d * g.nodeCount / 2 ≤ g.edgeCount := by
        have := hall d (by simp)
        omega
      have hv : (Id.new g.nodeCount : Id m).val = g.nodeCount := new_val' h2
      rw [densities]
      unfold densify
      simp only [if_neg ht]
      rcases drawEdges_cases (nodes := Id.new g.nodeCount) (by rw [hv]; exact h0) fuel
        (d * g.nodeCount / 2 - g.edgeCount) hh hdh (by rw [hv]; exact hDh) r with ⟨j, g1, q1, q2, q3⟩ | q
      · rw [q1]
        exact ih g1 q2 (q3.directed.trans hdh) (q3.dense hDh) (fun d hd => hall d (by simp [hd])) _
      · rw [q]; exact .inr rfl
  refine (key ds g hg hd hD h1 r).resolve_left (fun h => ?_)
  have := ((c95_ends_iff hg hd hc ds).1 ⟨fuel, r, h⟩).2.2
  omega

/-- A graph of four nodes and a labelled edge, and degrees for it. -/
def sparse : Res (GraphMap 9 3 String String) := (new false : GraphMap 9 3 String String).exec
  [.addNode 0 (some "a"), .addEdge 1 2 (some "x"), .addNode 3 none]

/-- The pairs a generator draws, given as a list that is repeated. -/
def drawsOf (l : List Nat) : Rng := fun i => ⟨l.getD (i % l.length) 0, 0, le_refl _, zero_lt_one⟩

example : ∃ g, sparse = .ok g ∧ Reachable g ∧ g.isDirected = false ∧ densityChecks g = .ok () ∧
    g.nodeCount = 4 ∧ g.edgeCount = 1 ∧ freePairs g = 5 ∧ added 4 1 [1, 2] = 4 ∧ added 4 1 [2, 3] = 8 ∧
    (densities 4 1 9 [1, 2] g (drawsOf [1, 2, 3, 3, 0, 1, 1, 3, 0, 2, 2, 3])).1.map
      (fun p => (p.1, p.2.edgeCount, p.2.edgeIndices)) =
        [(1, 2, [(0, 1), (1, 2)]), (2, 5, [(0, 1), (0, 2), (1, 2), (1, 3), (2, 3)])] := by
  obtain ⟨g, h⟩ : ∃ g, sparse = .ok g := ⟨_, rfl⟩
  refine ⟨g, h, (exec_run h).reachable List.nodup_nil List.nodup_nil, ?_⟩
  cases h
  refine ⟨?_, ?_, ?_, ?_, ?_, ?_, ?_, ?_⟩ <;> decide

end Verif.Props
