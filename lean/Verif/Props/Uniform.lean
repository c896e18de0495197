import Verif.Proof.Uniform
import Verif.Props.Gen
import Mathlib.Data.Nat.Choose.Factorization
import Mathlib.SetTheory.Cardinal.Finite

/-! C141: how likely random graphs are. Draws are equally likely, so outcomes are counted. -/

namespace Verif.Props

open Spec Gen

variable {m k : Nat} {NL EL : Type} [DecidableEq NL] [DecidableEq EL]

/-- The call returns a graph with exactly the edges of `T`. -/
def Makes (x : Res (GraphMap m k NL EL × Rng)) (d : Bool) (T : Finset (Nat × Nat)) : Prop :=
  ∃ g r, x = .ok (g, r) ∧
    ∀ s t : Id m, g.hasEdge s t = true ↔ (s.val, t.val) ∈ T ∨ (d = false ∧ (t.val, s.val) ∈ T)

/-- Pairs a loop-free graph on `0..n-1` can have as edges, an undirected one with the smaller end first. -/
def EdgeSet (d : Bool) (n : Nat) (T : Finset (Nat × Nat)) : Prop :=
  ∀ q ∈ T, q.1 < n ∧ q.2 < n ∧ q.1 ≠ q.2 ∧ (d = true ∨ q.1 < q.2)

theorem pairs_determined {d : Bool} {n : Nat} (hn : n ≤ m + 1) {S T : Finset (Nat × Nat)} (hS : EdgeSet d n S)
    (hT : EdgeSet d n T) (h : ∀ s t : Id m, ((s.val, t.val) ∈ S ∨ (d = false ∧ (t.val, s.val) ∈ S)) ↔
      ((s.val, t.val) ∈ T ∨ (d = false ∧ (t.val, s.val) ∈ T))) : S = T := by
  have key : ∀ {S T : Finset (Nat × Nat)}, EdgeSet d n S → EdgeSet d n T →
      (∀ s t : Id m, ((s.val, t.val) ∈ S ∨ (d = false ∧ (t.val, s.val) ∈ S)) →
      ((s.val, t.val) ∈ T ∨ (d = false ∧ (t.val, s.val) ∈ T))) → ∀ q ∈ S, q ∈ T := by
    rintro S T hS hT h ⟨a, b⟩ hq
    obtain ⟨h1, h2, h3, h4⟩ := hS _ hq
    simp only at h1 h2 h3 h4
    rcases h ⟨a, by omega⟩ ⟨b, by omega⟩ (.inl hq) with e | ⟨hd, e⟩
    · exact e
    · exfalso
      obtain ⟨_, _, _, h5⟩ := hT _ e
      subst hd
      simp only [Bool.false_eq_true, false_or] at h4 h5
      omega
  exact Finset.Subset.antisymm (key hS hT (fun s t => (h s t).1)) (key hT hS (fun s t => (h s t).2))

theorem makes_of {d : Bool} {n : Nat} (hn : n ≤ m + 1) {nl : List NL} {el : List EL} {qs : List (Nat × Nat)}
    {g : GraphMap m k NL EL} {r : Rng} {x : Res (GraphMap m k NL EL × Rng)} (hx : x = .ok (g, r))
    (hq : Simple d n qs)
    (H : Holding d (SetMap.fromVec nl) (SetMap.fromVec el) ((List.range n).map Id.new)
      (qs.map (fun p => (Id.new p.1, Id.new p.2))) g) {T : Finset (Nat × Nat)} (hT : EdgeSet d n T) :
    Makes x d T ↔ qs.toFinset = T := by
  obtain ⟨h1, h2⟩ := generated_of hn hq H
  have he : ∀ s t, g.hasEdge s t = true ↔
      ((s.val, t.val) ∈ qs.toFinset ∨ (d = false ∧ (t.val, s.val) ∈ qs.toFinset)) := fun s t => by
    rw [← GraphMap.abs_edge_isSome h1.1.inv, h2, List.mem_toFinset, List.mem_toFinset]
  have hS : EdgeSet d n qs.toFinset := fun q hq' => mem_pairs.1 (hq.2 q (List.mem_toFinset.1 hq'))
  constructor
  · rintro ⟨g', r', e, h⟩
    rw [hx] at e
    have := (Prod.mk.inj (Except.ok.inj e)).1
    subst this
    exact pairs_determined hn hS hT (fun s t => by rw [← he, h])
  · rintro rfl
    exact ⟨g, r, hx, he⟩

theorem ascFactorial_prod (c : Nat) : ∀ q, (c + 1).ascFactorial q = ∏ i ∈ Finset.range q, (c + i + 1) := by
  intro q
  induction q with
  | zero => rfl
  | succ q ih => rw [Finset.prod_range_succ, ← ih, Nat.ascFactorial_succ, mul_comm, Nat.add_right_comm]

/-- **C141** `random_gnm_graph`: of the draws of `gen_range` for the sampling, all equally likely, exactly one
in `choose N c` gives a wanted set of `c` edges, where `N` edges are possible. So all graphs with `c` edges
are equally likely. Other draws, for labels, do not matter. -/
theorem c141_gnm_uniform (d : Bool) {n c : Nat} (hn : n ≤ m + 1) (hc : c ≤ possibleEdges d n) (nl : List NL)
    (el : List EL) (r : Rng) {T : Finset (Nat × Nat)} (hT : EdgeSet d n T) (hTc : T.card = c) :
    Nat.card {w : (i : Fin (possibleEdges d n - c)) → Fin (c + i + 1) //
      Makes (gnm d n c nl el (withWords r (if nl = [] then 0 else n) w) : Res (GraphMap m k NL EL × Rng)) d T} *
        (possibleEdges d n).choose c =
      Nat.card ((i : Fin (possibleEdges d n - c)) → Fin (c + i + 1)) := by
  classical
  have hcost : n * cost (SetMap.fromVec nl) = if nl = [] then 0 else n := by
    unfold cost
    have : (SetMap.fromVec nl).len = 0 ↔ nl = [] := by
      show (SetMap.fromVec nl).labels.length = 0 ↔ _
      rw [List.length_eq_zero_iff, List.eq_nil_iff_forall_not_mem, List.eq_nil_iff_forall_not_mem]
      simp only [SetMap.mem_fromVec]
    simp only [this]
    split <;> simp
  have hl := pairs_length d n
  have h0 : ((completeEdgePairs d n).take c).length = c := by rw [List.length_take]; omega
  have hxs : ((completeEdgePairs d n).drop c).length = possibleEdges d n - c := by rw [List.length_drop, hl]
  have hnd : ((completeEdgePairs d n).take c ++ (completeEdgePairs d n).drop c).Nodup := by
    rw [List.take_append_drop]; exact pairs_nodup d n
  have hiff : ∀ w : (i : Fin (possibleEdges d n - c)) → Fin (c + i + 1),
      Makes (gnm d n c nl el (withWords r (if nl = [] then 0 else n) w) : Res (GraphMap m k NL EL × Rng)) d T ↔
        (placeAll c 0 ((completeEdgePairs d n).drop c) ((completeEdgePairs d n).take c) (spread w)).toFinset = T := by
    intro w
    obtain ⟨g, a1, a2, -⟩ := emptyGraph_exec (m := m) (k := k) d n nl el
      (withWords r (if nl = [] then 0 else n) w)
    rw [hcost] at a1
    have hw : placeAll c 0 ((completeEdgePairs d n).drop c) ((completeEdgePairs d n).take c)
        (fun j => (skip (withWords r (if nl = [] then 0 else n) w) (if nl = [] then 0 else n) j).word) =
        placeAll c 0 ((completeEdgePairs d n).drop c) ((completeEdgePairs d n).take c) (spread w) := by
      refine placeAll_congr _ _ _ _ _ _ (fun j hj => ?_)
      rw [hxs] at hj
      unfold skip withWords spread
      rw [dif_pos (by omega), dif_pos hj]
      show ((w ⟨j + _ - _, _⟩).val) = _
      congr 2 <;> simp
    have hs : sampleIter (skip (withWords r (if nl = [] then 0 else n) w) (if nl = [] then 0 else n))
        (completeEdgePairs d n) c = .ok (some (placeAll c 0 ((completeEdgePairs d n).drop c)
          ((completeEdgePairs d n).take c) (spread w)), skip (skip (withWords r (if nl = [] then 0 else n) w)
            (if nl = [] then 0 else n)) (possibleEdges d n - c)) := by
      unfold sampleIter
      rw [if_pos h0, sampleLoop_eq, bind_ok, hw, hxs]
      rfl
    obtain ⟨b1, b2, b3⟩ := placeAll_ok c ((completeEdgePairs d n).drop c) ((completeEdgePairs d n).take c) 0
      (spread w) hnd
    rw [List.take_append_drop] at b3
    obtain ⟨g2, e1, H2, -⟩ := addEdges_exec _ [] g (skip (skip (withWords r (if nl = [] then 0 else n) w)
      (if nl = [] then 0 else n)) (possibleEdges d n - c)) a2 (fun p hp => pairs_ends p (b3 p hp))
    rw [List.nil_append] at H2
    obtain ⟨r', hx⟩ : ∃ r', gnm d n c nl el (withWords r (if nl = [] then 0 else n) w) = .ok (g2, r') := by
      unfold gnm
      simp only [a1, bind_ok, hs]
      exact ⟨_, e1⟩
    exact makes_of hn hx ⟨b2, b3⟩ H2 hT
  have hcount := count_placeAll h0 (possibleEdges d n - c) _ hxs hnd T
    (fun x hx => by rw [List.take_append_drop]; exact mem_pairs.2 (hT x hx)) hTc
  have e1 : Nat.card {w : (i : Fin (possibleEdges d n - c)) → Fin (c + i + 1) //
      Makes (gnm d n c nl el (withWords r (if nl = [] then 0 else n) w) : Res (GraphMap m k NL EL × Rng)) d T} =
      (possibleEdges d n - c).factorial := by
    rw [← hcount, Nat.card_eq_fintype_card, Fintype.card_subtype]
    congr 1
    exact Finset.filter_congr (fun w _ => hiff w)
  rw [e1, Nat.card_eq_fintype_card, Fintype.card_pi]
  simp only [Fintype.card_fin]
  rw [Fin.prod_univ_eq_prod_range (fun i => c + i + 1) (possibleEdges d n - c)]
  have := Nat.ascFactorial_eq_factorial_mul_choose c (possibleEdges d n - c)
  rw [ascFactorial_prod, show c + (possibleEdges d n - c) = possibleEdges d n by omega,
    Nat.choose_symm hc] at this
  rw [← this]

/-- **C141** `random_gnp_graph`: let the draws be taken from a finite list of equally likely ones, `b` of
which are below `p` and `b'` not. A wanted set of `e` edges out of `N` possible ones is then the outcome of
`b ^ e * b' ^ (N - e)` in `(b + b') ^ N` cases: every edge is there independently, with the chance `b / (b + b')` of a
draw below `p`. Draws for labels do not matter. -/
theorem c141_gnp_independent (d : Bool) {n : Nat} (hn : n ≤ m + 1) {p : ℚ} (h0 : 0 ≤ p) (h1 : p ≤ 1)
    (nl : List NL) (el : List EL) (r : Rng) {D : Type} [Fintype D] (draw : D → Draw) {l : Nat}
    (hlen : n + 2 * possibleEdges d n ≤ l) {T : Finset (Nat × Nat)} (hT : EdgeSet d n T) :
    Nat.card {w : Fin l → D //
      Makes (gnp d n (.fin p) nl el (withDraws r (fun i => draw (w i))) : Res (GraphMap m k NL EL × Rng)) d T} =
      Nat.card {a // (draw a).unit < p} ^ T.card * Nat.card {a // ¬ (draw a).unit < p} ^ (possibleEdges d n - T.card) *
        Fintype.card D ^ (l - possibleEdges d n) := by
  classical
  have hps := pairs_nodup d n
  have hl := pairs_length d n
  have hfin : ((completeEdgePairs d n).filter (fun q => decide (q ∈ T))).toFinset = T := by
    ext q
    rw [List.mem_toFinset, List.mem_filter, decide_eq_true_eq]
    exact ⟨fun h => h.2, fun h => ⟨mem_pairs.2 (hT q h), h⟩⟩
  have hTl : ((completeEdgePairs d n).filter (fun q => decide (q ∈ T))).length = T.card := by
    rw [← List.toFinset_card_of_nodup (hps.filter _), hfin]
  have hTl' : ((completeEdgePairs d n).filter (fun q => !decide (q ∈ T))).length = possibleEdges d n - T.card := by
    have := List.length_eq_length_filter_add (l := completeEdgePairs d n) (fun q => decide (q ∈ T))
    omega
  generalize hoff : n * cost (SetMap.fromVec nl) = off
  have hoffn : off ≤ n := by
    rw [← hoff]
    unfold cost
    split <;> simp
  generalize hcs : cost (SetMap.fromVec el) = cs
  have hcs1 : cs ≤ 1 := by
    rw [← hcs]
    unfold cost
    split <;> omega
  have hiff : ∀ w : Fin l → D,
      Makes (gnp d n (.fin p) nl el (withDraws r (fun i => draw (w i))) : Res (GraphMap m k NL EL × Rng)) d T ↔
        tosses cs (completeEdgePairs d n) (fun j => before (fun i => decide ((draw (w i)).unit < p))
          (fun j => decide ((r j).unit < p)) (j + off)) =
          (completeEdgePairs d n).filter (fun q => decide (q ∈ T)) := by
    intro w
    obtain ⟨g, a1, a2, -⟩ := emptyGraph_exec (m := m) (k := k) d n nl el (withDraws r (fun i => draw (w i)))
    rw [hoff] at a1
    obtain ⟨g', r', e1, H⟩ := toss_eq (.fin p) (completeEdgePairs d n) [] g
      (skip (withDraws r (fun i => draw (w i))) off) a2 pairs_ends
    have hb : (fun j => (F32.fin (skip (withDraws r (fun i => draw (w i))) off j).unit).lt (.fin p)) =
        fun j => before (fun i => decide ((draw (w i)).unit < p)) (fun j => decide ((r j).unit < p)) (j + off) := by
      funext j
      unfold skip withDraws before
      split <;> rfl
    rw [hb, hcs, List.nil_append] at H
    have hsub := tosses_sublist cs (completeEdgePairs d n) (fun j => before (fun i => decide ((draw (w i)).unit < p))
      (fun j => decide ((r j).unit < p)) (j + off))
    have hx : gnp d n (.fin p) nl el (withDraws r (fun i => draw (w i))) = .ok (g', r') := by
      unfold gnp
      rw [if_neg (by rw [lt_zero_or, not_or]; exact ⟨not_lt.2 h0, not_lt.2 h1⟩)]
      simp only [a1, bind_ok]
      exact e1
    rw [makes_of hn hx ⟨hps.sublist hsub, fun q hq => hsub.subset hq⟩ H hT]
    constructor
    · intro h
      have : ∀ (l l' : List (Nat × Nat)), l.Sublist l' → l'.Nodup → l'.filter (fun q => decide (q ∈ l.toFinset)) = l := by
        intro l l' hs
        induction hs with
        | slnil => intro _; rfl
        | cons a hs ih =>
          intro hnd
          obtain ⟨x1, x2⟩ := List.nodup_cons.1 hnd
          rw [List.filter_cons_of_neg, ih x2]
          simp only [decide_eq_true_eq, List.mem_toFinset]
          exact fun h => x1 (hs.subset h)
        | cons_cons a hs ih =>
          intro hnd
          obtain ⟨x1, x2⟩ := List.nodup_cons.1 hnd
          rw [List.filter_cons_of_pos (by simp)]
          congr 1
          refine Eq.trans (List.filter_congr (fun q hq => ?_)) (ih x2)
          have : q ≠ a := fun e => x1 (e ▸ hq)
          simp [this]
      have := this _ _ hsub hps
      rw [h] at this
      exact this.symm
    · intro h
      rw [h, hfin]
  obtain ⟨extra, hex⟩ : ∃ extra, l = (extra + (1 + cs) * (completeEdgePairs d n).length) + off := by
    refine ⟨l - off - (1 + cs) * possibleEdges d n, ?_⟩
    rw [hl]
    have : (1 + cs) * possibleEdges d n ≤ 2 * possibleEdges d n := Nat.mul_le_mul_right _ (by omega)
    omega
  subst hex
  have hA : Nat.card {a // (draw a).unit < p} =
      (Finset.univ.filter (fun a => decide ((draw a).unit < p) = true)).card := by
    rw [Nat.card_eq_fintype_card, Fintype.card_subtype]
    congr 1
    exact Finset.filter_congr (fun a _ => by simp)
  have hB : Nat.card {a // ¬ (draw a).unit < p} =
      (Finset.univ.filter (fun a => decide ((draw a).unit < p) = false)).card := by
    rw [Nat.card_eq_fintype_card, Fintype.card_subtype]
    congr 1
    exact Finset.filter_congr (fun a _ => by simp)
  rw [Nat.card_eq_fintype_card, Fintype.card_subtype, Finset.filter_congr (fun w _ => hiff w),
    card_skip (fun a => decide ((draw a).unit < p)) (fun s => tosses cs (completeEdgePairs d n) s =
      (completeEdgePairs d n).filter (fun q => decide (q ∈ T))) off]
  have hk := count_tosses (fun a => decide ((draw a).unit < p)) (fun q => decide (q ∈ T)) cs
    (completeEdgePairs d n) hps extra (fun j => decide ((r (j + off)).unit < p))
  rw [hTl, hTl', ← hA, ← hB, hl] at hk
  rw [hl]
  refine (congrArg (Fintype.card D ^ off * ·) (Eq.trans ?_ hk)).trans ?_
  · congr
  have : extra + (1 + cs) * possibleEdges d n + off - possibleEdges d n = off + (extra + cs * possibleEdges d n) := by
    rw [Nat.add_mul]
    omega
  rw [this, pow_add _ off]
  ring

/-! ### Labels -/

omit [DecidableEq NL] [DecidableEq EL] in
theorem spec_nodes (d : Bool) (f : Nat → Option NL) : ∀ n, n ≤ m + 1 →
    ∀ i < n, (Spec.run d ((List.range n).map (fun i => (Op.addNode (Id.new i) (f i) : Op m k NL EL)))).node
      (Id.new i) = some (f i) := by
  intro n
  induction n with
  | zero => intro _ i hi; omega
  | succ n ih =>
    intro hn i hi
    rw [List.range_succ, List.map_append]
    unfold Spec.run
    rw [List.foldl_append]
    show (if (Id.new i : Id m) = Id.new n then some (f n) else _) = some (f i)
    by_cases h : i = n
    · rw [if_pos (by rw [h]), h]
    · rw [if_neg, ← ih (by omega) i (by omega)]
      · rfl
      · intro e
        have := congrArg Fin.val e
        unfold Id.new at this
        simp only [Fin.val_ofNat] at this
        rw [Nat.mod_eq_of_lt (by omega), Nat.mod_eq_of_lt (by omega)] at this
        exact h this

omit [DecidableEq NL] [DecidableEq EL] in
theorem spec_edges (d : Bool) (f : Nat → Option EL) (A : AGraph (Id m) NL EL) : ∀ ps : List (Nat × Nat),
    ps.Pairwise (fun p q => ¬ AGraph.same d (Id.new q.1 : Id m) (Id.new q.2) (Id.new p.1) (Id.new p.2)) →
    (∀ p ∈ ps, (A.node (Id.new p.1)).isSome ∧ (A.node (Id.new p.2)).isSome) →
    ((ps.mapIdx (fun j p => (Op.addEdge (Id.new p.1) (Id.new p.2) (f j) : Op m k NL EL))).foldl
      (Spec.step d) A).node = A.node ∧
    ∀ j (hj : j < ps.length) (s t : Id m), AGraph.same d s t (Id.new ps[j].1) (Id.new ps[j].2) →
      ((ps.mapIdx (fun j p => (Op.addEdge (Id.new p.1) (Id.new p.2) (f j) : Op m k NL EL))).foldl
        (Spec.step d) A).edge s t = some (f j) := by
  intro ps
  induction ps using List.reverseRecOn with
  | nil => intro _ _; exact ⟨rfl, fun j hj => absurd hj (by simp)⟩
  | append_singleton ps p ih =>
    intro hp hA
    obtain ⟨hp1, -, hp2⟩ := List.pairwise_append.1 hp
    obtain ⟨h1, h2⟩ := ih hp1 (fun q hq => hA q (by simp [hq]))
    rw [List.mapIdx_concat, List.foldl_append]
    generalize (ps.mapIdx (fun j p => (Op.addEdge (Id.new p.1) (Id.new p.2) (f j) : Op m k NL EL))).foldl
      (Spec.step d) A = B at h1 h2
    refine ⟨?_, fun j hj s t hst => ?_⟩
    · show (fun x => if (x = Id.new p.1 ∨ x = Id.new p.2) ∧ B.node x = none then some none else B.node x) = _
      funext x
      rw [if_neg, h1]
      rintro ⟨e, h⟩
      rw [h1] at h
      have := hA p (by simp)
      rcases e with rfl | rfl
      · rw [h] at this; simp at this
      · rw [h] at this; simp at this
    · show (if AGraph.same d _ _ _ _ then some (f ps.length) else B.edge _ _) = _
      by_cases h : j < ps.length
      · rw [List.getElem_append_left h] at hst
        rw [if_neg, h2 j h s t hst]
        intro hst'
        refine hp2 _ (List.getElem_mem h) p (by simp) ?_
        rcases hst with ⟨rfl, rfl⟩ | ⟨hd, rfl, rfl⟩ <;> rcases hst' with ⟨x, y⟩ | ⟨hd, x, y⟩
        · exact .inl ⟨x, y⟩
        · exact .inr ⟨hd, x, y⟩
        · exact .inr ⟨hd, y, x⟩
        · exact .inl ⟨y, x⟩
      · have : j = ps.length := by
          rw [List.length_append, List.length_singleton] at hj
          omega
        subst this
        rw [List.getElem_concat_length rfl] at hst
        rw [if_pos]
        rcases hst with ⟨x, y⟩ | ⟨hd, x, y⟩
        · exact .inl ⟨x.symm, y.symm⟩
        · exact .inr ⟨hd, y.symm, x.symm⟩

theorem cost_drop {X : Type} [DecidableEq X] (l : List X) (r : Rng) (h : l.Nodup) (i : Nat) :
    itemAt (SetMap.fromVec l) r i = l[(r i).word % l.length]? := by
  rw [SetMap.fromVec_of_nodup h]
  unfold itemAt SetMap.len SetMap.getItem
  cases l with
  | nil => rfl
  | cons x xs => rw [if_neg (by simp)]

theorem labels_of {d : Bool} {n : Nat} (hn : n ≤ m + 1) {nl : List NL} {el : List EL} (hnl : nl.Nodup)
    (hel : el.Nodup) (hnk : nl.length ≤ k + 1) (hek : el.length ≤ k + 1) {r r' : Rng} {ps : List (Nat × Nat)}
    (hps : Simple d n ps) {g g' : GraphMap m k NL EL}
    (h1 : (GraphMap.withLabelMap d (SetMap.fromVec nl) (SetMap.fromVec el)).exec
        ((List.range n).mapIdx (fun j i => Op.addNode (Id.new i) (itemAt (SetMap.fromVec nl) r j))) = .ok g)
    (h2 : g.exec (ps.mapIdx (fun j p => Op.addEdge (Id.new p.1) (Id.new p.2)
      (itemAt (SetMap.fromVec el) r' j))) = .ok g') (hg1 : g'.nodeLabels = SetMap.fromVec nl)
    (hg2 : g'.edgeLabels = SetMap.fromVec el) :
    (∀ i < n, g'.getNodeLabel (Id.new i) = nl[(r i).word % nl.length]?) ∧
    ∀ j (hj : j < ps.length) (s t : Id m), AGraph.same d s t (Id.new ps[j].1) (Id.new ps[j].2) →
      g'.getEdgeLabel s t = .ok el[(r' j).word % el.length]? := by
  have e0 : (List.range n).mapIdx (fun j i => (Op.addNode (Id.new i) (itemAt (SetMap.fromVec nl) r j) : Op m k NL EL)) =
      (List.range n).map (fun i => Op.addNode (Id.new i) nl[(r i).word % nl.length]?) := by
    refine List.ext_getElem (by simp) (fun i hi hi' => ?_)
    simp [cost_drop nl r hnl]
  have e1 : (ps.mapIdx (fun j p => (Op.addEdge (Id.new p.1) (Id.new p.2)
      (itemAt (SetMap.fromVec el) r' j) : Op m k NL EL))) =
      ps.mapIdx (fun j p => Op.addEdge (Id.new p.1) (Id.new p.2) el[(r' j).word % el.length]?) := by
    simp only [cost_drop el r' hel]
  rw [e0] at h1
  rw [e1] at h2
  have hR := GraphMap.run_append (GraphMap.exec_run h1) (GraphMap.exec_run h2)
  have hlab : ∀ op ∈ (List.range n).map (fun i => (Op.addNode (Id.new i) nl[(r i).word % nl.length]? : Op m k NL EL)) ++
      ps.mapIdx (fun j p => Op.addEdge (Id.new p.1) (Id.new p.2) el[(r' j).word % el.length]?),
      labelOnly op = true := by
    intro op hop
    rcases List.mem_append.1 hop with h | h
    · obtain ⟨i, -, rfl⟩ := List.mem_map.1 h; rfl
    · obtain ⟨j, hj, rfl⟩ := List.mem_mapIdx.1 h; rfl
  have c1 : g'.nodeLabels.len ≤ k + 1 := by rw [hg1, SetMap.fromVec_of_nodup hnl]; exact hnk
  have c2 : g'.edgeLabels.len ≤ k + 1 := by rw [hg2, SetMap.fromVec_of_nodup hel]; exact hek
  have hN := fun x => c05_node_label (SetMap.fromVec_nodup nl) (SetMap.fromVec_nodup el) hR hlab c1 c2 x
  have hE := fun s t => c06_edge_label (SetMap.fromVec_nodup nl) (SetMap.fromVec_nodup el) hR hlab c1 c2 s t
  have hA := spec_nodes (m := m) (k := k) (NL := NL) (EL := EL) d (fun i => nl[(r i).word % nl.length]?) n hn
  have hinj : ∀ a b, a < n → b < n → (Id.new a : Id m) = Id.new b → a = b := by
    intro a b ha hb e
    have := congrArg Fin.val e
    unfold Id.new at this
    simp only [Fin.val_ofNat] at this
    rwa [Nat.mod_eq_of_lt (by omega), Nat.mod_eq_of_lt (by omega)] at this
  have hpw : ps.Pairwise (fun p q => ¬ AGraph.same d (Id.new q.1 : Id m) (Id.new q.2) (Id.new p.1) (Id.new p.2)) := by
    refine List.Pairwise.imp_of_mem (fun {p q} hp hq hpq => ?_) hps.1
    obtain ⟨a1, a2, a3, a4⟩ := mem_pairs.1 (hps.2 p hp)
    obtain ⟨b1, b2, b3, b4⟩ := mem_pairs.1 (hps.2 q hq)
    rintro (⟨x, y⟩ | ⟨hd, x, y⟩)
    · exact hpq (Prod.ext (hinj _ _ a1 b1 x) (hinj _ _ a2 b2 y))
    · have x := hinj _ _ a1 b2 x
      have y := hinj _ _ a2 b1 y
      subst hd
      simp only [Bool.false_eq_true, false_or] at a4 b4
      omega
  obtain ⟨q1, q2⟩ := spec_edges (k := k) d (fun j => el[(r' j).word % el.length]?)
    (Spec.run d ((List.range n).map (fun i => (Op.addNode (Id.new i) nl[(r i).word % nl.length]? : Op m k NL EL))))
    ps hpw (fun p hp => by
      obtain ⟨a1, a2, -⟩ := mem_pairs.1 (hps.2 p hp)
      rw [hA _ a1, hA _ a2]
      exact ⟨rfl, rfl⟩)
  unfold Spec.run at hN hE q1 q2 hA
  rw [List.foldl_append] at hN hE
  refine ⟨fun i hi => ?_, fun j hj s t hst => ?_⟩
  · rw [hN, q1]
    exact congrArg Option.join (hA i hi)
  · rw [hE, q2 j hj s t hst]
    rfl

/-- Every node label is read off the draw numbered like the node; every edge label off a draw not before `lo`,
and two edges never share one. -/
def DrawnApart (g : GraphMap m k NL EL) (d : Bool) (n : Nat) (nl : List NL) (el : List EL) (r : Rng) (lo : Nat) : Prop :=
  (∀ i < n, g.getNodeLabel (Id.new i) = nl[(r i).word % nl.length]?) ∧
  ∃ pos : Id m → Id m → Nat, (∀ s t, lo ≤ pos s t) ∧
    (∀ s t s' t', g.hasEdge s t = true → g.hasEdge s' t' = true → pos s t = pos s' t' →
      (s = s' ∧ t = t') ∨ (d = false ∧ s = t' ∧ t = s')) ∧
    ∀ s t, g.hasEdge s t = true → g.getEdgeLabel s t = .ok el[(r (pos s t)).word % el.length]?

theorem drawn_of {d : Bool} {n : Nat} (hn : n ≤ m + 1) {nl : List NL} {el : List EL} (hnl : nl.Nodup)
    (hel : el.Nodup) (hnk : nl.length ≤ k + 1) (hek : el.length ≤ k + 1) {r : Rng} {lo : Nat} {ps : List (Nat × Nat)}
    (hps : Simple d n ps) {g g' : GraphMap m k NL EL}
    (h1 : (GraphMap.withLabelMap d (SetMap.fromVec nl) (SetMap.fromVec el)).exec
        ((List.range n).mapIdx (fun j i => Op.addNode (Id.new i) (itemAt (SetMap.fromVec nl) r j))) = .ok g)
    (h2 : g.exec (ps.mapIdx (fun j p => Op.addEdge (Id.new p.1) (Id.new p.2)
      (itemAt (SetMap.fromVec el) (skip r lo) j))) = .ok g')
    (H : Holding d (SetMap.fromVec nl) (SetMap.fromVec el) ((List.range n).map Id.new)
      (ps.map (fun p => (Id.new p.1, Id.new p.2))) g') : DrawnApart g' d n nl el r lo := by
  obtain ⟨q1, q2⟩ := labels_of hn hnl hel hnk hek hps h1 h2 H.nl H.el
  obtain ⟨a1, a2⟩ := generated_of hn hps H
  have he : ∀ s t, g'.hasEdge s t = true ↔ ((s.val, t.val) ∈ ps ∨ (d = false ∧ (t.val, s.val) ∈ ps)) :=
    fun s t => by rw [← GraphMap.abs_edge_isSome H.reach.inv, a2]
  have hval : ∀ x : Id m, (Id.new x.val : Id m) = x := fun x => Fin.ext (by
    unfold Id.new; simp only [Fin.val_ofNat]; exact Nat.mod_eq_of_lt x.isLt)
  refine ⟨q1, fun s t => lo + ps.idxOf (if (s.val, t.val) ∈ ps then (s.val, t.val) else (t.val, s.val)),
    fun s t => Nat.le_add_right _ _, fun s t s' t' h h' e => ?_, fun s t h => ?_⟩
  · have hm : ∀ s t : Id m, g'.hasEdge s t = true →
        (if (s.val, t.val) ∈ ps then (s.val, t.val) else (t.val, s.val)) ∈ ps ∧
        ((s.val, t.val) ∉ ps → d = false) := by
      intro s t h
      rcases (he s t).1 h with h | ⟨h0, h⟩
      · rw [if_pos h]; exact ⟨h, fun h' => absurd h h'⟩
      · split
        · exact ⟨by assumption, fun _ => h0⟩
        · exact ⟨h, fun _ => h0⟩
    have e' := (List.idxOf_inj (hm s t h).1).1 (Nat.add_left_cancel e)
    by_cases c1 : (s.val, t.val) ∈ ps <;> by_cases c2 : (s'.val, t'.val) ∈ ps
    · rw [if_pos c1, if_pos c2] at e'
      have := Prod.mk.inj e'
      exact .inl ⟨Fin.ext this.1, Fin.ext this.2⟩
    · rw [if_pos c1, if_neg c2] at e'
      have := Prod.mk.inj e'
      exact .inr ⟨(hm s' t' h').2 c2, Fin.ext this.1, Fin.ext this.2⟩
    · rw [if_neg c1, if_pos c2] at e'
      have := Prod.mk.inj e'
      exact .inr ⟨(hm s t h).2 c1, Fin.ext this.2, Fin.ext this.1⟩
    · rw [if_neg c1, if_neg c2] at e'
      have := Prod.mk.inj e'
      exact .inl ⟨Fin.ext this.2, Fin.ext this.1⟩
  · have key : ∀ q : Nat × Nat, q ∈ ps → AGraph.same d s t (Id.new q.1) (Id.new q.2) →
        g'.getEdgeLabel s t = .ok el[(r (lo + ps.idxOf q)).word % el.length]? := by
      intro q h hst
      have hj := List.idxOf_lt_length_of_mem h
      have := q2 _ hj s t (by rw [List.getElem_idxOf hj]; exact hst)
      rw [this]
      unfold skip
      rw [Nat.add_comm]
    by_cases c1 : (s.val, t.val) ∈ ps
    · simp only [if_pos c1]
      exact key _ c1 (.inl ⟨hval s, hval t⟩)
    · simp only [if_neg c1]
      obtain ⟨h0, h⟩ := ((he s t).1 h).resolve_left c1
      exact key _ h (.inr ⟨h0, hval t, hval s⟩)

theorem nodes_cost (n : Nat) (nl : List NL) : n * cost (SetMap.fromVec nl) = if nl = [] then 0 else n := by
  unfold cost
  have : (SetMap.fromVec nl).len = 0 ↔ nl = [] := by
    show (SetMap.fromVec nl).labels.length = 0 ↔ _
    rw [List.length_eq_zero_iff, List.eq_nil_iff_forall_not_mem, List.eq_nil_iff_forall_not_mem]
    simp only [SetMap.mem_fromVec]
  simp only [this]
  split <;> simp

/-- **C141** Labels of a complete graph: node `i` gets the label picked by draw `i`, each edge the one picked by
a later draw of its own. So all labels are chosen uniformly and independently. -/
theorem c141_complete_labels (d : Bool) {n : Nat} (hn : n ≤ m + 1) {nl : List NL} {el : List EL} (hnl : nl.Nodup)
    (hel : el.Nodup) (hnk : nl.length ≤ k + 1) (hek : el.length ≤ k + 1) (r : Rng) :
    ∃ (g : GraphMap m k NL EL) (r' : Rng), completeGraph d n nl el r = .ok (g, r') ∧
      DrawnApart g d n nl el r (if nl = [] then 0 else n) := by
  obtain ⟨g, a1, a2, a3⟩ := emptyGraph_exec (m := m) (k := k) d n nl el r
  rw [nodes_cost] at a1
  obtain ⟨g2, e1, H2, e3⟩ := addEdges_exec (completeEdgePairs d n) [] g (skip r (if nl = [] then 0 else n)) a2 pairs_ends
  rw [List.nil_append] at H2
  have hD := drawn_of hn hnl hel hnk hek ⟨pairs_nodup d n, fun _ h => h⟩ a3 e3 H2
  unfold completeGraph
  rw [a1, bind_ok]
  exact ⟨g2, _, e1, hD⟩

/-- **C141** Labels of a random graph with `c` edges: the same; the draws of the sampling come in between. -/
theorem c141_gnm_labels (d : Bool) {n c : Nat} (hn : n ≤ m + 1) (hc : c ≤ possibleEdges d n) {nl : List NL}
    {el : List EL} (hnl : nl.Nodup) (hel : el.Nodup) (hnk : nl.length ≤ k + 1) (hek : el.length ≤ k + 1) (r : Rng) :
    ∃ (g : GraphMap m k NL EL) (r' : Rng), gnm d n c nl el r = .ok (g, r') ∧
      DrawnApart g d n nl el r ((if nl = [] then 0 else n) + (possibleEdges d n - c)) := by
  have hl := pairs_length d n
  have h0 : ((completeEdgePairs d n).take c).length = c := by rw [List.length_take]; omega
  have hxs : ((completeEdgePairs d n).drop c).length = possibleEdges d n - c := by rw [List.length_drop, hl]
  have hnd : ((completeEdgePairs d n).take c ++ (completeEdgePairs d n).drop c).Nodup := by
    rw [List.take_append_drop]; exact pairs_nodup d n
  obtain ⟨g, a1, a2, a3⟩ := emptyGraph_exec (m := m) (k := k) d n nl el r
  rw [nodes_cost] at a1
  obtain ⟨-, b2, b3⟩ := placeAll_ok c ((completeEdgePairs d n).drop c) ((completeEdgePairs d n).take c) 0
    (fun j => (skip r (if nl = [] then 0 else n) j).word) hnd
  rw [List.take_append_drop] at b3
  obtain ⟨g2, e1, H2, e3⟩ := addEdges_exec _ [] g (skip (skip r (if nl = [] then 0 else n)) (possibleEdges d n - c))
    a2 (fun p hp => pairs_ends p (b3 p hp))
  rw [List.nil_append] at H2
  rw [skip_skip] at e3
  have hD := drawn_of hn hnl hel hnk hek ⟨b2, b3⟩ a3 e3 H2
  unfold gnm sampleIter
  rw [a1, bind_ok, if_pos h0, sampleLoop_eq, bind_ok, hxs]
  exact ⟨g2, _, e1, hD⟩

/-! ### Cases -/

/-- Two of the three edges of an undirected graph on three nodes: one draw from `0, 1, 2`, each of the three
graphs with two edges comes from one of them. -/
example : EdgeSet false 3 {(0, 1), (1, 2)} ∧ ({(0, 1), (1, 2)} : Finset (Nat × Nat)).card = 2 ∧
    possibleEdges false 3 = 3 ∧ (possibleEdges false 3).choose 2 = 3 ∧
    Nat.card ((i : Fin (possibleEdges false 3 - 2)) → Fin (2 + i + 1)) = 3 := by
  refine ⟨fun q hq => ?_, by decide, by decide, by decide, ?_⟩
  · simp only [Finset.mem_insert, Finset.mem_singleton] at hq
    rcases hq with rfl | rfl <;> decide
  · rw [Nat.card_eq_fintype_card]; decide

example (r : Rng) :
    Nat.card {w : (i : Fin (possibleEdges false 3 - 2)) → Fin (2 + i + 1) //
      Makes (gnm false 3 2 ["a"] ([] : List String) (withWords r 3 w) : Res (GraphMap 9 3 String String × Rng)) false
        {(0, 1), (1, 2)}} = 1 := by
  have h := c141_gnm_uniform (m := 9) (k := 3) false (n := 3) (c := 2) (by decide) (by decide) ["a"] ([] : List String) r
    (T := {(0, 1), (1, 2)}) (fun q hq => by
      simp only [Finset.mem_insert, Finset.mem_singleton] at hq
      rcases hq with rfl | rfl <;> decide) (by decide)
  rw [if_neg (by decide), show (possibleEdges false 3).choose 2 = 3 by decide,
    Nat.card_eq_fintype_card (α := (i : Fin (possibleEdges false 3 - 2)) → Fin (2 + i + 1)),
    show Fintype.card ((i : Fin (possibleEdges false 3 - 2)) → Fin (2 + i + 1)) = 3 by decide] at h
  omega

/-- Four equally likely draws, three of them below `3/4`. -/
def quarters : Fin 4 → Draw := fun i =>
  if i.val < 3 then ⟨i, 1 / 2, by norm_num, by norm_num⟩ else ⟨i, 3 / 4, by norm_num, by norm_num⟩

example : Nat.card {a // (quarters a).unit < 3 / 4} = 3 ∧ Nat.card {a // ¬ (quarters a).unit < 3 / 4} = 1 ∧
    (0 : ℚ) ≤ 3 / 4 ∧ (3 / 4 : ℚ) ≤ 1 ∧ 2 + 2 * possibleEdges true 2 ≤ 6 ∧ EdgeSet true 2 {(1, 0)} := by
  refine ⟨?_, ?_, by norm_num, by norm_num, by decide, fun q hq => ?_⟩
  · rw [Nat.card_eq_fintype_card]; decide +kernel
  · rw [Nat.card_eq_fintype_card]; decide +kernel
  · rw [Finset.mem_singleton] at hq; subst hq; decide

example : (["a", "b"].Nodup ∧ ["e", "f"].Nodup ∧ ["a", "b"].length ≤ 3 + 1) ∧
    (completeGraph false 3 ["a", "b"] ["e", "f"] counting : Res (GraphMap 9 3 String String × Rng)).map
      (fun x => [x.1.getNodeLabel 0, x.1.getNodeLabel 1, x.1.getNodeLabel 2]) =
      .ok [some "a", some "b", some "a"] ∧
    (completeGraph false 3 ["a", "b"] ["e", "f"] counting : Res (GraphMap 9 3 String String × Rng)).bind
      (fun x => x.1.getEdgeLabel 2 0) = .ok (some "e") := by
  decide +kernel

end Verif.Props
