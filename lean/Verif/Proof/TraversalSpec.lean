import Verif.Proof.TraversalOrder

/-! Consequences of the visiting orders, and the initial states. -/

namespace Verif

open Verif.Spec

variable {m k : Nat} {NL EL : Type} {g : GView m k NL EL} {A : AGraph (Id m) NL EL}

namespace Traversal

/-- The iterator yields exactly `l` before its first `None`, which leaves it in `st'`. -/
def Yields {S X : Type} (next : S → Res (Option X × S)) (st : S) (l : List X) (st' : S) : Prop :=
  ∃ fuel, drain next fuel st = .ok (l, st')

theorem drain_mono {S X : Type} {next : S → Res (Option X × S)} : ∀ {f : Nat} {st : S} {r},
    drain next f st = .ok r → ∀ f', f ≤ f' → drain next f' st = .ok r := by
  intro f
  induction f with
  | zero => intro st r h; cases h
  | succ f ih =>
    intro st r h f' hf
    obtain ⟨f', rfl⟩ : ∃ c, f' = c + 1 := ⟨f' - 1, by omega⟩
    unfold drain at h ⊢
    obtain ⟨⟨o, s'⟩, h1, h2⟩ := bind_eq_ok h
    rw [h1, bind_ok]
    cases o with
    | none => exact h2
    | some x =>
      obtain ⟨q, h3, h4⟩ := bind_eq_ok h2
      simp only
      rw [ih h3 f' (by omega), bind_ok]; exact h4

theorem Yields.unique {S X : Type} {next : S → Res (Option X × S)} {st : S} {l l' : List X}
    {s s' : S} (h : Yields next st l s) (h' : Yields next st l' s') : l = l' ∧ s = s' := by
  obtain ⟨f, h⟩ := h
  obtain ⟨f', h'⟩ := h'
  have e := (drain_mono h (max f f') (le_max_left _ _)).symm.trans
    (drain_mono h' (max f f') (le_max_right _ _))
  injection e with e
  injection e with e1 e2
  exact ⟨e1, e2⟩

theorem sinv_full {M : Id m} (hM : ∀ n, (A.node n).isSome → n ≤ M) :
    SInv A [] ⟨[], BitSet.full (M.val + 1)⟩ := by
  refine ⟨⟨List.nodup_nil, by simp, ?_, ?_, ?_⟩, by simp⟩
  · intro n hn
    have := Fin.le_def.1 (hM n hn)
    simp only [BitSet.full, List.length_replicate]; omega
  · simp only [BitSet.full, List.length_replicate]; omega
  · intro n hn
    have := Fin.le_def.1 (hM n hn)
    rw [BitSet.contains_full]
    simp; omega

/-- `new` succeeds on a start node. -/
theorem new_ok (hs : Shows g A) {start : Option (Id m)} {s : Id m} (hn : (A.node s).isSome)
    (h : start = some s ∨ (start = none ∧ g.nodeIndices.head? = some s)) :
    ∃ b, new g start = .ok ⟨[s], b⟩ ∧ SInv A [] ⟨[s], b⟩ := by
  obtain ⟨M, hM, hle⟩ := hs.maxSeen ⟨s, hn⟩
  have hinv := sinv_full hle
  have hst : startNode g start = .ok s := by
    rcases h with rfl | ⟨rfl, h⟩
    · show (if (!g.hasNode s) = true then _ else _) = _
      rw [hs.hasNode, hn]; rfl
    · unfold startNode
      have : g.nodeCount ≠ 0 := by
        rw [hs.nodeCount]
        intro hc
        rw [List.length_eq_zero_iff.1 hc] at h; cases h
      simp only [this, if_false, h, unwrap]
  refine ⟨(BitSet.full (M.val + 1)).set s.val false, ?_, refill_mark hinv rfl hn (by simp)⟩
  unfold new withCapacity
  rw [hM, bind_ok]
  show moveTo g start ⟨[], BitSet.full (M.val + 1)⟩ = _
  unfold moveTo
  rw [hst, bind_ok, BitSet.put_ok (hinv.len s hn)]; rfl

/-- `new` fails otherwise. -/
theorem new_start (hs : Shows g A) {start : Option (Id m)} {st : Traversal m}
    (h : new g start = .ok st) :
    ∃ s, (A.node s).isSome ∧ (start = some s ∨ (start = none ∧ g.nodeIndices.head? = some s)) := by
  unfold new at h
  obtain ⟨st0, -, h⟩ := bind_eq_ok h
  unfold moveTo at h
  obtain ⟨s, h, -⟩ := bind_eq_ok h
  cases start with
  | some a =>
    unfold startNode at h
    by_cases hn : g.hasNode a = true
    · rw [hs.hasNode] at hn; exact ⟨a, hn, .inl rfl⟩
    · simp only [Bool.not_eq_true] at hn
      simp [hn] at h
  | none =>
    unfold startNode at h
    by_cases hc : g.nodeCount = 0
    · simp [hc] at h
    · simp only [hc, if_false] at h
      cases hh : g.nodeIndices.head? with
      | none => rw [hh] at h; cases h
      | some a =>
        refine ⟨a, ?_, .inr ⟨rfl, rfl⟩⟩
        rw [← hs.memNodes]
        exact List.mem_of_mem_head? hh

theorem bfs_sweep (hs : Shows g A) {s : Id m} {b : BitSet} (h : SInv A [] ⟨[s], b⟩) :
    ∃ l st', Yields (Bfs.next g) ⟨[s], b⟩ l st' ∧ Bfs.next g st' = .ok (none, st') ∧
      A.Sweep s A.FirstIn l := by
  obtain ⟨l, st', h1, h2, h3, h4, segs, h5, h6, h7⟩ := sweep pops_front hs (JQueue A)
    (fun s V w x rest news hb hj hpop _ hsort hc hn => queue_step hb hj hpop hsort hc hn)
    (fun s a T h => by injection h with _ h; rw [← h]; exact List.Pairwise.nil) h
  rw [← bfs_next] at h1 h2
  refine ⟨l, st', h1, h2, h3, h4, segs, h5, h6, fun i hi => ?_⟩
  obtain ⟨a, r, e1, e2, e3, e4⟩ := h7 i hi
  exact ⟨a, r, e1, firstIn_of e2.1 e2.2, e3, e4⟩

theorem stack_init (s : Id m) : JStack A [] [s] :=
  ⟨fun h => absurd rfl h, fun _ _ hi => absurd hi (Nat.not_lt_zero _),
    fun _ hi => absurd hi (Nat.not_lt_zero _)⟩

theorem dfs_sweep (hs : Shows g A) {s : Id m} {b : BitSet} (h : SInv A [] ⟨[s], b⟩) :
    ∃ l st', Yields (Dfs.next g) ⟨[s], b⟩ l st' ∧ Dfs.next g st' = .ok (none, st') ∧
      A.Sweep s A.LastIn l := by
  obtain ⟨l, st', h1, h2, h3, h4, segs, h5, h6, h7⟩ := sweep pops_back hs (JStack A)
    (fun s V w x rest news hb hj hpop _ hsort hc hn => stack_step hb hj hpop hsort hc hn)
    stack_init h
  rw [← dfs_next] at h1 h2
  refine ⟨l, st', h1, h2, h3, h4, segs, h5, h6, fun i hi => ?_⟩
  obtain ⟨a, r, e1, e2, e3, e4⟩ := h7 i hi
  exact ⟨a, r, e1, lastIn_of e2.1 e2.2, e3, e4⟩

theorem put_length {b b' : BitSet} {i : Nat} {v : Bool} (h : b.put i v = .ok b') :
    b'.length = b.length := by
  unfold BitSet.put at h
  split at h
  · obtain rfl := Except.ok.inj h
    exact List.length_set
  · cases h

theorem refill_length {s s' : Traversal m} (h : s.refill g = .ok s') :
    s'.undiscovered.length = s.undiscovered.length := by
  unfold refill at h
  split at h
  · split at h
    · obtain ⟨b, h1, h2⟩ := bind_eq_ok h
      obtain rfl := Except.ok.inj h2
      exact put_length h1
    · obtain rfl := Except.ok.inj h; rfl
  · obtain rfl := Except.ok.inj h; rfl

theorem discover_length {s s' : Traversal m} {n : Id m} (h : s.discover n = .ok s') :
    s'.undiscovered.length = s.undiscovered.length := by
  unfold discover at h
  split at h
  · obtain ⟨b, h1, h2⟩ := bind_eq_ok h
    obtain rfl := Except.ok.inj h2
    exact put_length h1
  · obtain rfl := Except.ok.inj h; rfl

theorem discoverAll_length : ∀ {l : List (Id m)} {s s' : Traversal m},
    l.foldlM discover s = .ok s' → s'.undiscovered.length = s.undiscovered.length
  | [], s, s', h => by obtain rfl := Except.ok.inj h; rfl
  | a :: l, s, s', h => by
    rw [List.foldlM_cons] at h
    obtain ⟨s1, h1, h2⟩ := bind_eq_ok h
    rw [discoverAll_length h2, discover_length h1]

theorem nextWith_length {pop : List (Id m) → Option (Id m × List (Id m))} {s s' : Traversal m}
    {o : Option (Id m)} (h : nextWith pop g s = .ok (o, s')) :
    s'.undiscovered.length = s.undiscovered.length := by
  unfold nextWith at h
  obtain ⟨s1, h1, h2⟩ := bind_eq_ok h
  rw [← refill_length h1]
  cases hp : pop s1.work with
  | none => rw [hp] at h2; cases h2; rfl
  | some q =>
    rw [hp] at h2
    obtain ⟨s2, h3, h4⟩ := bind_eq_ok h2
    cases h4
    unfold expand at h3
    obtain ⟨l, -, h6⟩ := bind_eq_ok h3
    rw [discoverAll_length h6]

theorem moveTo_length {s s' : Traversal m} {start : Option (Id m)} (h : s.moveTo g start = .ok s') :
    s'.undiscovered.length = s.undiscovered.length := by
  unfold moveTo at h
  obtain ⟨n, -, h⟩ := bind_eq_ok h
  obtain ⟨b, h1, h2⟩ := bind_eq_ok h
  obtain rfl := Except.ok.inj h2
  exact put_length h1

/-- A depth-first search from an all undiscovered state. -/
theorem dfs_fresh (hs : Shows g A) {M : Id m} (hM : ∀ n, (A.node n).isSome → n ≤ M) :
    ∃ l st', Yields (Dfs.next g) ⟨[], BitSet.full (M.val + 1)⟩ l st' ∧
      Dfs.next g st' = .ok (none, st') ∧ l.Nodup ∧ (∀ n, n ∈ l ↔ (A.node n).isSome) ∧
      ∀ s, l.head? = some s → (A.Sweep s A.LastIn l ∧ ∀ n, (A.node n).isSome → s ≤ n) := by
  have h := sinv_full (A := A) hM
  obtain ⟨segs, st', h1, h2, h3, h4, h5⟩ := sweep_rest pops_back hs (JStack A)
    (fun s V w x rest news hb hj hpop _ hsort hc hn => stack_step hb hj hpop hsort hc hn)
    stack_init _ [] ⟨[], BitSet.full (M.val + 1)⟩ (le_refl _) h rfl
  have hd := next_done pops_back hs h3.toWInv h2 (fun n hn => (h4 n).2 hn)
  have hnd := h3.nodup
  rw [h2, List.append_nil] at hnd
  rw [List.nil_append] at hnd h4
  rw [← dfs_next] at h1 hd
  refine ⟨segs.flatten, st', h1, hd, hnd, h4, ?_⟩
  intro s hs'
  cases segs with
  | nil => cases hs'
  | cons seg segs =>
    obtain ⟨s', r', e1, -, -, e4⟩ := h5 0 (by simp)
    simp only [List.getElem_cons_zero] at e1
    rw [e1] at hs'
    have : s' = s := by simpa using hs'
    subst this
    refine ⟨⟨hnd, h4, _, rfl, ⟨r', by simp [e1]⟩, ?_⟩, by simpa using e4⟩
    intro i hi
    obtain ⟨a, r, f1, f2, f3, f4⟩ := h5 i hi
    exact ⟨a, r, f1, lastIn_of f2.1 f2.2, by simpa using f3, fun _ => by simpa using f4⟩

end Traversal

/-! ### The first segment -/

namespace Spec.AGraph

variable {l : List (Id m)} {s : Id m} {P : List (Id m) → Prop}

theorem Sweep.first (h : A.Sweep s P l) : ∃ r l2, l = (s :: r) ++ l2 ∧ P (s :: r) ∧
    ∀ n, n ∈ s :: r ↔ A.Reaches s n := by
  obtain ⟨-, -, segs, h1, ⟨r, h2⟩, h3⟩ := h
  cases segs with
  | nil => cases h2
  | cons seg segs =>
    injection h2 with h2
    obtain ⟨s', r', e1, e2, e3, -⟩ := h3 0 (by simp)
    simp only [List.getElem_cons_zero] at e1 e2 e3
    rw [h2] at e1 e2 e3
    injection e1 with e1 e1'
    subst e1
    refine ⟨r, segs.flatten, ?_, e2, by simpa using e3⟩
    rw [← h1, h2]; rfl

theorem firstSeen_le {a : Nat} {x : Id m} (ha : a < l.length) (h : (A.edge l[a] x).isSome) :
    A.firstSeen l x ≤ a := by
  unfold firstSeen
  by_contra hc
  have := List.not_of_lt_findIdx (Nat.lt_of_not_le hc)
  rw [h] at this; cases this

theorem firstSeen_edge {x : Id m} (h : A.firstSeen l x < l.length) :
    (A.edge (l[A.firstSeen l x]) x).isSome := List.findIdx_getElem (w := h)

/-- Positions in a first-in order have levels: non-decreasing, and the level of a position is the length
of a shortest walk to it. -/
theorem FirstIn.levels (h : A.FirstIn l) (hnd : l.Nodup) (hs : l[0]? = some s)
    (hcl : ∀ n, n ∈ l ↔ A.Reaches s n) :
    ∃ d : Nat → Nat, (∀ i j, i ≤ j → j < l.length → d i ≤ d j) ∧
      (∀ i (hi : i < l.length), A.Walk s (d i) l[i]) ∧
      (∀ i (hi : i < l.length) c, A.Walk s c l[i] → d i ≤ c) := by
  obtain ⟨hord, hlt⟩ := h
  -- the level of a position, from the level of the position it was discovered at
  have key : ∀ n, ∃ d : Nat → Nat, d 0 = 0 ∧ ∀ i (hi : i < l.length), 0 < i → i < n →
      d i = d (A.firstSeen l l[i]) + 1 := by
    intro n
    induction n with
    | zero => exact ⟨fun _ => 0, rfl, by intros; omega⟩
    | succ n ih =>
      obtain ⟨d, h0, hd⟩ := ih
      by_cases hn : ∃ h : n < l.length, 0 < n
      · obtain ⟨hnl, hn0⟩ := hn
        have hfn := hord n hnl hn0
        refine ⟨fun i => if i = n then d (A.firstSeen l l[n]) + 1 else d i, ?_, ?_⟩
        · beta_reduce; rw [if_neg (by omega)]; exact h0
        · intro i hi hpos hin
          beta_reduce
          have hf := hord i hi hpos
          by_cases e : i = n
          · subst e
            rw [if_pos rfl, if_neg (by omega)]
          · rw [if_neg e, if_neg (by omega)]
            exact hd i hi hpos (by omega)
      · refine ⟨d, h0, fun i hi hpos hin => hd i hi hpos ?_⟩
        by_contra hc
        have : i = n := by omega
        subst this
        exact hn ⟨hi, hpos⟩
  obtain ⟨d, h0, hd⟩ := key l.length
  have hlen : 0 < l.length := by
    by_contra hc
    rw [List.getElem?_eq_none (by omega)] at hs; cases hs
  have hs0 : l[0] = s := by
    rw [List.getElem?_eq_getElem hlen] at hs; injection hs
  have hmono : ∀ j, ∀ i, i ≤ j → j < l.length → d i ≤ d j := by
    intro j
    induction j using Nat.strong_induction_on with
    | _ j ih =>
      intro i hij hj
      rcases Nat.eq_zero_or_pos i with rfl | hpos
      · rw [h0]; exact Nat.zero_le _
      · rcases Nat.eq_or_lt_of_le hij with rfl | hij
        · exact le_refl _
        · rw [hd i (by omega) hpos (by omega), hd j hj (by omega) hj]
          have hk := Traversal.key_lt.1 (hlt i j (by omega) hj hpos hij)
          have hfj := hord j hj (by omega)
          have : A.firstSeen l l[i] ≤ A.firstSeen l l[j] := by
            rcases hk with hk | ⟨hk, -⟩ <;> omega
          have := ih _ hfj _ this (by omega)
          omega
  refine ⟨d, fun i j => hmono j i, ?_, ?_⟩
  · intro i
    induction i using Nat.strong_induction_on with
    | _ i ih =>
      intro hi
      rcases Nat.eq_zero_or_pos i with rfl | hpos
      · rw [h0, hs0]; exact .here
      · have hf := hord i hi hpos
        rw [hd i hi hpos hi]
        exact (ih _ hf (by omega)).step (firstSeen_edge (by omega))
  · intro i hi c
    induction c generalizing i with
    | zero =>
      intro hw
      generalize hx : l[i] = x at hw
      cases hw
      rcases Nat.eq_zero_or_pos i with rfl | hpos
      · rw [h0]
      · rw [← hs0] at hx
        have := (List.Nodup.getElem_inj_iff hnd).1 hx
        omega
    | succ c ih =>
      intro hw
      generalize hx : l[i] = x at hw
      cases hw with
      | step hw he =>
        rename_i u
        obtain ⟨p, hp, rfl⟩ := List.mem_iff_getElem.1 ((hcl u).2 ⟨c, hw⟩)
        have h1 := ih p hp hw
        rcases Nat.eq_zero_or_pos i with rfl | hpos
        · rw [h0]; exact Nat.zero_le _
        · rw [hd i hi hpos hi]
          subst hx
          have := hmono p _ (firstSeen_le hp he) hp
          omega

/-- In a last-in order, the first node seen to have an edge to `c` was not left before `c`. -/
theorem LastIn.depth (h : A.LastIn l) {b c : Nat} (hb : b < l.length) (hc : c < l.length) (hbc : b < c)
    (hab : A.firstSeen l l[c] < b) :
    ∃ d, ∃ hd : d < l.length, A.firstSeen l l[c] ≤ d ∧ d < b ∧ (A.edge l[d] l[b]).isSome := by
  have hk := Traversal.key_lt.1 (h.2 b c hb hc hbc hab)
  have hf := h.1 b hb (by omega)
  exact ⟨A.firstSeen l l[b], by omega, by rcases hk with hk | ⟨hk, -⟩ <;> omega, hf,
    firstSeen_edge (by omega)⟩

/-- In a search order of a graph without cycles a node has one earlier neighbour. -/
theorem SearchOrder.forest (h : A.SearchOrder l) (hnd : l.Nodup)
    (hac : A.simple.IsAcyclic) {a c : Nat} (ha : a < l.length) (hc : c < l.length) (hac' : a < c)
    (he : (A.edge l[a] l[c]).isSome) : A.firstSeen l l[c] = a := by
  have hinj : ∀ {i j : Nat} (hi : i < l.length) (hj : j < l.length), l[i] = l[j] → i = j :=
    fun hi hj e => (List.Nodup.getElem_inj_iff hnd).1 e
  have hf := firstSeen_le ha he
  by_contra hne
  have hadj : ∀ {i j : Nat} (hi : i < l.length) (hj : j < l.length), i ≠ j →
      (A.edge l[i] l[j]).isSome → A.simple.Adj l[i] l[j] := by
    intro i j hi hj hij he
    unfold simple
    rw [SimpleGraph.fromRel_adj]
    exact ⟨fun e => hij (hinj hi hj e), .inl he⟩
  have hbr := SimpleGraph.isAcyclic_iff_forall_isBridge.1 hac
    (e := s(l[a], l[c])) (hadj ha hc (by omega) he)
  rw [SimpleGraph.isBridge_iff] at hbr
  apply hbr
  -- an edge between other positions survives
  have hkeep : ∀ {i j : Nat} (hi : i < l.length) (hj : j < l.length), i ≠ j → i ≠ a → (i < c) →
      (A.edge l[i] l[j]).isSome →
      (A.simple.deleteEdges {s(l[a], l[c])}).Adj l[i] l[j] := by
    intro i j hi hj hij hia hic he
    rw [SimpleGraph.deleteEdges_adj]
    refine ⟨hadj hi hj hij he, ?_⟩
    intro e
    rw [Set.mem_singleton_iff, Sym2.eq_iff] at e
    rcases e with ⟨e, -⟩ | ⟨e, -⟩
    · exact hia (hinj hi ha e)
    · exact absurd (hinj hi hc e) (by omega)
  have hkeep' : ∀ {i j : Nat} (hi : i < l.length) (hj : j < l.length), i ≠ j → i < c → j < c →
      (A.edge l[i] l[j]).isSome →
      (A.simple.deleteEdges {s(l[a], l[c])}).Adj l[i] l[j] := by
    intro i j hi hj hij hic hjc he
    rw [SimpleGraph.deleteEdges_adj]
    refine ⟨hadj hi hj hij he, ?_⟩
    intro e
    rw [Set.mem_singleton_iff, Sym2.eq_iff] at e
    rcases e with ⟨-, e⟩ | ⟨e, -⟩
    · exact absurd (hinj hj hc e) (by omega)
    · exact absurd (hinj hi hc e) (by omega)
  have hreach : ∀ p (hp : p < l.length), p < c →
      (A.simple.deleteEdges {s(l[a], l[c])}).Reachable l[0] l[p] := by
    intro p
    induction p using Nat.strong_induction_on with
    | _ p ih =>
      intro hp hpc
      rcases Nat.eq_zero_or_pos p with rfl | hpos
      · exact SimpleGraph.Reachable.refl _
      · have hfp := h p hp hpos
        exact (ih _ hfp (by omega) (by omega)).trans
          (hkeep' (by omega) hp (by omega) (by omega) hpc (firstSeen_edge (by omega))).reachable
  have h1 := hreach a ha hac'
  have h2 := hreach (A.firstSeen l l[c]) (by omega) (by omega)
  have h3 := hkeep (i := A.firstSeen l l[c]) (j := c) (by omega) hc (by omega) hne (by omega)
    (firstSeen_edge (by omega))
  exact h1.symm.trans (h2.trans h3.reachable)

theorem depthFirst_append {l l' : List (Id m)} (h : A.DepthFirst l) (h' : A.DepthFirst l')
    (hno : ∀ x ∈ l, ∀ y ∈ l', ¬ (A.edge x y).isSome) : A.DepthFirst (l ++ l') := by
  intro a b c ha hb hc hab hbc he
  by_cases hal : a < l.length
  · by_cases hcl : c < l.length
    · rw [List.getElem_append_left hal, List.getElem_append_left hcl] at he
      obtain ⟨d, hd, h1, h2, h3⟩ := h a b c hal (by omega) hcl hab hbc he
      refine ⟨d, by rw [List.length_append]; omega, h1, h2, ?_⟩
      rw [List.getElem_append_left hd, List.getElem_append_left (by omega)]; exact h3
    · rw [List.getElem_append_left hal, List.getElem_append_right (by omega)] at he
      exact absurd he (hno _ (List.getElem_mem _) _ (List.getElem_mem _))
  · rw [List.length_append] at hc
    rw [List.getElem_append_right (by omega), List.getElem_append_right (by omega)] at he
    obtain ⟨d, hd, h1, h2, h3⟩ := h' (a - l.length) (b - l.length) (c - l.length) (by omega) (by omega)
      (by omega) (by omega) (by omega) he
    refine ⟨l.length + d, by rw [List.length_append]; omega, by omega, by omega, ?_⟩
    rw [List.getElem_append_right (by omega), List.getElem_append_right (by omega)]
    simpa using h3

theorem depthFirst_flatten : ∀ {segs : List (List (Id m))}, (∀ l ∈ segs, A.DepthFirst l) →
    segs.Pairwise (fun l l' => ∀ x ∈ l, ∀ y ∈ l', ¬ (A.edge x y).isSome) → A.DepthFirst segs.flatten
  | [], _, _ => fun _ _ _ ha => absurd ha (Nat.not_lt_zero _)
  | l :: segs, h, hp => by
    rw [List.pairwise_cons] at hp
    refine depthFirst_append (h l (List.mem_cons_self ..))
      (depthFirst_flatten (fun x hx => h x (List.mem_cons_of_mem _ hx)) hp.2) ?_
    intro x hx y hy
    obtain ⟨l', hl', hy⟩ := List.mem_flatten.1 hy
    exact hp.1 l' hl' x hx y hy

/-- No edge leads from a segment of a sweep to a later one. -/
theorem segs_closed {segs : List (List (Id m))} (hnd : segs.flatten.Nodup)
    (h : ∀ i (hi : i < segs.length), ∃ s, ∀ n, n ∈ segs[i] ↔ A.Reaches s n ∧ n ∉ (segs.take i).flatten) :
    segs.Pairwise (fun l l' => ∀ x ∈ l, ∀ y ∈ l', ¬ (A.edge x y).isSome) := by
  rw [List.pairwise_iff_getElem]
  intro i j hi hj hij x hx y hy he
  obtain ⟨s, hs⟩ := h i hi
  obtain ⟨⟨c, hw⟩, hx'⟩ := (hs x).1 hx
  have hdis := (List.nodup_flatten.1 hnd).2
  rw [List.pairwise_iff_getElem] at hdis
  have hyi : y ∉ segs[i] := fun hc => hdis i j hi hj hij hc hy
  have : y ∈ (segs.take i).flatten := by
    by_contra hc
    exact hyi ((hs y).2 ⟨⟨c + 1, hw.step he⟩, hc⟩)
  obtain ⟨l', hl', hyl⟩ := List.mem_flatten.1 this
  obtain ⟨p, hp, rfl⟩ := List.mem_iff_getElem.1 hl'
  rw [List.length_take] at hp
  rw [List.getElem_take] at hyl
  exact hdis p j (by omega) hj (by omega) hyl hy

theorem Sweep.depthFirst (h : A.Sweep s P l) (hP : ∀ l, l.Nodup → P l → A.DepthFirst l) :
    A.DepthFirst l := by
  obtain ⟨hnd, -, segs, rfl, -, h3⟩ := h
  refine depthFirst_flatten ?_ (segs_closed hnd ?_)
  · intro l hl
    obtain ⟨i, hi, rfl⟩ := List.mem_iff_getElem.1 hl
    obtain ⟨_, _, _, e2, _, _⟩ := h3 i hi
    exact hP _ ((List.nodup_flatten.1 hnd).1 _ hl) e2
  · intro i hi
    obtain ⟨s, _, _, _, e3, _⟩ := h3 i hi
    exact ⟨s, e3⟩

end Spec.AGraph

end Verif
