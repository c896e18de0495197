import Verif.Model.Traversal
import Verif.Spec.Traversal
import Verif.Proof.Collections
import Verif.Proof.Static

/-! Facts about the two searches, shared by breadth and depth first through the way an entry leaves the
work list. -/

namespace Verif

open Verif.Spec

variable {m k : Nat} {NL EL : Type}

namespace BitSet

theorem contains_full (n i : Nat) : (full n).contains i = decide (i < n) := by
  unfold full contains
  by_cases h : i < n <;> simp [List.getD, h]

theorem put_ok {b : BitSet} {i : Nat} {v : Bool} (h : i < b.length) : b.put i v = .ok (b.set i v) := by
  simp [put, h]; rfl

theorem contains_set {b : BitSet} {i j : Nat} {v : Bool} (h : i < b.length) :
    BitSet.contains (b.set i v) j = if i = j then v else b.contains j := by
  unfold contains
  by_cases hij : i = j
  · subst hij; simp [List.getD, h]
  · simp [List.getD, hij]

theorem mem_ones {b : BitSet} {i : Nat} : i ∈ b.ones ↔ b.contains i = true := by
  unfold ones contains
  rw [List.mem_filter, List.mem_range]
  constructor
  · exact fun h => h.2
  · intro h
    refine ⟨?_, h⟩
    by_contra hc
    simp [List.getD, List.getElem?_eq_none (Nat.le_of_not_lt hc)] at h

theorem ones_sorted (b : BitSet) : b.ones.Pairwise (· < ·) :=
  List.Pairwise.filter _ List.pairwise_lt_range

end BitSet

namespace Traversal

/-- `next` with the way an entry is taken from the work list left open. -/
def nextWith (pop : List (Id m) → Option (Id m × List (Id m))) (g : GView m k NL EL) (s : Traversal m) :
    Res (Option (Id m) × Traversal m) := do
  let s ← s.refill g
  match pop s.work with
  | none => pure (none, s)
  | some (n, rest) => do
    let s ← Traversal.expand g n ⟨rest, s.undiscovered⟩
    pure (some n, s)

/-- Take the first entry. -/
def popFront : List (Id m) → Option (Id m × List (Id m))
  | [] => none
  | n :: rest => some (n, rest)

/-- Take the last entry. -/
def popBack (l : List (Id m)) : Option (Id m × List (Id m)) := l.getLast?.map (fun n => (n, l.dropLast))

theorem bfs_next : Bfs.next (m := m) (k := k) (NL := NL) (EL := EL) = nextWith popFront := by
  funext g s
  unfold Bfs.next nextWith
  congr 1
  funext s
  cases s.work <;> rfl

theorem dfs_next : Dfs.next (m := m) (k := k) (NL := NL) (EL := EL) = nextWith popBack := by
  funext g s
  unfold Dfs.next nextWith popBack
  congr 1
  funext s
  cases s.work.getLast? <;> rfl

/-- Taking an entry: nothing from an empty list, some entry of a nonempty one. -/
structure Pops (pop : List (Id m) → Option (Id m × List (Id m))) : Prop where
  nil : pop [] = none
  cons : ∀ w, w ≠ [] → ∃ x rest, pop w = some (x, rest) ∧ w.Perm (x :: rest)

theorem pops_front : Pops (popFront (m := m)) := by
  refine ⟨rfl, fun w hw => ?_⟩
  cases w with
  | nil => exact absurd rfl hw
  | cons x rest => exact ⟨x, rest, rfl, .refl _⟩

theorem pops_back : Pops (popBack (m := m)) := by
  refine ⟨rfl, fun w hw => ?_⟩
  refine ⟨w.getLast hw, w.dropLast, ?_, ?_⟩
  · simp [popBack, List.getLast?_eq_some_getLast hw]
  · conv_lhs => rw [← List.dropLast_append_getLast hw]
    exact List.perm_append_singleton _ _

/-- The state between two calls of `next`; the discovered nodes are those in `V` and those waiting. -/
structure WInv (A : AGraph (Id m) NL EL) (V : List (Id m)) (st : Traversal m) : Prop where
  nodup : (V ++ st.work).Nodup
  nodes : ∀ x ∈ V ++ st.work, (A.node x).isSome
  len : ∀ n, (A.node n).isSome → n.val < st.undiscovered.length
  short : st.undiscovered.length ≤ m + 1
  bits : ∀ n, (A.node n).isSome → (st.undiscovered.contains n.val = true ↔ n ∉ V ++ st.work)

/-- The state between two calls of `next` of a fresh search, `V` the nodes yielded so far. -/
structure SInv (A : AGraph (Id m) NL EL) (V : List (Id m)) (st : Traversal m) : Prop
    extends WInv A V st where
  closed : ∀ u ∈ V, ∀ t, (A.edge u t).isSome → t ∈ V ++ st.work

theorem discover_fold {A : AGraph (Id m) NL EL} (P : List (Id m)) :
    ∀ (l : List (Id m)) (st : Traversal m), l.Nodup → (∀ n ∈ l, (A.node n).isSome) →
      (∀ n, (A.node n).isSome → n.val < st.undiscovered.length) →
      (∀ n, (A.node n).isSome → (st.undiscovered.contains n.val = true ↔ n ∉ P ++ st.work)) →
      ∃ st', l.foldlM discover st = .ok st' ∧
        st'.work = st.work ++ l.filter (fun n => decide (n ∉ P ++ st.work)) ∧
        st'.undiscovered.length = st.undiscovered.length ∧
        (∀ n, (A.node n).isSome → (st'.undiscovered.contains n.val = true ↔ n ∉ P ++ st'.work)) := by
  intro l
  induction l with
  | nil => intro st _ _ _ hb; exact ⟨st, rfl, by simp, rfl, hb⟩
  | cons a l ih =>
    intro st hd hn hlen hb
    have hda := (List.nodup_cons.1 hd)
    have ha := hn a (List.mem_cons_self ..)
    rw [List.foldlM_cons]
    by_cases hc : st.undiscovered.contains a.val = true
    · have hna : a ∉ P ++ st.work := (hb a ha).1 hc
      have e : discover st a = .ok ⟨st.work ++ [a], st.undiscovered.set a.val false⟩ := by
        unfold discover
        rw [if_pos hc, BitSet.put_ok (hlen a ha)]; rfl
      rw [e, bind_ok]
      obtain ⟨st', h1, h2, h3, h4⟩ := ih ⟨st.work ++ [a], st.undiscovered.set a.val false⟩ hda.2
        (fun n h => hn n (List.mem_cons_of_mem _ h))
        (by intro n h; rw [List.length_set]; exact hlen n h)
        (by
          intro n h
          show BitSet.contains (st.undiscovered.set a.val false) n.val = true ↔ _
          rw [BitSet.contains_set (hlen a ha)]
          by_cases e : a.val = n.val
          · have : a = n := Fin.ext e
            subst this; simp
          · rw [if_neg e, hb n h]
            have : n ≠ a := fun h => e (by rw [h])
            simp [this])
      refine ⟨st', h1, ?_, by rw [h3]; exact List.length_set, h4⟩
      rw [h2, List.filter_cons, if_pos (by simpa using hna)]
      show st.work ++ [a] ++ _ = _
      rw [List.append_assoc, List.singleton_append]
      congr 2
      apply List.filter_congr
      intro x hx
      have : x ≠ a := fun h => hda.1 (h ▸ hx)
      simp [this]
    · have e : discover st a = .ok st := by unfold discover; rw [if_neg hc]; rfl
      rw [e, bind_ok]
      obtain ⟨st', h1, h2, h3, h4⟩ := ih st hda.2 (fun n h => hn n (List.mem_cons_of_mem _ h)) hlen hb
      refine ⟨st', h1, ?_, h3, h4⟩
      have hin : a ∈ P ++ st.work := by
        by_contra h
        exact hc ((hb a ha).2 h)
      rw [h2, List.filter_cons, if_neg (by rw [decide_eq_true_iff]; exact not_not.2 hin)]

variable {g : GView m k NL EL} {A : AGraph (Id m) NL EL}

/-- One call of `next` with entries left: some entry `x` is yielded and its undiscovered neighbours,
ascending, go to the back of the list. -/
theorem next_weak {pop : List (Id m) → Option (Id m × List (Id m))} (hp : Pops pop) (hs : Shows g A)
    {V : List (Id m)} {st : Traversal m} (h : WInv A V st) (hw : st.work ≠ []) :
    ∃ x rest news st', pop st.work = some (x, rest) ∧ st.work.Perm (x :: rest) ∧
      nextWith pop g st = .ok (some x, st') ∧ st'.work = rest ++ news ∧ news.Pairwise (· < ·) ∧
      (∀ t, t ∈ news ↔ (A.edge x t).isSome ∧ t ∉ V ++ st.work) ∧ WInv A (V ++ [x]) st' := by
  obtain ⟨x, rest, hx, hperm⟩ := hp.cons _ hw
  have hr : st.refill g = .ok st := by
    unfold refill
    rw [if_neg (fun hc => hw (List.length_eq_zero_iff.1 hc))]; rfl
  have hVW : ∀ n, n ∈ (V ++ [x]) ++ rest ↔ n ∈ V ++ st.work := by
    intro n
    have := hperm.mem_iff (a := n)
    simp only [List.mem_append, this, List.mem_cons]
    tauto
  have hpermV : ((V ++ [x]) ++ rest).Perm (V ++ st.work) := by
    rw [List.append_assoc, List.singleton_append]
    exact List.Perm.append_left _ hperm.symm
  have hxn : (A.node x).isSome :=
    h.nodes x ((hVW x).1 (by simp))
  obtain ⟨l, hl, hsort, hmem, _⟩ := hs.neighbors x hxn
  obtain ⟨st', h1, h2, h3, h4⟩ := discover_fold (A := A) (V ++ [x]) l ⟨rest, st.undiscovered⟩
    (sorted_nodup hsort) (fun n hn => (hs.ends x n ((hmem n).1 hn)).2) h.len
    (fun n hn => by rw [h.bits n hn, not_iff_not]; exact (hVW n).symm)
  refine ⟨x, rest, l.filter (fun n => decide (n ∉ (V ++ [x]) ++ rest)), st', hx, hperm, ?_, h2, ?_, ?_, ?_⟩
  · unfold nextWith
    rw [hr, bind_ok, hx]
    unfold expand
    show ((g.neighbors x >>= fun l => l.foldlM discover ⟨rest, st.undiscovered⟩) >>= _) = _
    rw [hl, bind_ok, h1, bind_ok]; rfl
  · exact hsort.filter _
  · intro t
    rw [List.mem_filter, hmem, decide_eq_true_iff, hVW]
  · have hmem' : ∀ n, n ∈ (V ++ [x]) ++ st'.work ↔ n ∈ V ++ st.work ∨ (A.edge x n).isSome := by
      intro n
      rw [h2, ← List.append_assoc, List.mem_append, hVW, List.mem_filter, hmem, decide_eq_true_iff, hVW]
      tauto
    refine ⟨?_, ?_, ?_, ?_, h4⟩
    · rw [h2, ← List.append_assoc, List.nodup_append']
      refine ⟨hpermV.nodup_iff.2 h.nodup, (sorted_nodup hsort).filter _, ?_⟩
      intro a ha hb
      have := (List.mem_filter.1 hb).2
      simp only [decide_eq_true_iff] at this
      exact this ha
    · intro n hn
      rcases (hmem' n).1 hn with hc | hc
      · exact h.nodes n hc
      · exact (hs.ends x n hc).2
    · intro n hn; rw [h3]; exact h.len n hn
    · rw [h3]; exact h.short

/-- The same for a fresh search. -/
theorem next_step {pop : List (Id m) → Option (Id m × List (Id m))} (hp : Pops pop) (hs : Shows g A)
    {V : List (Id m)} {st : Traversal m} (h : SInv A V st) (hw : st.work ≠ []) :
    ∃ x rest news st', pop st.work = some (x, rest) ∧ st.work.Perm (x :: rest) ∧
      nextWith pop g st = .ok (some x, st') ∧ st'.work = rest ++ news ∧ news.Pairwise (· < ·) ∧
      (∀ t, t ∈ news ↔ (A.edge x t).isSome ∧ t ∉ V ++ st.work) ∧ SInv A (V ++ [x]) st' := by
  obtain ⟨x, rest, news, st', h1, h2, h3, h4, h5, h6, h7⟩ := next_weak hp hs h.toWInv hw
  refine ⟨x, rest, news, st', h1, h2, h3, h4, h5, h6, h7, ?_⟩
  intro u hu t ht
  have hc : t ∈ V ++ st.work ∨ (A.edge x t).isSome := by
    rcases List.mem_append.1 hu with hc | hc
    · exact .inl (h.closed u hc t ht)
    · rw [List.mem_singleton.1 hc] at ht; exact .inr ht
  by_cases hm : t ∈ V ++ st.work
  · have := h2.mem_iff (a := t)
    rw [h4]
    simp only [List.mem_append, this, List.mem_cons, List.not_mem_nil, or_false] at hm ⊢
    tauto
  · have := (h6 t).2 ⟨hc.resolve_left hm, hm⟩
    rw [h4]
    simp only [List.mem_append]
    tauto

theorem find_none {V : List (Id m)} {st : Traversal m} (hs : Shows g A) (h : WInv A V st)
    (hall : ∀ n, (A.node n).isSome → n ∈ V) : st.nextUnvisited g = none := by
  unfold nextUnvisited
  rw [Option.map_eq_none_iff, List.find?_eq_none]
  intro i hi
  rw [BitSet.mem_ones] at hi
  have hlt : i < st.undiscovered.length := by
    by_contra hc
    unfold BitSet.contains at hi
    simp [List.getD, List.getElem?_eq_none (Nat.le_of_not_lt hc)] at hi
  have hv : (Id.new i : Id m).val = i := Id_new_lt (by have := h.short; omega)
  intro hn
  rw [hs.hasNode] at hn
  have := (h.bits _ hn).1 (by rw [hv]; exact hi)
  exact this (List.mem_append_left _ (hall _ hn))

theorem find_some {V : List (Id m)} {st : Traversal m} (hs : Shows g A) (h : WInv A V st)
    (hw : st.work = []) (hex : ∃ n, (A.node n).isSome ∧ n ∉ V) :
    ∃ s, st.nextUnvisited g = some s ∧ (A.node s).isSome ∧ s ∉ V ∧
      ∀ n, (A.node n).isSome → n ∉ V → s ≤ n := by
  have key : ∀ n, (A.node n).isSome → n ∉ V → n.val ∈ st.undiscovered.ones := by
    intro n hn hv
    rw [BitSet.mem_ones, h.bits n hn, hw, List.append_nil]; exact hv
  cases hf : st.undiscovered.ones.find? (fun i => g.hasNode (Id.new i)) with
  | none =>
    obtain ⟨n, hn, hv⟩ := hex
    rw [List.find?_eq_none] at hf
    refine absurd ?_ (hf n.val (key n hn hv))
    rw [GraphMap.Id_new_self, hs.hasNode]; exact hn
  | some i =>
    have hi := List.mem_of_find?_eq_some hf
    have hp := List.find?_some hf
    rw [BitSet.mem_ones] at hi
    have hlt : i < st.undiscovered.length := by
      by_contra hc
      unfold BitSet.contains at hi
      simp [List.getD, List.getElem?_eq_none (Nat.le_of_not_lt hc)] at hi
    have hv : (Id.new i : Id m).val = i := Id_new_lt (by have := h.short; omega)
    have hn : (A.node (Id.new i)).isSome := by rw [← hs.hasNode]; exact hp
    refine ⟨Id.new i, by unfold nextUnvisited; rw [hf]; rfl, hn, ?_, ?_⟩
    · have := (h.bits _ hn).1 (by rw [hv]; exact hi)
      rw [hw, List.append_nil] at this; exact this
    · intro n hn hnv
      rw [Fin.le_def, hv]
      obtain ⟨-, as, bs, hsplit, has⟩ := List.find?_eq_some_iff_append.1 hf
      have hmem := key n hn hnv
      have hsorted := BitSet.ones_sorted st.undiscovered
      rw [hsplit] at hmem hsorted
      rcases List.mem_append.1 hmem with hc | hc
      · have := has _ hc
        rw [GraphMap.Id_new_self, hs.hasNode, hn] at this
        simp at this
      · rcases List.mem_cons.1 hc with hc | hc
        · omega
        · have := (List.pairwise_cons.1 (List.pairwise_append.1 hsorted).2.1).1 _ hc
          omega

/-- One call with an empty work list and everything visited. -/
theorem next_done {pop : List (Id m) → Option (Id m × List (Id m))} (hp : Pops pop) (hs : Shows g A)
    {V : List (Id m)} {st : Traversal m} (h : WInv A V st) (hw : st.work = [])
    (hall : ∀ n, (A.node n).isSome → n ∈ V) : nextWith pop g st = .ok (none, st) := by
  have hr : st.refill g = .ok st := by
    unfold refill
    rw [if_pos (by rw [hw]; rfl), find_none hs h hall]; rfl
  unfold nextWith
  rw [hr, bind_ok, hw, hp.nil]; rfl

theorem refill_weak {V : List (Id m)} {st : Traversal m} (h : WInv A V st) (hw : st.work = [])
    {s : Id m} (hn : (A.node s).isSome) (hv : s ∉ V) :
    WInv A V ⟨[s], st.undiscovered.set s.val false⟩ := by
  refine ⟨?_, ?_, ?_, ?_, ?_⟩
  · have := h.nodup
    rw [hw, List.append_nil] at this
    rw [List.nodup_append']
    refine ⟨this, List.nodup_singleton _, ?_⟩
    intro a ha hb
    rw [List.mem_singleton.1 hb] at ha
    exact hv ha
  · intro x hx
    rcases List.mem_append.1 hx with hc | hc
    · exact h.nodes x (List.mem_append_left _ hc)
    · rw [List.mem_singleton.1 hc]; exact hn
  · intro n hn'; rw [List.length_set]; exact h.len n hn'
  · rw [List.length_set]; exact h.short
  · intro n hn'
    show BitSet.contains (st.undiscovered.set s.val false) n.val = true ↔ _
    rw [BitSet.contains_set (h.len s hn)]
    have hb := h.bits n hn'
    rw [hw, List.append_nil] at hb
    by_cases e : s.val = n.val
    · have : s = n := Fin.ext e
      subst this; simp
    · rw [if_neg e, hb]
      have : n ≠ s := fun h => e (by rw [h])
      simp [this]

theorem refill_mark {V : List (Id m)} {st : Traversal m} (h : SInv A V st) (hw : st.work = [])
    {s : Id m} (hn : (A.node s).isSome) (hv : s ∉ V) :
    SInv A V ⟨[s], st.undiscovered.set s.val false⟩ := by
  refine ⟨refill_weak h.toWInv hw hn hv, ?_⟩
  · intro u hu t ht
    have := h.closed u hu t ht
    rw [hw, List.append_nil] at this
    exact List.mem_append_left _ this

/-- A call with an empty work list and a node left behaves as if the smallest such node had been put
there. -/
theorem restart_weak {pop : List (Id m) → Option (Id m × List (Id m))} (hs : Shows g A)
    {V : List (Id m)} {st : Traversal m} (h : WInv A V st) (hw : st.work = [])
    (hex : ∃ n, (A.node n).isSome ∧ n ∉ V) :
    ∃ s, (A.node s).isSome ∧ s ∉ V ∧ (∀ n, (A.node n).isSome → n ∉ V → s ≤ n) ∧
      WInv A V ⟨[s], st.undiscovered.set s.val false⟩ ∧
      nextWith pop g st = nextWith pop g ⟨[s], st.undiscovered.set s.val false⟩ := by
  obtain ⟨s, h1, h2, h3, h4⟩ := find_some hs h hw hex
  refine ⟨s, h2, h3, h4, refill_weak h hw h2 h3, ?_⟩
  have hr : st.refill g = .ok ⟨[s], st.undiscovered.set s.val false⟩ := by
    unfold refill
    rw [if_pos (by rw [hw]; rfl), h1]
    show (st.undiscovered.put s.val false >>= _) = _
    rw [BitSet.put_ok (h.len s h2), bind_ok, hw]; rfl
  have hr' : Traversal.refill g ⟨[s], st.undiscovered.set s.val false⟩ =
      .ok ⟨[s], st.undiscovered.set s.val false⟩ := rfl
  unfold nextWith
  rw [hr, hr']

/-- The same for a fresh search. -/
theorem next_restart {pop : List (Id m) → Option (Id m × List (Id m))} (hs : Shows g A)
    {V : List (Id m)} {st : Traversal m} (h : SInv A V st) (hw : st.work = [])
    (hex : ∃ n, (A.node n).isSome ∧ n ∉ V) :
    ∃ s, (A.node s).isSome ∧ s ∉ V ∧ (∀ n, (A.node n).isSome → n ∉ V → s ≤ n) ∧
      SInv A V ⟨[s], st.undiscovered.set s.val false⟩ ∧
      nextWith pop g st = nextWith pop g ⟨[s], st.undiscovered.set s.val false⟩ := by
  obtain ⟨s, h1, h2, h3, -, h5⟩ := restart_weak (pop := pop) hs h.toWInv hw hex
  exact ⟨s, h1, h2, h3, refill_mark h hw h1 h2, h5⟩

/-- Yielding `l` leads from one state to the other. -/
inductive Steps (next : Traversal m → Res (Option (Id m) × Traversal m)) :
    Traversal m → List (Id m) → Traversal m → Prop
  | nil (s : Traversal m) : Steps next s [] s
  | cons {s s' s'' : Traversal m} {x : Id m} {l : List (Id m)} :
      next s = .ok (some x, s') → Steps next s' l s'' → Steps next s (x :: l) s''

theorem Steps.drain {next : Traversal m → Res (Option (Id m) × Traversal m)} {s s' : Traversal m}
    {l : List (Id m)} (h : Steps next s l s') {f : Nat} {r : List (Id m) × Traversal m}
    (hd : drain next f s' = .ok r) : drain next (l.length + f) s = .ok (l ++ r.1, r.2) := by
  induction h with
  | nil s => simpa using hd
  | @cons a b c x l hn _ ih =>
    have : (x :: l).length + f = (l.length + f) + 1 := by simp; omega
    rw [this]
    show (next a >>= _) = _
    rw [hn, bind_ok]
    show (Verif.drain next (l.length + f) b >>= _) = _
    rw [ih hd, bind_ok]; rfl

theorem nodes_bound (hs : Shows g A) {V : List (Id m)} (hd : V.Nodup)
    (hn : ∀ x ∈ V, (A.node x).isSome) : V.length ≤ g.nodeIndices.length :=
  (List.subperm_of_subset hd (fun x hx => (hs.memNodes x).2 (hn x hx))).length_le

/-- A segment: `next` goes on without restart until the work list is empty. A property `J` of the
yielded nodes and the work list that survives such calls holds at the end. -/
theorem segment {pop : List (Id m) → Option (Id m × List (Id m))} (hp : Pops pop) (hs : Shows g A)
    (J : List (Id m) → List (Id m) → Prop)
    (hJ : ∀ V w x rest news, J V w → (V ++ w).Nodup → pop w = some (x, rest) → w.Perm (x :: rest) →
      (∀ u ∈ V, ∀ t, (A.edge u t).isSome → t ∈ V ++ w) →
      news.Pairwise (· < ·) → (∀ t, t ∈ news ↔ (A.edge x t).isSome ∧ t ∉ V ++ w) →
      J (V ++ [x]) (rest ++ news)) :
    ∀ (c : Nat) (V : List (Id m)) (st : Traversal m), g.nodeIndices.length - V.length ≤ c →
      SInv A V st → J V st.work →
      ∃ l st', Steps (nextWith pop g) st l st' ∧ st'.work = [] ∧ SInv A (V ++ l) st' ∧
        J (V ++ l) [] ∧ (st.work ≠ [] → l ≠ []) := by
  intro c
  induction c with
  | zero =>
    intro V st hc h hj
    have hb := nodes_bound hs h.nodup h.nodes
    rw [List.length_append] at hb
    have hw : st.work = [] := List.length_eq_zero_iff.1 (by omega)
    exact ⟨[], st, .nil _, hw, by simpa using h, by rw [List.append_nil]; rw [hw] at hj; exact hj,
      fun hc => absurd hw hc⟩
  | succ c ih =>
    intro V st hc h hj
    by_cases hw : st.work = []
    · exact ⟨[], st, .nil _, hw, by simpa using h, by rw [List.append_nil]; rw [hw] at hj; exact hj,
        fun hc => absurd hw hc⟩
    · obtain ⟨x, rest, news, st', h1, h2, h3, h4, h5, h6, h7⟩ := next_step hp hs h hw
      have hj' := hJ V st.work x rest news hj h.nodup h1 h2 h.closed h5 h6
      rw [← h4] at hj'
      have hb := nodes_bound hs h7.nodup h7.nodes
      simp only [List.length_append, List.length_singleton] at hb
      obtain ⟨l, st'', i1, i2, i3, i4, _⟩ := ih (V ++ [x]) st'
        (by simp only [List.length_append, List.length_singleton]; omega) h7 hj'
      rw [List.append_assoc, List.singleton_append] at i3 i4
      exact ⟨x :: l, st'', .cons h3 i1, i2, i3, i4, fun _ => List.cons_ne_nil _ _⟩

end Traversal

end Verif
