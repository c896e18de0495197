import Verif.Proof.TraversalMove
import Verif.Props.Reorder
import Verif.Props.Static
import Mathlib.Combinatorics.SimpleGraph.Star

/-!
Property theorems about `Bfs` and `Dfs`: C31-C34, C66, C67, C70.

They hold for every graph behind the traits that presents some abstract graph (`Shows`): every reachable
graph map (`reachable_shows`) and every frozen one (`c24_shows`).
-/

namespace Verif.Props

open Spec Traversal

variable {m k : Nat} {NL EL : Type} {g : GView m k NL EL} {A : AGraph (Id m) NL EL}

/-- `s` is the node a search created with `start` begins at: the given one, or else the first one the
graph enumerates. -/
def BeginsAt (g : GView m k NL EL) (A : AGraph (Id m) NL EL) (start : Option (Id m)) (s : Id m) : Prop :=
  (A.node s).isSome ∧ (start = some s ∨ (start = none ∧ g.nodeIndices.head? = some s))

/-- **C31/C33.** `new` panics exactly if the start node is missing or there is no node at all. -/
theorem c31_new (hs : Shows g A) (start : Option (Id m)) :
    (∃ st, Traversal.new g start = .ok st) ↔
      ((∃ s, start = some s ∧ (A.node s).isSome) ∨ (start = none ∧ ∃ n, (A.node n).isSome)) := by
  constructor
  · rintro ⟨st, h⟩
    obtain ⟨s, hn, h | h⟩ := new_start hs h
    · exact .inl ⟨s, h, hn⟩
    · exact .inr ⟨h.1, s, hn⟩
  · rintro (⟨s, h, hn⟩ | ⟨h, n, hn⟩)
    · obtain ⟨b, h, _⟩ := new_ok hs hn (.inl h)
      exact ⟨_, h⟩
    · cases hh : g.nodeIndices.head? with
      | none =>
        rw [List.head?_eq_none_iff] at hh
        have := (hs.memNodes n).2 hn
        rw [hh] at this; cases this
      | some s =>
        obtain ⟨b, h, _⟩ := new_ok hs ((hs.memNodes s).1 (List.mem_of_mem_head? hh)) (.inr ⟨h, hh⟩)
        exact ⟨_, h⟩

/-- The list an iterator yields is determined. -/
theorem c31_deterministic {S X : Type} {next : S → Res (Option X × S)} {st : S} {l l' : List X}
    {s s' : S} (h : Yields next st l s) (h' : Yields next st l' s') : l = l' ∧ s = s' := h.unique h'

/-- **C66.** The complete order of a breadth-first search: in each segment first discovered is first
visited, neighbours of a node being discovered by ascending id; segments after the first start at the
smallest node left. -/
theorem c66_bfs_order (hs : Shows g A) {start : Option (Id m)} {s : Id m} (h : BeginsAt g A start s) :
    ∃ st l st', Traversal.new g start = .ok st ∧ Yields (Bfs.next g) st l st' ∧
      Bfs.next g st' = .ok (none, st') ∧ A.Sweep s A.FirstIn l := by
  obtain ⟨b, h1, h2⟩ := new_ok hs h.1 h.2
  obtain ⟨l, st', h3, h4, h5⟩ := bfs_sweep hs h2
  exact ⟨_, l, st', h1, h3, h4, h5⟩

/-- **C66** for the depth-first search: in each segment last discovered is first visited. -/
theorem c66_dfs_order (hs : Shows g A) {start : Option (Id m)} {s : Id m} (h : BeginsAt g A start s) :
    ∃ st l st', Traversal.new g start = .ok st ∧ Yields (Dfs.next g) st l st' ∧
      Dfs.next g st' = .ok (none, st') ∧ A.Sweep s A.LastIn l := by
  obtain ⟨b, h1, h2⟩ := new_ok hs h.1 h.2
  obtain ⟨l, st', h3, h4, h5⟩ := dfs_sweep hs h2
  exact ⟨_, l, st', h1, h3, h4, h5⟩

theorem sweep_head {P : List (Id m) → Prop} {s : Id m} {l : List (Id m)} (h : A.Sweep s P l) :
    l.head? = some s := by
  obtain ⟨r, l2, rfl, -, -⟩ := h.first
  rfl

/-- **C31.** Iterating a breadth-first search ends, yields the start first and every node exactly once,
and the exhausted iterator goes on answering `None`. -/
theorem c31_bfs_visits_once (hs : Shows g A) {start : Option (Id m)} {s : Id m}
    (h : BeginsAt g A start s) :
    ∃ st l st', Traversal.new g start = .ok st ∧ Yields (Bfs.next g) st l st' ∧
      Bfs.next g st' = .ok (none, st') ∧
      l.head? = some s ∧ l.Nodup ∧ ∀ n, n ∈ l ↔ (A.node n).isSome := by
  obtain ⟨st, l, st', h1, h2, h3, h4⟩ := c66_bfs_order hs h
  exact ⟨st, l, st', h1, h2, h3, sweep_head h4, h4.1, h4.2.1⟩

/-- **C32.** The search first yields exactly the nodes reachable from the start, and a node yielded
earlier is not further from it: for every walk to a later node there is one to the earlier node that is
not longer. -/
theorem c32_bfs_breadth_first (hs : Shows g A) {start : Option (Id m)} {s : Id m}
    (h : BeginsAt g A start s) {st st' : Traversal m} {l : List (Id m)}
    (hnew : Traversal.new g start = .ok st) (hl : Yields (Bfs.next g) st l st') :
    ∃ l1 l2, l = l1 ++ l2 ∧ (∀ n, n ∈ l1 ↔ A.Reaches s n) ∧
      l1.Pairwise (fun a b => ∀ c, A.Walk s c b → ∃ c' ≤ c, A.Walk s c' a) := by
  obtain ⟨st2, l', st2', h1, h2, -, h4⟩ := c66_bfs_order hs h
  rw [hnew] at h1
  obtain rfl := Except.ok.inj h1
  obtain ⟨rfl, -⟩ := hl.unique h2
  obtain ⟨r, l2, rfl, hP, hmem⟩ := h4.first
  refine ⟨_, _, rfl, hmem, ?_⟩
  obtain ⟨d, d1, d2, d3⟩ := hP.levels (List.Nodup.of_append_left h4.1) rfl hmem
  rw [List.pairwise_iff_getElem]
  intro i j hi hj hij c hw
  exact ⟨d i, (d1 i j hij.le hj).trans (d3 j hj c hw), d2 i hi⟩

/-- **C33.** Iterating a depth-first search ends, yields every node exactly once, the start first, and
before anything else exactly the nodes reachable from it. -/
theorem c33_dfs_visits_once (hs : Shows g A) {start : Option (Id m)} {s : Id m}
    (h : BeginsAt g A start s) :
    ∃ st l st', Traversal.new g start = .ok st ∧ Yields (Dfs.next g) st l st' ∧
      Dfs.next g st' = .ok (none, st') ∧
      l.head? = some s ∧ l.Nodup ∧ (∀ n, n ∈ l ↔ (A.node n).isSome) ∧
      ∃ l1 l2, l = l1 ++ l2 ∧ ∀ n, n ∈ l1 ↔ A.Reaches s n := by
  obtain ⟨st, l, st', h1, h2, h3, h4⟩ := c66_dfs_order hs h
  obtain ⟨r, l2, e1, -, e3⟩ := h4.first
  exact ⟨st, l, st', h1, h2, h3, sweep_head h4, h4.1, h4.2.1, _, _, e1, e3⟩

/-- **C34** (partial: graphs without cycles; in general nodes are marked when pushed, see
`c34_not_depth_first`). On a forest the order is depth first. -/
theorem c34_dfs_depth_first_partial (hs : Shows g A) (hac : A.simple.IsAcyclic)
    {start : Option (Id m)} {st st' : Traversal m} {l : List (Id m)}
    (hnew : Traversal.new g start = .ok st) (hl : Yields (Dfs.next g) st l st') : A.DepthFirst l := by
  obtain ⟨s, hn⟩ := new_start hs hnew
  obtain ⟨st2, l', st2', h1, h2, -, h4⟩ := c66_dfs_order hs (s := s) hn
  rw [hnew] at h1
  obtain rfl := Except.ok.inj h1
  obtain ⟨rfl, -⟩ := hl.unique h2
  refine h4.depthFirst ?_
  intro l hnd hl a b c ha hb hc hab hbc he
  have hf := hl.1.forest hnd hac ha hc (by omega) he
  obtain ⟨d, hd, h5, h6, h7⟩ := hl.depth hb hc hbc (by omega)
  exact ⟨d, hd, by omega, h6, h7⟩

/-- Without the restriction on cycles, the claim of `c34_dfs_depth_first_partial` still holds with `a` the
first visited node that leads to `c`. -/
theorem c34_dfs_first_seen_partial (hs : Shows g A) {start : Option (Id m)} {s : Id m}
    (h : BeginsAt g A start s) {st st' : Traversal m} {l : List (Id m)}
    (hnew : Traversal.new g start = .ok st) (hl : Yields (Dfs.next g) st l st') :
    ∃ l1 l2, l = l1 ++ l2 ∧ (∀ n, n ∈ l1 ↔ A.Reaches s n) ∧
      ∀ a b c (ha : a < l1.length) (hb : b < l1.length) (hc : c < l1.length), a < b → b < c →
        (A.edge l1[a] l1[c]).isSome →
        (∀ e (he : e < l1.length), e < a → ¬ (A.edge l1[e] l1[c]).isSome) →
        ∃ d, ∃ hd : d < l1.length, a ≤ d ∧ d < b ∧ (A.edge l1[d] l1[b]).isSome := by
  obtain ⟨st2, l', st2', h1, h2, -, h4⟩ := c66_dfs_order hs h
  rw [hnew] at h1
  obtain rfl := Except.ok.inj h1
  obtain ⟨rfl, -⟩ := hl.unique h2
  obtain ⟨r, l2, rfl, hP, hmem⟩ := h4.first
  refine ⟨_, _, rfl, hmem, ?_⟩
  intro a b c ha hb hc hab hbc he hfirst
  have hle := AGraph.firstSeen_le ha he
  have : A.firstSeen (s :: r) (s :: r)[c] = a := by
    by_contra hne
    exact hfirst _ (by omega) (by omega) (AGraph.firstSeen_edge (by omega))
  obtain ⟨d, hd, h5, h6, h7⟩ := hP.depth hb hc hbc (by omega)
  exact ⟨d, hd, by omega, h6, h7⟩

/-- The states a `Dfs` can be in. -/
inductive DfsState (g : GView m k NL EL) : Traversal m → Prop
  | withCapacity {st : Traversal m} : Traversal.withCapacity g = .ok st → DfsState g st
  | new {start : Option (Id m)} {st : Traversal m} : Traversal.new g start = .ok st → DfsState g st
  | next {st st' : Traversal m} {o : Option (Id m)} : DfsState g st → Dfs.next g st = .ok (o, st') →
      DfsState g st'
  | reset {st : Traversal m} : DfsState g st → DfsState g st.reset
  | moveTo {st st' : Traversal m} {start : Option (Id m)} : DfsState g st →
      st.moveTo g start = .ok st' → DfsState g st'

theorem DfsState.length (h : ∃ M, g.maxSeenId = .ok (some M)) {st : Traversal m} (hst : DfsState g st) :
    ∃ M, g.maxSeenId = .ok (some M) ∧ st.undiscovered.length = M.val + 1 := by
  obtain ⟨M, hM⟩ := h
  have hcap : ∀ {st : Traversal m}, Traversal.withCapacity g = .ok st →
      st.undiscovered.length = M.val + 1 := by
    intro st h
    unfold Traversal.withCapacity at h
    rw [hM, bind_ok] at h
    obtain rfl := Except.ok.inj h
    simp [BitSet.full]
  refine ⟨M, hM, ?_⟩
  induction hst with
  | withCapacity h => exact hcap h
  | new h =>
    unfold Traversal.new at h
    obtain ⟨s, h1, h2⟩ := bind_eq_ok h
    rw [moveTo_length h2]; exact hcap h1
  | next _ h ih =>
    rw [dfs_next] at h
    rw [nextWith_length h]; exact ih
  | reset _ ih => simpa [Traversal.reset, BitSet.full] using ih
  | moveTo _ h ih => rw [moveTo_length h]; exact ih

/-- **C67.** `reset` makes a depth-first search, whatever it has done before, visit every node once
again in the order of C66, beginning at the smallest one. -/
theorem c67_dfs_reset (hs : Shows g A) (hne : ∃ n, (A.node n).isSome) {st : Traversal m}
    (h : DfsState g st) :
    ∃ l st' s, Yields (Dfs.next g) st.reset l st' ∧ Dfs.next g st' = .ok (none, st') ∧
      l.Nodup ∧ (∀ n, n ∈ l ↔ (A.node n).isSome) ∧
      l.head? = some s ∧ (∀ n, (A.node n).isSome → s ≤ n) ∧ A.Sweep s A.LastIn l := by
  obtain ⟨M, hM, hle⟩ := hs.maxSeen hne
  obtain ⟨M', hM', hlen⟩ := h.length ⟨M, hM⟩
  rw [hM] at hM'
  injection hM' with hM'
  injection hM' with hM'
  subst hM'
  obtain ⟨l, st', h1, h2, h3, h4, h5⟩ := dfs_fresh hs hle
  have : st.reset = ⟨[], BitSet.full (M.val + 1)⟩ := by rw [Traversal.reset, hlen]
  rw [this]
  obtain ⟨n, hn⟩ := hne
  cases hh : l.head? with
  | none =>
    rw [List.head?_eq_none_iff] at hh
    have := (h4 n).2 hn
    rw [hh] at this; cases this
  | some s => exact ⟨l, st', s, h1, h2, h3, h4, hh, (h5 s hh).2, (h5 s hh).1⟩

/-- **C70.** `move_to` keeps what has been discovered but drops the nodes waiting on the stack. After a
search begun at `s0` has yielded `V`, moving to `s` makes it yield `s`, then every other node that is
neither in `V` nor `s0` nor an out-neighbour of a node in `V`, each once, and nothing else. -/
theorem c70_move_to (hs : Shows g A) {start0 start : Option (Id m)} {s0 s : Id m}
    (h0 : BeginsAt g A start0 s0) (h : BeginsAt g A start s) {st0 st : Traversal m} {V : List (Id m)}
    (hnew : Traversal.new g start0 = .ok st0) (hV : Steps (Dfs.next g) st0 V st) :
    ∃ st1 l st', st.moveTo g start = .ok st1 ∧ Yields (Dfs.next g) st1 l st' ∧
      Dfs.next g st' = .ok (none, st') ∧ l.head? = some s ∧ l.Nodup ∧
      ∀ n, n ∈ l ↔ n = s ∨ ((A.node n).isSome ∧ n ≠ s0 ∧ n ∉ V ∧ ∀ u ∈ V, ¬ (A.edge u n).isSome) := by
  obtain ⟨b, h1, h2⟩ := new_ok hs h0.1 h0.2
  rw [hnew] at h1
  cases h1
  rw [dfs_next] at hV ⊢
  obtain ⟨h3, h4⟩ := steps_inv (s0 := s0) pops_back hs hV [] h2
    (fun y hy => .inl (List.mem_singleton.1 hy))
  rw [List.nil_append] at h3 h4
  have hw := moveTo_weak h3.toWInv h.1
  obtain ⟨l, st', i1, i2, i3, i4, i5⟩ := exhaust pops_back hs _ _ _ (le_refl _) hw
  refine ⟨_, l, st', ?_, i1, i2, i5 s [] rfl, i3, fun n => ?_⟩
  · unfold moveTo
    rw [startNode_ok hs h.1 h.2, bind_ok, BitSet.put_ok (h3.len s h.1)]; rfl
  · have hs0 : s0 ∈ V ++ st.work := by
      cases hV with
      | nil => exact List.mem_singleton.2 rfl
      | @cons _ b _ x r e1 e2 =>
        obtain ⟨x', rest, news, st1, j1, j2, j3, -⟩ := next_step pops_back hs h2 (List.cons_ne_nil _ _)
        rw [e1] at j3
        cases j3
        rw [(nil_of_perm_single j2).1]
        exact List.mem_cons_self ..
    rw [i4, List.mem_filter, decide_eq_true_iff]
    constructor
    · rintro ⟨a, c⟩
      by_cases e : n = s
      · exact .inl e
      · have hn : n ∉ V ++ st.work := fun hc => c ⟨hc, e⟩
        refine .inr ⟨a, fun hc => hn (hc ▸ hs0), fun hc => hn (List.mem_append_left _ hc), ?_⟩
        exact fun u hu he => hn (h3.closed u hu n he)
    · rintro (rfl | ⟨a, c, d, e⟩)
      · exact ⟨h.1, fun hc => hc.2 rfl⟩
      · refine ⟨a, fun hc => ?_⟩
        rcases List.mem_append.1 hc.1 with hc | hc
        · exact d hc
        · rcases h4 n hc with rfl | ⟨u, hu, he⟩
          · exact c rfl
          · exact e u hu he

/-- **C70.** `move_to` panics exactly when `new` does. -/
theorem c70_move_to_panics (hs : Shows g A) {st : Traversal m} (hst : DfsState g st)
    (hne : ∃ n, (A.node n).isSome) (start : Option (Id m)) :
    (∃ st', st.moveTo g start = .ok st') ↔ (start = none ∨ ∃ s, start = some s ∧ (A.node s).isSome) := by
  obtain ⟨M, hM, hle⟩ := hs.maxSeen hne
  obtain ⟨M', hM', hlen⟩ := hst.length ⟨M, hM⟩
  rw [hM] at hM'
  injection hM' with hM'
  injection hM' with hM'
  subst hM'
  have go : ∀ {s : Id m}, (A.node s).isSome → startNode g start = .ok s →
      ∃ st', st.moveTo g start = .ok st' := by
    intro s hn e
    refine ⟨⟨[s], st.undiscovered.set s.val false⟩, ?_⟩
    unfold moveTo
    rw [e, bind_ok, BitSet.put_ok (by have := Fin.le_def.1 (hle s hn); omega)]; rfl
  constructor
  · rintro ⟨st', h⟩
    cases start with
    | none => exact .inl rfl
    | some s =>
      refine .inr ⟨s, rfl, ?_⟩
      unfold moveTo at h
      obtain ⟨a, h, -⟩ := bind_eq_ok h
      unfold startNode at h
      rw [← hs.hasNode]
      by_contra hc
      rw [Bool.not_eq_true] at hc
      simp [hc] at h
  · rintro (rfl | ⟨s, rfl, hn⟩)
    · cases hh : g.nodeIndices.head? with
      | none =>
        obtain ⟨n, hn⟩ := hne
        rw [List.head?_eq_none_iff] at hh
        have := (hs.memNodes n).2 hn
        rw [hh] at this; cases this
      | some s =>
        have hn := (hs.memNodes s).1 (List.mem_of_mem_head? hh)
        exact go hn (startNode_ok hs hn (.inr ⟨rfl, hh⟩))
    · exact go hn (startNode_ok hs hn (.inl rfl))

/-! ### Instances and witnesses -/

/-- A reachable undirected graph: edges 0-1, 0-2, 0-3, 3-1, and an edge 7-5 apart. -/
def kite : GraphMap 9 3 String String :=
  ⟨false, [(0, ⟨0, none, [(1, none), (2, none), (3, none)], []⟩),
    (1, ⟨1, none, [(0, none), (3, none)], []⟩), (2, ⟨2, none, [(0, none)], []⟩),
    (3, ⟨3, none, [(0, none), (1, none)], []⟩), (7, ⟨7, none, [(5, none)], []⟩),
    (5, ⟨5, none, [(7, none)], []⟩)], 5, ⟨[]⟩, ⟨[]⟩, some 7⟩

theorem kite_reachable : GraphMap.Reachable kite :=
  (GraphMap.exec_run (ops := [.addEdge 0 1 none, .addEdge 0 2 none, .addEdge 0 3 none,
    .addEdge 3 1 none, .addEdge 7 5 none]) (g0 := GraphMap.withLabelMap false SetMap.empty SetMap.empty)
    (by decide)).reachable List.nodup_nil List.nodup_nil

/-- The hypotheses of the theorems above are met, with and without a start node. -/
example : Shows kite.view kite.abs ∧ BeginsAt kite.view kite.abs (some 3) 3 ∧
    BeginsAt kite.view kite.abs none 0 := by
  have h := reachable_shows kite_reachable
  refine ⟨h, ⟨?_, .inl rfl⟩, ?_, .inr ⟨rfl, rfl⟩⟩
  · rw [← h.hasNode]; rfl
  · rw [← h.hasNode]; rfl

/-- What the searches do. -/
example : (do let st ← Traversal.new kite.view (some 3)
              let r ← drain (Bfs.next kite.view) 9 st
              pure r.1) = .ok [3, 0, 1, 2, 5, 7] ∧
    (do let st ← Traversal.new kite.view none
        let r ← drain (Dfs.next kite.view) 9 st
        pure r.1) = .ok [0, 3, 2, 1, 5, 7] ∧
    (do let st ← Traversal.new kite.view (some 3)
        let r ← Dfs.next kite.view st
        let q ← drain (Dfs.next kite.view) 9 r.2.reset
        pure q.1) = .ok [0, 3, 2, 1, 5, 7] ∧
    Traversal.new kite.view (some 4) = .error .explicit := by decide

example : ∃ st, DfsState kite.view st ∧ st.reset ≠ st ∧ ∃ n, (kite.abs.node n).isSome := by
  refine ⟨⟨[0, 1], [false, false, true, false, true, true, true, true]⟩, ?_, by decide, 0, ?_⟩
  · exact .next (o := some 3) (.new (start := some 3)
      (st := ⟨[3], [true, true, true, false, true, true, true, true]⟩) (by decide)) (by decide)
  · rw [← (reachable_shows kite_reachable).hasNode]; rfl

/-- Moving away from 0 after one step loses 1, 2 and 3, which wait on the stack. -/
example : ∃ st0 st, Traversal.new kite.view (some 0) = .ok st0 ∧ Steps (Dfs.next kite.view) st0 [0] st ∧
    (do let st1 ← st.moveTo kite.view (some 7)
        let r ← drain (Dfs.next kite.view) 9 st1
        pure r.1) = .ok [7, 5] := by
  refine ⟨⟨[0], [false, true, true, true, true, true, true, true]⟩,
    ⟨[1, 2, 3], [false, false, false, false, true, true, true, true]⟩, by decide,
    .cons (by decide) (.nil _), by decide⟩

/-- **C34** is false of the code: node 1 is pushed while visiting 0, so after 3 the search leaves to 2
although 3 leads to 1. -/
theorem c34_not_depth_first : ∃ (g : GraphMap 9 3 String String) (st st' : Traversal 9) (l : List (Id 9)),
    GraphMap.Reachable g ∧ Traversal.new g.view (some 0) = .ok st ∧ Yields (Dfs.next g.view) st l st' ∧
    ¬ g.abs.DepthFirst l := by
  refine ⟨kite, ⟨[0], [false, true, true, true, true, true, true, true]⟩,
    ⟨[], [false, false, false, false, true, false, true, false]⟩, [0, 3, 2, 1, 5, 7], kite_reachable,
    by decide, ⟨9, by decide⟩, ?_⟩
  intro h
  have hs := reachable_shows kite_reachable
  have he : ∀ s t, (kite.abs.node s).isSome →
      ((kite.abs.edge s t).isSome ↔ kite.view.hasEdge s t = .ok true) := by
    intro s t hn
    rw [hs.hasEdge s t hn]; simp
  have hn : ∀ s, kite.view.hasNode s = true → (kite.abs.node s).isSome := by
    intro s h; rw [← hs.hasNode]; exact h
  obtain ⟨d, hd, h1, h2, h3⟩ := h 1 2 3 (by decide) (by decide) (by decide) (by decide) (by decide)
    ((he 3 1 (hn 3 rfl)).2 (by decide))
  have : d = 1 := by omega
  subst this
  exact absurd ((he 3 2 (hn 3 rfl)).1 h3) (by decide)

/-- A forest, for `c34_dfs_depth_first_partial`. -/
example : Shows star.view star.abs ∧ star.abs.simple.IsAcyclic ∧ star.abs.simple.Adj 5 7 := by
  have hs := reachable_shows (star_run.reachable List.nodup_nil List.nodup_nil)
  have he : ∀ s t, (star.abs.edge s t).isSome ↔ star.hasEdge s t = true := by
    intro s t
    have := hs.hasEdge s t
    rw [← hs.hasNode] at this
    constructor
    · intro h
      have h2 := this (by rw [hs.hasNode]; exact (hs.ends s t h).1)
      rw [h] at h2
      exact Except.ok.inj h2
    · intro h
      have h2 := this (by
        show star.hasNode s = true
        revert h; revert s t; decide)
      rw [← Except.ok.inj h2]; exact h
  refine ⟨hs, (SimpleGraph.isTree_starGraph (r := (5 : Id 9))).isAcyclic.anti ?_, ?_⟩
  · intro a b h
    rw [SimpleGraph.starGraph_adj]
    rw [AGraph.simple, SimpleGraph.fromRel_adj] at h
    refine ⟨h.1, ?_⟩
    have key : ∀ a b : Id 9, star.hasEdge a b = true → a = 5 ∨ b = 5 := by decide
    rcases h.2 with h | h
    · exact key a b ((he a b).1 h)
    · exact (key b a ((he b a).1 h)).symm
  · rw [AGraph.simple, SimpleGraph.fromRel_adj]
    exact ⟨by decide, .inl ((he 5 7).2 (by decide))⟩

end Verif.Props
