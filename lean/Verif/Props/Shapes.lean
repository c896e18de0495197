import Verif.Proof.Shapes
import Verif.Props.SameSearch
import Verif.Props.Gen
import Verif.Props.GraphHistory
import Verif.Props.ConnComp

/-! C151: searches and components of complete graphs and of graphs without edges. C152: of paths. -/

namespace Verif.Props

open Spec Traversal Gen GraphMap

variable {m k : Nat} {NL EL : Type} {g : GView m k NL EL} {A : AGraph (Id m) NL EL}

/-! ### C151 -/

/-- A search of the view begins at `s`, yields `l` and then ends. -/
def Visits (g : GView m k NL EL) (next : Traversal m → Res (Option (Id m) × Traversal m))
    (start : Option (Id m)) (l : List (Id m)) : Prop :=
  ∃ st st', Traversal.new g start = .ok st ∧ Yields next st l st' ∧ next st' = .ok (none, st')

/-- **C151.** In a complete graph a breadth-first search visits the other nodes by ascending id, a
depth-first search by descending id. -/
theorem c151_complete (hs : Shows g A) (hc : A.Complete) {start : Option (Id m)} {s : Id m}
    (h : BeginsAt g A start s) :
    ∃ l l', Visits g (Bfs.next g) start (s :: l) ∧ Visits g (Dfs.next g) start (s :: l') ∧
      l.Pairwise (· < ·) ∧ (∀ n, n ∈ l ↔ (A.node n).isSome ∧ n ≠ s) ∧ l' = l.reverse := by
  obtain ⟨st, l, st', h1, h2, h3, h4⟩ := c66_bfs_order hs h
  obtain ⟨st2, l2, st2', k1, k2, k3, k4⟩ := c66_dfs_order hs h
  obtain ⟨r, rfl, hr⟩ := AGraph.complete_bfs hc h4
  obtain ⟨r2, rfl, hr2⟩ := AGraph.complete_dfs hc k4
  have mem : ∀ {r : List (Id m)}, (s :: r).Nodup → (∀ n, n ∈ s :: r ↔ (A.node n).isSome) →
      ∀ n, n ∈ r ↔ (A.node n).isSome ∧ n ≠ s := by
    intro r hnd hm n
    rw [← hm, List.mem_cons]
    have := (List.nodup_cons.1 hnd).1
    constructor
    · exact fun h => ⟨.inr h, fun e => this (e ▸ h)⟩
    · rintro ⟨h | h, hne⟩
      · exact absurd h hne
      · exact h
  have m1 := mem h4.1 h4.2.1
  have m2 := mem k4.1 k4.2.1
  refine ⟨r, r2, ⟨st, st', h1, h2, h3⟩, ⟨st2, st2', k1, k2, k3⟩, hr, m1, ?_⟩
  have p : r2.reverse.Perm r :=
    (List.perm_ext_iff_of_nodup (by rw [List.nodup_reverse]; exact (List.nodup_cons.1 k4.1).2)
      (List.nodup_cons.1 h4.1).2).2 (fun n => by rw [List.mem_reverse, m1, m2])
  have := p.eq_of_pairwise (fun a b _ _ h1 h2 => absurd h1 (lt_asymm h2)) (List.pairwise_reverse.2 hr2) hr
  rw [← this, List.reverse_reverse]

/-- **C151.** Without edges both searches visit the other nodes by ascending id. -/
theorem c151_edgeless (hs : Shows g A) (hc : ∀ a b, A.edge a b = none) {start : Option (Id m)} {s : Id m}
    (h : BeginsAt g A start s) :
    ∃ l, Visits g (Bfs.next g) start (s :: l) ∧ Visits g (Dfs.next g) start (s :: l) ∧
      l.Pairwise (· < ·) ∧ (∀ n, n ∈ l ↔ (A.node n).isSome ∧ n ≠ s) := by
  obtain ⟨st, l, st', h1, h2, h3, h4⟩ := c66_bfs_order hs h
  obtain ⟨st2, l2, st2', k1, k2, k3, k4⟩ := c66_dfs_order hs h
  obtain ⟨r, rfl, hr⟩ := AGraph.edgeless_sweep hc h4
  obtain ⟨r2, rfl, hr2⟩ := AGraph.edgeless_sweep hc k4
  have mem : ∀ {r : List (Id m)}, (s :: r).Nodup → (∀ n, n ∈ s :: r ↔ (A.node n).isSome) →
      ∀ n, n ∈ r ↔ (A.node n).isSome ∧ n ≠ s := by
    intro r hnd hm n
    rw [← hm, List.mem_cons]
    have := (List.nodup_cons.1 hnd).1
    constructor
    · exact fun h => ⟨.inr h, fun e => this (e ▸ h)⟩
    · rintro ⟨h | h, hne⟩
      · exact absurd h hne
      · exact h
  have m1 := mem h4.1 h4.2.1
  have m2 := mem k4.1 k4.2.1
  have p : r2.Perm r :=
    (List.perm_ext_iff_of_nodup (List.nodup_cons.1 k4.1).2 (List.nodup_cons.1 h4.1).2).2
      (fun n => by rw [m1, m2])
  obtain rfl := p.eq_of_pairwise (fun a b _ _ h1 h2 => absurd h1 (lt_asymm h2)) hr2 hr
  exact ⟨r2, ⟨st, st', h1, h2, h3⟩, ⟨st2, st2', k1, k2, k3⟩, hr, m1⟩

theorem one_component (hs : Shows g A) (hn : ∃ n, (A.node n).isSome)
    (touched : ∀ n, (A.node n).isSome → A.Touched n)
    (conn : ∀ a b, (A.node a).isSome → (A.node b).isSome → A.Connected a b) :
    ∃ c, ConnComp.new g = .ok c ∧ c.getCount = 1 ∧
      ∀ a b, (A.node a).isSome → (A.node b).isSome → ∃ c', c.isConnected a b = .ok (c', true) := by
  obtain ⟨c, h3, h4⟩ := c36_graph hs
  obtain ⟨c0, h5, h6⟩ := c35_graph hs
  rw [h3] at h5
  obtain rfl := Except.ok.inj h5
  have back : ∀ n, A.Touched n → (A.node n).isSome := by
    rintro n ⟨t, h | h⟩
    · exact (hs.ends _ _ h).1
    · exact (hs.ends _ _ h).2
  refine ⟨c, h3, ?_, fun a b ha hb => ?_⟩
  · rw [h4, Set.ncard_eq_one]
    obtain ⟨a, ha⟩ := hn
    refine ⟨{x | A.Connected a x}, Set.ext fun C => ?_⟩
    rw [Set.mem_singleton_iff]
    constructor
    · rintro ⟨n, hn, rfl⟩
      have := conn a n ha (back n hn)
      ext x
      exact ⟨fun h => .trans _ _ _ this h, fun h => .trans _ _ _ (.symm _ _ this) h⟩
    · rintro rfl
      exact ⟨a, touched a ha, rfl⟩
  · obtain ⟨c', r, h7, h8⟩ := h6 a b
    rw [h8.2 ⟨touched a ha, touched b hb, conn a b ha hb⟩] at h7
    exact ⟨c', h7⟩

/-- **C151.** A complete graph of two nodes or more is one component; a graph without edges has none. -/
theorem c151_components (hs : Shows g A) :
    (A.Complete → 2 ≤ g.nodeCount → ∃ c, ConnComp.new g = .ok c ∧ c.getCount = 1 ∧
      ∀ a b, (A.node a).isSome → (A.node b).isSome → ∃ c', c.isConnected a b = .ok (c', true)) ∧
    ((∀ a b, A.edge a b = none) → ∃ c, ConnComp.new g = .ok c ∧ c.getCount = 0) := by
  constructor
  · intro hc h2
    rw [hs.nodeCount] at h2
    obtain ⟨a, ha⟩ := List.exists_mem_of_length_pos (l := g.nodeIndices) (by omega)
    refine one_component hs ⟨a, (hs.memNodes a).1 ha⟩ (fun n hn => ?_) (fun a b ha hb => ?_)
    · by_contra hne
      have hsub : ∀ x ∈ g.nodeIndices, x ∈ [n] := by
        intro x hx
        rw [List.mem_singleton]
        by_contra hxn
        exact hne ⟨x, .inl ((hc n x).2 ⟨hn, (hs.memNodes x).1 hx, Ne.symm hxn⟩)⟩
      have := nodup_length_le hs.nodesNodup hsub
      simp at this
      omega
    · by_cases e : a = b
      · exact e ▸ .refl _
      · exact .rel _ _ ((hc a b).2 ⟨ha, hb, e⟩)
  · intro hc
    obtain ⟨c, h3, h4⟩ := c36_graph hs
    refine ⟨c, h3, ?_⟩
    rw [h4]
    have : {C : Set (Id m) | ∃ n, A.Touched n ∧ C = {x | A.Connected n x}} = ∅ := by
      rw [Set.eq_empty_iff_forall_notMem]
      rintro C ⟨n, ⟨t, ht⟩, -⟩
      rw [hc, hc] at ht
      simp at ht
    rw [this, Set.ncard_empty]

theorem others_vals {n : Nat} {s : Id m} {l : List (Id m)} (hn : n ≤ m + 1) (hp : l.Pairwise (· < ·))
    (hm : ∀ x : Id m, x ∈ l ↔ x.val < n ∧ x ≠ s) : l.map Fin.val = (List.range n).filter (· ≠ s.val) := by
  have p1 : (l.map Fin.val).Pairwise (· < ·) := by
    rw [List.pairwise_map]
    exact hp.imp (fun h => h)
  have p2 : ((List.range n).filter (· ≠ s.val)).Pairwise (· < ·) := List.Pairwise.filter _ List.pairwise_lt_range
  have perm : (l.map Fin.val).Perm ((List.range n).filter (· ≠ s.val)) := by
    refine (List.perm_ext_iff_of_nodup (p1.imp Nat.ne_of_lt) (p2.imp Nat.ne_of_lt)).2 fun x => ?_
    rw [List.mem_map, List.mem_filter, List.mem_range]
    constructor
    · rintro ⟨a, ha, rfl⟩
      obtain ⟨h1, h2⟩ := (hm a).1 ha
      exact ⟨h1, by simpa [Fin.ext_iff] using h2⟩
    · rintro ⟨h1, h2⟩
      refine ⟨⟨x, by omega⟩, (hm _).2 ⟨h1, ?_⟩, rfl⟩
      intro e
      rw [← e] at h2
      simp at h2
  exact perm.eq_of_pairwise (fun a b _ _ h1 h2 => absurd h1 (lt_asymm h2)) p1 p2

variable [DecidableEq NL] [DecidableEq EL]

/-- **C151.** The searches of the graphs the generators make: `complete_graph(n)` and `empty_graph(n)`. -/
theorem c151_generated (d : Bool) {n : Nat} (hn : n ≤ m + 1) (nl : List NL) (el : List EL) (r : Rng)
    {s : Id m} (h : s.val < n) :
    (∃ (g : GraphMap m k NL EL) (r' : Rng) (l l' : List (Id m)), completeGraph d n nl el r = .ok (g, r') ∧
      Visits g.view (Bfs.next g.view) (some s) l ∧ Visits g.view (Dfs.next g.view) (some s) l' ∧
      l.map Fin.val = s.val :: (List.range n).filter (· ≠ s.val) ∧
      l'.map Fin.val = s.val :: ((List.range n).filter (· ≠ s.val)).reverse) ∧
    (∃ (g : GraphMap m k NL EL) (r' : Rng) (l : List (Id m)), emptyGraph d n nl el r = .ok (g, r') ∧
      Visits g.view (Bfs.next g.view) (some s) l ∧ Visits g.view (Dfs.next g.view) (some s) l ∧
      l.map Fin.val = s.val :: (List.range n).filter (· ≠ s.val)) := by
  constructor
  · obtain ⟨g, r', A, h1, ⟨h2, h3, h4, h5, -⟩, h6⟩ := c43_complete_graph (m := m) (k := k) d hn nl el r
    obtain ⟨l, l', k1, k2, k3, k4, k5⟩ := c151_complete h3 (s := s) (start := some s)
      (fun a b => by rw [h6, h5, h5]) ⟨(h5 s).2 h, .inl rfl⟩
    have e := others_vals hn k3 (s := s) (fun x => by rw [k4, h5])
    refine ⟨g, r', _, _, h1, k1, k2, ?_, ?_⟩
    · rw [List.map_cons, e]
    · rw [List.map_cons, k5, List.map_reverse, e]
  · obtain ⟨g, r', A, h1, ⟨h2, h3, h4, h5, -⟩, h6⟩ := c43_empty_graph (m := m) (k := k) d hn nl el r
    obtain ⟨l, k1, k2, k3, k4⟩ := c151_edgeless h3 (s := s) (start := some s) h6 ⟨(h5 s).2 h, .inl rfl⟩
    exact ⟨g, r', _, h1, k1, k2, by rw [List.map_cons, others_vals hn k3 (s := s) (fun x => by rw [k4, h5])]⟩

/-! ### C152 -/

theorem run_path (d : Bool) (label : Nat → Option EL) : ∀ N, N ≤ m →
    (∀ n : Id m, ((Spec.run d (pathCalls N label : List (Op m k NL EL))).node n).isSome ↔ 0 < N ∧ n.val ≤ N) ∧
    ∀ a b : Id m, ((Spec.run d (pathCalls N label : List (Op m k NL EL))).edge a b).isSome ↔
      (b.val = a.val + 1 ∧ b.val ≤ N) ∨ (d = false ∧ a.val = b.val + 1 ∧ a.val ≤ N)
  | 0, _ => by
    simp only [pathCalls, Spec.run, AGraph.empty]
    constructor
    · intro n; simp
    · intro a b
      show (none : Option (Option EL)).isSome = true ↔ _
      rw [Option.isSome_none]
      constructor
      · intro h; cases h
      · omega
  | N + 1, hN => by
    obtain ⟨h1, h2⟩ := run_path d label N (by omega)
    have e : (Spec.run d (pathCalls (N + 1) label : List (Op m k NL EL))) =
        AGraph.addEdge d (Spec.run d (pathCalls N label : List (Op m k NL EL))) (Id.new N) (Id.new (N + 1)) (label N) := by
      simp only [pathCalls, Spec.run, List.range_succ, List.map_append, List.foldl_append, List.map_cons, List.map_nil,
        List.foldl_cons, List.foldl_nil, Spec.step]
    rw [e]
    have v1 : (Id.new N : Id m).val = N := Nat.mod_eq_of_lt (by omega)
    have v2 : (Id.new (N + 1) : Id m).val = N + 1 := Nat.mod_eq_of_lt (by omega)
    constructor
    · intro n
      have := h1 n
      simp only [AGraph.addEdge]
      split
      · rename_i hc
        simp only [Option.isSome_some, true_iff]
        rcases hc.1 with rfl | rfl <;> omega
      · rename_i hc
        rw [this]
        constructor
        · omega
        · rintro ⟨-, hle⟩
          by_contra hno
          have : n = Id.new N ∨ n = Id.new (N + 1) := by
            rw [Fin.ext_iff, Fin.ext_iff, v1, v2]; omega
          refine hc ⟨this, ?_⟩
          rw [← Option.not_isSome_iff_eq_none, h1]
          exact hno
    · intro a b
      have := h2 a b
      simp only [AGraph.addEdge]
      split
      · rename_i hc
        simp only [Option.isSome_some, true_iff]
        rcases hc with ⟨rfl, rfl⟩ | ⟨hd, rfl, rfl⟩
        · omega
        · right; exact ⟨hd, by omega, by omega⟩
      · rename_i hc
        rw [this]
        simp only [AGraph.same, Fin.ext_iff, v1, v2] at hc
        clear e h1 h2 this
        cases d
        · simp only [true_and] at hc ⊢
          omega
        · simp only [Bool.true_eq_false, false_and, or_false] at hc ⊢
          omega

/-- **C152.** Adding the edges 0–1, 1–2, … one after the other gives the path on the ids up to `N`,
whatever the labels. -/
theorem c152_path (d : Bool) (label : Nat → Option EL) {N : Nat} (h0 : 0 < N) (hN : N ≤ m) :
    ∃ g : GraphMap m k NL EL, (GraphMap.new d).exec (pathCalls N label) = .ok g ∧ Reachable g ∧
      Shows g.view g.abs ∧ g.directed = d ∧ g.abs.UpTo N ∧ (d = true → g.abs.Arrows N) ∧
      (d = false → g.abs.Links N) ∧ g.edgeCount = N := by
  obtain ⟨g, h1, h2, h3, -⟩ := exec_adds (pathCalls N label : List (Op m k NL EL)) (GraphMap.new d)
    (inv_withLabelMap d _ _ List.nodup_nil List.nodup_nil) (by
      intro op hop
      obtain ⟨i, -, rfl⟩ := List.mem_map.1 hop
      rfl)
  have hr := exec_run h1
  have hg := hr.reachable List.nodup_nil List.nodup_nil
  have S := reachable_shows hg
  obtain ⟨p1, p2⟩ := run_path (k := k) (NL := NL) d label N hN
  have nd : g.abs.UpTo N := by
    intro n
    rw [← S.hasNode]
    show g.hasNode n = true ↔ _
    rw [c05_has_node List.nodup_nil List.nodup_nil hr, p1]
    simp [h0]
  have ed : ∀ a b : Id m, (g.abs.edge a b).isSome ↔
      (b.val = a.val + 1 ∧ b.val ≤ N) ∨ (d = false ∧ a.val = b.val + 1 ∧ a.val ≤ N) := by
    intro a b
    rw [← p2]
    have hh := c06_has_edge List.nodup_nil List.nodup_nil hr a b
    by_cases ha : (g.abs.node a).isSome = true
    · have := S.hasEdge a b ha
      rw [← hh, ← Except.ok.inj this]
    · constructor
      · exact fun h => absurd (S.ends a b h).1 ha
      · intro h
        rw [p2] at h
        rw [nd] at ha
        omega
  refine ⟨g, h1, hg, S, (run_shape List.nodup_nil List.nodup_nil hr).1, nd, ?_, ?_, ?_⟩
  · rintro rfl a b
    rw [ed]; simp
  · rintro rfl a b
    rw [ed]; simp; omega
  · show g.numEdges = N
    rw [h3]
    have : ((pathCalls N label : List (Op m k NL EL)).filter Op.addsEdge) = pathCalls N label := by
      rw [List.filter_eq_self]
      intro op hop
      obtain ⟨i, -, rfl⟩ := List.mem_map.1 hop
      rfl
    rw [this]
    simp [pathCalls, GraphMap.new, GraphMap.withLabelMap]

omit [DecidableEq NL] [DecidableEq EL]

/-- **C152.** On a directed path both searches go up to the end and then, having restarted at 0, up to the
start. -/
theorem c152_directed (hs : Shows g A) {N : Nat} (hN : N ≤ m) (hn : A.UpTo N) (he : A.Arrows N)
    {start : Option (Id m)} {s : Id m} (h : BeginsAt g A start s) :
    ∃ l, Visits g (Bfs.next g) start l ∧ Visits g (Dfs.next g) start l ∧
      l.map Fin.val = List.range' s.val (N + 1 - s.val) ++ List.range s.val := by
  obtain ⟨st, l, st', h1, h2, h3, h4⟩ := c66_bfs_order hs h
  obtain ⟨st2, l2, st2', k1, k2, k3, k4⟩ := c66_dfs_order hs h
  have hsN := (hn s).1 h.1
  have e1 := c113_bfs_order_unique h4
    (AGraph.arrows_sweep hN hn he hsN fun b c hbc => (AGraph.arrows_order hN hbc he).1)
  have e2 := c113_dfs_order_unique k4
    (AGraph.arrows_sweep hN hn he hsN fun b c hbc => (AGraph.arrows_order hN hbc he).2)
  refine ⟨l, ⟨st, st', h1, h2, h3⟩, ⟨st2, st2', k1, by rw [e1, ← e2]; exact k2, k3⟩, ?_⟩
  rw [e1, List.map_append, AGraph.ids_vals (by intros; omega), AGraph.ids_vals (by intros; omega)]
  simp [List.range'_eq_map_range]

/-- **C152.** On an undirected path a depth-first search goes up to the end first and then from the start
down to 0. -/
theorem c152_undirected_dfs (hs : Shows g A) {N : Nat} (hN : N ≤ m) (hn : A.UpTo N) (he : A.Links N)
    {start : Option (Id m)} {s : Id m} (h : BeginsAt g A start s) :
    ∃ l, Visits g (Dfs.next g) start l ∧
      l.map Fin.val = List.range' s.val (N + 1 - s.val) ++ (List.range s.val).reverse := by
  obtain ⟨st2, l2, st2', k1, k2, k3, k4⟩ := c66_dfs_order hs h
  have hsN := (hn s).1 h.1
  have e2 := c113_dfs_order_unique k4 (AGraph.links_dfs hN he hn hsN)
  refine ⟨l2, ⟨st2, st2', k1, k2, k3⟩, ?_⟩
  rw [e2, AGraph.ids_vals (by intro i hi; split <;> omega)]
  refine List.ext_getElem (by simp; omega) fun i a b => ?_
  simp only [List.length_map, List.length_range] at a
  rw [List.getElem_map, List.getElem_range, List.getElem_append]
  split
  · rw [dif_pos (by simp; omega)]; simp
  · rw [dif_neg (by simp; omega)]
    simp
    omega

/-- **C152.** On an undirected path a breadth-first search goes by distance from the start, and of two
nodes equally far away it visits the lower first. -/
theorem c152_undirected_bfs (hs : Shows g A) {N : Nat} (hN : N ≤ m) (hn : A.UpTo N) (he : A.Links N)
    {start : Option (Id m)} {s : Id m} (h : BeginsAt g A start s) :
    ∃ l, Visits g (Bfs.next g) start l ∧ (∀ n, n ∈ l ↔ n.val ≤ N) ∧
      l.Pairwise (fun a b => apart s a < apart s b ∨ (apart s a = apart s b ∧ a < b)) := by
  obtain ⟨st, l, st', h1, h2, h3, h4⟩ := c66_bfs_order hs h
  exact ⟨l, ⟨st, st', h1, h2, h3⟩, fun n => by rw [h4.2.1, hn],
    AGraph.links_bfs hN he hn ((hn s).1 h.1) h4⟩

/-- **C152.** A path of at least one edge is one component. -/
theorem c152_components (hs : Shows g A) {N : Nat} (h0 : 0 < N) (hN : N ≤ m) (hn : A.UpTo N)
    (he : A.Arrows N ∨ A.Links N) :
    ∃ c, ConnComp.new g = .ok c ∧ c.getCount = 1 ∧
      ∀ a b : Id m, a.val ≤ N → b.val ≤ N → ∃ c', c.isConnected a b = .ok (c', true) := by
  have next : ∀ a b : Id m, b.val = a.val + 1 → b.val ≤ N → (A.edge a b).isSome := by
    intro a b h1 h2
    rcases he with he | he
    · exact (he a b).2 ⟨h1, h2⟩
    · exact (he a b).2 ⟨.inl h1, by omega, h2⟩
  have low : ∀ (c : Nat) (n : Id m), n.val = c → n.val ≤ N → A.Connected 0 n := by
    intro c
    induction c with
    | zero =>
      intro n h1 _
      have : n = 0 := Fin.ext (by simpa using h1)
      exact this ▸ .refl _
    | succ c ih =>
      intro n h1 h2
      exact .trans _ _ _ (ih ⟨c, by omega⟩ rfl (by show c ≤ N; omega)) (.rel _ _ (next _ _ (by simpa using h1) h2))
  have touched : ∀ n, (A.node n).isSome → A.Touched n := by
    intro n hnn
    have hle := (hn n).1 hnn
    rcases Nat.lt_or_ge n.val N with hlt | hge
    · exact ⟨⟨n.val + 1, by omega⟩, .inl (next _ _ rfl (by show n.val + 1 ≤ N; omega))⟩
    · exact ⟨⟨n.val - 1, by omega⟩, .inr (next _ _ (by show n.val = n.val - 1 + 1; omega) hle)⟩
  obtain ⟨c, h1, h2, h3⟩ := one_component hs ⟨0, (hn 0).2 (by simp)⟩ touched
    (fun a b ha hb => .trans _ _ _ (.symm _ _ (low _ a rfl ((hn a).1 ha))) (low _ b rfl ((hn b).1 hb)))
  exact ⟨c, h1, h2, fun a b ha hb => h3 a b ((hn a).2 ha) ((hn b).2 hb)⟩

/-- The path 0–1–2–3–4 searched from 2. -/
example : ∃ g : GraphMap 9 3 String String,
    (GraphMap.new false).exec (pathCalls 4 (fun _ => some "to")) = .ok g ∧
    (∃ l, Visits g.view (Bfs.next g.view) (some 2) l ∧ l = [2, 1, 3, 0, 4]) ∧
    (∃ l, Visits g.view (Dfs.next g.view) (some 2) l ∧ l = [2, 3, 4, 1, 0]) ∧
    Shows g.view g.abs ∧ g.abs.UpTo 4 ∧ g.abs.Links 4 ∧ BeginsAt g.view g.abs (some 2) 2 := by
  obtain ⟨g, h1, h2, h3, h4, h5, h6, h7, h8⟩ := c152_path (m := 9) (k := 3) (NL := String) false
    (fun _ => some "to") (N := 4) (by decide) (by decide)
  have hb : BeginsAt g.view g.abs (some 2) 2 := ⟨(h5 2).2 (by decide), .inl rfl⟩
  refine ⟨g, h1, ?_, ?_, h3, h5, h7 rfl, hb⟩
  · obtain ⟨l, a1, a2, a3⟩ := c152_undirected_bfs h3 (by decide) h5 (h7 rfl) hb
    refine ⟨l, a1, ?_⟩
    have p1 : l.Nodup := a3.imp (fun {a b} h e => by subst e; rcases h with h | h; exacts [lt_irrefl _ h, lt_irrefl _ h.2])
    have perm : l.Perm [2, 1, 3, 0, 4] :=
      (List.perm_ext_iff_of_nodup p1 (by decide)).2 (fun n => by rw [a2]; revert n; decide)
    refine perm.eq_of_pairwise (fun a b _ _ h1 h2 => ?_) a3 (by decide)
    exfalso
    rcases h1 with h1 | ⟨h1, h1'⟩ <;> rcases h2 with h2 | ⟨h2, h2'⟩
    · exact lt_asymm h1 h2
    · omega
    · omega
    · exact lt_asymm h1' h2'
  · obtain ⟨l, a1, a2⟩ := c152_undirected_dfs h3 (by decide) h5 (h7 rfl) hb
    exact ⟨l, a1, List.map_injective_iff.2 Fin.val_injective (by rw [a2]; decide)⟩

/-- The directed path 0→1→2→3→4 searched from 2. -/
example : ∃ (g : GraphMap 9 3 String String) (l : List (Id 9)),
    (GraphMap.new true).exec (pathCalls 4 (fun _ => none)) = .ok g ∧
    Visits g.view (Dfs.next g.view) (some 2) l ∧ l = [2, 3, 4, 0, 1] := by
  obtain ⟨g, h1, h2, h3, h4, h5, h6, h7, h8⟩ := c152_path (m := 9) (k := 3) (NL := String) (EL := String) true
    (fun _ => none) (N := 4) (by decide) (by decide)
  obtain ⟨l, -, a1, a2⟩ := c152_directed h3 (by decide) h5 (h6 rfl) (s := 2) (start := some 2)
    ⟨(h5 2).2 (by decide), .inl rfl⟩
  exact ⟨g, l, h1, a1, List.map_injective_iff.2 Fin.val_injective (by rw [a2]; decide)⟩

/-- A complete graph on the nodes 0 to 3. -/
example (r : Rng) : ∃ (g : GraphMap 9 3 String String) (r' : Rng) (A : AGraph (Id 9) String String),
    completeGraph false 4 [] [] r = .ok (g, r') ∧ Shows g.view A ∧ A.Complete ∧ g.view.nodeCount = 4 := by
  obtain ⟨g, r', A, h1, ⟨h2, h3, h4, h5, -, -, h6, -⟩, h7⟩ := c43_complete_graph (m := 9) (k := 3) false
    (n := 4) (by decide) ([] : List String) ([] : List String) r
  exact ⟨g, r', A, h1, h3, fun a b => by rw [h7, h5, h5], h6⟩

end Verif.Props
