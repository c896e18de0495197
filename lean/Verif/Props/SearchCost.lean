import Verif.Proof.SearchCost
import Verif.Proof.TraversalMove
import Verif.Props.SearchMoment

/-! C147: what the restarts of a search cost, and searches of graphs with the largest `usize` as a node. -/

namespace Verif.Props

open Spec Traversal GraphMap

variable {m k : Nat} {NL EL : Type} {g : GView m k NL EL} {A : AGraph (Id m) NL EL}

theorem kept_new (hs : Shows g A) {start : Option (Id m)} {s : Id m} (h : BeginsAt g A start s) {M : Id m}
    (hM : g.maxSeenId = .ok (some M)) {st0 : Traversal m} (hnew : Traversal.new g start = .ok st0) :
    Kept A (M.val + 1) st0.undiscovered := by
  unfold Traversal.new withCapacity at hnew
  rw [hM] at hnew
  obtain ⟨n, h2, h3⟩ := bind_eq_ok (show (startNode g start >>= _) = _ from hnew)
  obtain ⟨b, h4, h5⟩ := bind_eq_ok h3
  cases h5
  refine Kept.put (A := A) (b := BitSet.full (M.val + 1)) ?_ ?_ h4
  · exact ⟨List.length_replicate, fun i hi _ => by rw [BitSet.contains_full]; exact decide_eq_true hi⟩
  · unfold startNode at h2
    cases start with
    | some t =>
      simp only at h2
      split at h2
      · cases h2
      · rename_i hc
        cases h2
        rw [hs.hasNode] at hc
        simpa [Option.isSome_iff_ne_none] using hc
    | none =>
      simp only at h2
      split at h2
      · cases h2
      · rcases h.2 with hc | ⟨-, hc⟩
        · cases hc
        · rw [hc] at h2
          cases h2
          exact h.1

theorem kept_steps {pop : List (Id m) → Option (Id m × List (Id m))} (hp : Pops pop) (hs : Shows g A)
    {start : Option (Id m)} {s : Id m} (h : BeginsAt g A start s) {M : Id m}
    (hM : g.maxSeenId = .ok (some M)) {st0 st : Traversal m} {V : List (Id m)}
    (hnew : Traversal.new g start = .ok st0) (hV : Steps (nextWith pop g) st0 V st) :
    Kept A (M.val + 1) st.undiscovered := by
  have key : ∀ {a b : Traversal m} {l V0 : List (Id m)}, Steps (nextWith pop g) a l b →
      Steps (nextWith pop g) st0 V0 a → Kept A (M.val + 1) a.undiscovered → Kept A (M.val + 1) b.undiscovered := by
    intro a b l V0 hl
    induction hl generalizing V0 with
    | nil s => intro _ h; exact h
    | @cons a b d x l h1 _ ih =>
      intro h0 hk
      obtain ⟨hi, -⟩ := moment hp hs h.1 h.2 hnew h0
      obtain ⟨hi', -⟩ := moment hp hs h.1 h.2 hnew (h0.snoc h1)
      exact ih (h0.snoc h1) (hk.next hs (hi'.nodes x (by simp)) h1)
  exact key hV (.nil _) (kept_new hs h hM hnew)

theorem restart_of {pop : List (Id m) → Option (Id m × List (Id m))} (hp : Pops pop) (hs : Shows g A)
    {start : Option (Id m)} {s : Id m} (h : BeginsAt g A start s) {M : Id m}
    (hM : g.maxSeenId = .ok (some M)) {st0 st : Traversal m} {V : List (Id m)}
    (hnew : Traversal.new g start = .ok st0) (hV : Steps (nextWith pop g) st0 V st) :
    st.undiscovered.length = M.val + 1 ∧ (st.work ≠ [] → asked g st = []) ∧
    (st.work = [] → ∀ x st', nextWith pop g st = .ok (some x, st') → (asked g st).length = 1 + A.missing x.val) ∧
    (∀ st', nextWith pop g st = .ok (none, st') → (asked g st).length = A.missing (M.val + 1)) := by
  have hk := kept_steps hp hs h hM hnew hV
  obtain ⟨hi, hwait⟩ := moment hp hs h.1 h.2 hnew hV
  obtain ⟨hnone, hsome⟩ := next_cases hp hs hi
  refine ⟨hk.1, fun hw => ?_, fun hw x st' hx => ?_, fun st' hx => ?_⟩
  · unfold asked
    rw [if_neg (fun h => hw (List.length_eq_zero_iff.1 h))]
  · have hex : ∃ y, (A.node y).isSome ∧ y ∉ V := by
      by_contra hc
      have := hnone (fun y hy => by by_contra hv; exact hc ⟨y, hy, hv⟩)
      rw [hx] at this
      cases this
    obtain ⟨x', b', e1, e2, e3, -, e5⟩ := hsome hex
    rw [hx] at e1
    cases e1
    exact asked_restart hs hi hk (Nat.succ_le_of_lt M.isLt) hw e3 e2 (e5 hw)
  · have hall : ∀ y, (A.node y).isSome → y ∈ V := by
      by_contra hc
      simp only [not_forall] at hc
      obtain ⟨y, hy, hv⟩ := hc
      obtain ⟨x', b', e1, -⟩ := hsome ⟨y, hy, hv⟩
      rw [hx] at e1
      cases e1
    have hw : st.work = [] := by
      by_contra hw
      obtain ⟨y, hy⟩ := List.exists_mem_of_ne_nil _ hw
      exact ((hwait y).1 hy).1 (hall y (hi.nodes y (List.mem_append_right _ hy)))
    exact asked_last hs hi hk (Nat.succ_le_of_lt M.isLt) hw hall

/-- **C147.** A breadth-first search holds one bit for every id up to the largest ever seen, however few nodes
there are. A call of `next` that finds a waiting node asks `has_node` nothing; one that restarts at `x` asks about
`x` and the ids below `x` that are no nodes, all over again each time; the last one about all ids that are no
nodes. -/
theorem c147_bfs_restart (hs : Shows g A) {start : Option (Id m)} {s : Id m} (h : BeginsAt g A start s) {M : Id m}
    (hM : g.maxSeenId = .ok (some M)) {st0 st : Traversal m} {V : List (Id m)}
    (hnew : Traversal.new g start = .ok st0) (hV : Steps (Bfs.next g) st0 V st) :
    st.undiscovered.length = M.val + 1 ∧ (st.work ≠ [] → asked g st = []) ∧
    (st.work = [] → ∀ x st', Bfs.next g st = .ok (some x, st') → (asked g st).length = 1 + A.missing x.val) ∧
    (∀ st', Bfs.next g st = .ok (none, st') → (asked g st).length = A.missing (M.val + 1)) := by
  rw [bfs_next] at hV ⊢
  exact restart_of pops_front hs h hM hnew hV

/-- **C147** for the depth-first search. -/
theorem c147_dfs_restart (hs : Shows g A) {start : Option (Id m)} {s : Id m} (h : BeginsAt g A start s) {M : Id m}
    (hM : g.maxSeenId = .ok (some M)) {st0 st : Traversal m} {V : List (Id m)}
    (hnew : Traversal.new g start = .ok st0) (hV : Steps (Dfs.next g) st0 V st) :
    st.undiscovered.length = M.val + 1 ∧ (st.work ≠ [] → asked g st = []) ∧
    (st.work = [] → ∀ x st', Dfs.next g st = .ok (some x, st') → (asked g st).length = 1 + A.missing x.val) ∧
    (∀ st', Dfs.next g st = .ok (none, st') → (asked g st).length = A.missing (M.val + 1)) := by
  rw [dfs_next] at hV ⊢
  exact restart_of pops_back hs h hM hnew hV

theorem total_of {pop : List (Id m) → Option (Id m × List (Id m))} (hp : Pops pop) (hs : Shows g A)
    {start : Option (Id m)} {s : Id m} (h : BeginsAt g A start s) {M : Id m}
    (hM : g.maxSeenId = .ok (some M)) {st0 st : Traversal m} {l : List (Id m)} {c : Nat}
    (hnew : Traversal.new g start = .ok st0) (ha : Asks g (nextWith pop g) st0 l c st)
    (hend : ∃ st', nextWith pop g st = .ok (none, st')) :
    ∃ R : List (Id m), R.Nodup ∧
      (∀ x, x ∈ R ↔ (A.node x).isSome ∧ x ≠ s ∧ ∀ u, [u, x].Sublist l → A.edge u x = none) ∧
      c + (asked g st).length = (R.map (fun x => 1 + A.missing x.val)).sum + A.missing (M.val + 1) := by
  have hV := ha.steps
  obtain ⟨st', hend⟩ := hend
  have hlast := (restart_of hp hs h hM hnew hV).2.2.2 st' hend
  obtain ⟨hi, -⟩ := moment hp hs h.1 h.2 hnew hV
  have hall : ∀ y, (A.node y).isSome → y ∈ l := by
    by_contra hc
    simp only [not_forall] at hc
    obtain ⟨y, hy, hv⟩ := hc
    obtain ⟨x', b', e1, -⟩ := (next_cases hp hs hi).2 ⟨y, hy, hv⟩
    rw [hend] at e1
    cases e1
  have hnd : l.Nodup := (List.nodup_append'.1 hi.nodup).1
  cases ha with
  | nil => exact absurd (hall s h.1) (by simp)
  | @cons _ b _ x l c h1 h2 =>
    obtain ⟨hi0, hw0⟩ := moment hp hs h.1 h.2 hnew (.nil st0)
    obtain ⟨x', b', e1, -, e3, e4, -⟩ := (next_cases hp hs hi0).2 ⟨s, h.1, by simp⟩
    rw [h1] at e1
    cases e1
    have hwork : st0.work ≠ [] := by
      intro hc
      have := (hw0 s).2 ⟨by simp, .inl ⟨rfl, rfl⟩⟩
      rw [hc] at this
      cases this
    have hxs : x = s := by
      obtain ⟨-, hc | ⟨u, hu, -⟩⟩ := (hw0 x).1 (e4 hwork)
      · exact hc.2
      · cases hu
    subst hxs
    have hk := kept_steps hp hs h hM hnew (.cons h1 (.nil b))
    obtain ⟨-, hc⟩ := asks_count hp hs h.1 h.2 hnew (Nat.succ_le_of_lt M.isLt) h2 [x] (by simp)
      (.cons h1 (.nil b)) hk
    obtain ⟨n1, n2⟩ := List.nodup_cons.1 hnd
    refine ⟨restarts A [x] l, (restarts_sublist l [x]).nodup n2, fun y => ?_, ?_⟩
    · rw [mem_restarts n2]
      constructor
      · rintro ⟨a1, a2, a3⟩
        refine ⟨hi.nodes y (by simp [a1]), fun hc => n1 (hc ▸ a1), fun u hu => ?_⟩
        cases hu with
        | cons _ hu => exact a3 u hu
        | cons_cons _ hu => exact a2 x (by simp)
      · rintro ⟨a1, a2, a3⟩
        have hy : y ∈ l := (List.mem_cons.1 (hall y a1)).resolve_left a2
        refine ⟨hy, fun u hu => ?_, fun u hu => a3 u (hu.cons _)⟩
        rw [List.mem_singleton.1 hu]
        exact a3 x ((List.singleton_sublist.2 hy).cons_cons _)
    · have h0 := (restart_of hp hs h hM hnew (.nil st0)).2.1 hwork
      rw [h0, hlast, hc]
      simp

theorem steps_of_drain {next : Traversal m → Res (Option (Id m) × Traversal m)} : ∀ {f : Nat} {a c : Traversal m}
    {l : List (Id m)}, drain next f a = .ok (l, c) → ∃ b, Steps next a l b ∧ next b = .ok (none, c) := by
  intro f
  induction f with
  | zero => intro a c l h; cases h
  | succ f ih =>
    intro a c l h
    unfold drain at h
    obtain ⟨⟨o, s'⟩, h1, h2⟩ := bind_eq_ok h
    cases o with
    | none => cases h2; exact ⟨a, .nil _, h1⟩
    | some x =>
      obtain ⟨⟨l', c'⟩, h3, h4⟩ := bind_eq_ok h2
      cases h4
      obtain ⟨b, e1, e2⟩ := ih h3
      exact ⟨b, .cons h1 e1, e2⟩

theorem total_yields {pop : List (Id m) → Option (Id m × List (Id m))} (hp : Pops pop) (hs : Shows g A)
    {start : Option (Id m)} {s : Id m} (h : BeginsAt g A start s) {M : Id m}
    (hM : g.maxSeenId = .ok (some M)) {st0 st : Traversal m} {l : List (Id m)}
    (hnew : Traversal.new g start = .ok st0) (hl : Yields (nextWith pop g) st0 l st) :
    ∃ c, Asks g (nextWith pop g) st0 l c st ∧ ∃ R : List (Id m), R.Nodup ∧
      (∀ x, x ∈ R ↔ (A.node x).isSome ∧ x ≠ s ∧ ∀ u, [u, x].Sublist l → A.edge u x = none) ∧
      c + (asked g st).length = (R.map (fun x => 1 + A.missing x.val)).sum + A.missing (M.val + 1) := by
  obtain ⟨f, hf⟩ := hl
  obtain ⟨b, h1, h2⟩ := steps_of_drain hf
  obtain ⟨hi, -⟩ := moment hp hs h.1 h.2 hnew h1
  have hb : b = st := by
    by_cases hall : ∀ y, (A.node y).isSome → y ∈ l
    · have := (next_cases hp hs hi).1 hall
      rw [h2] at this
      cases this
      rfl
    · simp only [not_forall] at hall
      obtain ⟨y, hy, hv⟩ := hall
      obtain ⟨x', b', e1, -⟩ := (next_cases hp hs hi).2 ⟨y, hy, hv⟩
      rw [h2] at e1
      cases e1
  subst hb
  obtain ⟨c, hc⟩ := h1.asks g
  exact ⟨c, hc, total_of hp hs h hM hnew hc ⟨_, h2⟩⟩

/-- **C147.** What a whole search asks `has_node`, in either order: it restarts at the nodes no node visited before
them has an edge to, and each such node costs as many questions as there are ids below it that are no nodes, and
one; at the end all ids that are no nodes are asked about once more. -/
theorem c147_total (hs : Shows g A) {start : Option (Id m)} {s : Id m} (h : BeginsAt g A start s) {M : Id m}
    (hM : g.maxSeenId = .ok (some M)) {st0 st : Traversal m} {l : List (Id m)}
    (hnew : Traversal.new g start = .ok st0) {next : Traversal m → Res (Option (Id m) × Traversal m)}
    (hnext : next = Bfs.next g ∨ next = Dfs.next g) (hl : Yields next st0 l st) :
    ∃ c, Asks g next st0 l c st ∧ ∃ R : List (Id m), R.Nodup ∧
      (∀ x, x ∈ R ↔ (A.node x).isSome ∧ x ≠ s ∧ ∀ u, [u, x].Sublist l → A.edge u x = none) ∧
      c + (asked g st).length = (R.map (fun x => 1 + A.missing x.val)).sum + A.missing (M.val + 1) := by
  rcases hnext with rfl | rfl
  · rw [bfs_next] at hl ⊢
    exact total_yields pops_front hs h hM hnew hl
  · rw [dfs_next] at hl ⊢
    exact total_yields pops_back hs h hM hnew hl

theorem Asks.unique {g : GView m k NL EL} {next : Traversal m → Res (Option (Id m) × Traversal m)}
    {a b b' : Traversal m} {l : List (Id m)} {c c' : Nat} (h : Asks g next a l c b) (h' : Asks g next a l c' b') :
    c = c' ∧ b = b' := by
  induction h generalizing b' c' with
  | nil => cases h'; exact ⟨rfl, rfl⟩
  | cons h1 _ ih =>
    cases h' with
    | cons h2 h3 =>
      rw [h1] at h2
      cases h2
      obtain ⟨e1, e2⟩ := ih h3
      exact ⟨by rw [e1], e2⟩

theorem below (hs : Shows g A) {M : Id m} (hM : g.maxSeenId = .ok (some M)) (x : Id m) (hx : (A.node x).isSome) :
    x ≤ M := by
  obtain ⟨M', e1, e2⟩ := hs.maxSeen ⟨x, hx⟩
  rw [hM] at e1
  cases e1
  exact e2 x hx

theorem yields_nodes (hs : Shows g A) {start : Option (Id m)} {s : Id m} (h : BeginsAt g A start s)
    {st0 st : Traversal m} {l : List (Id m)}
    (hnew : Traversal.new g start = .ok st0) {next : Traversal m → Res (Option (Id m) × Traversal m)}
    (hnext : next = Bfs.next g ∨ next = Dfs.next g) (hl : Yields next st0 l st) :
    ∀ n, n ∈ l ↔ (A.node n).isSome := by
  rcases hnext with rfl | rfl
  · obtain ⟨st1, l1, st2, e1, e2, -, -, e3, e4⟩ := c31_bfs_visits_once hs h
    rw [hnew] at e1; cases e1
    obtain ⟨rfl, -⟩ := e2.unique hl
    exact e4
  · obtain ⟨st1, l1, st2, e1, e2, -, -, e3, e4, -⟩ := c33_dfs_visits_once hs h
    rw [hnew] at e1; cases e1
    obtain ⟨rfl, -⟩ := e2.unique hl
    exact e4

theorem missing_mono (A : AGraph (Id m) NL EL) {i j : Nat} (h : i ≤ j) : A.missing i ≤ A.missing j :=
  (List.range_sublist.2 h).countP_le

theorem missing_all (A : AGraph (Id m) NL EL) {d : Nat} (hdm : d ≤ m)
    (hd : ∀ n : Id m, (A.node n).isSome → d ≤ n.val) : A.missing d = d := by
  unfold AGraph.missing
  have := (List.countP_eq_length (p := fun j => (A.node (Id.new j : Id m)).isNone) (l := List.range d)).2 (fun j hj => by
    have hj := List.mem_range.1 hj
    cases hn : A.node (Id.new j) with
    | none => rfl
    | some o =>
      have := hd (Id.new j) (by rw [hn]; rfl)
      rw [Id_new_lt (by omega)] at this
      omega)
  rw [this, List.length_range]

theorem sum_bounds {X : Type} (f : X → Nat) (a b : Nat) : ∀ l : List X, (∀ x ∈ l, a ≤ f x ∧ f x ≤ b) →
    l.length * a ≤ (l.map f).sum ∧ (l.map f).sum ≤ l.length * b
  | [], _ => by simp
  | x :: l, h => by
    have h1 := h x (by simp)
    have h2 := sum_bounds f a b l (fun y hy => h y (by simp [hy]))
    simp only [List.map_cons, List.sum_cons, List.length_cons, Nat.succ_mul]
    omega

theorem others_length (hs : Shows g A) {s : Id m} (h : (A.node s).isSome) {R : List (Id m)} (hR : R.Nodup)
    (hm : ∀ x ∈ R, (A.node x).isSome ∧ x ≠ s) : R.length ≤ g.nodeCount - 1 ∧
      ((∀ x, (A.node x).isSome → x ≠ s → x ∈ R) → R.length = g.nodeCount - 1) := by
  have hn : (s :: R).Nodup := List.nodup_cons.2 ⟨fun hc => (hm s hc).2 rfl, hR⟩
  have hsub : ∀ x ∈ s :: R, x ∈ g.nodeIndices := by
    intro x hx
    rcases List.mem_cons.1 hx with rfl | hx
    · exact (hs.memNodes x).2 h
    · exact (hs.memNodes x).2 (hm x hx).1
  have h1 := (List.subperm_of_subset hn hsub).length_le
  rw [hs.nodeCount]
  simp only [List.length_cons] at h1
  refine ⟨by omega, fun ha => ?_⟩
  have h2 := (List.subperm_of_subset hs.nodesNodup (l₂ := s :: R) (fun x hx => by
    by_cases hxs : x = s
    · simp [hxs]
    · exact List.mem_cons_of_mem _ (ha x ((hs.memNodes x).1 hx) hxs))).length_le
  simp only [List.length_cons] at h2
  omega

/-- **C147.** No search asks more often than this: each node but the start once for itself and once for every id
that is no node, and at the end once more for every such id. -/
theorem c147_most (hs : Shows g A) {start : Option (Id m)} {s : Id m} (h : BeginsAt g A start s) {M : Id m}
    (hM : g.maxSeenId = .ok (some M)) {st0 st : Traversal m} {l : List (Id m)} {c : Nat}
    (hnew : Traversal.new g start = .ok st0) {next : Traversal m → Res (Option (Id m) × Traversal m)}
    (hnext : next = Bfs.next g ∨ next = Dfs.next g) (hl : Yields next st0 l st) (hc : Asks g next st0 l c st) :
    c + (asked g st).length ≤ (g.nodeCount - 1) * (1 + A.missing (M.val + 1)) + A.missing (M.val + 1) := by
  obtain ⟨c', h1, R, h2, h3, h4⟩ := c147_total hs h hM hnew hnext hl
  obtain ⟨rfl, -⟩ := Asks.unique hc h1
  rw [h4]
  have h5 := (sum_bounds (fun x : Id m => 1 + A.missing x.val) 0 (1 + A.missing (M.val + 1)) R (fun x hx =>
    ⟨Nat.zero_le _, Nat.add_le_add_left (missing_mono A (by
      have := Fin.le_def.1 (below hs hM x ((h3 x).1 hx).1); omega)) 1⟩)).2
  have h6 := (others_length hs h.1 h2 (fun x hx => ⟨((h3 x).1 hx).1, ((h3 x).1 hx).2.1⟩)).1
  exact Nat.add_le_add_right (h5.trans (Nat.mul_le_mul_right _ h6)) _

/-- **C147.** On a graph whose ids are the first ones, each restart asks once, so that the whole search asks less
often than it yields. -/
theorem c147_dense (hs : Shows g A) {start : Option (Id m)} {s : Id m} (h : BeginsAt g A start s) {M : Id m}
    (hM : g.maxSeenId = .ok (some M)) (hd : ∀ n : Id m, n ≤ M → (A.node n).isSome)
    {st0 st : Traversal m} {l : List (Id m)} {c : Nat}
    (hnew : Traversal.new g start = .ok st0) {next : Traversal m → Res (Option (Id m) × Traversal m)}
    (hnext : next = Bfs.next g ∨ next = Dfs.next g) (hl : Yields next st0 l st) (hc : Asks g next st0 l c st) :
    c + (asked g st).length < l.length := by
  obtain ⟨c', h1, R, h2, h3, h4⟩ := c147_total hs h hM hnew hnext hl
  obtain ⟨rfl, -⟩ := Asks.unique hc h1
  have hz : ∀ i, i ≤ M.val + 1 → A.missing i = 0 := by
    intro i hi
    refine List.countP_eq_zero.2 (fun j hj hc => ?_)
    have hj := List.mem_range.1 hj
    have := hd (Id.new j) (Fin.le_def.2 (by rw [Id_new_lt (by have := M.isLt; omega)]; omega))
    rw [Option.isNone_iff_eq_none.1 hc] at this
    cases this
  have hM' := below hs hM
  have hsum : (R.map (fun x => 1 + A.missing x.val)).sum = R.length := by
    rw [List.map_congr_left (g := fun _ => 1) (fun x hx => by
      rw [hz x.val (by have := Fin.le_def.1 (hM' x ((h3 x).1 hx).1); omega)])]
    simp
  rw [h4, hsum, hz _ (le_refl _)]
  have hmem := yields_nodes hs h hnew hnext hl
  have : (s :: R).length ≤ l.length := by
    refine List.Subperm.length_le (List.subperm_of_subset (List.nodup_cons.2 ⟨fun hc => ((h3 s).1 hc).2.1 rfl, h2⟩) ?_)
    intro x hx
    rcases List.mem_cons.1 hx with rfl | hx
    · exact (hmem x).2 h.1
    · exact (hmem x).2 ((h3 x).1 hx).1
  simp at this
  omega

/-- **C147.** That many there can be: without edges, and with all ids from `d` on nodes and the ones below not, the
search asks exactly so often. -/
theorem c147_edgeless (hs : Shows g A) {start : Option (Id m)} {s : Id m} (h : BeginsAt g A start s) {M : Id m}
    (hM : g.maxSeenId = .ok (some M)) (he : ∀ u v, A.edge u v = none) (d : Nat)
    (hd : ∀ n : Id m, n ≤ M → ((A.node n).isSome ↔ d ≤ n.val))
    {st0 st : Traversal m} {l : List (Id m)} {c : Nat}
    (hnew : Traversal.new g start = .ok st0) {next : Traversal m → Res (Option (Id m) × Traversal m)}
    (hnext : next = Bfs.next g ∨ next = Dfs.next g) (hl : Yields next st0 l st) (hc : Asks g next st0 l c st) :
    A.missing (M.val + 1) = d ∧ c + (asked g st).length = (g.nodeCount - 1) * (1 + d) + d := by
  obtain ⟨c', h1, R, h2, h3, h4⟩ := c147_total hs h hM hnew hnext hl
  obtain ⟨rfl, -⟩ := Asks.unique hc h1
  have hM' := below hs hM
  have hds : d ≤ s.val := (hd s (hM' s h.1)).1 h.1
  have hsM := Fin.le_def.1 (hM' s h.1)
  have hmiss : ∀ i, d ≤ i → i ≤ M.val + 1 → A.missing i = d := by
    intro i hi hiM
    have e1 : A.missing d = d := missing_all A (by have := M.isLt; omega) (fun n hn => (hd n (hM' n hn)).1 hn)
    obtain ⟨j, rfl⟩ : ∃ j, i = d + j := ⟨i - d, by omega⟩
    unfold AGraph.missing at e1 ⊢
    rw [List.range_add, List.countP_append, e1]
    refine Nat.add_eq_left.2 (List.countP_eq_zero.2 (fun x hx hn => ?_))
    obtain ⟨y, hy, rfl⟩ := List.mem_map.1 hx
    have hy := List.mem_range.1 hy
    have := (hd (Id.new (d + y)) (Fin.le_def.2 (by rw [Id_new_lt (by have := M.isLt; omega)]; omega))).2
      (by rw [Id_new_lt (by have := M.isLt; omega)]; omega)
    rw [Option.isNone_iff_eq_none.1 hn] at this
    cases this
  refine ⟨hmiss _ (by omega) (le_refl _), ?_⟩
  have hR := (others_length hs h.1 h2 (fun x hx => ⟨((h3 x).1 hx).1, ((h3 x).1 hx).2.1⟩)).2
    (fun x hx hne => (h3 x).2 ⟨hx, hne, fun u _ => he u x⟩)
  rw [h4, hmiss _ (by omega) (le_refl _), ← hR]
  congr 1
  have hx : ∀ x ∈ R, 1 + A.missing x.val = 1 + d := fun x hx => by
    have hn := ((h3 x).1 hx).1
    have hle := Fin.le_def.1 (hM' x hn)
    rw [hmiss x.val ((hd x (hM' x hn)).1 hn) (by omega)]
  rw [List.map_congr_left (g := fun _ => 1 + d) hx, List.map_const', List.sum_replicate, smul_eq_mul]

theorem new_eq (g : GView m k NL EL) (start : Option (Id m)) {M : Id m} (hM : g.maxSeenId = .ok (some M)) :
    Traversal.new g start = Traversal.moveTo g start ⟨[], BitSet.full (M.val + 1)⟩ := by
  unfold Traversal.new withCapacity
  rw [hM]
  rfl

/-- **C147.** On a machine with 64-bit `usize`, as long as the largest id ever seen is not the largest `usize`,
both kinds of builds make the search the model makes. -/
theorem c147_small (g : GView m k NL EL) (start : Option (Id m)) {M : Id m} (hM : g.maxSeenId = .ok (some M))
    (hb : M.val + 1 < 2 ^ 64) :
    newChecked g start = Traversal.new g start ∧ newRelease g start = Traversal.new g start := by
  rw [new_eq g start hM]
  unfold newChecked withCapacityChecked newRelease withCapacityRelease
  rw [hM]
  simp only [unwrap, bind_ok, if_pos hb, Nat.mod_eq_of_lt hb]
  exact ⟨rfl, rfl⟩

/-- **C147.** Once a node with the largest `usize` as its id has been seen no search of the graph can be made: with
overflow checks the computation of the number of bits panics; without, there are no bits, and the first `set` is out
of bounds. -/
theorem c147_largest (hs : Shows g A) {start : Option (Id m)} {s : Id m} (h : BeginsAt g A start s) {M : Id m}
    (hM : g.maxSeenId = .ok (some M)) (hb : M.val + 1 = 2 ^ 64) :
    newChecked g start = .error .overflow ∧ newRelease g start = .error .indexOutOfBounds := by
  unfold newChecked withCapacityChecked newRelease withCapacityRelease
  rw [hM]
  simp only [unwrap, bind_ok, hb, Nat.mod_self, lt_irrefl, if_false]
  refine ⟨rfl, ?_⟩
  · have hst : startNode g start = .ok s := startNode_ok hs h.1 h.2
    show Traversal.moveTo g start ⟨[], BitSet.full 0⟩ = _
    unfold moveTo
    rw [hst]
    rfl

/-! ### Instances -/

/-- Nodes 3, 4 and 5 without edges; the ids below are no nodes. -/
def high : GraphMap 9 3 String String :=
  ⟨false, [(3, ⟨3, none, [], []⟩), (4, ⟨4, none, [], []⟩), (5, ⟨5, none, [], []⟩)], 0, ⟨[]⟩, ⟨[]⟩, some 5⟩

theorem high_reachable : Reachable high :=
  (exec_run (ops := [.addNode 3 none, .addNode 4 none, .addNode 5 none])
    (g0 := withLabelMap false SetMap.empty SetMap.empty) (by decide)).reachable List.nodup_nil List.nodup_nil

/-- A search of `high` from 4 restarts at 3 and at 5 and asks eleven times. -/
example : Shows high.view high.abs ∧ BeginsAt high.view high.abs (some 4) 4 ∧ high.view.maxSeenId = .ok (some 5) ∧
    (∀ u v, high.abs.edge u v = none) ∧ (∀ n : Id 9, n ≤ 5 → ((high.abs.node n).isSome ↔ 3 ≤ n.val)) ∧
    ∃ st0 st c, Traversal.new high.view (some 4) = .ok st0 ∧ Yields (Bfs.next high.view) st0 [4, 3, 5] st ∧
      Asks high.view (Bfs.next high.view) st0 [4, 3, 5] c st ∧ c = 8 ∧ (asked high.view st).length = 3 :=
  ⟨reachable_shows high_reachable, ⟨by decide, .inl rfl⟩, by decide, by decide, by decide, _, _, _, rfl, ⟨9, rfl⟩,
    .cons rfl (.cons rfl (.cons rfl (.nil _))), by decide, by decide⟩

/-- A search of `kite` from 3 restarts at 5, asking about 4 first, and asks about 4 and 6 at the end. -/
example : Shows kite.view kite.abs ∧ BeginsAt kite.view kite.abs (some 3) 3 ∧ kite.view.maxSeenId = .ok (some 7) ∧
    ∃ st0 st c, Traversal.new kite.view (some 3) = .ok st0 ∧ Yields (Dfs.next kite.view) st0 [3, 1, 0, 2, 5, 7] st ∧
      Asks kite.view (Dfs.next kite.view) st0 [3, 1, 0, 2, 5, 7] c st ∧ c = 2 ∧ asked kite.view st = [4, 6] :=
  ⟨reachable_shows kite_reachable, ⟨by decide, .inl rfl⟩, by decide, _, _, _, rfl, ⟨9, rfl⟩,
    .cons rfl (.cons rfl (.cons rfl (.cons rfl (.cons rfl (.cons rfl (.nil _)))))), by decide, by decide⟩

/-- A graph with the largest `usize` as its only node. -/
def topmost : GraphMap (2 ^ 64 - 1) 3 String String :=
  ⟨true, [(Fin.last _, ⟨Fin.last _, none, [], []⟩)], 0, ⟨[]⟩, ⟨[]⟩, some (Fin.last _)⟩

example : Reachable topmost ∧ BeginsAt topmost.view topmost.abs none (Fin.last _) ∧
    topmost.view.maxSeenId = .ok (some (Fin.last _)) ∧ (Fin.last (2 ^ 64 - 1)).val + 1 = 2 ^ 64 :=
  ⟨(exec_run (ops := [.addNode (Fin.last _) none])
    (g0 := withLabelMap true SetMap.empty SetMap.empty) (by rfl)).reachable List.nodup_nil List.nodup_nil,
    ⟨by rfl, .inr ⟨rfl, by rfl⟩⟩, by rfl, by rfl⟩

end Verif.Props
