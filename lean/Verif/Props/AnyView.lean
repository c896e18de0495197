import Verif.Model.Calls
import Verif.Proof.AnyView
import Verif.Props.FrozenSearch
import Verif.Props.RawCsr

/-! Property theorems about searches of anything behind the traits, and of frozen graphs of which nothing is
known: C157. -/

namespace Verif.Props

open Spec Traversal

variable {m k : Nat} {NL EL : Type}

/-- What a search of anything gives, however much fuel beyond the number of ids there is. -/
def SearchGives (g : GView m k NL EL) (M : Id m) (run : Nat → Res (List (Id m) × Traversal m)) : Prop :=
  ∀ fuel, M.val + 2 ≤ fuel →
    ((∃ r, run fuel = .ok r) ↔ ∀ x, Met g M x → ∃ ns, g.neighbors x = .ok ns) ∧
    (∀ l st', run fuel = .ok (l, st') → l.Nodup ∧ ∀ x, x ∈ l ↔ Met g M x) ∧
    (∀ p, run fuel = .error p → ∃ x, Met g M x ∧ g.neighbors x = .error p)

theorem search_gives {g : GView m k NL EL} {pop : List (Id m) → Option (Id m × List (Id m))} (hp : Pops pop)
    {M : Id m} {st : Traversal m} (h : Half g M [] st) :
    SearchGives g M (fun fuel => drain (nextWith pop g) fuel st) := by
  intro fuel hf
  rcases h.drain hp fuel [] st (by simp; omega) with ⟨x, p, h1, h2, h3⟩ | ⟨l, st', h1, h2, h3, h4⟩
  · simp only [h3]
    refine ⟨⟨fun ⟨r, e⟩ => (by cases e), fun e => ?_⟩, fun l st' e => (by cases e), ?_⟩
    · obtain ⟨ns, e1⟩ := e x h1
      rw [h2] at e1; cases e1
    · intro q e; cases e; exact ⟨x, h1, h2⟩
  · rw [List.nil_append] at h2 h4
    obtain ⟨a1, a2⟩ := h2.all h3 h4
    simp only [h1]
    refine ⟨⟨fun _ x hx => ?_, fun _ => ⟨_, rfl⟩⟩, ?_, fun p e => (by cases e)⟩
    · obtain ⟨ns, e, -⟩ := h2.fine x ((a2 x).2 hx)
      exact ⟨ns, e⟩
    · intro l' st2 e; cases e; exact ⟨a1, a2⟩

/-- **C157.** Whatever implements the trait: a breadth-first search begun at a node up to the recorded maximum ends
exactly if `neighbors` answers for all ids up to the maximum that are nodes or are listed, however far, by such
ids. It then yields these ids, once each; otherwise it panics as `neighbors` does for one of them. -/
theorem c157_bfs (g : GView m k NL EL) {M s : Id m} {start : Option (Id m)} (hM : g.maxSeenId = .ok (some M))
    (hst : startNode g start = .ok s) (hs : g.hasNode s = true) (hle : s ≤ M) :
    ∃ st, Traversal.new g start = .ok st ∧ SearchGives g M (fun fuel => drain (Bfs.next g) fuel st) := by
  obtain ⟨st, h1, h2⟩ := half_new hM hst hs hle
  exact ⟨st, h1, bfs_next (NL := NL) (EL := EL) ▸ search_gives pops_front h2⟩

/-- **C157** for depth-first searches. -/
theorem c157_dfs (g : GView m k NL EL) {M s : Id m} {start : Option (Id m)} (hM : g.maxSeenId = .ok (some M))
    (hst : startNode g start = .ok s) (hs : g.hasNode s = true) (hle : s ≤ M) :
    ∃ st, Traversal.new g start = .ok st ∧ SearchGives g M (fun fuel => drain (Dfs.next g) fuel st) := by
  obtain ⟨st, h1, h2⟩ := half_new hM hst hs hle
  exact ⟨st, h1, dfs_next (NL := NL) (EL := EL) ▸ search_gives pops_back h2⟩

/-! ### Frozen graphs -/

/-- A view that answers searches as the arrays `ev` with the number of nodes `c` do. -/
structure Frozen (g : GView m k NL EL) (ev : EdgeVec m k) (c : Nat) : Prop where
  hasNode : ∀ n, g.hasNode n = decide (n.val < c)
  count : g.nodeCount = c
  indices : g.nodeIndices = (List.range c).map Id.new
  max : g.maxSeenId = if c = 0 then .error .underflow else .ok (some (Id.new (c - 1)))
  neighbors : ∀ n, g.neighbors n = ev.neighbors n

theorem frozen_static (g : StaticGraph m k NL EL) : Frozen g.calls g.edgeVec g.numNodes :=
  ⟨fun _ => rfl, rfl, rfl, rfl, fun _ => rfl⟩

theorem frozen_mapped (g : MmapGraph m k NL EL) : Frozen g.calls g.edges g.numNodes :=
  ⟨fun _ => rfl, rfl, rfl, rfl, fun _ => rfl⟩

section
variable {g : GView m k NL EL} {ev : EdgeVec m k} {c : Nat}

theorem frozen_le (h0 : c ≠ 0) {n : Id m} (hn : n ≤ Id.new (c - 1)) : n.val < c := by
  have h1 := Fin.le_def.1 hn
  have h2 : (Id.new (c - 1) : Id m).val ≤ c - 1 := Nat.mod_le _ _
  omega

theorem frozen_met (h : Frozen g ev c) (h0 : c ≠ 0) (x : Id m) :
    Met g (Id.new (c - 1)) x ↔ x ≤ Id.new (c - 1) := by
  constructor
  · intro hm; cases hm <;> assumption
  · intro hx
    exact .node hx (by rw [h.hasNode]; exact decide_eq_true (frozen_le h0 hx))

theorem frozen_gives (h : Frozen g ev c) (h0 : c ≠ 0) {run : Nat → Res (List (Id m) × Traversal m)}
    (hr : SearchGives g (Id.new (c - 1)) run) (fuel : Nat) (hf : m + 2 ≤ fuel) :
    ((∃ r, run fuel = .ok r) ↔ ∀ x : Id m, x ≤ Id.new (c - 1) → RowThere ev x.val) ∧
    (∀ l st', run fuel = .ok (l, st') → l.Nodup ∧ ∀ x, x ∈ l ↔ x ≤ Id.new (c - 1)) ∧
    (∀ p, run fuel = .error p → ∃ x : Id m, x ≤ Id.new (c - 1) ∧ ev.neighbors x = .error p) := by
  have hlt := (Id.new (c - 1) : Id m).isLt
  obtain ⟨h1, h2, h3⟩ := hr fuel (by omega)
  refine ⟨h1.trans ⟨fun H x hx => ?_, fun H x hx => ?_⟩, fun l st' e => ?_, fun p e => ?_⟩
  · obtain ⟨ns, e⟩ := H x ((frozen_met h h0 x).2 hx)
    rw [h.neighbors] at e
    exact (((c156_neighbors ev x).1 ns).1 e).1
  · exact ⟨_, by rw [h.neighbors]; exact ((c156_neighbors ev x).1 _).2 ⟨H x ((frozen_met h h0 x).1 hx), rfl⟩⟩
  · obtain ⟨a1, a2⟩ := h2 l st' e
    exact ⟨a1, fun x => (a2 x).trans (frozen_met h h0 x)⟩
  · obtain ⟨x, a1, a2⟩ := h3 p e
    exact ⟨x, (frozen_met h h0 x).1 a1, by rw [← h.neighbors]; exact a2⟩

/-- **C157.** When a search of a frozen graph can be made. -/
theorem c157_new (h : Frozen g ev c) (start : Option (Id m)) :
    (c = 0 → Traversal.new g start = .error .underflow) ∧
    (∀ s, c ≠ 0 → start = some s → c ≤ s.val → Traversal.new g start = .error .explicit) ∧
    (∀ s, c ≠ 0 → start = some s → s.val < c → ¬ s ≤ Id.new (c - 1) →
      Traversal.new g start = .error .indexOutOfBounds) ∧
    (c ≠ 0 → (∀ s, start = some s → s ≤ Id.new (c - 1)) → startNode g start = .ok (start.getD 0) ∧
      g.hasNode (start.getD 0) = true ∧ start.getD 0 ≤ Id.new (c - 1)) := by
  refine ⟨?_, ?_, ?_, ?_⟩
  · intro h0
    unfold Traversal.new Traversal.withCapacity
    rw [h.max, if_pos h0]; rfl
  · rintro s h0 rfl hs
    unfold Traversal.new Traversal.withCapacity Traversal.moveTo startNode
    rw [h.max, if_neg h0]
    simp only [bind_ok, unwrap, pure_ok]
    have : g.hasNode s = false := by rw [h.hasNode]; exact decide_eq_false (by omega)
    simp [this, bind_error]
  · rintro s h0 rfl hs hM
    unfold Traversal.new Traversal.withCapacity Traversal.moveTo startNode
    rw [h.max, if_neg h0]
    simp only [bind_ok, unwrap, pure_ok]
    have : g.hasNode s = true := by rw [h.hasNode]; exact decide_eq_true hs
    simp only [this, Bool.not_true, Bool.false_eq_true, if_false, bind_ok]
    unfold BitSet.put
    rw [if_neg]
    · rfl
    · have : ¬ s.val ≤ (Id.new (c - 1) : Id m).val := fun e => hM (Fin.le_def.2 e)
      simp [BitSet.full]; omega
  · intro h0 hs
    have hle : start.getD 0 ≤ (Id.new (c - 1) : Id m) := by
      cases start with
      | none => exact Fin.zero_le _
      | some s => exact hs s rfl
    have hn : g.hasNode (start.getD 0) = true := by
      rw [h.hasNode]; exact decide_eq_true (frozen_le h0 hle)
    refine ⟨?_, hn, hle⟩
    cases start with
    | some s =>
      unfold startNode
      have hn : g.hasNode s = true := hn
      simp [hn, pure_ok]
    | none =>
      unfold startNode
      rw [h.count]
      simp only [if_neg h0]
      rw [h.indices]
      obtain ⟨d, rfl⟩ : ∃ d, c = d + 1 := ⟨c - 1, by omega⟩
      rw [List.range_succ_eq_map]; rfl

/-- **C157.** A breadth-first search of a frozen graph of which nothing is known, from no start or from a start up to
the last node: it yields every id up to the last node once; or it panics, exactly if one of their rows is not
there, is in the wrong order or leaves the array. -/
theorem c157_frozen_bfs (h : Frozen g ev c) (h0 : c ≠ 0) {start : Option (Id m)}
    (hs : ∀ s, start = some s → s ≤ Id.new (c - 1)) :
    ∃ st, Traversal.new g start = .ok st ∧ ∀ fuel, m + 2 ≤ fuel →
      ((∃ r, drain (Bfs.next g) fuel st = .ok r) ↔ ∀ x : Id m, x ≤ Id.new (c - 1) → RowThere ev x.val) ∧
      (∀ l st', drain (Bfs.next g) fuel st = .ok (l, st') → l.Nodup ∧ ∀ x, x ∈ l ↔ x ≤ Id.new (c - 1)) ∧
      (∀ p, drain (Bfs.next g) fuel st = .error p →
        ∃ x : Id m, x ≤ Id.new (c - 1) ∧ ev.neighbors x = .error p) := by
  obtain ⟨a1, a2, a3⟩ := (c157_new h start).2.2.2 h0 hs
  obtain ⟨st, b1, b2⟩ := c157_bfs g (by rw [h.max, if_neg h0]) a1 a2 a3
  exact ⟨st, b1, frozen_gives h h0 b2⟩

/-- **C157** for depth-first searches. -/
theorem c157_frozen_dfs (h : Frozen g ev c) (h0 : c ≠ 0) {start : Option (Id m)}
    (hs : ∀ s, start = some s → s ≤ Id.new (c - 1)) :
    ∃ st, Traversal.new g start = .ok st ∧ ∀ fuel, m + 2 ≤ fuel →
      ((∃ r, drain (Dfs.next g) fuel st = .ok r) ↔ ∀ x : Id m, x ≤ Id.new (c - 1) → RowThere ev x.val) ∧
      (∀ l st', drain (Dfs.next g) fuel st = .ok (l, st') → l.Nodup ∧ ∀ x, x ∈ l ↔ x ≤ Id.new (c - 1)) ∧
      (∀ p, drain (Dfs.next g) fuel st = .error p →
        ∃ x : Id m, x ≤ Id.new (c - 1) ∧ ev.neighbors x = .error p) := by
  obtain ⟨a1, a2, a3⟩ := (c157_new h start).2.2.2 h0 hs
  obtain ⟨st, b1, b2⟩ := c157_dfs g (by rw [h.max, if_neg h0]) a1 a2 a3
  exact ⟨st, b1, frozen_gives h h0 b2⟩

/-- The rows as a graph. -/
def rowGraph (ev : EdgeVec m k) : AGraph (Id m) NL EL where
  node _ := some none
  edge s t := if t ∈ rowOf ev s.val then some none else none

theorem frozen_sorted (h : Frozen g ev c) (h0 : c ≠ 0) (hc : c ≤ m + 1)
    (hr : ∀ x, x < c → RowThere ev x ∧ (rowOf ev x).Pairwise (· < ·)) {start : Option (Id m)}
    (hs : ∀ s, start = some s → s.val < c) :
    Shows (low g (rowGraph ev) c) ((rowGraph ev : AGraph (Id m) NL EL).below c) ∧
      BeginsAt (low g (rowGraph ev) c) ((rowGraph ev : AGraph (Id m) NL EL).below c) start (start.getD 0) ∧
      ∀ st, Traversal.new g start = .ok st → st.undiscovered.length = c := by
  have hM : g.maxSeenId = .ok (some (Id.new (c - 1))) := by rw [h.max, if_neg h0]
  have S := low_shows (g := g) (A := rowGraph ev) (Nat.pos_of_ne_zero h0) hc h.hasNode h.count h.indices hM
    (fun n hn => by
      obtain ⟨h1, h2⟩ := hr n.val hn
      refine ⟨rowOf ev n.val, ?_, h2, fun t => ?_⟩
      · rw [h.neighbors]; exact ((c156_neighbors ev n).1 _).2 ⟨h1, rfl⟩
      · unfold rowGraph
        by_cases ht : t ∈ rowOf ev n.val <;> simp [ht])
  have hnode : ∀ n : Id m, n.val < c → (((rowGraph ev : AGraph (Id m) NL EL).below c).node n).isSome = true := by
    intro n hn
    unfold AGraph.below
    simp [hn]
  refine ⟨S, ?_, fun st e => ?_⟩
  · cases start with
    | some s => exact ⟨hnode s (hs s rfl), .inl rfl⟩
    | none =>
      refine ⟨hnode 0 (Nat.pos_of_ne_zero h0), .inr ⟨rfl, ?_⟩⟩
      show g.nodeIndices.head? = some 0
      rw [h.indices]
      obtain ⟨d, rfl⟩ : ∃ d, c = d + 1 := ⟨c - 1, by omega⟩
      rw [List.range_succ_eq_map]; rfl
  · rw [new_length hM e, EdgeIter.Id_new_val (by omega)]
    omega

/-- **C157.** With the rows there and sorted, the order is that of C66 for the graph the rows make, entries that are
no nodes left out. -/
theorem c157_frozen_order (h : Frozen g ev c) (h0 : c ≠ 0) (hc : c ≤ m + 1)
    (hr : ∀ x, x < c → RowThere ev x ∧ (rowOf ev x).Pairwise (· < ·)) {start : Option (Id m)}
    (hs : ∀ s, start = some s → s.val < c) :
    ∃ st, Traversal.new g start = .ok st ∧
      (∃ l st', Yields (Bfs.next g) st l st' ∧ ((rowGraph ev : AGraph (Id m) NL EL).below c).Sweep (start.getD 0)
        ((rowGraph ev : AGraph (Id m) NL EL).below c).FirstIn l) ∧
      ∃ l st', Yields (Dfs.next g) st l st' ∧ ((rowGraph ev : AGraph (Id m) NL EL).below c).Sweep (start.getD 0)
        ((rowGraph ev : AGraph (Id m) NL EL).below c).LastIn l := by
  obtain ⟨S, hb, hl⟩ := frozen_sorted h h0 hc hr hs
  obtain ⟨st, l, st', b1, ⟨fuel, b2⟩, -, b3⟩ := c66_bfs_order S hb
  obtain ⟨st2, l2, st2', d1, ⟨fuel2, d2⟩, -, d3⟩ := c66_dfs_order S hb
  rw [b1] at d1
  cases d1
  rw [← new_low] at b1
  have c2 := hl st b1
  refine ⟨st, b1, ⟨l, st', ⟨fuel, ?_⟩, b3⟩, l2, st2', ⟨fuel2, ?_⟩, d3⟩
  · rw [bfs_next] at b2 ⊢
    rw [drain_low fuel c2, b2]
  · rw [dfs_next] at d2 ⊢
    rw [drain_low fuel2 c2, d2]

end

/-- **C157.** These are the searches of the whole view, where there is one. -/
theorem c157_same_static (g : StaticGraph m k NL EL) {v : GView m k NL EL} (hv : g.view = .ok v) :
    Bfs.next v = Bfs.next g.calls ∧ Dfs.next v = Dfs.next g.calls ∧
      ∀ start, Traversal.new v start = Traversal.new g.calls start := by
  unfold StaticGraph.view at hv
  obtain ⟨es, -, hv⟩ := bind_eq_ok hv
  obtain ⟨eds, -, hv⟩ := bind_eq_ok hv
  obtain rfl := Except.ok.inj hv
  exact ⟨rfl, rfl, fun start => by cases start <;> rfl⟩

/-- **C157** for mapped graphs. -/
theorem c157_same_mapped (g : MmapGraph m k NL EL) {v : GView m k NL EL} (hv : g.view = .ok v) :
    Bfs.next v = Bfs.next g.calls ∧ Dfs.next v = Dfs.next g.calls ∧
      ∀ start, Traversal.new v start = Traversal.new g.calls start := by
  unfold MmapGraph.view at hv
  obtain ⟨es, -, hv⟩ := bind_eq_ok hv
  obtain ⟨eds, -, hv⟩ := bind_eq_ok hv
  obtain rfl := Except.ok.inj hv
  exact ⟨rfl, rfl, fun start => by cases start <;> rfl⟩

/-- Four nodes, rows out of order, with repetitions and with an entry that is no node. -/
def messy : StaticGraph 9 3 String String :=
  ⟨true, 4, 6, ⟨[0, 3, 3, 5, 6], [3, 7, 3, 1, 0, 2], none⟩, none, none, ⟨[]⟩, ⟨[]⟩⟩

/-- A row beyond the array, but only from its last node on. -/
def cutOff : StaticGraph 9 3 String String :=
  ⟨true, 4, 6, ⟨[0, 2, 2, 3, 9], [2, 1, 0, 2], none⟩, none, none, ⟨[]⟩, ⟨[]⟩⟩

/-- Rows in order, the last node listing an id that is no node. -/
def tidy : StaticGraph 9 3 String String :=
  ⟨true, 3, 4, ⟨[0, 2, 2, 4], [1, 2, 0, 8], none⟩, none, none, ⟨[]⟩, ⟨[]⟩⟩

example : Frozen tidy.calls tidy.edgeVec 3 ∧ (3 : Nat) ≤ 10 ∧
    (∀ x, x < 3 → RowThere tidy.edgeVec x ∧ (rowOf tidy.edgeVec x).Pairwise (· < ·)) ∧ ∃ v, tidy.view = .ok v := by
  refine ⟨frozen_static tidy, by decide, ?_, _, rfl⟩
  intro x hx
  match x, hx with
  | 0, _ => exact ⟨⟨0, 2, ⟨rfl, rfl⟩, by decide, by decide⟩, by decide⟩
  | 1, _ => exact ⟨⟨2, 2, ⟨rfl, rfl⟩, by decide, by decide⟩, by decide⟩
  | 2, _ => exact ⟨⟨2, 4, ⟨rfl, rfl⟩, by decide, by decide⟩, by decide⟩

theorem messy_runs : (do
      let st ← Traversal.new messy.calls none
      let r ← drain (Bfs.next messy.calls) 11 st
      pure r.1) = .ok [0, 3, 2, 1] ∧
    (do
      let st ← Traversal.new messy.calls (some 2)
      let r ← drain (Dfs.next messy.calls) 11 st
      pure r.1) = .ok [2, 0, 3, 1] ∧
    (do
      let st ← Traversal.new cutOff.calls none
      let r ← drain (Bfs.next cutOff.calls) 11 st
      pure r.1) = .error .indexOutOfBounds := by decide

example : Frozen messy.calls messy.edgeVec 4 ∧ (∀ s : Id 9, (none : Option (Id 9)) = some s → s ≤ Id.new 3) ∧
    (∀ x, x < 4 → RowThere messy.edgeVec x) ∧ messy.calls.maxSeenId = .ok (some 3) ∧
    startNode messy.calls none = .ok 0 := by
  refine ⟨frozen_static messy, by simp, ?_, rfl, rfl⟩
  intro x hx
  match x, hx with
  | 0, _ => exact ⟨0, 3, ⟨rfl, rfl⟩, by decide, by decide⟩
  | 1, _ => exact ⟨3, 3, ⟨rfl, rfl⟩, by decide, by decide⟩
  | 2, _ => exact ⟨3, 5, ⟨rfl, rfl⟩, by decide, by decide⟩
  | 3, _ => exact ⟨5, 6, ⟨rfl, rfl⟩, by decide, by decide⟩

end Verif.Props
