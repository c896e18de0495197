import Verif.Proof.SearchState
import Verif.Props.RawCsr
import Verif.Spec.SearchState
import Verif.Model.Calls

/-! C191: searches that go on after a panic. -/

namespace Verif.Props

open Spec Proof

variable {m k : Nat} {NL EL : Type}

/-- **C191.** `Bfs.nextKeep` is `Bfs.next` with the state a panic leaves behind. -/
theorem c191_bfs_agrees (g : GView m k NL EL) (s : Traversal m) : Bfs.next g s =
    match Bfs.nextKeep g s with
    | (.error p, _) => .error p
    | (.ok x, s') => .ok (x, s') := by
  unfold Bfs.next Bfs.nextKeep
  cases s.refill g with
  | error p => rfl
  | ok s1 =>
    simp only [bind_ok]
    cases s1.work with
    | nil => rfl
    | cons n rest =>
      simp only
      cases Traversal.expand g n ⟨rest, s1.undiscovered⟩ <;> rfl

/-- **C191.** And `Dfs.nextKeep` is `Dfs.next`. -/
theorem c191_dfs_agrees (g : GView m k NL EL) (s : Traversal m) : Dfs.next g s =
    match Dfs.nextKeep g s with
    | (.error p, _) => .error p
    | (.ok x, s') => .ok (x, s') := by
  unfold Dfs.next Dfs.nextKeep
  cases s.refill g with
  | error p => rfl
  | ok s1 =>
    simp only [bind_ok]
    cases s1.work.getLast? with
    | none => rfl
    | some n =>
      simp only
      cases Traversal.expand g n ⟨s1.work.dropLast, s1.undiscovered⟩ <;> rfl

theorem start_all {g : GView m k NL EL} {next : Traversal m → Res (Option (Id m)) × Traversal m} (hf : Fair g next)
    {start : Option (Id m)} {s : Traversal m} {M : Id m} (hM : g.maxSeenId = .ok (some M))
    (h : Traversal.new g start = .ok s) :
    ∃ P : List (Id m), P.Nodup ∧ (∀ v ∈ P, v ≤ M) ∧ (∀ v, v ≤ M → g.hasNode v = true → v ∈ P) ∧
      (∀ n, Traversal.startNode g start = .ok n → P.head? = some n) ∧
      ∀ n, replies next n s = (P.map (fun v => (g.neighbors v).map (fun _ => some v)) ++
        List.replicate n (Except.ok none)).take n := by
  obtain ⟨M', u, h1, h2, h3, h4⟩ := new_taken h
  rw [hM] at h1
  cases h1
  obtain ⟨Q, a1, a2, a3, a4, a5⟩ := fair_all hf (B := M.val + 1) (by omega) (M.val + 1) [] s (by simp) h4
  refine ⟨Q, by simpa using a1, fun v hv => ?_, fun v hv hg => ?_, fun n hn => ?_, a5⟩
  · exact Fin.le_def.2 (by have := a2 v (by simpa using hv); omega)
  · simpa using a3 v (by have := Fin.le_def.1 hv; omega) hg
  · rw [h2] at hn
    cases hn
    exact a4 _ h3

/-- **C191.** A breadth-first search of anything behind the traits, whose panics are caught and which goes on: there is
one list of different nodes, beginning with the start and holding every node up to the largest id, such that the calls
answer for one of them each, in turn, with the node or with the panic of its neighbours, and then `None` for ever. -/
theorem c191_bfs {g : GView m k NL EL} {start : Option (Id m)} {s : Traversal m} {M : Id m}
    (hM : g.maxSeenId = .ok (some M)) (h : Traversal.new g start = .ok s) :
    ∃ P : List (Id m), P.Nodup ∧ (∀ v ∈ P, v ≤ M) ∧ (∀ v, v ≤ M → g.hasNode v = true → v ∈ P) ∧
      (∀ n, Traversal.startNode g start = .ok n → P.head? = some n) ∧
      ∀ n, replies (Bfs.nextKeep g) n s = (P.map (fun v => (g.neighbors v).map (fun _ => some v)) ++
        List.replicate n (Except.ok none)).take n :=
  start_all (bfs_fair g) hM h

/-- **C191.** So it is for a depth-first search. -/
theorem c191_dfs {g : GView m k NL EL} {start : Option (Id m)} {s : Traversal m} {M : Id m}
    (hM : g.maxSeenId = .ok (some M)) (h : Traversal.new g start = .ok s) :
    ∃ P : List (Id m), P.Nodup ∧ (∀ v ∈ P, v ≤ M) ∧ (∀ v, v ≤ M → g.hasNode v = true → v ∈ P) ∧
      (∀ n, Traversal.startNode g start = .ok n → P.head? = some n) ∧
      ∀ n, replies (Dfs.nextKeep g) n s = (P.map (fun v => (g.neighbors v).map (fun _ => some v)) ++
        List.replicate n (Except.ok none)).take n :=
  start_all (dfs_fair g) hM h

/-- What `n` calls answer over `N` nodes of which those with a row are yielded. -/
structure OncePerNode (ev : EdgeVec m k) (N n : Nat) (r : List (Res (Option (Id m)))) : Prop where
  /-- A node whose row is there is answered once, -/
  yielded : ∀ v : Id m, v.val < N → RowThere ev v.val → r.count (.ok (some v)) = 1
  /-- no other node is, -/
  only : ∀ v : Id m, .ok (some v) ∈ r → v.val < N ∧ RowThere ev v.val
  /-- the first `N` calls are not the end, -/
  first : ∀ x ∈ r.take N, x ≠ .ok none
  /-- and every later one is. -/
  last : r.drop N = List.replicate (n - N) (.ok none)

theorem once_per_node {ev : EdgeVec m k} {N : Nat} (hN : N ≤ m + 1) {P : List (Id m)} (hP : P.Nodup)
    (hmem : ∀ v, v ∈ P ↔ v.val < N) {n : Nat} (hn : N ≤ n) :
    OncePerNode ev N n ((P.map (fun v => (ev.neighbors v).map (fun _ => some v)) ++
      List.replicate n (Except.ok none)).take n) := by
  have hlen : P.length = N := by
    have hp : (P.map Fin.val).Perm (List.range N) := by
      refine (List.perm_ext_iff_of_nodup (hP.map Fin.val_injective) List.nodup_range).2 fun i => ?_
      simp only [List.mem_map, List.mem_range]
      constructor
      · rintro ⟨v, hv, rfl⟩
        exact (hmem v).1 hv
      · intro hi
        exact ⟨⟨i, by omega⟩, (hmem _).2 hi, rfl⟩
    simpa using hp.length_eq
  have hcut : ((P.map (fun v => (ev.neighbors v).map (fun _ => some v)) ++
      List.replicate n (Except.ok none)).take n) = P.map (fun v => (ev.neighbors v).map (fun _ => some v)) ++
      List.replicate (n - N) (Except.ok none) := by
    rw [List.take_append, List.take_of_length_le (by simp; omega), List.take_replicate]
    simp [hlen]
  rw [hcut]
  have hone : ∀ u v : Id m, (ev.neighbors u).map (fun _ => some u) = .ok (some v) ↔ u = v ∧ RowThere ev v.val := by
    intro u v
    constructor
    · intro e
      cases hu : ev.neighbors u with
      | error p => rw [hu] at e; cases e
      | ok l =>
        rw [hu] at e
        simp only [Except.map, Except.ok.injEq, Option.some.injEq] at e
        subst e
        exact ⟨rfl, (((c156_neighbors ev u).1 l).1 hu).1⟩
    · rintro ⟨rfl, hr⟩
      rw [((c156_neighbors ev u).1 _).2 ⟨hr, rfl⟩]
      rfl
  refine ⟨fun v hv hr => ?_, fun v hv => ?_, fun x hx => ?_, ?_⟩
  · have hz : (List.replicate (n - N) (Except.ok none : Res (Option (Id m)))).count (.ok (some v)) = 0 :=
      List.count_eq_zero.2 (by simp [List.mem_replicate])
    rw [List.count_append, hz]
    rw [show (P.map (fun v => (ev.neighbors v).map (fun _ => some v))).count (.ok (some v)) = P.count v from ?_]
    · exact List.count_eq_one_of_mem hP ((hmem v).2 hv)
    · rw [List.count, List.countP_map, List.count]
      refine List.countP_congr fun u _ => ?_
      simp only [Function.comp, beq_iff_eq]
      rw [hone]
      exact ⟨fun e => e.1, fun e => ⟨e, hr⟩⟩
  · simp only [List.mem_append, List.mem_map, List.mem_replicate, Except.ok.injEq, reduceCtorEq, and_false, or_false]
      at hv
    obtain ⟨u, hu, e⟩ := hv
    obtain ⟨rfl, hr⟩ := (hone u v).1 e
    exact ⟨(hmem u).1 hu, hr⟩
  · rw [List.take_append_of_le_length (by simp [hlen])] at hx
    have hx := List.mem_of_mem_take hx
    simp only [List.mem_map] at hx
    obtain ⟨u, -, rfl⟩ := hx
    cases ev.neighbors u <;> simp [Except.map]
  · rw [List.drop_append, List.drop_of_length_le (by simp [hlen])]
    simp [hlen]

theorem all_nodes {g : GView m k NL EL} {N : Nat} (hN : N ≤ m + 1) (h0 : 0 < N) {M : Id m}
    (hM : M = Id.new (N - 1)) (hh : ∀ v, g.hasNode v = decide (v.val < N)) {P : List (Id m)}
    (h1 : ∀ v ∈ P, v ≤ M) (h2 : ∀ v, v ≤ M → g.hasNode v = true → v ∈ P) (v : Id m) : v ∈ P ↔ v.val < N := by
  have hMv : M.val = N - 1 := by rw [hM]; simp [Id.new, Nat.mod_eq_of_lt (show N - 1 < m + 1 by omega)]
  constructor
  · intro hv
    have := Fin.le_def.1 (h1 v hv)
    omega
  · intro hv
    exact h2 v (Fin.le_def.2 (by omega)) (by rw [hh]; simpa using hv)

/-- **C191.** So over a frozen graph of which nothing is known, searched breadth-first with its panics caught: each node
whose row is there is answered exactly once, no other is; the first `node_count()` calls each answer a node or panic,
all later ones answer `None`. -/
theorem c191_frozen_bfs (g : StaticGraph m k NL EL) (hN : g.numNodes ≤ m + 1) {start : Option (Id m)}
    {s : Traversal m} (h : Traversal.new g.calls start = .ok s) {n : Nat} (hn : g.numNodes ≤ n) :
    OncePerNode g.edgeVec g.numNodes n (replies (Bfs.nextKeep g.calls) n s) := by
  obtain ⟨M, u, h1, -⟩ := new_taken h
  obtain ⟨P, a1, a2, a3, -, a5⟩ := c191_bfs h1 h
  rw [a5]
  have h1' : g.maxSeenId = .ok (some M) := h1
  unfold StaticGraph.maxSeenId at h1'
  split at h1'
  · cases h1'
  · rename_i h0
    exact once_per_node hN a1 (all_nodes hN (Nat.pos_of_ne_zero h0) (by cases h1'; rfl) (fun _ => rfl) a2 a3) hn

/-- **C191.** And depth-first. -/
theorem c191_frozen_dfs (g : StaticGraph m k NL EL) (hN : g.numNodes ≤ m + 1) {start : Option (Id m)}
    {s : Traversal m} (h : Traversal.new g.calls start = .ok s) {n : Nat} (hn : g.numNodes ≤ n) :
    OncePerNode g.edgeVec g.numNodes n (replies (Dfs.nextKeep g.calls) n s) := by
  obtain ⟨M, u, h1, -⟩ := new_taken h
  obtain ⟨P, a1, a2, a3, -, a5⟩ := c191_dfs h1 h
  rw [a5]
  have h1' : g.maxSeenId = .ok (some M) := h1
  unfold StaticGraph.maxSeenId at h1'
  split at h1'
  · cases h1'
  · rename_i h0
    exact once_per_node hN a1 (all_nodes hN (Nat.pos_of_ne_zero h0) (by cases h1'; rfl) (fun _ => rfl) a2 a3) hn

/-- **C191.** The same of a mapped graph, breadth-first -/
theorem c191_mapped_bfs (g : MmapGraph m k NL EL) (hN : g.numNodes ≤ m + 1) {start : Option (Id m)}
    {s : Traversal m} (h : Traversal.new g.calls start = .ok s) {n : Nat} (hn : g.numNodes ≤ n) :
    OncePerNode g.edges g.numNodes n (replies (Bfs.nextKeep g.calls) n s) := by
  obtain ⟨M, u, h1, -⟩ := new_taken h
  obtain ⟨P, a1, a2, a3, -, a5⟩ := c191_bfs h1 h
  rw [a5]
  have h1' : g.maxSeenId = .ok (some M) := h1
  unfold MmapGraph.maxSeenId at h1'
  split at h1'
  · cases h1'
  · rename_i h0
    exact once_per_node hN a1 (all_nodes hN (Nat.pos_of_ne_zero h0) (by cases h1'; rfl) (fun _ => rfl) a2 a3) hn

/-- **C191.** and depth-first. -/
theorem c191_mapped_dfs (g : MmapGraph m k NL EL) (hN : g.numNodes ≤ m + 1) {start : Option (Id m)}
    {s : Traversal m} (h : Traversal.new g.calls start = .ok s) {n : Nat} (hn : g.numNodes ≤ n) :
    OncePerNode g.edges g.numNodes n (replies (Dfs.nextKeep g.calls) n s) := by
  obtain ⟨M, u, h1, -⟩ := new_taken h
  obtain ⟨P, a1, a2, a3, -, a5⟩ := c191_dfs h1 h
  rw [a5]
  have h1' : g.maxSeenId = .ok (some M) := h1
  unfold MmapGraph.maxSeenId at h1'
  split at h1'
  · cases h1'
  · rename_i h0
    exact once_per_node hN a1 (all_nodes hN (Nat.pos_of_ne_zero h0) (by cases h1'; rfl) (fun _ => rfl) a2 a3) hn

theorem healed_expand (g : GView m k NL EL) (n : Id m) (s : Traversal m) :
    (∃ p, g.neighbors n = .error p ∧ Traversal.expand g n s = .error p ∧ Traversal.expand (healed g) n s = .ok s) ∨
    (∃ l, g.neighbors n = .ok l ∧ Traversal.expand g n s = Traversal.expand (healed g) n s) := by
  unfold Traversal.expand healed
  cases hn : g.neighbors n with
  | error p => exact .inl ⟨p, rfl, rfl, by simp only [hn]; rfl⟩
  | ok l => exact .inr ⟨l, rfl, by simp only [hn]⟩

theorem healed_replies {g : GView m k NL EL} {next next' : Traversal m → Res (Option (Id m)) × Traversal m}
    (h : ∀ s, next s = (unhealed g (next' s).1, (next' s).2)) : ∀ n s,
    replies next n s = (replies next' n s).map (unhealed g)
  | 0, _ => rfl
  | n + 1, s => by
    unfold replies
    rw [h s]
    simp only [List.map_cons]
    rw [healed_replies h n]

/-- **C191.** The order is that of the graph in which the rows that panic are empty: the search goes on as if the node
lost had no neighbours. Breadth-first -/
theorem c191_healed_bfs (g : GView m k NL EL) (n : Nat) (s : Traversal m) :
    replies (Bfs.nextKeep g) n s = (replies (Bfs.nextKeep (healed g)) n s).map (unhealed g) := by
  refine healed_replies (fun s => ?_) n s
  have hr : s.refill (healed g) = s.refill g := rfl
  unfold Bfs.nextKeep
  rw [hr]
  cases s.refill g with
  | error p => rfl
  | ok s1 =>
    simp only
    cases s1.work with
    | nil => rfl
    | cons v rest =>
      simp only
      rcases healed_expand g v ⟨rest, s1.undiscovered⟩ with ⟨p, h1, h2, h3⟩ | ⟨l, h1, h2⟩
      · simp only [h2, h3, unhealed, h1]
      · rw [h2]
        cases Traversal.expand (healed g) v ⟨rest, s1.undiscovered⟩ with
        | error p => rfl
        | ok s2 => simp only [unhealed, h1]

/-- **C191.** and depth-first. -/
theorem c191_healed_dfs (g : GView m k NL EL) (n : Nat) (s : Traversal m) :
    replies (Dfs.nextKeep g) n s = (replies (Dfs.nextKeep (healed g)) n s).map (unhealed g) := by
  refine healed_replies (fun s => ?_) n s
  have hr : s.refill (healed g) = s.refill g := rfl
  unfold Dfs.nextKeep
  rw [hr]
  cases s.refill g with
  | error p => rfl
  | ok s1 =>
    simp only
    cases s1.work.getLast? with
    | none => rfl
    | some v =>
      simp only
      rcases healed_expand g v ⟨s1.work.dropLast, s1.undiscovered⟩ with ⟨p, h1, h2, h3⟩ | ⟨l, h1, h2⟩
      · simp only [h2, h3, unhealed, h1]
      · rw [h2]
        cases Traversal.expand (healed g) v ⟨s1.work.dropLast, s1.undiscovered⟩ with
        | error p => rfl
        | ok s2 => simp only [unhealed, h1]

theorem replies_drained {next : Traversal m → Res (Option (Id m)) × Traversal m}
    {step : Traversal m → Res (Option (Id m) × Traversal m)}
    (h : ∀ s, step s = match next s with | (.error p, _) => .error p | (.ok x, s') => .ok (x, s')) :
    ∀ F s l s', drain step F s = .ok (l, s') →
      replies next (l.length + 1) s = l.map (fun v => .ok (some v)) ++ [.ok none]
  | 0, _, _, _, e => by cases e
  | F + 1, s, l, s', e => by
    unfold drain at e
    rw [h s] at e
    rcases hx : next s with ⟨r, s1⟩
    rw [hx] at e
    cases r with
    | error p => cases e
    | ok x =>
      cases x with
      | none =>
        cases e
        simp only [replies, hx]
        rfl
      | some v =>
        simp only [bind_ok] at e
        obtain ⟨⟨l', s2⟩, h1, e⟩ := bind_eq_ok e
        cases e
        have := replies_drained h F s1 l' s2 h1
        simp only [List.length_cons, List.map_cons, List.cons_append]
        rw [replies, hx]
        simp only
        rw [this]

/-- **C191.** So a loop over the breadth-first search of the healed graph tells all answers. -/
theorem c191_loop_bfs {g : GView m k NL EL} {F : Nat} {s s' : Traversal m} {l : List (Id m)}
    (h : drain (Bfs.next (healed g)) F s = .ok (l, s')) :
    replies (Bfs.nextKeep g) (l.length + 1) s = l.map (fun v => unhealed g (.ok (some v))) ++ [.ok none] := by
  rw [c191_healed_bfs, replies_drained (c191_bfs_agrees (healed g)) F s l s' h]
  simp [unhealed]

/-- **C191.** And one over the depth-first search. -/
theorem c191_loop_dfs {g : GView m k NL EL} {F : Nat} {s s' : Traversal m} {l : List (Id m)}
    (h : drain (Dfs.next (healed g)) F s = .ok (l, s')) :
    replies (Dfs.nextKeep g) (l.length + 1) s = l.map (fun v => unhealed g (.ok (some v))) ++ [.ok none] := by
  rw [c191_healed_dfs, replies_drained (c191_dfs_agrees (healed g)) F s l s' h]
  simp [unhealed]

/-- Four nodes in a line; the row of node 1 begins behind its end. -/
def gapped : StaticGraph 9 3 Nat Nat :=
  ⟨true, 4, 3, ⟨[0, 2, 1, 2, 2], [1, 2, 3], none⟩, none, none, ⟨[]⟩, ⟨[]⟩⟩

/-- Its search from node 0: node 1 is lost to the panic, all others are answered. -/
example : ∃ s, Traversal.new gapped.calls (some 0) = .ok s ∧ gapped.numNodes ≤ 9 + 1 ∧
    replies (Bfs.nextKeep gapped.calls) 6 s =
      [.ok (some 0), .error .indexOutOfBounds, .ok (some 2), .ok (some 3), .ok none, .ok none] ∧
    replies (Dfs.nextKeep gapped.calls) 6 s =
      [.ok (some 0), .ok (some 2), .error .indexOutOfBounds, .ok (some 3), .ok none, .ok none] ∧
    drain (Bfs.next (healed gapped.calls)) 9 s = .ok ([0, 1, 2, 3], ⟨[], [false, false, false, false]⟩) ∧
    drain (Dfs.next (healed gapped.calls)) 9 s = .ok ([0, 2, 1, 3], ⟨[], [false, false, false, false]⟩) :=
  ⟨⟨[0], [false, true, true, true]⟩, by decide +kernel⟩

end Verif.Props
