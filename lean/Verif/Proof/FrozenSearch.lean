import Verif.Proof.TraversalSpec

/-! Searches of a graph that has the ids below a bound as nodes, while its edges may lead beyond. -/

namespace Verif

open Spec

variable {m k : Nat} {NL EL : Type} {g : GView m k NL EL} {A : AGraph (Id m) NL EL} {c : Nat}

namespace Traversal

/-- Neighbours from `c` on left out, and the other answers made to fit. -/
def low (g : GView m k NL EL) (A : AGraph (Id m) NL EL) (c : Nat) : GView m k NL EL where
  directed := true
  nodeCount := g.nodeCount
  edgeCount := 0
  hasNode := g.hasNode
  hasEdge s t := .ok ((A.below c).edge s t).isSome
  nodeLid _ := .ok none
  edgeLid _ _ := .ok none
  nodeIndices := g.nodeIndices
  edgeIndices := ((List.finRange (m + 1)).flatMap (fun s => (List.finRange (m + 1)).map (fun t => (s, t)))).filter
    (fun e => ((A.below c).edge e.1 e.2).isSome)
  nodes := []
  edges := (((List.finRange (m + 1)).flatMap (fun s => (List.finRange (m + 1)).map (fun t => (s, t)))).filter
    (fun e => ((A.below c).edge e.1 e.2).isSome)).map (fun e => ⟨e.1, e.2, none⟩)
  degree n := do
    let l ← g.neighbors n
    pure (l.filter (fun t => decide (t.val < c))).length
  neighbors n := do
    let l ← g.neighbors n
    pure (l.filter (fun t => decide (t.val < c)))
  maxSeenId := g.maxSeenId
  nodeLabels := SetMap.empty
  edgeLabels := SetMap.empty

/-- Ids beyond the bit set are passed over. -/
theorem discover_low : ∀ {l : List (Id m)} {s : Traversal m}, s.undiscovered.length = c →
    l.foldlM discover s = (l.filter (fun t => decide (t.val < c))).foldlM discover s
  | [], _, _ => rfl
  | a :: l, s, h => by
    rw [List.foldlM_cons, List.filter_cons]
    by_cases ha : a.val < c
    · rw [if_pos (by simpa using ha), List.foldlM_cons]
      cases hd : s.discover a with
      | error p => rfl
      | ok s1 =>
        rw [bind_ok, bind_ok]
        exact discover_low ((discover_length hd).trans h)
    · rw [if_neg (by simpa using ha)]
      have : s.discover a = .ok s := by
        unfold discover BitSet.contains
        rw [List.getD_eq_getElem?_getD, List.getElem?_eq_none (by omega)]
        rfl
      rw [this, bind_ok]
      exact discover_low h

theorem expand_low {n : Id m} {s : Traversal m} (h : s.undiscovered.length = c) :
    expand g n s = expand (low g A c) n s := by
  unfold expand
  unfold low
  simp only
  cases g.neighbors n with
  | error p => rfl
  | ok l => exact discover_low h

theorem nextWith_low {pop : List (Id m) → Option (Id m × List (Id m))} {s : Traversal m}
    (h : s.undiscovered.length = c) : nextWith pop g s = nextWith pop (low g A c) s := by
  unfold nextWith
  have e : s.refill (low g A c) = s.refill g := rfl
  rw [e]
  cases hr : s.refill g with
  | error p => rfl
  | ok s1 =>
    rw [bind_ok, bind_ok]
    cases pop s1.work with
    | none => rfl
    | some q =>
      obtain ⟨n, rest⟩ := q
      simp only
      rw [expand_low (A := A) (s := ⟨rest, s1.undiscovered⟩) ((refill_length hr).trans h)]

theorem drain_low {pop : List (Id m) → Option (Id m × List (Id m))} : ∀ (fuel : Nat) {s : Traversal m},
    s.undiscovered.length = c → drain (nextWith pop g) fuel s = drain (nextWith pop (low g A c)) fuel s
  | 0, _, _ => rfl
  | fuel + 1, s, h => by
    unfold drain
    rw [← nextWith_low h]
    cases hn : nextWith pop g s with
    | error p => rfl
    | ok q =>
      obtain ⟨o, s1⟩ := q
      cases o with
      | none => rfl
      | some x =>
        rw [bind_ok, bind_ok]
        simp only
        rw [drain_low fuel ((nextWith_length hn).trans h)]

theorem new_low (start : Option (Id m)) : new g start = new (low g A c) start := by
  cases start <;> rfl

theorem new_length {start : Option (Id m)} {st : Traversal m} {M : Id m} (hM : g.maxSeenId = .ok (some M))
    (h : new g start = .ok st) : st.undiscovered.length = M.val + 1 := by
  unfold new withCapacity at h
  rw [hM] at h
  simp only [bind_ok, unwrap, pure_ok] at h
  rw [moveTo_length h]
  simp [BitSet.full]

/-- The made-up answers fit. -/
theorem low_shows (h0 : 0 < c) (hc : c ≤ m + 1) (hn : ∀ n, g.hasNode n = decide (n.val < c)) (hcount : g.nodeCount = c)
    (hi : g.nodeIndices = (List.range c).map Id.new) (hM : g.maxSeenId = .ok (some (Id.new (c - 1))))
    (hnb : ∀ n, n.val < c → ∃ l, g.neighbors n = .ok l ∧ l.Pairwise (· < ·) ∧
      ∀ t, t ∈ l ↔ (A.edge n t).isSome) : Shows (low g A c) (A.below c) := by
  have hval : ∀ i, i < c → (Id.new i : Id m).val = i := fun i h => by
    show i % (m + 1) = i
    exact Nat.mod_eq_of_lt (by omega)
  have hall : ∀ e : Id m × Id m,
      e ∈ (List.finRange (m + 1)).flatMap (fun s => (List.finRange (m + 1)).map (fun t => (s, t))) := by
    rintro ⟨s, t⟩
    exact List.mem_flatMap.2 ⟨s, List.mem_finRange s, List.mem_map.2 ⟨t, List.mem_finRange t, rfl⟩⟩
  have hnd : ((List.finRange (m + 1)).flatMap (fun s => (List.finRange (m + 1)).map (fun t => (s, t)))).Nodup := by
    rw [List.nodup_flatMap]
    refine ⟨fun s _ => (List.nodup_finRange _).map (fun a b h => (Prod.mk.inj h).2), ?_⟩
    refine (List.nodup_finRange (m + 1)).imp ?_
    intro a b hab e h1 h2
    obtain ⟨x, -, rfl⟩ := List.mem_map.1 h1
    obtain ⟨y, -, h⟩ := List.mem_map.1 h2
    exact hab (Prod.mk.inj h).1.symm
  have hnode : ∀ n : Id m, ((A.below c).node n).isSome = decide (n.val < c) := by
    intro n
    unfold AGraph.below
    by_cases h : n.val < c <;> simp [h]
  refine ⟨?_, fun h => absurd h (by simp [low]), ?_, ?_, ?_, ?_, ?_, ?_, ?_, ?_, ?_, ?_, ?_, ?_⟩
  · intro s t h
    rw [hnode, hnode]
    by_cases hb : s.val < c ∧ t.val < c
    · simpa using hb
    · simp [AGraph.below, hb] at h
  · intro n
    rw [hnode]
    exact hn n
  · show g.nodeIndices.Nodup
    rw [hi]
    refine List.Nodup.map_on ?_ List.nodup_range
    intro a ha b hb e
    have := congrArg Fin.val e
    rwa [hval a (List.mem_range.1 ha), hval b (List.mem_range.1 hb)] at this
  · intro n
    show n ∈ g.nodeIndices ↔ _
    rw [hi, hnode]
    simp only [List.mem_map, List.mem_range, decide_eq_true_eq]
    constructor
    · rintro ⟨i, h, rfl⟩
      rw [hval i h]; exact h
    · intro h
      exact ⟨n.val, h, Fin.ext (hval _ h)⟩
  · show g.nodeCount = g.nodeIndices.length
    rw [hi, hcount]; simp
  · intro s t _; rfl
  · exact hnd.filter _
  · intro s t
    unfold low AGraph.Listed
    simp only [List.mem_filter, hall, true_and, true_or, and_true]
  · unfold low
    simp [List.map_map, Function.comp_def]
  · intro n l h
    have : l = none := by
      unfold AGraph.below at h
      by_cases hb : n.val < c <;> simp [hb] at h
      exact h.symm
    subst this
    rfl
  · intro s t l h _
    have : l = none := by
      unfold AGraph.below at h
      by_cases hb : s.val < c ∧ t.val < c
      · simp only [if_pos hb, Option.map_eq_some_iff] at h
        obtain ⟨_, _, h⟩ := h
        exact h.symm
      · simp [hb] at h
    subst this
    rfl
  · intro n hn'
    rw [hnode] at hn'
    have hlt : n.val < c := by simpa using hn'
    obtain ⟨l, h1, h2, h3⟩ := hnb n hlt
    refine ⟨l.filter (fun t => decide (t.val < c)), ?_, h2.filter _, ?_, ?_⟩
    · show (do let l ← g.neighbors n; pure (l.filter (fun t => decide (t.val < c))) : Res _) = _
      rw [h1]; rfl
    · intro t
      rw [List.mem_filter, h3]
      unfold AGraph.below
      by_cases ht : t.val < c <;> simp [ht, hlt]
    · show (do let l ← g.neighbors n; pure (l.filter (fun t => decide (t.val < c))).length : Res _) = _
      rw [h1]; rfl
  · intro _
    refine ⟨_, hM, fun n hn' => ?_⟩
    rw [hnode] at hn'
    have hlt : n.val < c := by simpa using hn'
    rw [Fin.le_def, hval _ (by omega)]
    omega

end Traversal

end Verif
