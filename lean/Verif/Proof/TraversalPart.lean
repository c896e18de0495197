import Verif.Proof.TraversalMove

/-! A search that never meets certain nodes is one of the graph without them. -/

namespace Verif

open Spec

variable {m k : Nat} {NL EL : Type} {g : GView m k NL EL} {A : AGraph (Id m) NL EL} {U : Id m → Prop}
  [DecidablePred U]

namespace Traversal

/-- Nodes outside `U` left out, and the other answers made to fit. -/
def part (g : GView m k NL EL) (A : AGraph (Id m) NL EL) (U : Id m → Prop) [DecidablePred U] :
    GView m k NL EL where
  directed := true
  nodeCount := (g.nodeIndices.filter (fun n => decide (U n))).length
  edgeCount := 0
  hasNode n := g.hasNode n && decide (U n)
  hasEdge s t := .ok ((A.on U).edge s t).isSome
  nodeLid _ := .ok none
  edgeLid _ _ := .ok none
  nodeIndices := g.nodeIndices.filter (fun n => decide (U n))
  edgeIndices := ((List.finRange (m + 1)).flatMap (fun s => (List.finRange (m + 1)).map (fun t => (s, t)))).filter
    (fun e => ((A.on U).edge e.1 e.2).isSome)
  nodes := []
  edges := (((List.finRange (m + 1)).flatMap (fun s => (List.finRange (m + 1)).map (fun t => (s, t)))).filter
    (fun e => ((A.on U).edge e.1 e.2).isSome)).map (fun e => ⟨e.1, e.2, none⟩)
  degree n := do
    let l ← g.neighbors n
    pure (l.filter (fun t => decide (U t))).length
  neighbors n := do
    let l ← g.neighbors n
    pure (l.filter (fun t => decide (U t)))
  maxSeenId := g.maxSeenId
  nodeLabels := SetMap.empty
  edgeLabels := SetMap.empty

/-- The nodes outside `U` count as discovered, and what waits is a node. -/
structure Hides (A : AGraph (Id m) NL EL) (U : Id m → Prop) (st : Traversal m) : Prop where
  short : st.undiscovered.length ≤ m + 1
  hidden : ∀ n, (A.node n).isSome → ¬ U n → st.undiscovered.contains n.val = false
  work : ∀ n ∈ st.work, (A.node n).isSome

omit [DecidablePred U] in
theorem Hides.put {st : Traversal m} {n : Id m} {i : Nat} {b : BitSet} (h : Hides A U st)
    (hn : (A.node n).isSome) (hb : st.undiscovered.put i false = .ok b) : Hides A U ⟨st.work ++ [n], b⟩ := by
  unfold BitSet.put at hb
  split at hb
  · rename_i hi
    cases hb
    refine ⟨by rw [List.length_set]; exact h.short, fun n h1 h2 => ?_, fun x hx => ?_⟩
    · rw [BitSet.contains_set hi]
      split
      · rfl
      · exact h.hidden n h1 h2
    · rcases List.mem_append.1 hx with hx | hx
      · exact h.work x hx
      · rw [List.mem_singleton.1 hx]; exact hn
  · cases hb

omit [DecidablePred U] in
theorem Hides.discover {st st' : Traversal m} {n : Id m} (h : Hides A U st) (hn : (A.node n).isSome)
    (hd : st.discover n = .ok st') : Hides A U st' := by
  unfold Traversal.discover at hd
  split at hd
  · obtain ⟨b, hb, hd⟩ := bind_eq_ok hd
    cases hd
    exact h.put hn hb
  · cases hd
    exact h

omit [DecidablePred U] in
theorem Hides.refill (hs : Shows g A) {st st' : Traversal m} (h : Hides A U st) (hd : st.refill g = .ok st') :
    Hides A U st' := by
  unfold Traversal.refill at hd
  split at hd
  · split at hd
    · rename_i n hn
      obtain ⟨b, hb, hd⟩ := bind_eq_ok hd
      cases hd
      refine h.put ?_ hb
      unfold nextUnvisited at hn
      rw [Option.map_eq_some_iff] at hn
      obtain ⟨i, hi, rfl⟩ := hn
      rw [← hs.hasNode]
      exact List.find?_some (p := fun i => g.hasNode (Id.new i)) hi
    · cases hd
      exact h
  · cases hd
    exact h

theorem discover_part : ∀ {l : List (Id m)} {s : Traversal m}, Hides A U s → (∀ n ∈ l, (A.node n).isSome) →
    l.foldlM discover s = (l.filter (fun t => decide (U t))).foldlM discover s ∧
      ∀ s', l.foldlM discover s = .ok s' → Hides A U s'
  | [], _, h, _ => ⟨rfl, fun s' e => by cases e; exact h⟩
  | a :: l, s, h, hl => by
    rw [List.foldlM_cons, List.filter_cons]
    by_cases ha : U a
    · rw [if_pos (by simpa using ha), List.foldlM_cons]
      cases hd : s.discover a with
      | error p => exact ⟨rfl, fun s' e => by cases e⟩
      | ok s1 =>
        rw [bind_ok, bind_ok]
        exact discover_part (h.discover (hl a (List.mem_cons_self ..)) hd)
          (fun n hn => hl n (List.mem_cons_of_mem _ hn))
    · rw [if_neg (by simpa using ha)]
      have : s.discover a = .ok s := by
        unfold discover
        rw [h.hidden a (hl a (List.mem_cons_self ..)) ha]
        rfl
      rw [this, bind_ok]
      exact discover_part h (fun n hn => hl n (List.mem_cons_of_mem _ hn))

theorem expand_part (hs : Shows g A) {n : Id m} {s : Traversal m} (h : Hides A U s) (hn : (A.node n).isSome) :
    expand g n s = expand (part g A U) n s ∧ ∀ s', expand g n s = .ok s' → Hides A U s' := by
  obtain ⟨l, h1, -, h3, -⟩ := hs.neighbors n hn
  have := discover_part h (l := l) (fun t ht => (hs.ends n t ((h3 t).1 ht)).2)
  unfold expand
  unfold part
  simp only [h1, bind_ok, pure_ok]
  exact this

theorem find_same {X : Type} {p q : X → Bool} : ∀ {l : List X}, (∀ x ∈ l, p x = q x) → l.find? p = l.find? q
  | [], _ => rfl
  | a :: l, h => by
    rw [List.find?_cons, List.find?_cons, h a (List.mem_cons_self ..),
      find_same (fun x hx => h x (List.mem_cons_of_mem _ hx))]

theorem refill_part (hs : Shows g A) {s : Traversal m} (h : Hides A U s) :
    s.refill (part g A U) = s.refill g := by
  have : s.nextUnvisited (part g A U) = s.nextUnvisited g := by
    unfold nextUnvisited
    congr 1
    apply find_same
    intro i hi
    rw [BitSet.mem_ones] at hi
    have hlt : i < s.undiscovered.length := by
      by_contra hc
      unfold BitSet.contains at hi
      rw [List.getD_eq_getElem?_getD, List.getElem?_eq_none (by omega)] at hi
      cases hi
    have hv : (Id.new i : Id m).val = i := Nat.mod_eq_of_lt (by have := h.short; omega)
    show (g.hasNode _ && _) = g.hasNode _
    cases hq : g.hasNode (Id.new i) with
    | false => rfl
    | true =>
      rw [hs.hasNode] at hq
      by_cases hU : U (Id.new i)
      · simp [hU]
      · have := h.hidden _ hq hU
        rw [hv, hi] at this
        cases this
  unfold refill
  rw [this]

theorem nextWith_part {pop : List (Id m) → Option (Id m × List (Id m))} (hp : Pops pop) (hs : Shows g A)
    {s : Traversal m} (h : Hides A U s) : nextWith pop g s = nextWith pop (part g A U) s ∧
      ∀ o s', nextWith pop g s = .ok (o, s') → Hides A U s' := by
  unfold nextWith
  rw [refill_part hs h]
  cases hr : s.refill g with
  | error p => exact ⟨rfl, fun o s' e => by cases e⟩
  | ok s1 =>
    have h1 := h.refill hs hr
    rw [bind_ok, bind_ok]
    cases hq : pop s1.work with
    | none => exact ⟨rfl, fun o s' e => by cases e; exact h1⟩
    | some q =>
      obtain ⟨n, rest⟩ := q
      have hperm : s1.work.Perm (n :: rest) := by
        have hne : s1.work ≠ [] := by
          intro hc
          rw [hc, hp.nil] at hq
          cases hq
        obtain ⟨x, r, h3, h4⟩ := hp.cons _ hne
        rw [hq] at h3
        cases h3
        exact h4
      have hw : ∀ x, x ∈ n :: rest → (A.node x).isSome := fun x hx => h1.work x (hperm.mem_iff.2 hx)
      have h2 : Hides A U ⟨rest, s1.undiscovered⟩ :=
        ⟨h1.short, h1.hidden, fun x hx => hw x (List.mem_cons_of_mem _ hx)⟩
      obtain ⟨e1, e2⟩ := expand_part hs h2 (hw n (List.mem_cons_self ..))
      simp only
      rw [← e1]
      refine ⟨rfl, fun o s' e => ?_⟩
      obtain ⟨s2, e3, e4⟩ := bind_eq_ok e
      cases e4
      exact e2 _ e3

theorem drain_part {pop : List (Id m) → Option (Id m × List (Id m))} (hp : Pops pop) (hs : Shows g A) :
    ∀ (fuel : Nat) {s : Traversal m}, Hides A U s →
      drain (nextWith pop g) fuel s = drain (nextWith pop (part g A U)) fuel s ∧
      ∀ l s', drain (nextWith pop g) fuel s = .ok (l, s') → Hides A U s'
  | 0, _, _ => ⟨rfl, fun _ _ e => by cases e⟩
  | fuel + 1, s, h => by
    obtain ⟨e1, e2⟩ := nextWith_part hp hs h
    unfold drain
    rw [← e1]
    cases hn : nextWith pop g s with
    | error p => exact ⟨rfl, fun _ _ e => by cases e⟩
    | ok q =>
      obtain ⟨o, s1⟩ := q
      have h1 := e2 _ _ hn
      cases o with
      | none => exact ⟨rfl, fun _ _ e => by cases e; exact h1⟩
      | some x =>
        rw [bind_ok, bind_ok]
        simp only
        obtain ⟨i1, i2⟩ := drain_part hp hs fuel h1
        rw [← i1]
        refine ⟨rfl, fun l s' e => ?_⟩
        obtain ⟨⟨l2, s2⟩, e3, e4⟩ := bind_eq_ok e
        cases e4
        exact i2 _ _ e3

/-- The made-up answers fit. -/
theorem part_shows (hs : Shows g A) : Shows (part g A U) (A.on U) := by
  have hall : ∀ e : Id m × Id m,
      e ∈ (List.finRange (m + 1)).flatMap (fun s => (List.finRange (m + 1)).map (fun t => (s, t))) := by
    rintro ⟨s, t⟩
    exact List.mem_flatMap.2 ⟨s, List.mem_finRange s, List.mem_map.2 ⟨t, List.mem_finRange t, rfl⟩⟩
  have hnd : ((List.finRange (m + 1)).flatMap (fun s => (List.finRange (m + 1)).map (fun t => (s, t)))).Nodup := by
    rw [List.nodup_flatMap]
    refine ⟨fun s _ => (List.nodup_finRange _).map (fun a b h => (Prod.mk.inj h).2), ?_⟩
    refine (List.nodup_finRange (m + 1)).imp ?_
    intro a b hab e h1 h2
    obtain ⟨x, -, rfl⟩ := List.mem_map.1 h1
    obtain ⟨y, -, h⟩ := List.mem_map.1 h2
    exact hab (Prod.mk.inj h).1.symm
  have hnode : ∀ n : Id m, ((A.on U).node n).isSome ↔ (A.node n).isSome ∧ U n := by
    intro n
    unfold AGraph.on
    by_cases h : U n <;> simp [h]
  refine ⟨?_, fun h => absurd h (by simp [part]), ?_, ?_, ?_, ?_, ?_, ?_, ?_, ?_, ?_, ?_, ?_, ?_⟩
  · intro s t h
    by_cases hb : U s ∧ U t
    · simp only [AGraph.on, if_pos hb, Option.isSome_map] at h
      obtain ⟨h1, h2⟩ := hs.ends s t h
      exact ⟨(hnode s).2 ⟨h1, hb.1⟩, (hnode t).2 ⟨h2, hb.2⟩⟩
    · simp [AGraph.on, hb] at h
  · intro n
    rw [Bool.eq_iff_iff, hnode]
    show (g.hasNode n && decide (U n)) = true ↔ _
    rw [hs.hasNode]
    simp
  · exact hs.nodesNodup.filter _
  · intro n
    show n ∈ g.nodeIndices.filter _ ↔ _
    rw [List.mem_filter, hs.memNodes, hnode]
    simp
  · rfl
  · intro s t _; rfl
  · exact hnd.filter _
  · intro s t
    unfold part AGraph.Listed
    simp only [List.mem_filter, hall, true_and, true_or, and_true]
  · unfold part
    simp [List.map_map, Function.comp_def]
  · intro n l h
    have : l = none := by
      unfold AGraph.on at h
      by_cases hb : U n
      · simp only [if_pos hb, Option.map_eq_some_iff] at h
        obtain ⟨_, _, h⟩ := h
        exact h.symm
      · simp [hb] at h
    subst this
    rfl
  · intro s t l h _
    have : l = none := by
      unfold AGraph.on at h
      by_cases hb : U s ∧ U t
      · simp only [if_pos hb, Option.map_eq_some_iff] at h
        obtain ⟨_, _, h⟩ := h
        exact h.symm
      · simp [hb] at h
    subst this
    rfl
  · intro n hn'
    obtain ⟨hn, hU⟩ := (hnode n).1 hn'
    obtain ⟨l, h1, h2, h3, -⟩ := hs.neighbors n hn
    refine ⟨l.filter (fun t => decide (U t)), ?_, h2.filter _, ?_, ?_⟩
    · show (do let l ← g.neighbors n; pure (l.filter (fun t => decide (U t))) : Res _) = _
      rw [h1]; rfl
    · intro t
      rw [List.mem_filter, h3]
      unfold AGraph.on
      by_cases ht : U t <;> simp [ht, hU]
    · show (do let l ← g.neighbors n; pure (l.filter (fun t => decide (U t))).length : Res _) = _
      rw [h1]; rfl
  · rintro ⟨n, hn⟩
    obtain ⟨M, hM, hle⟩ := hs.maxSeen ⟨n, ((hnode n).1 hn).1⟩
    exact ⟨M, hM, fun n hn => hle n ((hnode n).1 hn).1⟩

/-- A depth-first search from `s` with the nodes in `P` discovered. -/
theorem dfs_sweep_part (hs : Shows g A) {P : List (Id m)} {s : Id m} {b : BitSet} (h : WInv A P ⟨[s], b⟩)
    (hU : ∀ n, (A.node n).isSome → (U n ↔ n ∉ P)) :
    ∃ l st', Yields (Dfs.next g) ⟨[s], b⟩ l st' ∧ Dfs.next g st' = .ok (none, st') ∧
      (A.on U).Sweep s (A.on U).LastIn l := by
  have hnode : ∀ n : Id m, ((A.on U).node n).isSome ↔ (A.node n).isSome ∧ U n := by
    intro n
    unfold AGraph.on
    by_cases h : U n <;> simp [h]
  have hnd := h.nodup
  have hsP : s ∉ P := by
    intro hc
    exact (List.nodup_append'.1 hnd).2.2 hc (List.mem_singleton.2 rfl)
  have hsn : (A.node s).isSome := h.nodes s (by simp)
  have hI : SInv (A.on U) [] ⟨[s], b⟩ := by
    refine ⟨⟨List.nodup_singleton _, ?_, fun n hn => h.len n ((hnode n).1 hn).1, h.short, ?_⟩, fun u hu => by cases hu⟩
    · intro x hx
      rw [List.nil_append, List.mem_singleton] at hx
      subst hx
      exact (hnode x).2 ⟨hsn, (hU x hsn).2 hsP⟩
    · intro n hn
      obtain ⟨h1, h2⟩ := (hnode n).1 hn
      rw [h.bits n h1]
      have := (hU n h1).1 h2
      simp [this]
  have hH : Hides A U ⟨[s], b⟩ := by
    refine ⟨h.short, fun n h1 h2 => ?_, fun n hn => h.nodes n (List.mem_append_right _ hn)⟩
    have : n ∈ P := by
      by_contra hc
      exact h2 ((hU n h1).2 hc)
    cases hq : BitSet.contains b n.val with
    | false => rfl
    | true => exact absurd (List.mem_append_left _ this) ((h.bits n h1).1 hq)
  obtain ⟨l, st', ⟨f, h1⟩, h2, h3⟩ := dfs_sweep (part_shows (U := U) hs) hI
  rw [dfs_next] at *
  obtain ⟨e1, e2⟩ := drain_part (U := U) pops_back hs f hH
  rw [← e1] at h1
  refine ⟨l, st', ⟨f, h1⟩, ?_, h3⟩
  rw [(nextWith_part pops_back hs (e2 _ _ h1)).1]
  exact h2

end Traversal

end Verif
