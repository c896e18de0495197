import Verif.Model.SearchState
import Verif.Proof.Traversal
import Mathlib.Data.Finset.Card
import Mathlib.Data.Finset.Range

/-! Lemmas about searches whose panics are caught. -/

namespace Verif.Proof

open Verif

variable {m k : Nat} {NL EL : Type} {g : GView m k NL EL}

theorem lt_of_contains {b : BitSet} {i : Nat} (h : b.contains i = true) : i < b.length := by
  by_contra hlt
  unfold BitSet.contains at h
  rw [List.getD_eq_getElem?_getD, List.getElem?_eq_none (by omega)] at h
  cases h

/-- `P` are the nodes taken off the work list so far. -/
structure Taken (B : Nat) (P : List (Id m)) (s : Traversal m) : Prop where
  len : s.undiscovered.length = B
  nodup : (P ++ s.work).Nodup
  mem : ∀ v : Id m, v ∈ P ++ s.work ↔ v.val < B ∧ s.undiscovered.contains v.val = false

theorem Taken.mark {B : Nat} {P : List (Id m)} {s : Traversal m} (h : Taken B P s) {n : Id m}
    (hn : s.undiscovered.contains n.val = true) :
    ∃ b, s.undiscovered.put n.val false = .ok b ∧ Taken B P ⟨s.work ++ [n], b⟩ := by
  have hlt := lt_of_contains hn
  refine ⟨_, BitSet.put_ok hlt, by simpa using h.len, ?_, fun v => ?_⟩
  · rw [← List.append_assoc]
    refine List.nodup_append'.2 ⟨h.nodup, by simp, ?_⟩
    intro v hv hv'
    simp only [List.mem_singleton] at hv'
    subst hv'
    have := ((h.mem v).1 hv).2
    rw [hn] at this
    cases this
  · rw [← List.append_assoc, List.mem_append, h.mem v, BitSet.contains_set hlt, List.mem_singleton]
    by_cases e : v = n
    · subst e
      rw [h.len] at hlt
      simp [hlt]
    · have : n.val ≠ v.val := fun e' => e (Fin.ext e'.symm)
      simp [this, e]

theorem Taken.discover {B : Nat} {P : List (Id m)} {s : Traversal m} (h : Taken B P s) (n : Id m) :
    ∃ s', s.discover n = .ok s' ∧ Taken B P s' := by
  unfold Traversal.discover
  by_cases hn : s.undiscovered.contains n.val = true
  · obtain ⟨b, hb, ht⟩ := h.mark hn
    rw [if_pos hn, hb]
    exact ⟨_, rfl, ht⟩
  · rw [if_neg hn]
    exact ⟨_, rfl, h⟩

theorem Taken.discoverAll {B : Nat} {P : List (Id m)} : ∀ (l : List (Id m)) {s : Traversal m}, Taken B P s →
    ∃ s', l.foldlM Traversal.discover s = .ok s' ∧ Taken B P s'
  | [], s, h => ⟨s, rfl, h⟩
  | n :: l, s, h => by
    obtain ⟨s1, h1, ht⟩ := h.discover n
    obtain ⟨s2, h2, ht2⟩ := Taken.discoverAll l ht
    refine ⟨s2, ?_, ht2⟩
    rw [List.foldlM_cons, h1]
    exact h2

theorem Taken.refill {B : Nat} {P : List (Id m)} {s : Traversal m} (h : Taken B P s) (hB : B ≤ m + 1) :
    ∃ s', s.refill g = .ok s' ∧ Taken B P s' ∧ (s.work ≠ [] → s' = s) ∧
      (s'.work = [] → ∀ v : Id m, v.val < B → g.hasNode v = true → v ∈ P) := by
  unfold Traversal.refill
  by_cases hw : s.work.length = 0
  · rw [if_pos hw]
    have hw' : s.work = [] := List.length_eq_zero_iff.1 hw
    cases hu : s.nextUnvisited g with
    | none =>
      refine ⟨s, rfl, h, fun _ => rfl, fun _ v hv hg => ?_⟩
      by_contra hP
      have hc : s.undiscovered.contains v.val = true := by
        by_contra hc
        exact hP (by simpa [hw'] using (h.mem v).2 ⟨hv, by simpa using hc⟩)
      unfold Traversal.nextUnvisited at hu
      rw [Option.map_eq_none_iff, List.find?_eq_none] at hu
      have := hu v.val (BitSet.mem_ones.2 hc)
      rw [show Id.new v.val = v from Fin.ext (by simp [Id.new])] at this
      exact this hg
    | some n =>
      unfold Traversal.nextUnvisited at hu
      rw [Option.map_eq_some_iff] at hu
      obtain ⟨i, hi, rfl⟩ := hu
      have hc := BitSet.mem_ones.1 (List.mem_of_find?_eq_some hi)
      have hlt := lt_of_contains hc
      rw [h.len] at hlt
      have hv : (Id.new i : Id m).val = i := by simp [Id.new, Nat.mod_eq_of_lt (show i < m + 1 by omega)]
      obtain ⟨b, hb, ht⟩ := h.mark (n := Id.new i) (by rw [hv]; exact hc)
      simp only [hb]
      exact ⟨_, rfl, ht, fun e => absurd hw' e, fun e => by simp at e⟩
  · rw [if_neg hw]
    have hw' : s.work ≠ [] := fun e => hw (by simp [e])
    exact ⟨s, rfl, h, fun _ => rfl, fun e => absurd e hw'⟩

theorem Taken.perm {B : Nat} {P P' : List (Id m)} {s s' : Traversal m} (h : Taken B P s)
    (hp : (P' ++ s'.work).Perm (P ++ s.work)) (hb : s'.undiscovered = s.undiscovered) : Taken B P' s' :=
  ⟨by rw [hb, h.len], hp.nodup_iff.2 h.nodup, fun v => by rw [hp.mem_iff, h.mem v, hb]⟩

theorem Taken.bound {B : Nat} {P : List (Id m)} {s : Traversal m} (h : Taken B P s) : P.length ≤ B := by
  have hn : (P.map Fin.val).Nodup := (List.Nodup.of_append_left h.nodup).map Fin.val_injective
  have hs : (P.map Fin.val).toFinset ⊆ Finset.range B := by
    intro i hi
    simp only [List.mem_toFinset, List.mem_map] at hi
    obtain ⟨v, hv, rfl⟩ := hi
    exact Finset.mem_range.2 ((h.mem v).1 (List.mem_append_left _ hv)).1
  have := Finset.card_le_card hs
  rw [List.toFinset_card_of_nodup hn, Finset.card_range, List.length_map] at this
  exact this

/-- What one call does, for either search. -/
def Fair (g : GView m k NL EL) (next : Traversal m → Res (Option (Id m)) × Traversal m) : Prop :=
  ∀ B P s, B ≤ m + 1 → Taken B P s →
    (∃ v s', next s = ((g.neighbors v).map (fun _ => some v), s') ∧ Taken B (P ++ [v]) s' ∧
      (∀ u, s.work = [u] → v = u)) ∨
    (next s = (.ok none, s) ∧ s.work = [] ∧ ∀ v : Id m, v.val < B → g.hasNode v = true → v ∈ P)

theorem expand_map (n : Id m) {B : Nat} {P : List (Id m)} {s : Traversal m} (h : Taken B P s) :
    (∃ p, g.neighbors n = .error p ∧ Traversal.expand g n s = .error p) ∨
    (∃ l s', g.neighbors n = .ok l ∧ Traversal.expand g n s = .ok s' ∧ Taken B P s') := by
  unfold Traversal.expand
  cases hn : g.neighbors n with
  | error p => exact .inl ⟨p, rfl, rfl⟩
  | ok l =>
    obtain ⟨s', hs, ht⟩ := Taken.discoverAll l h
    exact .inr ⟨l, s', rfl, hs, ht⟩

theorem bfs_fair (g : GView m k NL EL) : Fair g (Bfs.nextKeep g) := by
  intro B P s hB h
  obtain ⟨s1, h1, ht, hsame, hend⟩ := h.refill (g := g) hB
  unfold Bfs.nextKeep
  rw [h1]
  simp only
  cases hw : s1.work with
  | nil =>
    have hs : s.work = [] := by
      by_contra hs
      rw [hsame hs] at hw
      exact hs hw
    have he : s1 = s := by
      unfold Traversal.refill at h1
      rw [if_pos (by simp [hs])] at h1
      split at h1
      · obtain ⟨b, -, h1⟩ := bind_eq_ok h1
        cases h1
        simp at hw
      · cases h1; rfl
    exact .inr ⟨by simp [he], hs, hend hw⟩
  | cons n rest =>
    left
    have ht2 : Taken B (P ++ [n]) ⟨rest, s1.undiscovered⟩ :=
      ht.perm (s' := ⟨rest, s1.undiscovered⟩) (by simp [hw]) rfl
    have hu : ∀ u, s.work = [u] → n = u := by
      intro u hu
      rw [hsame (by simp [hu]), hu] at hw
      cases hw
      rfl
    rcases expand_map (g := g) n ht2 with ⟨p, hn, he⟩ | ⟨l, s', hn, he, ht3⟩
    · exact ⟨n, _, by simp only [he, hn]; rfl, ht2, hu⟩
    · exact ⟨n, _, by simp only [he, hn]; rfl, ht3, hu⟩

theorem dfs_fair (g : GView m k NL EL) : Fair g (Dfs.nextKeep g) := by
  intro B P s hB h
  obtain ⟨s1, h1, ht, hsame, hend⟩ := h.refill (g := g) hB
  unfold Dfs.nextKeep
  rw [h1]
  simp only
  cases hl : s1.work.getLast? with
  | none =>
    have hw : s1.work = [] := List.getLast?_eq_none_iff.1 hl
    have hs : s.work = [] := by
      by_contra hs
      rw [hsame hs] at hw
      exact hs hw
    have he : s1 = s := by
      unfold Traversal.refill at h1
      rw [if_pos (by simp [hs])] at h1
      split at h1
      · obtain ⟨b, -, h1⟩ := bind_eq_ok h1
        cases h1
        simp at hw
      · cases h1; rfl
    exact .inr ⟨by simp [he], hs, hend hw⟩
  | some n =>
    left
    have hd : s1.work = s1.work.dropLast ++ [n] := (List.dropLast_append_getLast? n hl).symm
    have ht2 : Taken B (P ++ [n]) ⟨s1.work.dropLast, s1.undiscovered⟩ := by
      refine ht.perm (s' := ⟨s1.work.dropLast, s1.undiscovered⟩) ?_ rfl
      simp only [List.append_assoc]
      conv_rhs => rw [hd]
      exact (List.perm_append_comm).append_left P
    have hu : ∀ u, s.work = [u] → n = u := by
      intro u hu
      rw [hsame (by simp [hu]), hu] at hl
      simpa using hl.symm
    rcases expand_map (g := g) n ht2 with ⟨p, hn, he⟩ | ⟨l, s', hn, he, ht3⟩
    · exact ⟨n, _, by simp only [he, hn]; rfl, ht2, hu⟩
    · exact ⟨n, _, by simp only [he, hn]; rfl, ht3, hu⟩

theorem replies_stay {S X : Type} {next : S → Res (Option X) × S} {s : S} {r : Res (Option X)}
    (h : next s = (r, s)) : ∀ n, replies next n s = List.replicate n r
  | 0 => rfl
  | n + 1 => by
    unfold replies
    rw [h]
    simp only [List.replicate_succ]
    rw [replies_stay h n]

/-- All the calls, for either search. -/
theorem fair_all {next : Traversal m → Res (Option (Id m)) × Traversal m} (hf : Fair g next) {B : Nat}
    (hB : B ≤ m + 1) : ∀ d P s, B ≤ P.length + d → Taken B P s →
    ∃ Q : List (Id m), (P ++ Q).Nodup ∧ (∀ v ∈ P ++ Q, v.val < B) ∧
      (∀ v : Id m, v.val < B → g.hasNode v = true → v ∈ P ++ Q) ∧
      (∀ u, s.work = [u] → Q.head? = some u) ∧
      ∀ n, replies next n s = (Q.map (fun v => (g.neighbors v).map (fun _ => some v)) ++
        List.replicate n (Except.ok none)).take n := by
  intro d
  induction d with
  | zero =>
    intro P s hd h
    rcases hf B P s hB h with ⟨v, s', -, ht, -⟩ | ⟨hn, hw, hall⟩
    · have := ht.bound
      simp at this
      omega
    · refine ⟨[], by simpa using List.Nodup.of_append_left h.nodup, ?_, by simpa using hall, by simp [hw], ?_⟩
      · intro v hv
        exact ((h.mem v).1 (List.mem_append_left _ (by simpa using hv))).1
      · intro n
        rw [replies_stay hn]
        simp
  | succ d ih =>
    intro P s hd h
    rcases hf B P s hB h with ⟨v, s', hn, ht, hu⟩ | ⟨hn, hw, hall⟩
    · obtain ⟨Q, h1, h2, h3, -, h5⟩ := ih (P ++ [v]) s' (by simp; omega) ht
      refine ⟨v :: Q, by simpa using h1, by simpa using h2, by simpa using h3, ?_, ?_⟩
      · intro u hw
        rw [hu u hw]
        rfl
      · intro n
        cases n with
        | zero => rfl
        | succ n =>
          unfold replies
          rw [hn]
          simp only [List.map_cons, List.cons_append, List.take_succ_cons]
          rw [h5 n, List.replicate_succ', ← List.append_assoc, List.take_append_of_le_length
            (l₂ := [Except.ok none]) (by simp)]
    · refine ⟨[], by simpa using List.Nodup.of_append_left h.nodup, ?_, by simpa using hall, by simp [hw], ?_⟩
      · intro v hv
        exact ((h.mem v).1 (List.mem_append_left _ (by simpa using hv))).1
      · intro n
        rw [replies_stay hn]
        simp

/-- The state a search begins with. -/
theorem new_taken {start : Option (Id m)} {s : Traversal m} (h : Traversal.new g start = .ok s) :
    ∃ M n : Id m, g.maxSeenId = .ok (some M) ∧ Traversal.startNode g start = .ok n ∧ s.work = [n] ∧
      Taken (M.val + 1) [] s := by
  unfold Traversal.new at h
  obtain ⟨s0, h0, h⟩ := bind_eq_ok h
  unfold Traversal.withCapacity at h0
  obtain ⟨o, ho, h0⟩ := bind_eq_ok h0
  obtain ⟨M, hM, h0⟩ := bind_eq_ok h0
  cases h0
  cases o with
  | none => cases hM
  | some M' =>
    cases hM
    unfold Traversal.moveTo at h
    obtain ⟨n, hn, h⟩ := bind_eq_ok h
    obtain ⟨b, hb, h⟩ := bind_eq_ok h
    cases h
    have hlt : n.val < M.val + 1 := by
      by_contra hlt
      unfold BitSet.put at hb
      rw [if_neg (by simpa [BitSet.full] using hlt)] at hb
      cases hb
    have h0 : Taken (M.val + 1) ([] : List (Id m)) ⟨[], BitSet.full (M.val + 1)⟩ :=
      ⟨by simp [BitSet.full], by simp, fun v => by simp [BitSet.contains_full]⟩
    obtain ⟨b', hb', ht⟩ := h0.mark (n := n) (by simpa [BitSet.contains_full] using hlt)
    simp only at hb'
    rw [hb'] at hb
    cases hb
    exact ⟨M, n, ho, hn, rfl, by simpa using ht⟩

end Verif.Proof
