import Verif.Spec.Unsorted
import Verif.Proof.Loops
import Verif.Proof.Zip

/-! The edge iterator on rows that need not be sorted. -/

namespace Verif

open Spec

variable {m k : Nat}

namespace EdgeIter

open EdgeVec

variable {ev : EdgeVec m k}

/-- What is still listed from entry `i` of a row on. -/
def left (d : Bool) (n : Nat) (nb : List (Id m)) (i : Nat) : List (Id m) :=
  if d = true ∨ ∀ t ∈ nb.drop i, n ≤ t.val then nb.drop i
  else (nb.drop i).takeWhile (fun t => decide (n ≤ t.val)) ++ nb.drop (landing nb n)

theorem left_end {d : Bool} {n : Nat} {nb : List (Id m)} {i : Nat} (h : nb.length ≤ i) : left d n nb i = [] := by
  unfold left
  rw [List.drop_eq_nil_of_le h]
  simp

theorem pick_landing {d : Bool} {n i : Nat} {nb : List (Id m)} (hn : n ≤ m) (hi : i < nb.length) :
    pick nb d n i = .ok (if d = true ∨ n ≤ nb[i].val then some i
      else if landing nb n < nb.length then some (landing nb n) else none) := by
  unfold pick
  cases d with
  | true => rfl
  | false =>
    rw [if_neg (by simp), index_lt hi, bind_ok]
    by_cases hlt : nb[i] < Id.new n
    · rw [if_pos hlt]
      have : ¬ n ≤ nb[i].val := by
        have := Fin.lt_def.1 hlt
        rw [Id_new_val hn] at this; omega
      simp only [Bool.false_eq_true, this, or_self, if_false]
      unfold landing
      rcases binarySearch_total nb (Id.new n) with ⟨j, h1, h2⟩ | ⟨j, h1, -⟩
      · have hj : j < nb.length := by
          by_contra hc
          rw [List.getElem?_eq_none (by omega)] at h2; cases h2
        simp [h1, bind_ok, pure_ok, hj]
      · simp [h1, bind_ok, pure_ok]
    · rw [if_neg hlt]
      have : n ≤ nb[i].val := by
        have := not_lt.1 hlt
        rw [Fin.le_def, Id_new_val hn] at this; omega
      simp [this, pure_ok]

theorem pick_left {d : Bool} {n i : Nat} {nb : List (Id m)} (hn : n ≤ m) (hi : i < nb.length)
    (hs : Settles d n nb) :
    (∃ j, ∃ h : j < nb.length, pick nb d n i = .ok (some j) ∧ left d n nb i = nb[j] :: left d n nb (j + 1)) ∨
    (pick nb d n i = .ok none ∧ left d n nb i = []) := by
  rw [pick_landing hn hi]
  have hcons := List.drop_eq_getElem_cons hi
  have hmem : (∀ t ∈ nb.drop i, n ≤ t.val) ↔ n ≤ nb[i].val ∧ ∀ t ∈ nb.drop (i + 1), n ≤ t.val := by
    rw [hcons, List.forall_mem_cons]
  have htw : (nb.drop i).takeWhile (fun t => decide (n ≤ t.val)) =
      if n ≤ nb[i].val then nb[i] :: (nb.drop (i + 1)).takeWhile (fun t => decide (n ≤ t.val)) else [] := by
    rw [hcons, List.takeWhile_cons]
    simp only [decide_eq_true_eq]
  by_cases hd : d = true
  · left
    refine ⟨i, hi, by simp [hd], ?_⟩
    unfold EdgeIter.left
    simp only [hd, true_or, if_true]
    exact hcons
  · by_cases hle : n ≤ nb[i].val
    · left
      refine ⟨i, hi, by simp [hle], ?_⟩
      unfold EdgeIter.left
      by_cases hall : ∀ t ∈ nb.drop (i + 1), n ≤ t.val
      · rw [if_pos (.inr (hmem.2 ⟨hle, hall⟩)), if_pos (.inr hall)]
        exact hcons
      · rw [if_neg (not_or.2 ⟨hd, fun h => hall (hmem.1 h).2⟩), if_neg (not_or.2 ⟨hd, hall⟩), htw, if_pos hle]
        rfl
    · have hsm : EdgeIter.left d n nb i = nb.drop (landing nb n) := by
        unfold EdgeIter.left
        rw [if_neg (not_or.2 ⟨hd, fun h => hle (hmem.1 h).1⟩), htw, if_neg hle]
        rfl
      rw [hsm]
      by_cases hp : landing nb n < nb.length
      · left
        refine ⟨_, hp, by simp [hd, hle, hp], ?_⟩
        rw [List.drop_eq_getElem_cons hp]
        unfold EdgeIter.left
        have : ∀ t ∈ nb.drop (landing nb n + 1), n ≤ t.val := by
          rcases hs with h | h | h
          · exact absurd h hd
          · exact absurd (h _ (List.getElem_mem hi)) hle
          · exact h
        rw [if_pos (.inr this)]
      · right
        exact ⟨by simp [hd, hle, hp], List.drop_eq_nil_of_le (by omega)⟩

section
variable (c : Nat) (hc : ev.offsets.length = c + 1) (hm : c ≤ m)
include hc hm

/-- One row that is gone through. -/
theorem trace_row (d : Bool) {n : Nat} (hn : n < c) (hp : Passable ev n) (hs : Settles d n (rowOf ev n)) {F : Nat}
    (hF : c - n < F) : ∀ r i, (left d n (rowOf ev n) i).length = r →
    trace ev d (r + F) ⟨n, i⟩ = ((left d n (rowOf ev n) i).map (fun t => (Id.new n, t)) ++ (trace ev d F ⟨n + 1, 0⟩).1,
      (trace ev d F ⟨n + 1, 0⟩).2) := by
  obtain ⟨a, b, hab, h1, h2⟩ := hp
  have hv : (Id.new n : Id m).val = n := Id_new_val (by omega)
  have hnn : (Id.new n : Id m).val < ev.offsets.length - 1 := by rw [hv]; omega
  have hab' : Bounds ev (Id.new n : Id m).val a b := by rw [hv]; exact hab
  have hdeg := degree_raw hnn hab'
  rw [if_neg (by omega)] at hdeg
  have hlen := rowOf_length hab h1 h2
  have hnb : b - a ≠ 0 → ev.neighbors (Id.new n) = .ok (rowOf ev n) := by
    intro hz
    have := neighbors_raw hnn hab'
    rwa [if_pos ⟨h1, by omega⟩, hv] at this
  have hstay : ∀ f i, i < (rowOf ev n).length → 0 < f → next ev d f ⟨n, i⟩ =
      (do match ← pick (rowOf ev n) d n i with
          | some j => yieldAt (rowOf ev n) n j
          | none => next ev d (f - 1) ⟨n + 1, 0⟩) := by
    intro f i hi hf
    obtain ⟨f, rfl⟩ : ∃ g, f = g + 1 := ⟨f - 1, by omega⟩
    conv_lhs => unfold next
    rw [skip_stay c hc hm hn hdeg (by omega) (by omega)]
    simp only [bind_ok]
    rw [has_at c hc hm hn.le]
    simp only [bind_ok, hn, decide_true, if_true, hnb (by omega)]
    rfl
  intro r
  induction r with
  | zero =>
    intro i hr
    have hnil := List.length_eq_zero_iff.1 hr
    rw [hnil, Nat.zero_add]
    simp only [List.map_nil, List.nil_append]
    refine trace_of_next ?_
    by_cases hi : i < (rowOf ev n).length
    · rcases pick_left (by omega) hi hs with ⟨j, hj, -, h4⟩ | ⟨h3, -⟩
      · rw [hnil] at h4; cases h4
      · rw [hstay F i hi (by omega), h3]
        simp only [bind_ok]
        obtain ⟨f, rfl⟩ : ∃ g, F = g + 1 := ⟨F - 1, by omega⟩
        exact (next_more c hc hm d f (n + 1) 0 (by omega) (by omega)).symm
    · exact next_skip c hc hm hn hdeg (by omega) hF
  | succ r ih =>
    intro i hr
    have hi : i < (rowOf ev n).length := by
      by_contra hcon
      rw [left_end (by omega)] at hr; cases hr
    rcases pick_left (by omega) hi hs with ⟨j, hj, h3, h4⟩ | ⟨-, h4⟩
    · rw [h4] at hr ⊢
      have hnext : next ev d (r + F + 1) ⟨n, i⟩ = .ok (some ((Id.new n, (rowOf ev n)[j]), ⟨n, j + 1⟩)) := by
        rw [hstay _ i hi (by omega), h3]
        simp only [bind_ok]
        unfold yieldAt
        rw [index_lt hj]; rfl
      rw [show r + 1 + F = r + F + 1 by omega]
      conv_lhs => unfold trace
      rw [hnext]
      simp only
      rw [ih (j + 1) (by simpa using hr)]
      rfl
    · rw [h4] at hr; cases hr

omit hc hm in
theorem left_zero (d : Bool) (n : Nat) (nb : List (Id m)) : left d n nb 0 = shown d n nb := rfl

/-- The rows that are gone through, then the rest. -/
theorem trace_rows (d : Bool) : ∀ q n F, n + q ≤ c → (∀ j, n ≤ j → j < n + q → Passable ev j ∧ Settles d j (rowOf ev j)) →
    c - n < F →
    trace ev d (((List.range' n q).flatMap (fun n => (shown d n (rowOf ev n)).map
      (fun t => ((Id.new n : Id m), t)))).length + F) ⟨n, 0⟩ =
      ((List.range' n q).flatMap (fun n => (shown d n (rowOf ev n)).map (fun t => (Id.new n, t))) ++
        (trace ev d F ⟨n + q, 0⟩).1, (trace ev d F ⟨n + q, 0⟩).2) := by
  intro q
  induction q with
  | zero => intro n F _ _ _; simp
  | succ q ih =>
    intro n F hn hp hF
    obtain ⟨p1, p2⟩ := hp n (le_refl _) (by omega)
    have hrest := ih (n + 1) F (by omega) (fun j hj hj' => hp j (by omega) (by omega)) (by omega)
    rw [List.range'_succ, List.flatMap_cons, List.length_append, List.length_map, Nat.add_assoc]
    have := trace_row c hc hm d (n := n) (by omega) p1 p2
      (F := ((List.range' (n + 1) q).flatMap (fun n => (shown d n (rowOf ev n)).map
        (fun t => ((Id.new n : Id m), t)))).length + F) (by omega) _ 0 rfl
    rw [left_zero] at this
    rw [this, hrest]
    simp only [List.append_assoc, show n + 1 + q = n + (q + 1) by omega]

/-- A row that does not settle is gone through for ever. -/
theorem trace_stuck (d : Bool) {n : Nat} (hn : n < c) (hp : Passable ev n) (hs : ¬ Settles d n (rowOf ev n)) :
    ∀ F i, (∃ s, ∃ h : s < (rowOf ev n).length, i ≤ s ∧ landing (rowOf ev n) n < s ∧ (rowOf ev n)[s].val < n) →
    (trace ev d F ⟨n, i⟩).2 = some .diverge ∧ (trace ev d F ⟨n, i⟩).1.length = F := by
  obtain ⟨a, b, hab, h1, h2⟩ := hp
  have hv : (Id.new n : Id m).val = n := Id_new_val (by omega)
  have hnn : (Id.new n : Id m).val < ev.offsets.length - 1 := by rw [hv]; omega
  have hab' : Bounds ev (Id.new n : Id m).val a b := by rw [hv]; exact hab
  have hdeg := degree_raw hnn hab'
  rw [if_neg (by omega)] at hdeg
  have hlen := rowOf_length hab h1 h2
  have hd : d ≠ true := fun h => hs (.inl h)
  intro F
  induction F with
  | zero => intro i _; exact ⟨rfl, rfl⟩
  | succ F ih =>
    rintro i ⟨s, hsl, s1, s2, s3⟩
    have hnb : ev.neighbors (Id.new n) = .ok (rowOf ev n) := by
      have := neighbors_raw hnn hab'
      rwa [if_pos ⟨h1, by omega⟩, hv] at this
    have hi : i < (rowOf ev n).length := by omega
    have key : ∃ j, ∃ h : j < (rowOf ev n).length, j + 1 ≤ s ∧ pick (rowOf ev n) d n i = .ok (some j) := by
      rw [pick_landing (by omega) hi]
      by_cases hle : n ≤ (rowOf ev n)[i].val
      · refine ⟨i, hi, ?_, by simp [hle]⟩
        rcases Nat.lt_or_eq_of_le s1 with h | rfl
        · exact h
        · omega
      · exact ⟨landing (rowOf ev n) n, by omega, s2, by simp [hd, hle, show landing (rowOf ev n) n < (rowOf ev n).length by omega]⟩
    obtain ⟨j, hj, j1, j2⟩ := key
    have hnext : next ev d (F + 1) ⟨n, i⟩ = .ok (some ((Id.new n, (rowOf ev n)[j]), ⟨n, j + 1⟩)) := by
      unfold next
      rw [skip_stay c hc hm hn hdeg (by omega) (by omega)]
      simp only [bind_ok]
      rw [has_at c hc hm hn.le]
      simp only [bind_ok, hn, decide_true, if_true, hnb, j2]
      unfold yieldAt
      rw [index_lt hj]; rfl
    unfold trace
    rw [hnext]
    obtain ⟨e1, e2⟩ := ih (j + 1) ⟨s, hsl, j1, s2, s3⟩
    exact ⟨e1, by simp [e2]⟩

end

end EdgeIter

end Verif
