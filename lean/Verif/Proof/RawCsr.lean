import Verif.Spec.RawCsr
import Verif.Proof.Csr

/-! Queries of adjacencies of which nothing is known. -/

namespace Verif

open Spec

variable {m k : Nat}

theorem searchLoop_total (l : List (Id m)) (x : Id m) : ∀ fuel base size, size < fuel → 1 ≤ size →
    base + size ≤ l.length → ∃ b, searchLoop l x fuel base size = .ok b ∧ b < l.length := by
  intro fuel
  induction fuel with
  | zero => intro base size h; omega
  | succ fuel ih =>
    intro base size h1 h2 h3
    unfold searchLoop
    by_cases hs : size > 1
    · rw [if_pos hs]
      have hmid : base + size / 2 < l.length := by omega
      simp only
      rw [index_lt hmid, bind_ok]
      split
      · exact ih base _ (by omega) (by omega) (by omega)
      · exact ih _ _ (by omega) (by omega) (by omega)
    · rw [if_neg hs]
      exact ⟨base, rfl, by omega⟩

/-- A binary search never panics and never claims to have found what is not there. -/
theorem binarySearch_total (l : List (Id m)) (x : Id m) :
    (∃ i, binarySearch l x = .ok (.found i) ∧ l[i]? = some x) ∨
    (∃ i, binarySearch l x = .ok (.missing i) ∧ i ≤ l.length) := by
  unfold binarySearch
  by_cases h0 : l.length = 0
  · rw [if_pos h0]; exact .inr ⟨0, rfl, by omega⟩
  · rw [if_neg h0]
    obtain ⟨b, h1, h2⟩ := searchLoop_total l x (l.length + 1) 0 l.length (by omega) (by omega) (by omega)
    rw [h1, bind_ok, index_lt h2, bind_ok]
    by_cases he : l[b] = x
    · exact .inl ⟨b, by simp [he, pure_ok], by simp [h2, he]⟩
    · right
      by_cases hlt : l[b] < x
      · exact ⟨b + 1, by simp [he, hlt, pure_ok], by omega⟩
      · exact ⟨b, by simp [he, hlt, pure_ok], by omega⟩

namespace EdgeVec

variable {ev : EdgeVec m k}

theorem hasNode_raw (n : Id m) :
    ev.hasNode n = if ev.offsets.length = 0 then .error .underflow
      else .ok (decide (n.val < ev.offsets.length - 1)) := by
  unfold hasNode numNodes
  split <;> rfl

theorem bounds_of {n : Nat} (h : n < ev.offsets.length - 1) : ∃ a b, Bounds ev n a b :=
  ⟨ev.offsets[n], ev.offsets[n + 1], List.getElem?_eq_getElem (by omega), List.getElem?_eq_getElem (by omega)⟩

theorem Bounds.rowOf {n a b : Nat} (h : Bounds ev n a b) :
    Spec.rowOf ev n = (ev.edges.take b).drop a := by
  unfold Spec.rowOf
  simp [List.getD_eq_getElem?_getD, h.1, h.2]

theorem neighbors_raw {n : Id m} (hn : n.val < ev.offsets.length - 1) {a b : Nat}
    (hab : Bounds ev n.val a b) :
    ev.neighbors n = if a ≤ b ∧ b ≤ ev.edges.length then .ok (rowOf ev n.val)
      else .error .indexOutOfBounds := by
  unfold neighbors
  rw [hasNode_raw, if_neg (by omega), bind_ok]
  simp only [hn, decide_true, if_true]
  unfold row
  rw [index_eq hab.1, bind_ok, index_eq hab.2, bind_ok]
  unfold slice
  rw [Bounds.rowOf hab]; rfl

theorem degree_raw {n : Id m} (hn : n.val < ev.offsets.length - 1) {a b : Nat}
    (hab : Bounds ev n.val a b) :
    ev.degree n = if b < a then .error .underflow else .ok (b - a) := by
  unfold degree
  rw [hasNode_raw, if_neg (by omega), bind_ok]
  simp only [hn, decide_true, if_true]
  unfold rowLength
  rw [index_eq hab.1, bind_ok, index_eq hab.2, bind_ok]; rfl

theorem rowOf_length {n a b : Nat} (h : Bounds ev n a b) (hb : a ≤ b) (hle : a = b ∨ b ≤ ev.edges.length) :
    (Spec.rowOf ev n).length = b - a := by
  rw [Bounds.rowOf h]
  simp only [List.length_drop, List.length_take]
  omega

theorem outside {n : Id m} (h0 : ev.offsets.length ≠ 0) (hn : ¬ n.val < ev.offsets.length - 1) :
    ev.neighbors n = .error .explicit ∧ ev.degree n = .error .explicit := by
  unfold neighbors degree
  rw [hasNode_raw, if_neg h0, bind_ok]
  simp [hn, bind_ok]

theorem no_offsets {n : Id m} (h0 : ev.offsets.length = 0) :
    ev.neighbors n = .error .underflow ∧ ev.degree n = .error .underflow := by
  unfold neighbors degree
  rw [hasNode_raw, if_pos h0]
  exact ⟨rfl, rfl⟩

end EdgeVec

namespace EdgeIter

open EdgeVec

variable {ev : EdgeVec m k}

section
variable (c : Nat) (hc : ev.offsets.length = c + 1) (hm : c ≤ m)
include hc hm

theorem has_at {n : Nat} (hn : n ≤ c) :
    ev.hasNode (Id.new n) = .ok (decide (n < c)) := by
  rw [hasNode_raw, if_neg (by omega), Id_new_val (by omega), hc]; rfl

/-- Enough fuel is enough. -/
theorem skip_more : ∀ f n i, n ≤ c → c - n < f → skipEmpty ev (f + 1) ⟨n, i⟩ = skipEmpty ev f ⟨n, i⟩ := by
  intro f
  induction f with
  | zero => intro n i _ h; omega
  | succ f ih =>
    intro n i hn h
    conv_lhs => unfold skipEmpty
    conv_rhs => unfold skipEmpty
    simp only
    rw [has_at c hc hm hn]
    simp only [bind_ok]
    by_cases hlt : n < c
    · simp only [hlt, decide_true, if_true]
      cases ev.degree (Id.new n) with
      | error p => rfl
      | ok d =>
        simp only [bind_ok]
        split
        · exact ih (n + 1) 0 (by omega) (by omega)
        · rfl
    · simp [hlt]

/-- Skipping goes on to the next row. -/
theorem skip_next {f n i d : Nat} (hn : n < c) (hd : ev.degree (Id.new n) = .ok d) (hi : d ≤ i)
    (hf : c - n < f) : skipEmpty ev f ⟨n, i⟩ = skipEmpty ev f ⟨n + 1, 0⟩ := by
  obtain ⟨f, rfl⟩ : ∃ g, f = g + 1 := ⟨f - 1, by omega⟩
  conv_lhs => unfold skipEmpty
  simp only
  rw [has_at c hc hm hn.le]
  simp only [bind_ok, hn, decide_true, if_true, hd, ge_iff_le, hi]
  exact (skip_more c hc hm f (n + 1) 0 (by omega) (by omega)).symm

theorem skip_stay {f n i d : Nat} (hn : n < c) (hd : ev.degree (Id.new n) = .ok d) (hi : i < d)
    (hf : 0 < f) : skipEmpty ev f ⟨n, i⟩ = .ok ⟨n, i⟩ := by
  obtain ⟨f, rfl⟩ : ∃ g, f = g + 1 := ⟨f - 1, by omega⟩
  unfold skipEmpty
  simp only
  rw [has_at c hc hm hn.le]
  simp only [bind_ok, hn, decide_true, if_true, hd, ge_iff_le, not_le.2 hi, if_false, pure_ok]

theorem skip_fails {f n i : Nat} {p : Panic} (hn : n < c) (hd : ev.degree (Id.new n) = .error p)
    (hf : 0 < f) : skipEmpty ev f ⟨n, i⟩ = .error p := by
  obtain ⟨f, rfl⟩ : ∃ g, f = g + 1 := ⟨f - 1, by omega⟩
  unfold skipEmpty
  simp only
  rw [has_at c hc hm hn.le]
  simp only [bind_ok, hn, decide_true, if_true, hd, bind_error]

theorem skip_end {f i : Nat} (hf : 0 < f) : skipEmpty ev f ⟨c, i⟩ = .ok ⟨c, i⟩ := by
  obtain ⟨f, rfl⟩ : ∃ g, f = g + 1 := ⟨f - 1, by omega⟩
  unfold skipEmpty
  simp only
  rw [has_at c hc hm (le_refl c)]
  simp [bind_ok, pure_ok]

theorem skip_end_le {f n i : Nat} : ∀ {it}, n ≤ c → skipEmpty ev f ⟨n, i⟩ = .ok it →
    n ≤ it.currNode ∧ it.currNode ≤ c := by
  induction f generalizing n i with
  | zero => intro it _ h; cases h
  | succ f ih =>
    intro it hn h
    unfold skipEmpty at h
    simp only at h
    rw [has_at c hc hm hn] at h
    simp only [bind_ok] at h
    by_cases hlt : n < c
    · simp only [hlt, decide_true, if_true] at h
      obtain ⟨d, -, h⟩ := bind_eq_ok h
      split at h
      · have := ih (by omega) h; omega
      · cases h; exact ⟨le_refl _, hn⟩
    · simp only [hlt, decide_false, Bool.false_eq_true, if_false] at h
      cases h; exact ⟨le_refl _, hn⟩

theorem next_more (d : Bool) : ∀ f n i, n ≤ c → c - n < f →
    next ev d (f + 1) ⟨n, i⟩ = next ev d f ⟨n, i⟩ := by
  intro f
  induction f with
  | zero => intro n i _ h; omega
  | succ f ih =>
    intro n i hn h
    conv_lhs => unfold next
    conv_rhs => unfold next
    rw [skip_more c hc hm (f + 1) n i hn (by omega)]
    cases hs : skipEmpty ev (f + 1) ⟨n, i⟩ with
    | error p => rfl
    | ok it =>
      obtain ⟨h1, h2⟩ := skip_end_le c hc hm hn hs
      simp only [bind_ok]
      rw [has_at c hc hm h2]
      simp only [bind_ok]
      by_cases hlt : it.currNode < c
      · simp only [hlt, decide_true, if_true]
        cases ev.neighbors (Id.new it.currNode) with
        | error p => rfl
        | ok nb =>
          simp only [bind_ok]
          cases pick nb d it.currNode it.currIdx with
          | error p => rfl
          | ok o =>
            simp only [bind_ok]
            cases o with
            | some j => rfl
            | none => exact ih _ _ (by omega) (by omega)
      · simp [hlt]

/-- What is to be listed from entry `i` of row `n` on. -/
def expected (ev : EdgeVec m k) (d : Bool) : Nat → Nat → Nat → Res (List (Id m × Id m))
  | 0, _, _ => pure []
  | r + 1, n, i => do
    let deg ← ev.degree (Id.new n)
    if deg ≤ i then expected ev d r (n + 1) 0
    else do
      let nb ← ev.neighbors (Id.new n)
      let l ← expected ev d r (n + 1) 0
      pure (((nb.drop i).filter (fun t => d || decide (n ≤ t.val))).map (fun t => (Id.new n, t)) ++ l)

theorem next_skip {d : Bool} {f n i deg : Nat} (hn : n < c) (hd : ev.degree (Id.new n) = .ok deg) (hi : deg ≤ i)
    (hf : c - n < f) : next ev d f ⟨n, i⟩ = next ev d f ⟨n + 1, 0⟩ := by
  obtain ⟨f, rfl⟩ : ∃ g, f = g + 1 := ⟨f - 1, by omega⟩
  conv_lhs => unfold next
  conv_rhs => unfold next
  rw [skip_next c hc hm hn hd hi hf]

omit hc hm in
theorem collect_of_next {d : Bool} {f : Nat} {a b : EdgeIter} (h : next ev d f a = next ev d f b) :
    collect ev d f a = collect ev d f b := by
  cases f with
  | zero => rfl
  | succ f => unfold collect; rw [h]

theorem collect_raw (d : Bool) (hrow : d = true ∨ ∀ n, n < c → (rowOf ev n).Pairwise (· < ·)) :
    ∀ F r n i, n + r = c → (∀ a b, Bounds ev n a b → i ≤ b - a) →
      c + (ev.edges.length - (ev.offsets.getD n 0 + i)) < F →
      collect ev d F ⟨n, i⟩ = expected ev d r n i := by
  intro F
  induction F with
  | zero => intro r n i _ _ h; omega
  | succ F ihF =>
    intro r
    induction r with
    | zero =>
      intro n i hn _ hF
      obtain rfl : n = c := by omega
      unfold collect next
      rw [skip_end n hc hm (by omega), bind_ok]
      rw [has_at n hc hm (le_refl _)]
      simp [bind_ok, pure_ok, expected]
    | succ r ihr =>
      intro n i hn hi hF
      have hlt : n < c := by omega
      obtain ⟨a, b, hab⟩ := bounds_of (ev := ev) (n := n) (by omega)
      have hv : (Id.new n : Id m).val = n := Id_new_val (by omega)
      have hnn : (Id.new n : Id m).val < ev.offsets.length - 1 := by rw [hv]; omega
      have hab' : Bounds ev (Id.new n : Id m).val a b := by rw [hv]; exact hab
      have hdeg := degree_raw hnn hab'
      have ha : ev.offsets.getD n 0 = a := by simp [List.getD_eq_getElem?_getD, hab.1]
      have hb : ev.offsets.getD (n + 1) 0 = b := by simp [List.getD_eq_getElem?_getD, hab.2]
      rw [ha] at hF
      have hib := hi a b hab
      unfold expected
      by_cases hba : b < a
      · rw [if_pos hba] at hdeg
        rw [hdeg, bind_error]
        unfold collect next
        rw [skip_fails c hc hm hlt hdeg (by omega)]
        rfl
      · rw [if_neg hba] at hdeg
        rw [hdeg, bind_ok]
        have hnext : ∀ a' b', Bounds ev (n + 1) a' b' → 0 ≤ b' - a' := fun _ _ _ => Nat.zero_le _
        by_cases hle : b - a ≤ i
        · rw [if_pos hle, ← ihr (n + 1) 0 (by omega) hnext (by rw [hb]; omega)]
          exact collect_of_next (next_skip c hc hm hlt hdeg hle (by omega))
        · rw [if_neg hle]
          have hnb := neighbors_raw hnn hab'
          rw [hv] at hnb
          by_cases hin : a ≤ b ∧ b ≤ ev.edges.length
          · rw [if_pos hin] at hnb
            have hlen := rowOf_length hab hin.1 (.inr hin.2)
            have hpick : (∃ j, pick (rowOf ev n) d n i = .ok (some j) ∧ j < (rowOf ev n).length ∧
                ((rowOf ev n).drop i).filter (fun t => d || decide (n ≤ t.val)) = (rowOf ev n).drop j ∧
                ((rowOf ev n).drop (j + 1)).filter (fun t => d || decide (n ≤ t.val)) =
                  (rowOf ev n).drop (j + 1)) ∨
              (pick (rowOf ev n) d n i = .ok none ∧
                ((rowOf ev n).drop i).filter (fun t => d || decide (n ≤ t.val)) = []) := by
              rcases hrow with rfl | hs
              · exact .inl ⟨i, rfl, by omega, by simp, by simp⟩
              · exact pick_spec d (by omega) _ (hs n hlt) (by omega)
            rw [hnb, bind_ok]
            rcases hpick with ⟨j, p1, p2, p3, p4⟩ | ⟨p1, p2⟩
            · have hij : i ≤ j := by
                by_contra hcon
                have := congrArg List.length p3
                have h2 := List.length_filter_le (fun t => d || decide (n ≤ t.val)) ((rowOf ev n).drop i)
                simp only [List.length_drop] at this h2
                omega
              unfold collect
              have hnx : next ev d (F + 1) ⟨n, i⟩ =
                  .ok (some ((Id.new n, (rowOf ev n)[j]), ⟨n, j + 1⟩)) := by
                unfold next
                rw [skip_stay c hc hm hlt hdeg (by omega) (by omega)]
                simp only [bind_ok]
                rw [has_at c hc hm hlt.le]
                simp only [bind_ok, hlt, decide_true, if_true, hnb, p1]
                unfold yieldAt
                rw [index_lt p2]; rfl
              rw [hnx]
              simp only [bind_ok]
              have hrec := ihF (r + 1) n (j + 1) hn (by
                intro a' b' h'
                obtain ⟨e1, e2⟩ := h'
                rw [hab.1] at e1; rw [hab.2] at e2
                cases e1; cases e2; omega) (by rw [ha]; omega)
              unfold expected at hrec
              rw [hrec, p3, List.drop_eq_getElem_cons p2, hdeg, bind_ok]
              by_cases hend : b - a ≤ j + 1
              · rw [if_pos hend]
                rw [List.drop_eq_nil_of_le (by omega)]
                cases expected ev d r (n + 1) 0 with
                | error p => rfl
                | ok l => rfl
              · rw [if_neg hend, hnb, bind_ok, p4]
                cases expected ev d r (n + 1) 0 with
                | error p => rfl
                | ok l => rfl
            · rw [p2]
              have : next ev d (F + 1) ⟨n, i⟩ = next ev d (F + 1) ⟨n + 1, 0⟩ := by
                conv_lhs => unfold next
                rw [skip_stay c hc hm hlt hdeg (by omega) (by omega)]
                simp only [bind_ok]
                rw [has_at c hc hm hlt.le]
                simp only [bind_ok, hlt, decide_true, if_true, hnb, p1]
                exact (next_more c hc hm d F (n + 1) 0 (by omega) (by omega)).symm
              rw [collect_of_next this, ihr (n + 1) 0 (by omega) hnext (by rw [hb]; omega)]
              cases expected ev d r (n + 1) 0 with
              | error p => rfl
              | ok l => rfl
          · rw [if_neg hin] at hnb
            rw [hnb, bind_error]
            unfold collect next
            rw [skip_stay c hc hm hlt hdeg (by omega) (by omega)]
            simp only [bind_ok]
            rw [has_at c hc hm hlt.le]
            simp only [bind_ok, hlt, decide_true, if_true, hnb, bind_error]

theorem expected_ok (d : Bool) : ∀ r n, n + r = c → (∀ j, n ≤ j → j < c → Passable ev j) →
    expected ev d r n 0 = .ok ((List.range' n r).flatMap (fun n =>
      ((rowOf ev n).filter (fun t => d || decide (n ≤ t.val))).map (fun t => (Id.new n, t)))) := by
  intro r
  induction r with
  | zero => intro n _ _; rfl
  | succ r ih =>
    intro n hn hp
    obtain ⟨a, b, hab, h1, h2⟩ := hp n (le_refl _) (by omega)
    have hv : (Id.new n : Id m).val = n := Id_new_val (by omega)
    have hnn : (Id.new n : Id m).val < ev.offsets.length - 1 := by rw [hv]; omega
    have hab' : Bounds ev (Id.new n : Id m).val a b := by rw [hv]; exact hab
    have hdeg := degree_raw hnn hab'
    rw [if_neg (by omega)] at hdeg
    have hrest := ih (n + 1) (by omega) (fun j hj => hp j (by omega))
    have hlen := rowOf_length hab h1 h2
    unfold expected
    rw [hdeg, bind_ok, List.range'_succ, List.flatMap_cons, hrest]
    by_cases hz : b - a ≤ 0
    · rw [if_pos hz]
      have : rowOf ev n = [] := List.length_eq_zero_iff.1 (by omega)
      rw [this]; rfl
    · rw [if_neg hz]
      have hnb := neighbors_raw hnn hab'
      rw [if_pos ⟨h1, by omega⟩, hv] at hnb
      rw [hnb, bind_ok, bind_ok, List.drop_zero]; rfl

theorem expected_error (d : Bool) : ∀ r n, n + r = c → (∃ j, n ≤ j ∧ j < c ∧ ¬ Passable ev j) →
    expected ev d r n 0 = .error .underflow ∨ expected ev d r n 0 = .error .indexOutOfBounds := by
  intro r
  induction r with
  | zero => rintro n hn ⟨j, h1, h2, -⟩; omega
  | succ r ih =>
    rintro n hn ⟨j, h1, h2, h3⟩
    obtain ⟨a, b, hab⟩ := bounds_of (ev := ev) (n := n) (by omega)
    have hv : (Id.new n : Id m).val = n := Id_new_val (by omega)
    have hnn : (Id.new n : Id m).val < ev.offsets.length - 1 := by rw [hv]; omega
    have hab' : Bounds ev (Id.new n : Id m).val a b := by rw [hv]; exact hab
    have hdeg := degree_raw hnn hab'
    unfold expected
    by_cases hba : b < a
    · rw [if_pos hba] at hdeg
      rw [hdeg]; exact .inl rfl
    · rw [if_neg hba] at hdeg
      rw [hdeg, bind_ok]
      have hlater : Passable ev n → ∃ j, n + 1 ≤ j ∧ j < c ∧ ¬ Passable ev j := by
        intro hp
        refine ⟨j, ?_, h2, h3⟩
        rcases Nat.lt_or_eq_of_le h1 with h | rfl
        · exact h
        · exact absurd hp h3
      by_cases hz : b - a ≤ 0
      · rw [if_pos hz]
        exact ih (n + 1) (by omega) (hlater ⟨a, b, hab, by omega, .inl (by omega)⟩)
      · rw [if_neg hz]
        have hnb := neighbors_raw hnn hab'
        by_cases hin : a ≤ b ∧ b ≤ ev.edges.length
        · rw [if_pos hin] at hnb
          rw [hnb, bind_ok]
          rcases ih (n + 1) (by omega) (hlater ⟨a, b, hab, by omega, .inr hin.2⟩) with h | h
          · rw [h]; exact .inl rfl
          · rw [h]; exact .inr rfl
        · rw [if_neg hin] at hnb
          rw [hnb]; exact .inr rfl

end

end EdgeIter

end Verif
