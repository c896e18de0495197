import Verif.Proof.Zip

/-! Edge iteration when there is a row for every id: the row number wraps around. -/

namespace Verif

open Spec

variable {m k : Nat}

namespace EdgeIter

variable {ev : EdgeVec m k} {rows : List (List (Id m × Id k))} {lab : Bool}

theorem new_val (n : Nat) : (Id.new n : Id m).val = n % (m + 1) := rfl

theorem new_mod (n : Nat) : (Id.new (n % (m + 1)) : Id m) = Id.new n := by
  apply Fin.ext; rw [new_val, new_val, Nat.mod_mod]

section
variable (h : Encodes ev rows lab) (hm : rows.length = m + 1) (d : Bool)
include h hm

theorem has_all (n : Nat) : ev.hasNode (Id.new n) = .ok true := by
  rw [EdgeVec.hasNode_eq h, new_val, hm]
  simp [Nat.mod_lt]

/-- A row that is used up is passed over. -/
theorem next_past {n i c : Nat} (hc : n % (m + 1) = c) (hr : c < rows.length) (hi : rows[c].length ≤ i)
    {f : Nat} {r} (hn : next ev d f ⟨n + 1, 0⟩ = .ok r) : next ev d (f + 1) ⟨n, i⟩ = .ok r := by
  have hdeg : ev.degree (Id.new n) = .ok rows[c].length := by
    rw [EdgeVec.degree_eq h _ (by rw [new_val, hc]; exact hr)]
    simp only [new_val, hc]
  cases f with
  | zero => cases hn
  | succ f =>
    have hmono := next_mono (F := f + 2) hn (by omega)
    unfold next at hn
    obtain ⟨it, h1, h2⟩ := bind_eq_ok hn
    have hs : skipEmpty ev (f + 2) ⟨n, i⟩ = skipEmpty ev (f + 2) ⟨n + 1, 0⟩ := by
      rw [skip_mono h1 (show f + 1 ≤ f + 2 by omega)]
      rw [skipEmpty, has_all h hm, bind_ok]
      simp only [if_true]
      rw [hdeg, bind_ok, if_pos hi, h1]
    rw [← hmono]
    conv_lhs => unfold next
    conv_rhs => unfold next
    rw [hs]

theorem skip_here {n i c : Nat} (hc : n % (m + 1) = c) (hr : c < rows.length) (hi : i < rows[c].length)
    (f : Nat) : skipEmpty ev (f + 1) ⟨n, i⟩ = .ok ⟨n, i⟩ := by
  have hdeg : ev.degree (Id.new n) = .ok rows[c].length := by
    rw [EdgeVec.degree_eq h _ (by rw [new_val, hc]; exact hr)]
    simp only [new_val, hc]
  rw [skipEmpty, has_all h hm, bind_ok]
  simp only [if_true]
  rw [hdeg, bind_ok, if_neg (by omega)]; rfl

theorem neighbors_here {n c : Nat} (hc : n % (m + 1) = c) (hr : c < rows.length) :
    ev.neighbors (Id.new n) = .ok (rows[c].map Prod.fst) := by
  rw [EdgeVec.neighbors_eq h _ (by rw [new_val, hc]; exact hr)]
  simp only [new_val, hc]

theorem pick_mod (nb : List (Id m)) (n i : Nat) : pick nb d n i = pick nb d (n % (m + 1)) i := by
  unfold pick
  rw [new_mod]

/-- One `next`, from row `c` of the `q`-th round on: what is left of the round comes first, then the next
round starts. -/
theorem next_round (q : Nat) : ∀ t c i, c + t = m + 1 → (c = m + 1 → i = 0) →
    (∀ p l, rest d rows c i = p :: l → ∃ c' i', c' < m + 1 ∧ rest d rows c' i' = l ∧
      next ev d t ⟨q * (m + 1) + c, i⟩ = .ok (some (toEdge p, ⟨q * (m + 1) + c', i'⟩))) ∧
    (rest d rows c i = [] → ∀ f r, next ev d f ⟨(q + 1) * (m + 1), 0⟩ = .ok r →
      next ev d (f + t) ⟨q * (m + 1) + c, i⟩ = .ok r) := by
  intro t
  induction t with
  | zero =>
    intro c i hc h0
    obtain rfl : c = m + 1 := by omega
    obtain rfl := h0 rfl
    rw [rest_out d (by omega)]
    refine ⟨fun p l e => (by cases e), fun _ f r hn => ?_⟩
    have : q * (m + 1) + (m + 1) = (q + 1) * (m + 1) := by rw [Nat.succ_mul]
    rw [this]; exact hn
  | succ t ih =>
    intro c i hc h0
    have hr : c < rows.length := by omega
    have hmod : (q * (m + 1) + c) % (m + 1) = c := by
      rw [Nat.mul_comm, Nat.mul_add_mod, Nat.mod_eq_of_lt (by omega)]
    obtain ⟨ih1, ih2⟩ := ih (c + 1) 0 (by omega) (fun _ => rfl)
    by_cases hi : rows[c].length ≤ i
    · rw [rest_next d (by simpa [hr] using hi)]
      refine ⟨fun p l e => ?_, fun e f r hn => ?_⟩
      · obtain ⟨c', i', a1, a2, a3⟩ := ih1 p l e
        exact ⟨c', i', a1, a2, next_past h hm d hmod hr hi a3⟩
      · exact next_past h hm d hmod hr hi (ih2 e f r hn)
    · rw [rest_row d hr]
      have hstep : ∀ f, next ev d (f + 1) ⟨q * (m + 1) + c, i⟩ =
          (do match ← pick (rows[c].map Prod.fst) d c i with
              | some j => yieldAt (rows[c].map Prod.fst) (q * (m + 1) + c) j
              | none => next ev d f ⟨q * (m + 1) + c + 1, 0⟩) := by
        intro f
        conv_lhs => unfold next
        rw [skip_here h hm hmod hr (by omega), bind_ok, has_all h hm, bind_ok]
        simp only [if_true]
        rw [neighbors_here h hm hmod hr, bind_ok, pick_mod h hm, hmod]
        rfl
      rcases pick_spec d (node := c) (idx := i) (by omega) (rows[c].map Prod.fst)
        (EdgeVec.row_sorted h _ hr) (by simp; omega) with ⟨j, b1, b2, b3, b4⟩ | ⟨b1, b2⟩
      · rw [b3, List.drop_eq_getElem_cons b2]
        refine ⟨fun p l e => ?_, fun e => (by cases e)⟩
        simp only [List.map_cons, List.cons_append, List.cons.injEq] at e
        obtain ⟨rfl, rfl⟩ := e
        refine ⟨c, j + 1, by omega, ?_, ?_⟩
        · rw [rest_row d hr, b4]
        · rw [hstep, b1, bind_ok]
          simp only
          unfold yieldAt
          rw [index_lt b2, bind_ok]
          have : (Id.new (q * (m + 1) + c) : Id m) = Id.new c := by rw [← new_mod, hmod]
          rw [this]; rfl
      · rw [b2]
        simp only [List.map_nil, List.nil_append]
        refine ⟨fun p l e => ?_, fun e f r hn => ?_⟩
        · obtain ⟨c', i', a1, a2, a3⟩ := ih1 p l e
          exact ⟨c', i', a1, a2, by rw [hstep, b1]; exact a3⟩
        · rw [← Nat.add_assoc, hstep, b1]; exact ih2 e f r hn

/-- Zipped, the iterator goes round and round until the slice is used up. -/
theorem zip_round {X : Type} (hp : pairsOf d rows ≠ []) {F : Nat} (hF : 2 * (m + 1) ≤ F) :
    ∀ (ls : List X) (q c i n : Nat), c ≤ m + 1 → (c = m + 1 → i = 0) →
      ls.length ≤ (rest d rows c i ++ (List.replicate n (pairsOf d rows)).flatten).length →
      zip ev d F ls ⟨q * (m + 1) + c, i⟩ = .ok (((rest d rows c i ++
        (List.replicate n (pairsOf d rows)).flatten).map toEdge).zip ls) := by
  have key : ∀ q c i, c ≤ m + 1 → (c = m + 1 → i = 0) →
      ∃ p l q' c' i', c' < m + 1 ∧
        next ev d F ⟨q * (m + 1) + c, i⟩ = .ok (some (toEdge p, ⟨q' * (m + 1) + c', i'⟩)) ∧
        ((rest d rows c i = p :: l ∧ rest d rows c' i' = l) ∨
          (rest d rows c i = [] ∧ pairsOf d rows = p :: l ∧ rest d rows c' i' = l)) := by
    intro q c i hc h0
    obtain ⟨h1, h2⟩ := next_round h hm d q (m + 1 - c) c i (by omega) h0
    cases hrest : rest d rows c i with
    | cons p l =>
      obtain ⟨c', i', a1, a2, a3⟩ := h1 p l hrest
      exact ⟨p, l, q, c', i', a1, next_mono a3 (by omega), .inl ⟨rfl, a2⟩⟩
    | nil =>
      obtain ⟨p, l, hpl⟩ := List.exists_cons_of_ne_nil hp
      obtain ⟨g1, -⟩ := next_round h hm d (q + 1) (m + 1) 0 0 (by omega) (fun _ => rfl)
      obtain ⟨c', i', a1, a2, a3⟩ := g1 p l (by rw [rest_zero, hpl])
      exact ⟨p, l, q + 1, c', i', a1, next_mono (h2 hrest _ _ a3) (by omega), .inr ⟨rfl, hpl, a2⟩⟩
  intro ls
  induction ls with
  | nil =>
    intro q c i n hc h0 _
    obtain ⟨p, l, q', c', i', -, hn, -⟩ := key q c i hc h0
    rw [zip, hn, bind_ok, List.zip_nil_right]; rfl
  | cons x xs ih =>
    intro q c i n hc h0 hl
    obtain ⟨p, l, q', c', i', hc', hn, hcase⟩ := key q c i hc h0
    rw [zip, hn, bind_ok]
    simp only
    rcases hcase with ⟨e1, e2⟩ | ⟨e1, e2, e3⟩
    · rw [e1] at hl ⊢
      simp only [List.cons_append, List.length_cons] at hl
      rw [ih q' c' i' n hc'.le (by omega) (by rw [e2]; omega), bind_ok, e2]
      rfl
    · rw [e1] at hl ⊢
      cases n with
      | zero => simp at hl
      | succ n =>
        rw [List.replicate_succ, List.flatten_cons, e2] at hl ⊢
        rw [e2] at ih
        simp only [List.nil_append, List.cons_append, List.length_cons] at hl
        rw [ih q' c' i' n hc'.le (by omega) (by rw [e3]; omega), bind_ok, e3]
        rfl

theorem skip_stuck : ∀ f n i, skipEmpty ev f ⟨n, i⟩ = .error .diverge ∨
    ∃ n' i', skipEmpty ev f ⟨n, i⟩ = .ok ⟨n', i'⟩ ∧ i' < (rows[n' % (m + 1)]?.getD []).length := by
  intro f
  induction f with
  | zero => intro n i; exact .inl rfl
  | succ f ih =>
    intro n i
    have hr : n % (m + 1) < rows.length := by rw [hm]; exact Nat.mod_lt _ (by omega)
    rw [skipEmpty, has_all h hm, bind_ok]
    simp only [if_true]
    rw [EdgeVec.degree_eq h _ (by rw [new_val]; exact hr), bind_ok]
    simp only [new_val]
    by_cases hi : i ≥ rows[n % (m + 1)].length
    · simp only [hi, if_true]; exact ih (n + 1) 0
    · simp only [hi, if_false]; exact .inr ⟨n, i, rfl, by simp [hr]; omega⟩

/-- Rows for every id but no pair to list: not even the first `next` comes back. -/
theorem next_stuck (hp : pairsOf d rows = []) : ∀ f it, next ev d f it = .error .diverge := by
  have hrest : ∀ c, c ≤ m + 1 → rest d rows c 0 = [] := by
    intro c
    induction c with
    | zero => intro _; rw [rest_zero, hp]
    | succ c ih =>
      intro hc
      have := ih (by omega)
      rw [rest_row d (show c < rows.length by omega), List.append_eq_nil_iff] at this
      exact this.2
  intro f
  induction f with
  | zero => intro it; rfl
  | succ f ih =>
    rintro ⟨n, i⟩
    unfold next
    rcases skip_stuck h hm (f + 1) n i with e | ⟨n', i', e, hi⟩
    · rw [e, bind_error]
    · have hr : n' % (m + 1) < rows.length := by rw [hm]; exact Nat.mod_lt _ (by omega)
      simp only [hr, getElem?_pos, Option.getD_some] at hi
      rw [e, bind_ok, has_all h hm, bind_ok]
      simp only [if_true]
      rw [neighbors_here h hm rfl hr, bind_ok, pick_mod h hm]
      rcases pick_spec d (node := n' % (m + 1)) (idx := i') (by omega) (rows[n' % (m + 1)].map Prod.fst)
        (EdgeVec.row_sorted h _ hr) (by simpa using hi) with ⟨j, -, b2, b3, -⟩ | ⟨b1, -⟩
      · exfalso
        have h0 := hrest _ (show n' % (m + 1) ≤ m + 1 by omega)
        rw [rest_row d hr, List.append_eq_nil_iff, List.map_eq_nil_iff, List.drop_zero,
          List.filter_eq_nil_iff] at h0
        have hmem : (rows[n' % (m + 1)].map Prod.fst)[j] ∈ ((rows[n' % (m + 1)].map Prod.fst).drop i').filter
            (fun t => d || decide (n' % (m + 1) ≤ t.val)) := by
          rw [b3, List.drop_eq_getElem_cons b2]; exact List.mem_cons_self
        exact h0.1 _ (List.getElem_mem b2) (List.mem_filter.1 hmem).2
      · rw [b1, bind_ok]; exact ih _

end

end EdgeIter

end Verif
