import Verif.Spec.Loops
import Verif.Proof.RawCsr

/-! Loops over the edges of adjacencies of which nothing is known. -/

namespace Verif

open Spec

variable {m k : Nat} {S R : Type}

namespace EdgeIter

open EdgeVec

variable {ev : EdgeVec m k}

/-- The edges an enumeration yields, and the panic that ends it, if any. -/
def trace (ev : EdgeVec m k) (d : Bool) : Nat → EdgeIter → List (Id m × Id m) × Option Panic
  | 0, _ => ([], some .diverge)
  | f + 1, it =>
    match next ev d (f + 1) it with
    | .error p => ([], some p)
    | .ok none => ([], none)
    | .ok (some (e, it)) => (e :: (trace ev d f it).1, (trace ev d f it).2)

/-- What follows the turns of a loop: the panic of the enumeration, unless the loop was left. -/
def after (o : Option Panic) : Turn S R → Res (Turn S R)
  | .on s => match o with
    | some p => .error p
    | none => pure (.on s)
  | .leave r => pure (.leave r)

theorem loop_trace (d : Bool) (body : S → Id m × Id m → Res (Turn S R)) : ∀ F s it,
    loop ev d body F s it = (turns body s (trace ev d F it).1) >>= after (trace ev d F it).2 := by
  intro F
  induction F with
  | zero => intro s it; rfl
  | succ F ih =>
    intro s it
    unfold loop trace
    cases next ev d (F + 1) it with
    | error p => rfl
    | ok o =>
      cases o with
      | none => rfl
      | some p =>
        obtain ⟨e, it'⟩ := p
        simp only [bind_ok, turns]
        cases body s e with
        | error p => rfl
        | ok t =>
          cases t with
          | leave r => rfl
          | on s => simp only [bind_ok]; exact ih s it'

theorem collect_trace (d : Bool) : ∀ F it, collect ev d F it =
    match (trace ev d F it).2 with
    | some p => .error p
    | none => .ok (trace ev d F it).1 := by
  intro F
  induction F with
  | zero => intro it; rfl
  | succ F ih =>
    intro it
    unfold collect trace
    cases next ev d (F + 1) it with
    | error p => rfl
    | ok o =>
      cases o with
      | none => rfl
      | some p =>
        obtain ⟨e, it'⟩ := p
        simp only [bind_ok]
        rw [ih it']
        cases (trace ev d F it').2 <;> rfl

theorem trace_of_next {d : Bool} {f : Nat} {a b : EdgeIter} (h : next ev d f a = next ev d f b) :
    trace ev d f a = trace ev d f b := by
  cases f with
  | zero => rfl
  | succ f => unfold trace; rw [h]

/-- What is to be listed from entry `i` of row `n` on. -/
def listed (ev : EdgeVec m k) (d : Bool) : Nat → Nat → Nat → List (Id m × Id m) × Option Panic
  | 0, _, _ => ([], none)
  | r + 1, n, i =>
    match ev.degree (Id.new n) with
    | .error p => ([], some p)
    | .ok deg =>
      if deg ≤ i then listed ev d r (n + 1) 0
      else match ev.neighbors (Id.new n) with
        | .error p => ([], some p)
        | .ok nb =>
          (((nb.drop i).filter (fun t => d || decide (n ≤ t.val))).map (fun t => (Id.new n, t)) ++
            (listed ev d r (n + 1) 0).1, (listed ev d r (n + 1) 0).2)

section
variable (c : Nat) (hc : ev.offsets.length = c + 1) (hm : c ≤ m)
include hc hm

theorem trace_raw (d : Bool) (hrow : d = true ∨ ∀ n, n < c → (rowOf ev n).Pairwise (· < ·)) :
    ∀ F r n i, n + r = c → (∀ a b, Bounds ev n a b → i ≤ b - a) →
      c + (ev.edges.length - (ev.offsets.getD n 0 + i)) < F →
      trace ev d F ⟨n, i⟩ = listed ev d r n i := by
  intro F
  induction F with
  | zero => intro r n i _ _ h; omega
  | succ F ihF =>
    intro r
    induction r with
    | zero =>
      intro n i hn _ hF
      obtain rfl : n = c := by omega
      unfold trace next
      rw [skip_end n hc hm (by omega), bind_ok]
      rw [has_at n hc hm (le_refl _)]
      simp [bind_ok, pure_ok, listed]
    | succ r ihr =>
      intro n i hn hi hF
      have hlt : n < c := by omega
      obtain ⟨a, b, hab⟩ := bounds_of (ev := ev) (n := n) (by omega)
      have hv : (Id.new n : Id m).val = n := Id_new_val (by omega)
      have hnn : (Id.new n : Id m).val < ev.offsets.length - 1 := by rw [hv]; omega
      have hab' : Bounds ev (Id.new n : Id m).val a b := by rw [hv]; exact hab
      have hdeg := degree_raw hnn hab'
      have ha : ev.offsets.getD n 0 = a := by simp [List.getD_eq_getElem?_getD, hab.1]
      have hb : ev.offsets.getD (n + 1) 0 = b := by simp [List.getD_eq_getElem?_getD, hab.2]
      rw [ha] at hF
      have hib := hi a b hab
      unfold listed
      by_cases hba : b < a
      · rw [if_pos hba] at hdeg
        rw [hdeg]
        simp only
        unfold trace next
        rw [skip_fails c hc hm hlt hdeg (by omega)]
        rfl
      · rw [if_neg hba] at hdeg
        rw [hdeg]
        simp only
        have hnext : ∀ a' b', Bounds ev (n + 1) a' b' → 0 ≤ b' - a' := fun _ _ _ => Nat.zero_le _
        by_cases hle : b - a ≤ i
        · rw [if_pos hle, ← ihr (n + 1) 0 (by omega) hnext (by rw [hb]; omega)]
          exact trace_of_next (next_skip c hc hm hlt hdeg hle (by omega))
        · rw [if_neg hle]
          have hnb := neighbors_raw hnn hab'
          rw [hv] at hnb
          by_cases hin : a ≤ b ∧ b ≤ ev.edges.length
          · rw [if_pos hin] at hnb
            have hlen := rowOf_length hab hin.1 (.inr hin.2)
            have hpick : (∃ j, pick (rowOf ev n) d n i = .ok (some j) ∧ j < (rowOf ev n).length ∧
                ((rowOf ev n).drop i).filter (fun t => d || decide (n ≤ t.val)) = (rowOf ev n).drop j ∧
                ((rowOf ev n).drop (j + 1)).filter (fun t => d || decide (n ≤ t.val)) =
                  (rowOf ev n).drop (j + 1)) ∨
              (pick (rowOf ev n) d n i = .ok none ∧
                ((rowOf ev n).drop i).filter (fun t => d || decide (n ≤ t.val)) = []) := by
              rcases hrow with rfl | hs
              · exact .inl ⟨i, rfl, by omega, by simp, by simp⟩
              · exact pick_spec d (by omega) _ (hs n hlt) (by omega)
            rw [hnb]
            simp only
            rcases hpick with ⟨j, p1, p2, p3, p4⟩ | ⟨p1, p2⟩
            · have hij : i ≤ j := by
                by_contra hcon
                have := congrArg List.length p3
                have h2 := List.length_filter_le (fun t => d || decide (n ≤ t.val)) ((rowOf ev n).drop i)
                simp only [List.length_drop] at this h2
                omega
              unfold trace
              have hnx : next ev d (F + 1) ⟨n, i⟩ =
                  .ok (some ((Id.new n, (rowOf ev n)[j]), ⟨n, j + 1⟩)) := by
                unfold next
                rw [skip_stay c hc hm hlt hdeg (by omega) (by omega)]
                simp only [bind_ok]
                rw [has_at c hc hm hlt.le]
                simp only [bind_ok, hlt, decide_true, if_true, hnb, p1]
                unfold yieldAt
                rw [index_lt p2]; rfl
              rw [hnx]
              simp only
              have hrec := ihF (r + 1) n (j + 1) hn (by
                intro a' b' h'
                obtain ⟨e1, e2⟩ := h'
                rw [hab.1] at e1; rw [hab.2] at e2
                cases e1; cases e2; omega) (by rw [ha]; omega)
              unfold listed at hrec
              rw [hrec, p3, List.drop_eq_getElem_cons p2, hdeg]
              simp only
              by_cases hend : b - a ≤ j + 1
              · rw [if_pos hend]
                rw [List.drop_eq_nil_of_le (by omega)]
                rfl
              · rw [if_neg hend, hnb]
                simp only
                rw [p4]
                rfl
            · rw [p2]
              have : next ev d (F + 1) ⟨n, i⟩ = next ev d (F + 1) ⟨n + 1, 0⟩ := by
                conv_lhs => unfold next
                rw [skip_stay c hc hm hlt hdeg (by omega) (by omega)]
                simp only [bind_ok]
                rw [has_at c hc hm hlt.le]
                simp only [bind_ok, hlt, decide_true, if_true, hnb, p1]
                exact (next_more c hc hm d F (n + 1) 0 (by omega) (by omega)).symm
              rw [trace_of_next this, ihr (n + 1) 0 (by omega) hnext (by rw [hb]; omega)]
              rfl
          · rw [if_neg hin] at hnb
            rw [hnb]
            simp only
            unfold trace next
            rw [skip_stay c hc hm hlt hdeg (by omega) (by omega)]
            simp only [bind_ok]
            rw [has_at c hc hm hlt.le]
            simp only [bind_ok, hlt, decide_true, if_true, hnb, bind_error]

theorem listed_rows (d : Bool) : ∀ q r n, n + q + r = c → (∀ j, n ≤ j → j < n + q → Passable ev j) →
    (r = 0 ∨ ¬ Passable ev (n + q)) →
    listed ev d (q + r) n 0 = ((List.range' n q).flatMap (fun n =>
      ((rowOf ev n).filter (fun t => d || decide (n ≤ t.val))).map (fun t => (Id.new n, t))),
      if r = 0 then none else some (rowPanic ev (n + q))) := by
  intro q
  induction q with
  | zero =>
    intro r n hn hp hr
    cases r with
    | zero => rfl
    | succ r =>
      have hbad : ¬ Passable ev n := by simpa using hr
      obtain ⟨a, b, hab⟩ := bounds_of (ev := ev) (n := n) (by omega)
      have hv : (Id.new n : Id m).val = n := Id_new_val (by omega)
      have hnn : (Id.new n : Id m).val < ev.offsets.length - 1 := by rw [hv]; omega
      have hab' : Bounds ev (Id.new n : Id m).val a b := by rw [hv]; exact hab
      have hdeg := degree_raw hnn hab'
      have ha : ev.offsets.getD n 0 = a := by simp [List.getD_eq_getElem?_getD, hab.1]
      have hb : ev.offsets.getD (n + 1) 0 = b := by simp [List.getD_eq_getElem?_getD, hab.2]
      rw [Nat.zero_add, show n + 0 = n from rfl]
      unfold listed rowPanic
      rw [ha, hb, hdeg]
      by_cases hba : b < a
      · simp [hba]
      · have h2 : ¬ b ≤ ev.edges.length := fun h => hbad ⟨a, b, hab, by omega, .inr h⟩
        have h3 : a ≠ b := fun h => hbad ⟨a, b, hab, by omega, .inl h⟩
        have hnb := neighbors_raw hnn hab'
        rw [if_neg (by omega)] at hnb
        rw [if_neg hba]
        simp only
        rw [if_neg (by omega), hnb]
        simp [hba]
  | succ q ih =>
    intro r n hn hp hr
    obtain ⟨a, b, hab, h1, h2⟩ := hp n (le_refl _) (by omega)
    have hv : (Id.new n : Id m).val = n := Id_new_val (by omega)
    have hnn : (Id.new n : Id m).val < ev.offsets.length - 1 := by rw [hv]; omega
    have hab' : Bounds ev (Id.new n : Id m).val a b := by rw [hv]; exact hab
    have hdeg := degree_raw hnn hab'
    rw [if_neg (by omega)] at hdeg
    have hrest := ih r (n + 1) (by omega) (fun j hj hj' => hp j (by omega) (by omega))
      (by rwa [show n + 1 + q = n + (q + 1) by omega])
    rw [show n + 1 + q = n + (q + 1) by omega] at hrest
    have hlen := rowOf_length hab h1 h2
    rw [show q + 1 + r = (q + r) + 1 by omega]
    unfold listed
    rw [hdeg, List.range'_succ, List.flatMap_cons, hrest]
    simp only
    by_cases hz : b - a ≤ 0
    · rw [if_pos hz]
      have : rowOf ev n = [] := List.length_eq_zero_iff.1 (by omega)
      rw [this]; rfl
    · rw [if_neg hz]
      have hnb := neighbors_raw hnn hab'
      rw [if_pos ⟨h1, by omega⟩, hv] at hnb
      rw [hnb]
      simp only [List.drop_zero]

end

end EdgeIter

end Verif
