import Verif.Spec.Names
import Verif.Model.Csv

/-! Names and separators. -/

namespace Verif

open Spec

theorem lower_flatMap {lower : Char → List Char} (h : LowerTable lower) : ∀ (l r : List Char),
    (∀ x ∈ r, x ∈ "staticgraphmmap".toList) → (∀ x ∈ r, x.toNat < 128) →
    (l.flatMap lower = r ↔ l.map Char.toLower = r) := by
  intro l
  induction l with
  | nil => intro r _ _; simp
  | cons c l ih =>
    intro r hr ha
    rw [List.flatMap_cons, List.map_cons]
    by_cases hc : c.toNat < 128
    · rw [h.ascii c hc]
      cases r with
      | nil => simp
      | cons x r =>
        have := ih r (fun y hy => hr y (by simp [hy])) (fun y hy => ha y (by simp [hy]))
        rw [List.singleton_append, List.cons.injEq, List.cons.injEq, this]
    · constructor
      · intro he
        obtain ⟨x, hx, hn⟩ := h.other c (by omega)
        exact absurd (hr x (he ▸ List.mem_append_left _ hx)) hn
      · intro he
        subst he
        have h1 := ha _ (List.mem_cons_self (a := c.toLower))
        have : c.toLower = c := by
          unfold Char.toLower
          rw [dif_neg]
          intro hh
          apply hc
          have := UInt32.le_iff_toNat_le.1 hh.2
          have e : c.val.toNat = c.toNat := rfl
          rw [e] at this
          exact lt_of_le_of_lt this (by decide)
        rw [this] at h1
        exact absurd h1 hc

theorem toLowercase_iff {lower : Char → List Char} (h : LowerTable lower) (s : String) (r : String)
    (h1 : ∀ x ∈ r.toList, x ∈ "staticgraphmmap".toList) (h2 : ∀ x ∈ r.toList, x.toNat < 128)
    (h3 : r.toList.map Char.toLower = r.toList) :
    toLowercase lower s = r ↔ SameButCase s r := by
  unfold toLowercase SameButCase
  rw [h3, ← lower_flatMap h _ _ h1 h2]
  constructor
  · intro he; rw [← he]; simp
  · intro he; rw [he]; simp

theorem utf8_one (s : String) : s.utf8ByteSize = 1 ↔ ∃ c : Char, c.toNat < 128 ∧ s = String.singleton c := by
  constructor
  · intro h
    have hs : s = String.ofList s.toList := by simp
    cases hl : s.toList with
    | nil =>
      rw [hl] at hs
      subst hs
      simp at h
    | cons c cs =>
      have e : s = String.singleton c ++ String.ofList cs := by
        rw [hs, hl]
        apply String.toList_inj.1
        simp
      rw [e, String.utf8ByteSize_append, String.utf8ByteSize_singleton] at h
      have h1 := Char.utf8Size_pos c
      have h2 : c.utf8Size = 1 := by omega
      have h3 : (String.ofList cs).utf8ByteSize = 0 := by omega
      rw [String.utf8ByteSize_eq_zero_iff] at h3
      refine ⟨c, ?_, by rw [e, h3]; simp⟩
      have := Char.utf8Size_eq_one_iff.1 h2
      have := UInt32.le_iff_toNat_le.1 this
      exact Nat.lt_succ_of_le this
  · rintro ⟨c, hc, rfl⟩
    rw [String.utf8ByteSize_singleton]
    apply Char.utf8Size_eq_one_iff.2
    apply UInt32.le_iff_toNat_le.2
    exact Nat.le_of_lt_succ hc

end Verif
