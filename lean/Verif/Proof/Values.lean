import Verif.Spec.Values
import Verif.Proof.LabelMap

/-! Tables under an injective change of the values. -/

namespace Verif.Proof.Values

open Spec

variable {L L' : Type} [DecidableEq L] [DecidableEq L'] {f : L → L'}

omit [DecidableEq L] [DecidableEq L'] in
theorem table_inj (hf : Function.Injective f) {s t : SetMap L} (h : tableValues f s = tableValues f t) : s = t := by
  obtain ⟨s⟩ := s
  obtain ⟨t⟩ := t
  simp only [tableValues, SetMap.mk.injEq] at h
  rw [(List.map_inj_right (fun a b e => hf e)).1 h]

theorem insert_values (hf : Function.Injective f) (s : SetMap L) (x : L) :
    tableValues f (s.insert x) = (tableValues f s).insert (f x) := by
  unfold SetMap.insert
  by_cases h : x ∈ s.labels
  · rw [if_pos h, if_pos (show f x ∈ (tableValues f s).labels from List.mem_map.2 ⟨x, h, rfl⟩)]
  · rw [if_neg h, if_neg]
    · simp [tableValues]
    · intro hx
      obtain ⟨y, hy, e⟩ := List.mem_map.1 hx
      exact h (hf e ▸ hy)

theorem fold_values (hf : Function.Injective f) (v : List L) (s : SetMap L) :
    tableValues f (v.foldl SetMap.insert s) = (v.map f).foldl SetMap.insert (tableValues f s) := by
  induction v generalizing s with
  | nil => rfl
  | cons a v ih =>
    rw [List.foldl_cons, ih, insert_values hf]
    rfl

theorem from_values (hf : Function.Injective f) (v : List L) :
    tableValues f (SetMap.fromVec v) = SetMap.fromVec (v.map f) := fold_values hf v SetMap.empty

end Verif.Proof.Values
