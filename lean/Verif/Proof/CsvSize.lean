import Verif.Spec.CsvSize
import Verif.Proof.Csv

/-! Lengths of CSV files. -/

namespace Verif.Csv

open Spec

variable {m k : Nat} {NL EL L : Type}

theorem escape_length (f : List Byte) : (escape f).length = f.length + f.count 34 := by
  induction f with
  | nil => rfl
  | cons c f ih =>
    have he : escape (c :: f) = (if c = quote then [quote, quote] else [c]) ++ escape f := by simp [escape]
    rw [he, List.length_append, ih, List.count_cons, List.length_cons]
    have : (quote : Byte) = 34 := rfl
    by_cases h : c = 34
    · simp [h, this]; omega
    · simp [h, this]; omega

theorem writeField_length (sep : Byte) (f : List Byte) : (writeField sep f).length = cellBytes sep f := by
  have h : needsQuotes sep f = true ↔ sep ∈ f ∨ 34 ∈ f ∨ 10 ∈ f ∨ 13 ∈ f := by
    unfold needsQuotes
    rw [List.any_eq_true]
    simp only [isTerm, quote, Bool.or_eq_true, decide_eq_true_eq]
    constructor
    · rintro ⟨c, hc, h⟩
      rcases h with (h | h) | (h | h)
      · exact .inl (h ▸ hc)
      · exact .inr (.inl (of_decide_eq_true h ▸ hc))
      · exact .inr (.inr (.inl (h ▸ hc)))
      · exact .inr (.inr (.inr (h ▸ hc)))
    · rintro (h | h | h | h)
      · exact ⟨_, h, by simp⟩
      · exact ⟨_, h, by simp⟩
      · exact ⟨_, h, by simp⟩
      · exact ⟨_, h, by simp⟩
  unfold writeField cellBytes
  by_cases hq : needsQuotes sep f = true
  · rw [if_pos hq, if_pos (h.1 hq)]
    simp [escape_length]
    omega
  · rw [if_neg hq, if_neg (fun hc => hq (h.2 hc))]

theorem joinFields_length (sep : Byte) : ∀ (f : List Byte) (fs : List (List Byte)),
    (joinFields sep (f :: fs)).length + 1 = lineBytes sep (f :: fs)
  | f, [] => by simp [joinFields, lineBytes, writeField_length]
  | f, g :: fs => by
    have ih := joinFields_length sep g fs
    rw [joinFields, List.length_append, List.length_cons, writeField_length]
    · have : lineBytes sep (f :: g :: fs) = cellBytes sep f + 1 + lineBytes sep (g :: fs) := by
        unfold lineBytes; rw [List.map_cons, List.sum_cons]
      omega
    · simp

theorem writeRecord_length (sep : Byte) (f g : List Byte) (fs : List (List Byte)) :
    (writeRecord sep (f :: g :: fs)).length = lineBytes sep (f :: g :: fs) := by
  have h := joinFields_length sep f (g :: fs)
  unfold writeRecord
  rw [if_neg, List.length_append, List.length_singleton, h]
  rw [joinFields]
  · simp
  · simp

theorem writeAll_length (sep : Byte) (names : List String) (rs : List (List (List Byte))) (hn : 2 ≤ names.length)
    (hr : ∀ r ∈ rs, 2 ≤ r.length) :
    (writeAll sep (names.map ascii) rs).length = fileBytes sep names rs := by
  have one : ∀ r : List (List Byte), 2 ≤ r.length → (writeRecord sep r).length = lineBytes sep r := by
    intro r h
    match r, h with
    | f :: g :: fs, _ => exact writeRecord_length sep f g fs
  unfold writeAll fileBytes
  split
  · rfl
  · rw [List.length_append, one _ (by simpa using hn), List.length_flatMap]
    congr 2
    exact List.map_congr_left fun r h => one r (hr r h)

theorem write_lengths {g : GView m k NL EL} {A : AGraph (Id m) NL EL} (S : Shows g A) (sep : Byte)
    (xf : Field (Id m)) (nf : Field NL) (ef : Field EL) :
    ∃ nb eb, write sep xf nf ef g = .ok (nb, eb) ∧ nb.length = nodeFileBytes sep xf nf A g.nodeIndices ∧
      eb.length = edgeFileBytes sep xf ef A g.edgeIndices := by
  refine ⟨_, _, write_ok S sep xf nf ef, ?_, ?_⟩
  · rw [show [idName, labelName] = ["nodeId:ID", ":LABEL"].map ascii from rfl, writeAll_length _ _ _ (by decide)]
    · rfl
    · intro r hr
      obtain ⟨n, -, rfl⟩ := List.mem_map.1 hr
      simp [record]
  · rw [show [startName, endName, typeName] = [":START_ID", ":END_ID", ":TYPE"].map ascii from rfl,
      writeAll_length _ _ _ (by decide)]
    · rfl
    · intro r hr
      obtain ⟨n, -, rfl⟩ := List.mem_map.1 hr
      simp [record]

theorem textOf_filter (f : Field L) (l : Option (Option L)) :
    textOf f (l.map (fun o => o.filter (fun x => decide (f.shown x ≠ [])))) = textOf f l := by
  unfold textOf
  cases l with
  | none => rfl
  | some o =>
    cases o with
    | none => rfl
    | some x => by_cases h : f.shown x = [] <;> simp [h, Option.filter]

end Verif.Csv
