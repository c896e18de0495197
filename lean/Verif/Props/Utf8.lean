import Verif.Model.Utf8
import Verif.Spec.Utf8

/-! Property theorems about texts: C164. -/

namespace Verif.Props

open Verif.Spec

theorem utf8_none (bs : List Byte) : bs.foldl utf8Step none = none := by
  induction bs with
  | nil => rfl
  | cons b bs ih => simpa [utf8Step] using ih

theorem toFin_val (n : Nat) : (UInt8.toFin (UInt8.ofNat n)).val = n % 256 := rfl

theorem scalar_range (c : Char) : c.val.toNat < 55296 ∨ 57343 < c.val.toNat ∧ c.val.toNat < 1114112 := c.valid

theorem first_step (b : Byte) : utf8Step (some []) b =
    if b.val < 0x80 then some []
    else if 0xC2 ≤ b.val ∧ b.val ≤ 0xDF then some [(0x80, 0xBF)]
    else if b.val = 0xE0 then some [(0xA0, 0xBF), (0x80, 0xBF)]
    else if b.val = 0xED then some [(0x80, 0x9F), (0x80, 0xBF)]
    else if 0xE1 ≤ b.val ∧ b.val ≤ 0xEF then some [(0x80, 0xBF), (0x80, 0xBF)]
    else if b.val = 0xF0 then some [(0x90, 0xBF), (0x80, 0xBF), (0x80, 0xBF)]
    else if 0xF1 ≤ b.val ∧ b.val ≤ 0xF3 then some [(0x80, 0xBF), (0x80, 0xBF), (0x80, 0xBF)]
    else if b.val = 0xF4 then some [(0x80, 0x8F), (0x80, 0xBF), (0x80, 0xBF)]
    else none := rfl

theorem more_step (lo hi : Nat) (rest : List (Nat × Nat)) (b : Byte) :
    utf8Step (some ((lo, hi) :: rest)) b = if lo ≤ b.val ∧ b.val ≤ hi then some rest else none := rfl

/-- With bytes still to come, there is a next byte and it is in range. -/
theorem more_fold {lo hi : Nat} {rest : List (Nat × Nat)} {bs : List Byte}
    (h : bs.foldl utf8Step (some ((lo, hi) :: rest)) = some []) :
    ∃ b bs', bs = b :: bs' ∧ lo ≤ b.val ∧ b.val ≤ hi ∧ bs'.foldl utf8Step (some rest) = some [] := by
  cases bs with
  | nil => simp at h
  | cons b bs =>
    rw [List.foldl_cons, more_step] at h
    by_cases hb : lo ≤ b.val ∧ b.val ≤ hi
    · rw [if_pos hb] at h; exact ⟨b, bs, rfl, hb.1, hb.2, h⟩
    · rw [if_neg hb, utf8_none] at h; cases h

/-- The character with a given number. -/
theorem scalar_char (v : Nat) (h : v < 55296 ∨ 57343 < v ∧ v < 1114112) : ∃ c : Char, c.val.toNat = v :=
  ⟨Char.ofNatAux v h, rfl⟩

theorem bytesOf_cons (c : Char) (s : String) :
    bytesOf (String.ofList (c :: s.toList)) = (String.utf8EncodeChar c).map UInt8.toFin ++ bytesOf s := by
  simp [bytesOf]

theorem utf8_char (c : Char) :
    ((String.utf8EncodeChar c).map UInt8.toFin).foldl utf8Step (some []) = some [] := by
  have hc := scalar_range c
  unfold String.utf8EncodeChar
  generalize c.val.toNat = v at hc
  dsimp only
  split_ifs with h1 h2 h3
  · simp only [List.map_cons, List.map_nil, List.foldl_cons, List.foldl_nil]
    have e1 := toFin_val v
    generalize UInt8.toFin (UInt8.ofNat v) = a at e1
    unfold utf8Step
    simp only [e1]
    rw [if_pos (by omega)]
  · simp only [List.map_cons, List.map_nil, List.foldl_cons, List.foldl_nil]
    have e1 := toFin_val (v / 64 % 32 + 192)
    have e2 := toFin_val (v % 64 + 128)
    generalize UInt8.toFin (UInt8.ofNat (v / 64 % 32 + 192)) = a at e1 ⊢
    generalize UInt8.toFin (UInt8.ofNat (v % 64 + 128)) = b at e2 ⊢
    have s1 : utf8Step (some []) a = some [(0x80, 0xBF)] := by
      unfold utf8Step
      simp only []
      rw [if_neg (by omega), if_pos (by omega)]
    rw [s1]
    unfold utf8Step
    simp only []
    rw [if_pos (by omega)]
  · simp only [List.map_cons, List.map_nil, List.foldl_cons, List.foldl_nil]
    have e1 := toFin_val (v / 4096 % 16 + 224)
    have e2 := toFin_val (v / 64 % 64 + 128)
    have e3 := toFin_val (v % 64 + 128)
    generalize UInt8.toFin (UInt8.ofNat (v / 4096 % 16 + 224)) = a at e1 ⊢
    generalize UInt8.toFin (UInt8.ofNat (v / 64 % 64 + 128)) = b at e2 ⊢
    generalize UInt8.toFin (UInt8.ofNat (v % 64 + 128)) = d at e3 ⊢
    have s1 : utf8Step (utf8Step (some []) a) b = some [(0x80, 0xBF)] := by
      rw [first_step]
      split_ifs <;> first | (exfalso; omega) | (rw [more_step, if_pos (by omega)])
    rw [s1]
    unfold utf8Step
    simp only []
    rw [if_pos (by omega)]
  · simp only [List.map_cons, List.map_nil, List.foldl_cons, List.foldl_nil]
    have e1 := toFin_val (v / 262144 % 8 + 240)
    have e2 := toFin_val (v / 4096 % 64 + 128)
    have e3 := toFin_val (v / 64 % 64 + 128)
    have e4 := toFin_val (v % 64 + 128)
    generalize UInt8.toFin (UInt8.ofNat (v / 262144 % 8 + 240)) = a at e1 ⊢
    generalize UInt8.toFin (UInt8.ofNat (v / 4096 % 64 + 128)) = b at e2 ⊢
    generalize UInt8.toFin (UInt8.ofNat (v / 64 % 64 + 128)) = d at e3 ⊢
    generalize UInt8.toFin (UInt8.ofNat (v % 64 + 128)) = e at e4 ⊢
    have s1 : utf8Step (utf8Step (some []) a) b = some [(0x80, 0xBF), (0x80, 0xBF)] := by
      rw [first_step]
      split_ifs <;> first | (exfalso; omega) | (rw [more_step, if_pos (by omega)])
    rw [s1]
    unfold utf8Step
    simp only []
    rw [if_pos (by omega)]
    simp only []
    rw [if_pos (by omega)]

/-- A text that goes on after its first character. -/
theorem utf8_next {bs : List Byte} (hne : bs ≠ []) (h : bs.foldl utf8Step (some []) = some []) :
    ∃ (c : Char) (rest : List Byte), bs = (String.utf8EncodeChar c).map UInt8.toFin ++ rest ∧
      rest.foldl utf8Step (some []) = some [] ∧ rest.length < bs.length := by
  have enc1 : ∀ (c : Char) (a : Byte), c.val.toNat ≤ 127 → a.val = c.val.toNat →
      [a] = (String.utf8EncodeChar c).map UInt8.toFin := by
    intro c a h1 ha
    unfold String.utf8EncodeChar
    dsimp only
    rw [if_pos h1]
    simp only [List.map_cons, List.map_nil, List.cons.injEq, and_true]
    exact Fin.ext (by rw [toFin_val]; omega)
  have enc2 : ∀ (c : Char) (a b : Byte), 127 < c.val.toNat → c.val.toNat ≤ 2047 →
      a.val = c.val.toNat / 64 + 192 → b.val = c.val.toNat % 64 + 128 →
      [a, b] = (String.utf8EncodeChar c).map UInt8.toFin := by
    intro c a b h1 h2 ha hb
    unfold String.utf8EncodeChar
    dsimp only
    rw [if_neg (by omega), if_pos h2]
    simp only [List.map_cons, List.map_nil, List.cons.injEq, and_true]
    exact ⟨Fin.ext (by rw [toFin_val]; omega), Fin.ext (by rw [toFin_val]; omega)⟩
  have enc3 : ∀ (c : Char) (a b d : Byte), 2047 < c.val.toNat → c.val.toNat ≤ 65535 →
      a.val = c.val.toNat / 4096 + 224 → b.val = c.val.toNat / 64 % 64 + 128 → d.val = c.val.toNat % 64 + 128 →
      [a, b, d] = (String.utf8EncodeChar c).map UInt8.toFin := by
    intro c a b d h1 h2 ha hb hd
    unfold String.utf8EncodeChar
    dsimp only
    rw [if_neg (by omega), if_neg (by omega), if_pos h2]
    simp only [List.map_cons, List.map_nil, List.cons.injEq, and_true]
    exact ⟨Fin.ext (by rw [toFin_val]; omega), Fin.ext (by rw [toFin_val]; omega),
      Fin.ext (by rw [toFin_val]; omega)⟩
  have enc4 : ∀ (c : Char) (a b d e : Byte), 65535 < c.val.toNat →
      a.val = c.val.toNat / 262144 + 240 → b.val = c.val.toNat / 4096 % 64 + 128 →
      d.val = c.val.toNat / 64 % 64 + 128 → e.val = c.val.toNat % 64 + 128 →
      [a, b, d, e] = (String.utf8EncodeChar c).map UInt8.toFin := by
    intro c a b d e h1 ha hb hd he
    have hc := scalar_range c
    unfold String.utf8EncodeChar
    dsimp only
    rw [if_neg (by omega), if_neg (by omega), if_neg (by omega)]
    simp only [List.map_cons, List.map_nil, List.cons.injEq, and_true]
    exact ⟨Fin.ext (by rw [toFin_val]; omega), Fin.ext (by rw [toFin_val]; omega),
      Fin.ext (by rw [toFin_val]; omega), Fin.ext (by rw [toFin_val]; omega)⟩
  have two : ∀ (a : Byte) (bs : List Byte), 194 ≤ a.val → a.val ≤ 223 →
      bs.foldl utf8Step (some [(0x80, 0xBF)]) = some [] →
      ∃ (c : Char) (rest : List Byte), a :: bs = (String.utf8EncodeChar c).map UInt8.toFin ++ rest ∧
      rest.foldl utf8Step (some []) = some [] ∧ rest.length < (a :: bs).length := by
    intro a bs h1 h2 h
    obtain ⟨b, bs, rfl, b1, b2, h⟩ := more_fold h
    obtain ⟨c, hc⟩ := scalar_char ((a.val - 192) * 64 + (b.val - 128)) (by omega)
    exact ⟨c, bs, by rw [← enc2 c a b (by omega) (by omega) (by omega) (by omega)]; rfl, h, by simp; omega⟩
  have three : ∀ (a : Byte) (lo hi : Nat) (bs : List Byte), 224 ≤ a.val → a.val ≤ 239 → 128 ≤ lo → hi ≤ 191 →
      (a.val = 224 → 160 ≤ lo) → (a.val = 237 → hi ≤ 159) →
      bs.foldl utf8Step (some [(lo, hi), (0x80, 0xBF)]) = some [] →
      ∃ (c : Char) (rest : List Byte), a :: bs = (String.utf8EncodeChar c).map UInt8.toFin ++ rest ∧
      rest.foldl utf8Step (some []) = some [] ∧ rest.length < (a :: bs).length := by
    intro a lo hi bs h1 h2 h3 h4 h5 h6 h
    obtain ⟨b, bs, rfl, b1, b2, h⟩ := more_fold h
    obtain ⟨d, bs, rfl, d1, d2, h⟩ := more_fold h
    obtain ⟨c, hc⟩ := scalar_char ((a.val - 224) * 4096 + (b.val - 128) * 64 + (d.val - 128)) (by
      by_cases ha : a.val = 237
      · have := h6 ha; omega
      · omega)
    exact ⟨c, bs, by
      rw [← enc3 c a b d (by by_cases ha : a.val = 224 <;> [have := h5 ha; skip] <;> omega) (by omega) (by omega)
        (by omega) (by omega)]
      rfl, h, by simp; omega⟩
  have four : ∀ (a : Byte) (lo hi : Nat) (bs : List Byte), 240 ≤ a.val → a.val ≤ 244 → 128 ≤ lo → hi ≤ 191 →
      (a.val = 240 → 144 ≤ lo) → (a.val = 244 → hi ≤ 143) →
      bs.foldl utf8Step (some [(lo, hi), (0x80, 0xBF), (0x80, 0xBF)]) = some [] →
      ∃ (c : Char) (rest : List Byte), a :: bs = (String.utf8EncodeChar c).map UInt8.toFin ++ rest ∧
      rest.foldl utf8Step (some []) = some [] ∧ rest.length < (a :: bs).length := by
    intro a lo hi bs h1 h2 h3 h4 h5 h6 h
    obtain ⟨b, bs, rfl, b1, b2, h⟩ := more_fold h
    obtain ⟨d, bs, rfl, d1, d2, h⟩ := more_fold h
    obtain ⟨e, bs, rfl, e1, e2, h⟩ := more_fold h
    have g5 : a.val = 240 → 144 ≤ b.val := fun ha => by have := h5 ha; omega
    have g6 : a.val = 244 → b.val ≤ 143 := fun ha => by have := h6 ha; omega
    obtain ⟨c, hc⟩ := scalar_char
      ((a.val - 240) * 262144 + (b.val - 128) * 4096 + (d.val - 128) * 64 + (e.val - 128)) (by omega)
    exact ⟨c, bs, by
      rw [← enc4 c a b d e (by omega) (by omega) (by omega) (by omega) (by omega)]
      rfl, h, by simp; omega⟩
  cases bs with
  | nil => exact absurd rfl hne
  | cons a bs =>
    rw [List.foldl_cons, first_step] at h
    split_ifs at h with h1 h2 h3 h4 h5 h6 h7 h8
    · obtain ⟨c, hc⟩ := scalar_char a.val (by omega)
      exact ⟨c, bs, by rw [← enc1 c a (by omega) (by omega)]; rfl, h, by simp⟩
    · exact two a bs h2.1 h2.2 h
    · exact three a _ _ bs (by omega) (by omega) (by omega) (by omega) (by omega) (by omega) h
    · exact three a _ _ bs (by omega) (by omega) (by omega) (by omega) (by omega) (by omega) h
    · exact three a _ _ bs (by omega) (by omega) (by omega) (by omega) (by omega) (by omega) h
    · exact four a _ _ bs (by omega) (by omega) (by omega) (by omega) (by omega) (by omega) h
    · exact four a _ _ bs (by omega) (by omega) (by omega) (by omega) (by omega) (by omega) h
    · exact four a _ _ bs (by omega) (by omega) (by omega) (by omega) (by omega) (by omega) h
    · rw [utf8_none] at h; cases h

theorem utf8_chars (l : List Char) :
    (l.flatMap (fun c => (String.utf8EncodeChar c).map UInt8.toFin)).foldl utf8Step (some []) = some [] := by
  induction l with
  | nil => rfl
  | cons c l ih => rw [List.flatMap_cons, List.foldl_append, utf8_char, ih]

/-- **C164.** Bytes are accepted as a text exactly if they are the UTF-8 of some string. -/
theorem c164_utf8 (bs : List Byte) : utf8 bs = true ↔ ∃ s : String, bs = bytesOf s := by
  unfold utf8
  rw [decide_eq_true_eq]
  constructor
  · intro h
    induction hn : bs.length using Nat.strong_induction_on generalizing bs with
    | _ n ih =>
      subst hn
      by_cases hne : bs = []
      · exact ⟨"", by rw [hne]; rfl⟩
      · obtain ⟨c, rest, e, h', hl⟩ := utf8_next hne h
        obtain ⟨s, hs⟩ := ih rest.length hl rest h' rfl
        exact ⟨String.ofList (c :: s.toList), by rw [bytesOf_cons, ← hs]; exact e⟩
  · rintro ⟨s, rfl⟩
    exact utf8_chars s.toList

theorem utf8_fold {bs : List Byte} : utf8 bs = true ↔ bs.foldl utf8Step (some []) = some [] := by
  unfold utf8; rw [decide_eq_true_eq]

/-- **C164.** The string is determined by its bytes. -/
theorem c164_unique {s t : String} (h : bytesOf s = bytesOf t) : s = t := by
  have e : ∀ l : List Char, l.flatMap (fun c => (String.utf8EncodeChar c).map UInt8.toFin) =
      (l.flatMap String.utf8EncodeChar).map UInt8.toFin := fun l => by rw [List.map_flatMap]
  unfold bytesOf at h
  rw [e, e] at h
  have h' := (List.map_inj_right (fun a b hab => UInt8.toFin_inj.1 hab)).1 h
  rw [← String.toByteArray_inj, ← String.utf8Encode_toList, ← String.utf8Encode_toList]
  unfold List.utf8Encode
  rw [h']

/-- **C164.** The bytes of a string are those Lean keeps it as. -/
theorem c164_kept (s : String) : bytesOf s = s.toByteArray.data.toList.map UInt8.toFin := by
  unfold bytesOf
  rw [← String.utf8Encode_toList, ← List.map_flatMap]
  unfold List.utf8Encode
  simp

/-- **C164.** Texts can be put together; a text can be taken off the front of a text; and bytes below 128 are a
text. -/
theorem c164_append (a b : List Byte) : (utf8 a = true → utf8 (a ++ b) = utf8 b) ∧
    ((∀ x ∈ a, x.val < 128) → utf8 a = true) := by
  refine ⟨fun h => ?_, fun h => ?_⟩
  · rw [Bool.eq_iff_iff, utf8_fold, utf8_fold, List.foldl_append, utf8_fold.1 h]
  · rw [utf8_fold]
    induction a with
    | nil => rfl
    | cons x a ih =>
      rw [List.foldl_cons, first_step, if_pos (h x (by simp))]
      exact ih (fun y hy => h y (by simp [hy]))

/-- Non-vacuity: `né` is a text; its first two bytes are not, nor are an overlong zero, a surrogate, a number
beyond the last character or a continuation byte alone. -/
example : utf8 [110, 0xC3, 0xA9] = true ∧ bytesOf "né" = [110, 0xC3, 0xA9] ∧ utf8 [110, 0xC3] = false ∧
    utf8 [0xC0, 0x80] = false ∧ utf8 [0xED, 0xA0, 0x80] = false ∧ utf8 [0xF4, 0x90, 0x80, 0x80] = false ∧
    utf8 [0x80] = false := by decide

end Verif.Props
