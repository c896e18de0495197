import Verif.Proof.Csv

/-! Reading files without quotes: lines, then fields. -/

namespace Verif

open Spec

namespace Csv

/-- Line ends, as the standard splits lines. -/
abbrev lineEnd (c : Byte) : Bool := decide (c = 10 ∨ c = 13)

theorem isTerm_eq (c : Byte) : isTerm c = lineEnd c := by
  simp [isTerm, lineEnd, Bool.decide_or]

variable {sep : Byte}

/-- The records of whole lines. -/
def ofLines (sep : Byte) (ls : List (List Byte)) : List (List (List Byte)) :=
  (ls.filter (fun l => decide (l ≠ []))).map (·.splitOn sep)

theorem splitOn_sep (l : List Byte) : (sep :: l).splitOn sep = [] :: l.splitOn sep := by
  simp [List.splitOn, List.splitOnP_cons]

theorem splitOn_other {c : Byte} (h : c ≠ sep) (l : List Byte) :
    (c :: l).splitOn sep = (l.splitOn sep).modifyHead (c :: ·) := by
  simp [List.splitOn, List.splitOnP_cons, h]

theorem lines_other {c : Byte} (h : lineEnd c = false) (l : List Byte) :
    (c :: l).splitOnP lineEnd = (l.splitOnP lineEnd).modifyHead (c :: ·) := by
  rw [List.splitOnP_cons, if_neg (by simp [h])]

theorem lines_end {c : Byte} (h : lineEnd c = true) (l : List Byte) :
    (c :: l).splitOnP lineEnd = [] :: l.splitOnP lineEnd := by
  rw [List.splitOnP_cons, if_pos h]

theorem modifyHead_modifyHead {α : Type} (f g : α → α) (l : List α) :
    (l.modifyHead f).modifyHead g = l.modifyHead (g ∘ f) := by
  cases l <;> rfl

/-- What is read from each state, in terms of the lines of the rest. -/
theorem records_lines (h : SeparatorOk sep) (bs : List Byte) : quote ∉ bs →
    (∀ md f fs, md = .inField ∨ (md = .startField ∧ f = []) →
      ∀ l0 ls, bs.splitOnP lineEnd = l0 :: ls →
      (Scan.mk md f fs).records sep bs =
        (fs ++ (l0.splitOn sep).modifyHead (f ++ ·)) :: ofLines sep ls) ∧
    (∀ md, md = .startRecord ∨ md = .afterCr →
      (Scan.mk md [] []).records sep bs = ofLines sep (bs.splitOnP lineEnd)) := by
  induction bs with
  | nil =>
    intro _
    constructor
    · intro md f fs hm l0 ls hl
      rw [List.splitOnP_nil] at hl
      cases hl
      rcases hm with rfl | ⟨rfl, rfl⟩ <;> simp [Scan.records, ofLines]
    · rintro md (rfl | rfl) <;> simp [Scan.records, ofLines]
  | cons c bs ih =>
    intro hq
    have hcq : c ≠ quote := fun e => hq (by simp [e])
    obtain ⟨ih1, ih2⟩ := ih (fun e => hq (by simp [e]))
    obtain ⟨m0, ms, hms⟩ : ∃ m0 ms, bs.splitOnP lineEnd = m0 :: ms := by
      cases hb : bs.splitOnP lineEnd with
      | nil => exact absurd hb (List.splitOnP_ne_nil _ _)
      | cons a b => exact ⟨a, b, rfl⟩
    have key : ∀ (s : Scan), s.step sep c = s.plain sep c →
        ∀ l0 ls, (c :: bs).splitOnP lineEnd = l0 :: ls →
        s.records sep (c :: bs) =
          (s.fields ++ (l0.splitOn sep).modifyHead (s.field ++ ·)) :: ofLines sep ls := by
      intro s hs l0 ls hl
      by_cases h1 : c = sep
      · subst h1
        have ht : lineEnd c = false := by rw [← isTerm_eq]; exact sep_not_term h
        rw [lines_other ht, hms] at hl
        cases hl
        rw [records_none (hs.trans (plain_sep s)), ih1 _ _ _ (.inr ⟨rfl, rfl⟩) _ _ hms, splitOn_sep]
        rcases List.splitOn c m0 with _ | ⟨a, b⟩ <;> simp
      · by_cases h2 : lineEnd c = true
        · rw [lines_end h2] at hl
          cases hl
          rw [records_some (s' := ⟨if c = 13 then .afterCr else .startRecord, [], []⟩)
            (r := s.fields ++ [s.field]) (by
              rw [hs, Scan.plain, if_neg h1, if_pos (by rw [isTerm_eq]; exact h2)])]
          rw [ih2 _ (by split <;> simp)]
          simp
        · have h2' : lineEnd c = false := by simpa using h2
          rw [lines_other h2', hms] at hl
          cases hl
          rw [records_none (hs.trans (plain_other s h1 (by rw [isTerm_eq]; exact h2'))),
            ih1 _ _ _ (.inl rfl) _ _ hms, splitOn_other h1, modifyHead_modifyHead]
          congr 3
          funext x
          simp
    have hfirst : ∀ s : Scan, s.first sep c = s.plain sep c := fun s => by
      simp [Scan.first, hcq]
    constructor
    · intro md f fs hm l0 ls hl
      refine key ⟨md, f, fs⟩ ?_ l0 ls hl
      rcases hm with rfl | ⟨rfl, rfl⟩
      · rfl
      · exact hfirst _
    · intro md hm
      by_cases ht : lineEnd c = true
      · have hst : (Scan.mk md [] []).step sep c = (Scan.start, none) := by
          have := isTerm_eq c
          rcases hm with rfl | rfl <;> simp [Scan.step, Scan.line, this, ht]
        rw [records_none hst, lines_end ht]
        show (Scan.mk .startRecord [] []).records sep bs = _
        rw [ih2 _ (.inl rfl)]
        simp [ofLines]
      · have ht' : lineEnd c = false := by simpa using ht
        have hst : (Scan.mk md [] []).step sep c = (Scan.mk md [] []).plain sep c := by
          have h1 := isTerm_eq c
          have h2 : c ≠ 10 := by rintro rfl; simp [lineEnd] at ht
          rcases hm with rfl | rfl <;> simp [Scan.step, Scan.line, h1, ht, h2, hfirst]
        have hl := lines_other ht' bs
        rw [hms] at hl
        rw [key _ hst _ _ hl, hl]
        have hne : ((c :: m0).splitOn sep).modifyHead (([] : List Byte) ++ ·) = (c :: m0).splitOn sep := by
          rcases (c :: m0).splitOn sep with _ | ⟨a, b⟩ <;> simp
        show ([] ++ ((c :: m0).splitOn sep).modifyHead (([] : List Byte) ++ ·)) :: ofLines sep ms =
          ofLines sep ((c :: m0) :: ms)
        rw [List.nil_append, hne]
        simp [ofLines]

end Csv

end Verif
