import Verif.Spec.CsvGrammar
import Verif.Proof.Csv

/-! The reader of the `csv` crate against the grammar. -/

namespace Verif.Csv

open Spec

variable {sep : Byte}

theorem isTerm_iff (b : Byte) : isTerm b = true ↔ Ends b := by
  simp [isTerm, Ends]

theorem isTerm_false (b : Byte) : isTerm b = false ↔ ¬ Ends b := by
  rw [← isTerm_iff]; simp

theorem step_end {f : List Byte} {fs : List (List Byte)} {e : Byte} (he : Ends e)
    (hs : SeparatorOk sep) (rest : List Byte) :
    (Scan.mk .inField f fs).records sep (e :: rest) = (fs ++ [f]) :: Scan.start.records sep rest := by
  have hne : e ≠ sep := by
    rintro rfl
    rcases he with h | h
    · exact hs.2.1 h
    · exact hs.2.2 h
  have ht := (isTerm_iff e).2 he
  have h1 : (Scan.mk .inField f fs).step sep e =
      (⟨if e = 13 then .afterCr else .startRecord, [], []⟩, some (fs ++ [f])) := by
    simp [Scan.step, Scan.plain, hne, ht]
  rw [records_some h1]
  congr 1
  split
  · -- after a carriage return
    cases rest with
    | nil => rfl
    | cons c rest =>
      by_cases hc : c = 10
      · subst hc
        rw [records_none (s' := Scan.start) (by simp [Scan.step]),
          records_none (s' := Scan.start) (by simp [Scan.step, Scan.line, Scan.start, isTerm])]
      · have : (Scan.mk .afterCr [] []).step sep c = Scan.start.step sep c := by
          simp only [Scan.step, hc, if_false, Scan.start]
          rfl
        rw [Scan.records, Scan.records, this]
  · rfl

theorem records_bare (g : List Byte) : ∀ (f : List Byte) (fs : List (List Byte)) (rest : List Byte),
    (∀ b ∈ g, b ≠ sep ∧ ¬ Ends b) →
    (Scan.mk .inField f fs).records sep (g ++ rest) = (Scan.mk .inField (f ++ g) fs).records sep rest := by
  induction g with
  | nil => intro f fs rest _; simp
  | cons c g ih =>
    intro f fs rest h
    obtain ⟨h1, h2⟩ := h c (by simp)
    rw [List.cons_append, records_none (s' := ⟨.inField, f ++ [c], fs⟩)
      (by simp [Scan.step, Scan.plain, h1, (isTerm_false c).2 h2]),
      ih _ _ _ (fun b hb => h b (by simp [hb]))]
    simp

theorem doubled_eq (q : List Byte) : doubled q = escape q := rfl

/-- What may follow a field. -/
def After (sep : Byte) (rest : List Byte) : Prop := ∀ b, rest.head? = some b → b = sep ∨ Ends b

/-- A field, from its start: as if it had stood there bare. -/
theorem records_cell (hs : SeparatorOk sep) {t v : List Byte} (h : CellText sep t v) {mode : Mode}
    (hm : mode = .startField ∨ mode = .startRecord) (fs : List (List Byte)) {rest : List Byte}
    (ha : After sep rest) (hne : t ≠ [] ∨ mode = .startField ∨ rest.head? = some sep) :
    (Scan.mk mode [] fs).records sep (t ++ rest) = (Scan.mk .inField v fs).records sep rest := by
  cases h with
  | bare hb =>
    cases t with
    | nil =>
      rw [List.nil_append]
      cases rest with
      | nil =>
        rcases hne with h | h | h
        · exact absurd rfl h
        · subst h; rfl
        · simp at h
      | cons b rest =>
        have hb' := ha b rfl
        have hq : b ≠ quote := by
          rintro rfl
          rcases hb' with h | h
          · exact hs.1 h.symm
          · rcases h with h | h <;> revert h <;> decide
        have e : (Scan.mk mode [] fs).step sep b = (Scan.mk .inField [] fs).step sep b := by
          rcases hm with rfl | rfl
          · simp [Scan.step, Scan.first, hq, Scan.plain]
          · have hbs : b = sep := by
              rcases hne with h | h | h
              · exact absurd rfl h
              · cases h
              · simpa using h
            subst hbs
            simp [Scan.step, Scan.line, sep_not_term hs, Scan.first, hq, Scan.plain]
        rw [Scan.records, Scan.records, e]
    | cons c t =>
      obtain ⟨h1, h2⟩ := hb.2 c (by simp)
      have hq : c ≠ quote := fun e => hb.1 (by rw [e]; rfl)
      have e : (Scan.mk mode [] fs).step sep c = (⟨.inField, [c], fs⟩, none) := by
        rcases hm with rfl | rfl
        · simp [Scan.step, Scan.first, hq, Scan.plain, h1, (isTerm_false c).2 h2]
        · simp [Scan.step, Scan.line, Scan.first, hq, Scan.plain, h1, (isTerm_false c).2 h2]
      rw [List.cons_append, records_none e, records_bare t _ _ _ (fun b hb' => hb.2 b (by simp [hb']))]
      rfl
  | quoted q hb =>
    rename_i t
    have e : (Scan.mk mode [] fs).step sep 34 = (⟨.inQuoted, [], fs⟩, none) := by
      rcases hm with rfl | rfl
      · simp [Scan.step, Scan.first, quote]
      · simp [Scan.step, Scan.line, Scan.first, quote, isTerm]
    have hsplit : 34 :: doubled q ++ 34 :: t ++ rest = 34 :: (escape q ++ quote :: (t ++ rest)) := by
      simp [doubled_eq, quote]
    rw [hsplit, records_none e, records_quoted, List.nil_append]
    -- after the closing quote
    have key : ∀ (x : List Byte), (∀ b, x.head? = some b → b ≠ quote) →
        (Scan.mk .afterQuote q fs).records sep x = (Scan.mk .inField q fs).records sep x := by
      intro x hx
      cases x with
      | nil => rfl
      | cons b x =>
        have : (Scan.mk .afterQuote q fs).step sep b = (Scan.mk .inField q fs).step sep b := by
          simp [Scan.step, hx b rfl, Scan.plain]
        rw [Scan.records, Scan.records, this]
    rw [key, records_bare t _ _ _ hb.2]
    intro b hb'
    cases t with
    | nil =>
      rcases ha b hb' with h | h
      · subst h; exact hs.1
      · rintro rfl
        rcases h with h | h <;> revert h <;> decide
    | cons c t =>
      simp only [List.cons_append, List.head?_cons, Option.some.injEq] at hb'
      subst hb'
      exact fun e => hb.1 (by rw [e]; rfl)

/-- A separator ends a field. -/
theorem records_sep {f : List Byte} {fs : List (List Byte)} (rest : List Byte) :
    (Scan.mk .inField f fs).records sep (sep :: rest) =
      (Scan.mk .startField [] (fs ++ [f])).records sep rest :=
  records_none (by simp [Scan.step, Scan.plain]) rest

theorem records_row (hs : SeparatorOk sep) {t : List Byte} {r : List (List Byte)} (h : RowText sep t r) :
    ∀ {mode : Mode}, (mode = .startField ∨ mode = .startRecord) → ∀ (fs : List (List Byte)),
    (t ≠ [] ∨ mode = .startField) →
    (Scan.mk mode [] fs).records sep t = [fs ++ r] ∧
    ∀ e rest, Ends e → (Scan.mk mode [] fs).records sep (t ++ e :: rest) =
      (fs ++ r) :: Scan.start.records sep rest := by
  induction h with
  | one h =>
    intro mode hm fs hne
    constructor
    · have := records_cell hs h hm fs (rest := []) (by intro b hb; simp at hb)
        (by rcases hne with h | h; exacts [.inl h, .inr (.inl h)])
      rw [List.append_nil] at this
      rw [this]
      rfl
    · intro e rest he
      rw [records_cell hs h hm fs (by intro b hb; simp only [List.head?_cons, Option.some.injEq] at hb
                                      subst hb; exact .inr he)
        (by rcases hne with h | h; exacts [.inl h, .inr (.inl h)]), step_end he hs]
  | more h _ ih =>
    intro mode hm fs hne
    obtain ⟨i1, i2⟩ := ih (.inl rfl) (fs ++ [_]) (.inr rfl)
    have hc : ∀ rest, (Scan.mk mode [] fs).records sep (_ ++ sep :: rest) = _ := fun rest =>
      records_cell hs h hm fs (rest := sep :: rest)
        (by intro b hb; simp only [List.head?_cons, Option.some.injEq] at hb; exact .inl hb.symm)
        (.inr (.inr rfl))
    constructor
    · rw [hc, records_sep, i1]
      simp
    · intro e rest he
      rw [List.append_assoc, List.cons_append, hc, records_sep, i2 e rest he]
      simp

theorem records_unclosed (q : List Byte) : ∀ (f : List Byte) (fs : List (List Byte)),
    (Scan.mk .inQuoted f fs).records sep (escape q) = [fs ++ [f ++ q]] := by
  induction q with
  | nil => intro f fs; simp [escape, Scan.records]
  | cons c q ih =>
    intro f fs
    have he : escape (c :: q) = (if c = quote then [quote, quote] else [c]) ++ escape q := by
      simp [escape]
    rw [he]
    by_cases hc : c = quote
    · subst hc
      rw [if_pos rfl]
      show (Scan.mk .inQuoted f fs).records sep (quote :: quote :: escape q) = _
      rw [records_none (s' := ⟨.afterQuote, f, fs⟩) (by simp [Scan.step]),
        records_none (s' := ⟨.inQuoted, f ++ [quote], fs⟩) (by simp [Scan.step]), ih]
      simp
    · rw [if_neg hc]
      show (Scan.mk .inQuoted f fs).records sep (c :: escape q) = _
      rw [records_none (s' := ⟨.inQuoted, f ++ [c], fs⟩) (by simp [Scan.step, hc]), ih]
      simp

theorem records_open (hs : SeparatorOk sep) {t : List Byte} {r : List (List Byte)} (h : OpenText sep t r) :
    ∀ {mode : Mode}, (mode = .startField ∨ mode = .startRecord) → ∀ (fs : List (List Byte)),
    (Scan.mk mode [] fs).records sep t = [fs ++ r] := by
  induction h with
  | one q =>
    intro mode hm fs
    have e : (Scan.mk mode [] fs).step sep 34 = (⟨.inQuoted, [], fs⟩, none) := by
      rcases hm with rfl | rfl
      · simp [Scan.step, Scan.first, quote]
      · simp [Scan.step, Scan.line, Scan.first, quote, isTerm]
    rw [records_none e, doubled_eq, records_unclosed]
    rfl
  | more h _ ih =>
    intro mode hm fs
    rw [records_cell hs h hm fs (rest := sep :: _)
        (by intro b hb; simp only [List.head?_cons, Option.some.injEq] at hb; exact .inl hb.symm)
        (.inr (.inr rfl)), records_sep, ih (.inl rfl)]
    simp

/-- The reader reads what the grammar says. -/
theorem records_file (hs : SeparatorOk sep) {t : List Byte} {rs : List (List (List Byte))}
    (h : FileText sep t rs) : Scan.start.records sep t = rs := by
  induction h with
  | done => rfl
  | blank he _ ih =>
    rw [records_none (s' := Scan.start) (by simp [Scan.step, Scan.line, Scan.start, (isTerm_iff _).2 he]), ih]
  | row hr hne he _ ih =>
    have := (records_row hs hr (mode := .startRecord) (.inr rfl) [] (.inl hne)).2
    rw [show Scan.start = ⟨.startRecord, [], []⟩ from rfl, this _ _ he, ih]
    rfl
  | last hr hne => exact (records_row hs hr (mode := .startRecord) (.inr rfl) [] (.inl hne)).1
  | opened hr => exact records_open hs hr (mode := .startRecord) (.inr rfl) []

/-! ### Every text is of that form -/

theorem doubled_cons_quote (q : List Byte) : doubled (34 :: q) = 34 :: 34 :: doubled q := by
  simp [doubled]

theorem doubled_cons {b : Byte} (h : b ≠ 34) (q : List Byte) : doubled (b :: q) = b :: doubled q := by
  simp [doubled, h]

/-- After an opening quote: up to the closing one, or all the way. -/
theorem quoted_split : ∀ (n : Nat) (bs : List Byte), bs.length ≤ n →
    (∃ q, bs = doubled q) ∨ ∃ q rest, bs = doubled q ++ 34 :: rest ∧ rest.head? ≠ some 34 := by
  intro n
  induction n with
  | zero =>
    intro bs h
    obtain rfl : bs = [] := List.eq_nil_of_length_eq_zero (by omega)
    exact .inl ⟨[], rfl⟩
  | succ n ih =>
    intro bs h
    cases bs with
    | nil => exact .inl ⟨[], rfl⟩
    | cons b bs =>
      rw [List.length_cons] at h
      by_cases hb : b = 34
      · subst hb
        cases bs with
        | nil => exact .inr ⟨[], [], rfl, by simp⟩
        | cons c bs =>
          rw [List.length_cons] at h
          by_cases hc : c = 34
          · subst hc
            rcases ih bs (by omega) with ⟨q, rfl⟩ | ⟨q, rest, rfl, hr⟩
            · exact .inl ⟨34 :: q, (doubled_cons_quote q).symm⟩
            · exact .inr ⟨34 :: q, rest, by rw [doubled_cons_quote]; rfl, hr⟩
          · exact .inr ⟨[], c :: bs, rfl, by simpa using hc⟩
      · rcases ih bs (by omega) with ⟨q, rfl⟩ | ⟨q, rest, rfl, hr⟩
        · exact .inl ⟨b :: q, (doubled_cons hb q).symm⟩
        · exact .inr ⟨b :: q, rest, by rw [doubled_cons hb]; rfl, hr⟩

instance (b : Byte) : Decidable (Ends b) := by unfold Ends; infer_instance

theorem bare_split (sep : Byte) (bs : List Byte) :
    ∃ t rest, bs = t ++ rest ∧ (∀ b ∈ t, b ≠ sep ∧ ¬ Ends b) ∧ After sep rest ∧
      (bs.head? ≠ some 34 → t.head? ≠ some 34) := by
  induction bs with
  | nil => exact ⟨[], [], rfl, by simp, by intro b hb; simp at hb, by simp⟩
  | cons b bs ih =>
    by_cases hb : b = sep ∨ Ends b
    · exact ⟨[], b :: bs, rfl, by simp,
        by intro c hc; simp only [List.head?_cons, Option.some.injEq] at hc; subst hc; exact hb, by simp⟩
    · push Not at hb
      obtain ⟨t, rest, rfl, h1, h2, -⟩ := ih
      refine ⟨b :: t, rest, rfl, ?_, h2, by simp⟩
      intro c hc
      rcases List.mem_cons.1 hc with rfl | hc
      · exact hb
      · exact h1 c hc

theorem cell_split (sep : Byte) (bs : List Byte) :
    (∃ q, bs = 34 :: doubled q) ∨
    ∃ t v rest, bs = t ++ rest ∧ CellText sep t v ∧ After sep rest := by
  by_cases hb : bs.head? = some 34
  · cases bs with
    | nil => simp at hb
    | cons b bs =>
      simp only [List.head?_cons, Option.some.injEq] at hb
      subst hb
      rcases quoted_split _ bs le_rfl with ⟨q, rfl⟩ | ⟨q, rest, rfl, hr⟩
      · exact .inl ⟨q, rfl⟩
      · obtain ⟨t, rest, rfl, h1, h2, h3⟩ := bare_split sep rest
        exact .inr ⟨_, _, rest, by simp, .quoted q ⟨h3 hr, h1⟩, h2⟩
  · obtain ⟨t, rest, rfl, h1, h2, h3⟩ := bare_split sep bs
    exact .inr ⟨t, t, rest, rfl, .bare ⟨h3 hb, h1⟩, h2⟩

theorem row_split (sep : Byte) : ∀ (n : Nat) (bs : List Byte), bs.length ≤ n →
    (∃ r, OpenText sep bs r) ∨
    ∃ t r rest, bs = t ++ rest ∧ RowText sep t r ∧ ∀ b, rest.head? = some b → Ends b := by
  intro n
  induction n with
  | zero =>
    intro bs h
    obtain rfl : bs = [] := List.eq_nil_of_length_eq_zero (by omega)
    exact .inr ⟨[], [[]], [], rfl, .one (.bare ⟨by simp, by simp⟩), by simp⟩
  | succ n ih =>
    intro bs h
    rcases cell_split sep bs with ⟨q, rfl⟩ | ⟨t, v, rest, rfl, hc, ha⟩
    · exact .inl ⟨_, .one q⟩
    · cases rest with
      | nil => exact .inr ⟨t, [v], [], rfl, .one hc, by simp⟩
      | cons b rest =>
        by_cases hb : b = sep
        · subst hb
          rw [List.length_append, List.length_cons] at h
          rcases ih rest (by omega) with ⟨r, hr⟩ | ⟨t', r, rest, rfl, hr, hh⟩
          · exact .inl ⟨_, .more hc hr⟩
          · exact .inr ⟨t ++ b :: t', v :: r, rest, by simp, .more hc hr, hh⟩
        · refine .inr ⟨t, [v], b :: rest, rfl, .one hc, ?_⟩
          intro c hc'
          simp only [List.head?_cons, Option.some.injEq] at hc'
          subst hc'
          exact (ha b rfl).resolve_left hb

theorem file_split (sep : Byte) : ∀ (n : Nat) (bs : List Byte), bs.length ≤ n →
    ∃ rs, FileText sep bs rs := by
  intro n
  induction n with
  | zero =>
    intro bs h
    obtain rfl : bs = [] := List.eq_nil_of_length_eq_zero (by omega)
    exact ⟨[], .done⟩
  | succ n ih =>
    intro bs h
    rcases row_split sep _ bs le_rfl with ⟨r, hr⟩ | ⟨t, r, rest, rfl, hr, hh⟩
    · exact ⟨_, .opened hr⟩
    · cases rest with
      | nil =>
        by_cases ht : t = []
        · subst ht
          exact ⟨[], .done⟩
        · rw [List.append_nil]
          exact ⟨_, .last hr ht⟩
      | cons e rest =>
        rw [List.length_append, List.length_cons] at h
        obtain ⟨rs, hrs⟩ := ih rest (by omega)
        by_cases ht : t = []
        · subst ht
          exact ⟨rs, .blank (hh e rfl) hrs⟩
        · exact ⟨_, .row hr ht (hh e rfl) hrs⟩

/-- The grammar and the reader agree. -/
theorem parse_iff (hs : SeparatorOk sep) (bs : List Byte) (rs : List (List (List Byte))) :
    parse sep bs = rs ↔ FileText sep bs rs := by
  constructor
  · intro h
    obtain ⟨rs', h'⟩ := file_split sep _ bs le_rfl
    have := records_file hs h'
    unfold parse at h
    rw [h] at this
    rw [this]; exact h'
  · exact records_file hs

end Verif.Csv
