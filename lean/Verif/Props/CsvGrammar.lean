import Verif.Proof.CsvGrammar
import Verif.Props.CsvLines

/-! Property theorems about CSV files with quotes: C127. -/

namespace Verif.Props

open GraphMap Spec Csv

/-! ### C127 -/

/-- **C127.** What is read from a file, any file: the rows that the grammar assigns to it. -/
theorem c127_grammar {sep : Byte} (hs : SeparatorOk sep) (bs : List Byte) (rs : List (List (List Byte))) :
    parse sep bs = rs ↔ FileText sep bs rs :=
  parse_iff hs bs rs

/-- **C127.** The grammar assigns rows to every text, and only one list of rows; none of the rows is without
fields. -/
theorem c127_unique {sep : Byte} (hs : SeparatorOk sep) (bs : List Byte) :
    ∃ rs, FileText sep bs rs ∧ (∀ r ∈ rs, r ≠ []) ∧ ∀ rs', FileText sep bs rs' → rs' = rs := by
  refine ⟨parse sep bs, (parse_iff hs bs _).1 rfl, ?_, fun rs' h => ((parse_iff hs bs _).2 h).symm⟩
  have h := (parse_iff hs bs _).1 rfl
  have hr : ∀ {t r}, RowText sep t r → r ≠ [] := by
    intro t r h
    cases h <;> simp
  have ho : ∀ {t r}, OpenText sep t r → r ≠ [] := by
    intro t r h
    cases h <;> simp
  generalize parse sep bs = rs at h
  induction h with
  | done => simp
  | blank _ _ ih => exact ih
  | row h _ _ _ ih =>
    intro r hm
    rcases List.mem_cons.1 hm with rfl | hm
    · exact hr h
    · exact ih r hm
  | last h _ =>
    intro r hm
    rw [List.mem_singleton] at hm
    subst hm
    exact hr h
  | opened h =>
    intro r hm
    rw [List.mem_singleton] at hm
    subst hm
    exact ho h

/-- **C127.** Reading any file, writing its rows and reading them again gives the same rows. -/
theorem c127_rewrite {sep : Byte} (hs : SeparatorOk sep) (bs : List Byte) :
    parse sep ((parse sep bs).flatMap (writeRecord sep)) = parse sep bs := by
  obtain ⟨rs, h, hne, -⟩ := c127_unique hs bs
  rw [(parse_iff hs bs rs).2 h]
  exact parse_write hs rs hne

/-- **C127.** Files with the same rows, however quoted and however their lines end, are the same graph. -/
theorem c127_same_graph {m k : Nat} {NL EL : Type} [DecidableEq NL] [DecidableEq EL] {c : Settings}
    (h : SeparatorOk c.separator) (xf : Field (Id m)) (nf : Field NL) (ef : Field EL)
    {ns ns' es es' : List Byte} {rn re : List (List (List Byte))}
    (hn : FileText c.separator ns rn) (hn' : FileText c.separator ns' rn)
    (he : FileText c.separator es re) (he' : FileText c.separator es' re) (g : GraphMap m k NL EL) :
    Csv.read c xf nf ef (some ns) es g = Csv.read c xf nf ef (some ns') es' g := by
  have r1 : Csv.rows c ns = Csv.rows c ns' := by
    unfold Csv.rows; rw [(parse_iff h _ _).2 hn, (parse_iff h _ _).2 hn']
  have r2 : Csv.rows c es = Csv.rows c es' := by
    unfold Csv.rows; rw [(parse_iff h _ _).2 he, (parse_iff h _ _).2 he']
  have n1 : nodeIter c xf nf ns = nodeIter c xf nf ns' := by unfold nodeIter; rw [r1]
  have n2 : edgeIter c xf ef es = edgeIter c xf ef es' := by unfold edgeIter; rw [r2]
  unfold Csv.read
  simp only [n1, n2]

/-- A file with what the format leaves open: text after a closing quote, a quote in the middle of bare text,
a line end and doubled quotes inside quotes, an empty quoted field alone on a line, and a quote that is never
closed. -/
example : parse 44 (ascii "\"a\"b,c\"d\r\n\r\"e\n\"\"f\",\r\"\"\ng,\"h\n,") =
    [[ascii "ab", ascii "c\"d"], [ascii "e\n\"f", []], [[]], [ascii "g", ascii "h\n,"]] := by decide

/-- The hypotheses of `c127_same_graph` are met: one row, quoted and not. -/
example : FileText 44 (ascii "1,a\n") [[ascii "1", ascii "a"]] ∧
    FileText 44 (ascii "\"1\",\"\"a\r") [[ascii "1", ascii "a"]] := by
  have h : SeparatorOk 44 := by unfold SeparatorOk; decide
  exact ⟨(c127_grammar h _ _).1 (by decide), (c127_grammar h _ _).1 (by decide)⟩

end Verif.Props
