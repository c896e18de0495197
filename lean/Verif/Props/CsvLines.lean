import Verif.Proof.CsvLines
import Verif.Props.Csv
import Verif.Model.CsvFiles

/-! Property theorems about hand-written CSV files: C124. -/

namespace Verif.Props

open GraphMap Spec Csv

/-! ### C124 -/

/-- **C124.** What is read from a file without quotes: it is cut at every line feed and every carriage
return, empty lines are dropped, and each line is cut at every separator. -/
theorem c124_lines {sep : Byte} (h : SeparatorOk sep) {bs : List Byte} (hq : (34 : Byte) ∉ bs) :
    parse sep bs = ((bs.splitOnP (fun c => decide (c = 10 ∨ c = 13))).filter
      (fun l => decide (l ≠ []))).map (·.splitOn sep) :=
  (records_lines h bs hq).2 _ (.inl rfl)

/-- The three ways to end a line. -/
def LineEnd (e : List Byte) : Prop := e = [10] ∨ e = [13] ∨ e = [13, 10]

theorem split_plain {l : List Byte} (hl : (10 : Byte) ∉ l ∧ (13 : Byte) ∉ l) {e : Byte}
    (he : e = 10 ∨ e = 13) (rest : List Byte) :
    (l ++ e :: rest).splitOnP (fun c => decide (c = 10 ∨ c = 13)) =
      l :: rest.splitOnP (fun c => decide (c = 10 ∨ c = 13)) := by
  induction l with
  | nil => rw [List.nil_append]; exact lines_end (by simpa [lineEnd] using he) _
  | cons c l ih =>
    have h1 : lineEnd c = false := by
      have : ¬ (10 = c) ∧ ¬ (13 = c) := ⟨fun e => hl.1 (by simp [← e]), fun e => hl.2 (by simp [← e])⟩
      simp only [lineEnd, decide_eq_false_iff_not]
      rintro (rfl | rfl)
      · exact this.1 rfl
      · exact this.2 rfl
    rw [List.cons_append, lines_other h1,
      ih ⟨fun e => hl.1 (by simp [e]), fun e => hl.2 (by simp [e])⟩]
    rfl

/-- **C124.** However the lines end, one by one: the records are those of the lines that are not empty. -/
theorem c124_line_ends {sep : Byte} (h : SeparatorOk sep) (ls : List (List Byte × List Byte))
    (hl : ∀ p ∈ ls, (34 : Byte) ∉ p.1 ∧ (10 : Byte) ∉ p.1 ∧ (13 : Byte) ∉ p.1 ∧ LineEnd p.2) :
    parse sep (ls.flatMap (fun p => p.1 ++ p.2)) =
      ((ls.map (·.1)).filter (fun l => decide (l ≠ []))).map (·.splitOn sep) := by
  rw [c124_lines h]
  · congr 1
    induction ls with
    | nil => rfl
    | cons p ls ih =>
      obtain ⟨l, e⟩ := p
      obtain ⟨-, h2, h3, he⟩ := hl (l, e) (by simp)
      have ih := ih (fun p hp => hl p (by simp [hp]))
      have one : ∀ c : Byte, c = 10 ∨ c = 13 →
          ((l ++ c :: ls.flatMap (fun p => p.1 ++ p.2)).splitOnP (fun c => decide (c = 10 ∨ c = 13))).filter
            (fun l => decide (l ≠ [])) =
          (((l, e) :: ls).map (·.1)).filter (fun l => decide (l ≠ [])) := by
        intro c hc
        rw [split_plain ⟨h2, h3⟩ hc, List.map_cons, List.filter_cons, List.filter_cons, ih]
      rw [List.flatMap_cons]
      rcases he with he | he | he <;> replace he : e = _ := he <;> subst he
      · rw [List.append_assoc]
        exact one 10 (.inl rfl)
      · rw [List.append_assoc]
        exact one 13 (.inr rfl)
      · rw [List.append_assoc, List.cons_append, List.cons_append, List.nil_append,
          split_plain ⟨h2, h3⟩ (.inr rfl), ← one 10 (.inl rfl), split_plain ⟨h2, h3⟩ (.inl rfl),
          show ((10 : Byte) :: ls.flatMap (fun p => p.1 ++ p.2)).splitOnP
            (fun c => decide (c = 10 ∨ c = 13)) = [] :: (ls.flatMap (fun p => p.1 ++ p.2)).splitOnP
            (fun c => decide (c = 10 ∨ c = 13)) from lines_end (c := 10) (by decide) _]
        simp only [List.filter_cons]
        rfl
  · intro hq
    obtain ⟨p, hp, hb⟩ := List.mem_flatMap.1 hq
    obtain ⟨h1, -, -, he⟩ := hl p hp
    rcases List.mem_append.1 hb with hb | hb
    · exact h1 hb
    · rcases he with he | he | he <;> rw [he] at hb <;> revert hb <;> decide

/-- **C124.** The same lines with other line ends are the same graph. -/
theorem c124_same_graph {m k : Nat} {NL EL : Type} [DecidableEq NL] [DecidableEq EL] {c : Settings}
    (h : SeparatorOk c.separator) (xf : Field (Id m)) (nf : Field NL) (ef : Field EL)
    (ns es ns' es' : List (List Byte × List Byte))
    (hn : ns.map (·.1) = ns'.map (·.1)) (he : es.map (·.1) = es'.map (·.1))
    (hl : ∀ p ∈ ns ++ es ++ ns' ++ es',
      (34 : Byte) ∉ p.1 ∧ (10 : Byte) ∉ p.1 ∧ (13 : Byte) ∉ p.1 ∧ LineEnd p.2)
    (g : GraphMap m k NL EL) :
    Csv.read c xf nf ef (some (ns.flatMap (fun p => p.1 ++ p.2))) (es.flatMap (fun p => p.1 ++ p.2)) g =
    Csv.read c xf nf ef (some (ns'.flatMap (fun p => p.1 ++ p.2))) (es'.flatMap (fun p => p.1 ++ p.2)) g := by
  have e1 : parse c.separator (ns.flatMap (fun p => p.1 ++ p.2)) =
      parse c.separator (ns'.flatMap (fun p => p.1 ++ p.2)) := by
    rw [c124_line_ends h _ (fun p hp => hl p (by simp [hp])),
      c124_line_ends h _ (fun p hp => hl p (by simp [hp])), hn]
  have e2 : parse c.separator (es.flatMap (fun p => p.1 ++ p.2)) =
      parse c.separator (es'.flatMap (fun p => p.1 ++ p.2)) := by
    rw [c124_line_ends h _ (fun p hp => hl p (by simp [hp])),
      c124_line_ends h _ (fun p hp => hl p (by simp [hp])), he]
  have r1 : Csv.rows c (ns.flatMap (fun p => p.1 ++ p.2)) = Csv.rows c (ns'.flatMap (fun p => p.1 ++ p.2)) := by
    unfold Csv.rows; rw [e1]
  have r2 : Csv.rows c (es.flatMap (fun p => p.1 ++ p.2)) = Csv.rows c (es'.flatMap (fun p => p.1 ++ p.2)) := by
    unfold Csv.rows; rw [e2]
  have n1 : nodeIter c xf nf (ns.flatMap (fun p => p.1 ++ p.2)) =
      nodeIter c xf nf (ns'.flatMap (fun p => p.1 ++ p.2)) := by unfold nodeIter; rw [r1]
  have n2 : edgeIter c xf ef (es.flatMap (fun p => p.1 ++ p.2)) =
      edgeIter c xf ef (es'.flatMap (fun p => p.1 ++ p.2)) := by unfold edgeIter; rw [r2]
  unfold Csv.read
  simp only [n1, n2]

/-- The hypotheses are met: three lines, one of them empty, ended in three ways. -/
example : (comma ≠ 34 ∧ comma ≠ 10 ∧ comma ≠ 13) ∧
    (∀ p ∈ [(ascii "1,2", [13, 10]), ([], [10]), (ascii "2,,3", [13])],
      (34 : Byte) ∉ p.1 ∧ (10 : Byte) ∉ p.1 ∧ (13 : Byte) ∉ p.1 ∧
        (p.2 = [10] ∨ p.2 = [13] ∨ p.2 = [13, 10])) ∧
    parse comma (ascii "1,2\r\n\n2,,3\r") =
      [[ascii "1", ascii "2"], [ascii "2", [], ascii "3"]] := by decide

end Verif.Props
