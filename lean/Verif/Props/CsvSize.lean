import Verif.Proof.CsvSize
import Verif.Props.CsvFiles
import Mathlib.Data.Nat.Log

/-! Property theorems about the lengths of CSV files: C150. -/

namespace Verif.Props

open GraphMap Spec Csv

variable {m k : Nat} {NL EL : Type}

/-- **C150.** The lengths of the two files a graph is written to: nothing without nodes (edges); otherwise the
line of column names and for each node (edge) its ids and the text of its label, with one more byte after each
field, and quotes where a field needs them. -/
theorem c150_lengths {g : GView m k NL EL} {A : AGraph (Id m) NL EL} (S : Shows g A) (sep : Byte)
    (xf : Field (Id m)) (nf : Field NL) (ef : Field EL) :
    ∃ nb eb, write sep xf nf ef g = .ok (nb, eb) ∧ nb.length = nodeFileBytes sep xf nf A g.nodeIndices ∧
      eb.length = edgeFileBytes sep xf ef A g.edgeIndices :=
  write_lengths S sep xf nf ef

/-- **C150.** The order of the nodes and edges does not matter for the lengths. -/
theorem c150_any_order (sep : Byte) (xf : Field (Id m)) (nf : Field NL) (ef : Field EL) (A : AGraph (Id m) NL EL)
    {ns ns' : List (Id m)} {es es' : List (Id m × Id m)} (hn : ns.Perm ns') (he : es.Perm es') :
    nodeFileBytes sep xf nf A ns = nodeFileBytes sep xf nf A ns' ∧
    edgeFileBytes sep xf ef A es = edgeFileBytes sep xf ef A es' := by
  have key : ∀ {ls ls' : List (List (List Byte))} (names : List String), ls.Perm ls' →
      fileBytes sep names ls = fileBytes sep names ls' := by
    intro ls ls' names h
    unfold fileBytes
    have e : ls = [] ↔ ls' = [] := by
      rw [← List.length_eq_zero_iff, ← List.length_eq_zero_iff, h.length_eq]
    by_cases h0 : ls = []
    · rw [if_pos h0, if_pos (e.1 h0)]
    · rw [if_neg h0, if_neg (fun hc => h0 (e.2 hc)), (h.map _).sum_eq]
  exact ⟨key _ (hn.map _), key _ (he.map _)⟩

/-- **C150.** An id in decimal notation takes as many bytes as it has digits, if the separator is not a digit. -/
theorem c150_decimal {sep : Byte} (hs : sep.val < 48 ∨ 57 < sep.val) (n : Id m) :
    cellBytes sep ((Field.decimal m).shown n) = Nat.log 10 n.val + 1 := by
  have hd : ∀ b ∈ digits n.val, 48 ≤ b.val ∧ b.val ≤ 57 := by
    intro b hb
    obtain ⟨c, hc, rfl⟩ := List.mem_map.1 hb
    have h1 := Nat.isDigit_of_mem_toDigits (by omega) (by omega) hc
    have h2 : 48 ≤ c.toNat ∧ c.toNat ≤ 57 := by
      simp only [Char.isDigit, Bool.and_eq_true, decide_eq_true_eq] at h1
      exact ⟨h1.1, h1.2⟩
    show 48 ≤ c.toNat % 256 ∧ c.toNat % 256 ≤ 57
    omega
  have hno : ¬ (sep ∈ digits n.val ∨ (34 : Byte) ∈ digits n.val ∨ (10 : Byte) ∈ digits n.val ∨
      (13 : Byte) ∈ digits n.val) := by
    rintro (h | h | h | h)
    · have := hd _ h; omega
    · exact absurd (hd _ h).1 (by decide)
    · exact absurd (hd _ h).1 (by decide)
    · exact absurd (hd _ h).1 (by decide)
  show cellBytes sep (digits n.val) = _
  unfold cellBytes
  rw [if_neg hno]
  unfold digits
  rw [List.length_map]
  have up := Nat.lt_pow_succ_log_self (b := 10) (by omega) n.val
  refine le_antisymm ((Nat.length_toDigits_le_iff (by omega) (by omega)).2 up) ?_
  rcases Nat.eq_zero_or_pos (Nat.log 10 n.val) with h0 | h0
  · rw [h0]; exact Nat.length_toDigits_pos
  · by_contra hc
    have : n.val < 10 ^ Nat.log 10 n.val :=
      (Nat.length_toDigits_le_iff (b := 10) (by omega) h0).1 (by omega)
    exact absurd (Nat.pow_log_le_self 10 (x := n.val) (by intro h; rw [h] at h0; simp at h0)) (by omega)

/-- **C150.** A graph with numbers for ids and without labels: a node takes its digits and two bytes, an edge
the digits of its ends and three. -/
theorem c150_unlabelled {g : GView m k NL EL} {A : AGraph (Id m) NL EL} (S : Shows g A) (nf : Field NL) (ef : Field EL)
    (hn : ∀ n x, A.node n ≠ some (some x)) (he : ∀ s t x, A.edge s t ≠ some (some x)) :
    ∃ nb eb, write 44 (.decimal m) nf ef g = .ok (nb, eb) ∧
      nb.length = (if g.nodeIndices = [] then 0 else 17 + (g.nodeIndices.map fun n => Nat.log 10 n.val + 3).sum) ∧
      eb.length = (if g.edgeIndices = [] then 0 else
        24 + (g.edgeIndices.map fun e => Nat.log 10 e.1.val + Nat.log 10 e.2.val + 5).sum) := by
  obtain ⟨nb, eb, h1, h2, h3⟩ := c150_lengths S 44 (.decimal m) nf ef
  have d : ∀ n : Id m, cellBytes 44 ((Field.decimal m).shown n) = Nat.log 10 n.val + 1 :=
    fun n => c150_decimal (.inl (by decide)) n
  have none_text : ∀ {L : Type} (f : Field L) (o : Option (Option L)), (∀ x, o ≠ some (some x)) →
      cellBytes 44 (textOf f o) = 0 := by
    intro L f o h
    have : textOf f o = [] := by
      unfold textOf
      match o, h with
      | none, _ => rfl
      | some none, _ => rfl
      | some (some x), h => exact absurd rfl (h x)
    rw [this]
    decide
  have t1 : ∀ n, cellBytes 44 (textOf nf (A.node n)) = 0 := fun n => none_text nf _ (hn n)
  have t2 : ∀ s t, cellBytes 44 (textOf ef (A.edge s t)) = 0 := fun s t => none_text ef _ (he s t)
  refine ⟨nb, eb, h1, ?_, ?_⟩
  · rw [h2]
    unfold nodeFileBytes fileBytes
    simp only [List.map_eq_nil_iff]
    split
    · rfl
    · rw [List.map_map, show lineBytes 44 (["nodeId:ID", ":LABEL"].map ascii) = 17 from by decide]
      congr 2
      refine List.map_congr_left fun n _ => ?_
      simp [lineBytes, d, t1]
  · rw [h3]
    unfold edgeFileBytes fileBytes
    simp only [List.map_eq_nil_iff]
    split
    · rfl
    · rw [List.map_map, show lineBytes 44 ([":START_ID", ":END_ID", ":TYPE"].map ascii) = 24 from by decide]
      congr 2
      refine List.map_congr_left fun e _ => ?_
      simp [lineBytes, d, t2]
      omega

/-- **C150.** `write_to_csv` on a disk with room leaves two files of these lengths. -/
theorem c150_files {g : GView m k NL EL} {A : AGraph (Id m) NL EL} (S : Shows g A)
    (xf : Field (Id m)) (nf : Field NL) (ef : Field EL) {np ep : String} (hne : np ≠ ep) {w : World}
    (hw : csvRoom xf nf ef A g.nodeIndices g.edgeIndices ≤ w.room) :
    ∃ w', writeTo xf nf ef g np ep w = .ok (true, w') ∧
      (w'.files np).map List.length = some (nodeFileBytes 44 xf nf A g.nodeIndices) ∧
      (w'.files ep).map List.length = some (edgeFileBytes 44 xf ef A g.edgeIndices) ∧
      w'.room = w.room - csvRoom xf nf ef A g.nodeIndices g.edgeIndices := by
  obtain ⟨nb, eb, h1, h2, h3⟩ := c150_lengths S 44 xf nf ef
  have size : csvRoom xf nf ef A g.nodeIndices g.edgeIndices = nb.length + eb.length + 2 := by
    unfold csvRoom; omega
  rw [size] at hw ⊢
  obtain ⟨b1, b2, b3, -, b5⟩ := writeFiles_room hne nb eb hw
  refine ⟨(writeFiles np ep nb eb w).2, ?_, by rw [b2, ← h2]; rfl, by rw [b3, ← h3]; rfl, b5⟩
  unfold writeTo
  rw [show write comma xf nf ef g = _ from h1, bind_ok, pure_ok, ← b1]

/-- A label with a separator and a quote: `a,"` is written as `"a,"""`, six bytes. -/
example : cellBytes 44 (ascii "a,\"") = 6 ∧ cellBytes 44 (ascii "ab") = 2 ∧ cellBytes 44 [] = 0 ∧
    cellBytes 44 (ascii "\n") = 3 ∧ cellBytes 44 ((Field.decimal 255).shown 107) = 3 := by decide

set_option maxRecDepth 4000 in
/-- The little graph: 1 with the label `hi`, 0, and the edge between them with the label `e`. -/
example : ∃ g, small false = .ok g ∧ Shows g.view g.abs ∧
    nodeFileBytes 44 (.decimal 255) .text g.abs g.view.nodeIndices = 25 ∧
    edgeFileBytes 44 (.decimal 255) .text g.abs g.view.edgeIndices = 30 ∧
    csvRoom (.decimal 255) .text .text g.abs g.view.nodeIndices g.view.edgeIndices = 57 := by
  obtain ⟨g, h, hr⟩ := small_reachable false
  have S := inv_shows hr.inv
  cases h
  exact ⟨_, rfl, S, by decide, by decide, by decide⟩

/-- The hypotheses of the case without labels: the edges 0 - 1 and 1 - 107, in files of 28 and 36 bytes. -/
example : ∃ g : GraphMap 255 255 (List Byte) (List Byte),
    (withLabelMap false SetMap.empty SetMap.empty).exec [.addEdge 0 1 none, .addEdge 1 107 none] = .ok g ∧ Reachable g ∧
    g.nodeLabels.items = [] ∧ g.edgeLabels.items = [] ∧
    ∃ nb eb, write 44 (.decimal 255) .text .text g.view = .ok (nb, eb) ∧ nb.length = 28 ∧ eb.length = 36 := by
  obtain ⟨g, h⟩ : ∃ g : GraphMap 255 255 (List Byte) (List Byte),
    (withLabelMap false SetMap.empty SetMap.empty).exec [.addEdge 0 1 none, .addEdge 1 107 none] = .ok g := ⟨_, rfl⟩
  have hr : Reachable g := (exec_run h).reachable List.nodup_nil List.nodup_nil
  cases h
  exact ⟨_, rfl, hr, rfl, rfl, _, _, rfl, by decide, by decide⟩

end Verif.Props
