import Verif.Model.CsvFiles
import Verif.Proof.Disk

/-! CSV files on the disk. -/

namespace Verif

namespace CsvOut

theorem flush_eq (w : CsvOut) : w.flush = (decide (w.buf.length ≤ w.inner.room),
    ⟨⟨w.inner.data ++ w.buf.take w.inner.room, w.inner.room - w.buf.length⟩,
      if w.buf.length ≤ w.inner.room then [] else w.buf⟩) := by
  unfold flush
  rw [BufWriter.flush_eq]
  simp

/-- The bytes accepted so far are `d`, and `t` can ever reach the file. -/
structure Holds (d : List Byte) (t : Nat) (w : CsvOut) : Prop where
  eq : w.inner.data ++ w.buf = d
  room : w.inner.data.length + w.inner.room = t
  cap : w.buf.length ≤ capacity

theorem drop_holds {d t} {w : CsvOut} (h : Holds d t w) : w.drop = ⟨d.take t, t - d.length⟩ := by
  obtain ⟨⟨data, room⟩, buf⟩ := w
  obtain ⟨h1, h2, -⟩ := h
  simp only at h1 h2
  subst h1 h2
  unfold drop
  rw [flush_eq]
  simp only [List.take_append, List.length_append]
  rw [List.take_of_length_le (l := data) (by omega), Nat.add_sub_cancel_left, Nat.add_sub_add_left]

theorem push_holds {d t} {w : CsvOut} (h : Holds d t w) (b : Byte) :
    ((w.push b).1 = true ∧ Holds (d ++ [b]) t (w.push b).2) ∨
    ((w.push b).1 = false ∧ (w.push b).2.inner = ⟨d.take t, 0⟩ ∧ t < d.length ∧
      w.buf.length = capacity) := by
  obtain ⟨⟨data, room⟩, buf⟩ := w
  obtain ⟨h1, h2, h3⟩ := h
  simp only at h1 h2 h3
  subst h1 h2
  unfold push
  simp only
  by_cases hb : buf.length < capacity
  · rw [if_pos hb]
    exact .inl ⟨rfl, by simp, rfl, by simp; omega⟩
  · rw [if_neg hb, flush_eq]
    simp only
    by_cases hr : buf.length ≤ room
    · left
      simp only [hr, decide_true, if_true, true_and, List.nil_append]
      refine ⟨by simp [List.take_of_length_le hr], ?_, by simp [capacity]⟩
      simp only [List.length_append, List.length_take]
      omega
    · right
      simp only [hr, decide_false, Bool.false_eq_true, if_false, true_and]
      refine ⟨?_, by simp; omega, by omega⟩
      rw [List.take_append, List.take_of_length_le (l := data) (by omega)]
      congr 2
      · congr 1; omega
      · omega

theorem pushAll_holds {t} : ∀ (bs : List Byte) {d} {w : CsvOut}, Holds d t w →
    ((w.pushAll bs).1 = true ∧ Holds (d ++ bs) t (w.pushAll bs).2) ∨
    ((w.pushAll bs).1 = false ∧ (w.pushAll bs).2.inner = ⟨(d ++ bs).take t, 0⟩ ∧
      t < (d ++ bs).length ∧ capacity < w.buf.length + bs.length)
  | [], d, w, h => .inl ⟨rfl, by rw [List.append_nil]; exact h⟩
  | b :: bs, d, w, h => by
    unfold pushAll
    rcases push_holds h b with ⟨e1, e2⟩ | ⟨e1, e2, e3, e4⟩
    · simp only [e1, if_true]
      rcases pushAll_holds bs e2 with ⟨f1, f2⟩ | ⟨f1, f2, f3, f4⟩
      · exact .inl ⟨f1, by simpa using f2⟩
      · refine .inr ⟨f1, by simpa using f2, by simpa using f3, ?_⟩
        have : (w.push b).2.buf.length ≤ w.buf.length + 1 := by
          unfold push
          split
          · simp
          · simp only
            split
            · rw [flush_eq]
              simp only [flush_eq, decide_eq_true_eq] at *
              simp [*]
            · rw [flush_eq]; simp only; split <;> simp
        simp only [List.length_cons]; omega
    · simp only [e1, Bool.false_eq_true, if_false]
      refine .inr ⟨trivial, ?_, by simp; omega, by simp [e4]⟩
      rw [e2, List.take_append_of_le_length (by omega)]

theorem drop_full {w : CsvOut} (h : w.inner.room = 0) : w.drop = w.inner := by
  unfold drop
  rw [flush_eq]
  obtain ⟨⟨data, room⟩, buf⟩ := w
  simp only at h
  subst h
  simp

end CsvOut

namespace Csv

theorem new_holds (t : Nat) : CsvOut.Holds [] t ⟨⟨[], t⟩, []⟩ := ⟨rfl, by simp, by simp⟩

/-- With room for everything both files are written and the call reports success. -/
theorem writeFiles_room {np ep : String} (hne : np ≠ ep) (nb eb : List Byte) {w : World}
    (h : nb.length + eb.length + 2 ≤ w.room) :
    (writeFiles np ep nb eb w).1 = true ∧
    (writeFiles np ep nb eb w).2.files np = some nb ∧
    (writeFiles np ep nb eb w).2.files ep = some eb ∧
    (∀ p, p ≠ np → p ≠ ep → (writeFiles np ep nb eb w).2.files p = w.files p) ∧
    (writeFiles np ep nb eb w).2.room = w.room - (nb.length + eb.length + 2) := by
  unfold writeFiles
  rw [if_neg (by omega)]
  rcases CsvOut.pushAll_holds nb (new_holds (w.room - 1)) with ⟨e1, e2⟩ | ⟨-, -, e3, -⟩
  swap
  · simp at e3; omega
  rw [List.nil_append] at e2
  have l1 := congrArg List.length e2.eq
  have l2 := e2.room
  rw [List.length_append] at l1
  simp only [e1, Bool.true_eq_false, if_false]
  rw [if_neg (by omega)]
  rcases CsvOut.pushAll_holds eb (new_holds (((⟨⟨[], w.room - 1⟩, []⟩ : CsvOut).pushAll nb).2.inner.room - 1))
    with ⟨f1, f2⟩ | ⟨-, -, f3, -⟩
  swap
  · simp at f3; omega
  rw [List.nil_append] at f2
  have f3 := CsvOut.drop_holds f2
  have f4 : CsvOut.Holds nb (((⟨⟨[], w.room - 1⟩, []⟩ : CsvOut).pushAll nb).2.inner.data.length +
      (((⟨⟨[], w.room - 1⟩, []⟩ : CsvOut).pushAll nb).2.inner.room - 1 - eb.length))
      ⟨⟨((⟨⟨[], w.room - 1⟩, []⟩ : CsvOut).pushAll nb).2.inner.data,
        (((⟨⟨[], w.room - 1⟩, []⟩ : CsvOut).pushAll nb).2.inner.room - 1 - eb.length)⟩,
        ((⟨⟨[], w.room - 1⟩, []⟩ : CsvOut).pushAll nb).2.buf⟩ := ⟨e2.eq, rfl, e2.cap⟩
  have f5 := CsvOut.drop_holds f4
  simp only [f3, f5, f1, World.put]
  refine ⟨trivial, ?_, ?_, ?_, ?_⟩
  · rw [if_pos trivial, List.take_of_length_le (by omega)]
  · rw [if_neg (Ne.symm hne), if_pos trivial, List.take_of_length_le (by omega)]
  · intro p h1 h2
    rw [if_neg h1, if_neg h2]
  · omega

/-- If all fits into the buffers, the call reports success whatever room there is; the edge file gets its
bytes first. -/
theorem writeFiles_small {np ep : String} (hne : np ≠ ep) {nb eb : List Byte}
    (h1 : nb.length ≤ CsvOut.capacity) (h2 : eb.length ≤ CsvOut.capacity) {w : World} (h : 2 ≤ w.room) :
    (writeFiles np ep nb eb w).1 = true ∧
    (writeFiles np ep nb eb w).2.files ep = some (eb.take (w.room - 2)) ∧
    (writeFiles np ep nb eb w).2.files np = some (nb.take (w.room - 2 - eb.length)) := by
  have small : ∀ (bs buf : List Byte) (s : Sink), buf.length + bs.length ≤ CsvOut.capacity →
      (⟨s, buf⟩ : CsvOut).pushAll bs = (true, ⟨s, buf ++ bs⟩) := by
    intro bs
    induction bs with
    | nil => intro buf s _; simp [CsvOut.pushAll]
    | cons b bs ih =>
      intro buf s hl
      simp only [List.length_cons] at hl
      have hp : (⟨s, buf⟩ : CsvOut).push b = (true, ⟨s, buf ++ [b]⟩) := by
        unfold CsvOut.push
        rw [if_pos (by simp only; omega)]
      unfold CsvOut.pushAll
      simp only [hp, if_true]
      rw [ih _ _ (by simp; omega)]
      simp
  unfold writeFiles
  rw [if_neg (by omega), small nb [] _ (by simpa using h1)]
  simp only [Bool.true_eq_false, if_false]
  rw [if_neg (by omega), small eb [] _ (by simpa using h2)]
  simp only [List.nil_append, World.put, if_true, true_and]
  rw [if_neg (Ne.symm hne)]
  have d1 : (⟨⟨[], w.room - 1 - 1⟩, eb⟩ : CsvOut).drop = ⟨eb.take (w.room - 2), w.room - 2 - eb.length⟩ :=
    CsvOut.drop_holds (d := eb) (t := w.room - 2) ⟨rfl, by simp; omega, h2⟩
  rw [d1]
  refine ⟨rfl, ?_⟩
  rw [CsvOut.drop_holds (d := nb) (t := w.room - 2 - eb.length) ⟨rfl, by simp, h1⟩]

/-- Whatever happens, both files are beginnings of what should be there, and no other file changes. -/
theorem writeFiles_prefix {np ep : String} (hne : np ≠ ep) (nb eb : List Byte) (w : World) :
    ((writeFiles np ep nb eb w).2.files np = w.files np ∨
      ∃ i, (writeFiles np ep nb eb w).2.files np = some (nb.take i)) ∧
    ((writeFiles np ep nb eb w).2.files ep = w.files ep ∨
      ∃ i, (writeFiles np ep nb eb w).2.files ep = some (eb.take i)) ∧
    (∀ p, p ≠ np → p ≠ ep → (writeFiles np ep nb eb w).2.files p = w.files p) := by
  unfold writeFiles
  by_cases h0 : w.room = 0
  · rw [if_pos h0]; exact ⟨.inl rfl, .inl rfl, fun _ _ _ => rfl⟩
  rw [if_neg h0]
  have hn := CsvOut.pushAll_holds nb (new_holds (w.room - 1))
  simp only [List.nil_append] at hn ⊢
  generalize hN : (⟨⟨[], w.room - 1⟩, []⟩ : CsvOut).pushAll nb = N at hn ⊢
  have nodeOnly : ∀ s : Sink, (∃ i, s.data = nb.take i) →
      (((w.put np s).files np = w.files np ∨ ∃ i, (w.put np s).files np = some (nb.take i)) ∧
      ((w.put np s).files ep = w.files ep ∨ ∃ i, (w.put np s).files ep = some (eb.take i)) ∧
      (∀ p, p ≠ np → p ≠ ep → (w.put np s).files p = w.files p)) := by
    rintro s ⟨i, hi⟩
    refine ⟨.inr ⟨i, ?_⟩, .inl ?_, ?_⟩
    · simp [World.put, hi]
    · simp [World.put, Ne.symm hne]
    · intro p h1 _; simp [World.put, h1]
  rcases hn with ⟨e1, e2⟩ | ⟨e1, e2, e3, -⟩
  swap
  · rw [if_pos e1]
    exact nodeOnly _ ⟨w.room - 1, by rw [CsvOut.drop_full (by rw [e2]), e2]⟩
  rw [if_neg (by rw [e1]; simp)]
  by_cases h1 : N.2.inner.room = 0
  · rw [if_pos h1]
    exact nodeOnly _ ⟨w.room - 1, by rw [CsvOut.drop_holds e2]⟩
  rw [if_neg h1]
  have he := CsvOut.pushAll_holds eb (new_holds (N.2.inner.room - 1))
  simp only [List.nil_append] at he
  generalize hE : (⟨⟨[], N.2.inner.room - 1⟩, []⟩ : CsvOut).pushAll eb = E at he ⊢
  have hed : ∃ i, E.2.drop.data = eb.take i := by
    rcases he with ⟨f1, f2⟩ | ⟨f1, f2, f3, -⟩
    · exact ⟨_, by rw [CsvOut.drop_holds f2]⟩
    · exact ⟨_, by rw [CsvOut.drop_full (by rw [f2]), f2]⟩
  have hnd : ∃ i, (⟨⟨N.2.inner.data, E.2.drop.room⟩, N.2.buf⟩ : CsvOut).drop.data = nb.take i :=
    ⟨N.2.inner.data.length + E.2.drop.room,
      congrArg Sink.data (CsvOut.drop_holds (d := nb) (t := N.2.inner.data.length + E.2.drop.room)
        (w := ⟨⟨N.2.inner.data, E.2.drop.room⟩, N.2.buf⟩) ⟨e2.eq, rfl, e2.cap⟩)⟩
  obtain ⟨i, hi⟩ := hed
  obtain ⟨j, hj⟩ := hnd
  refine ⟨.inr ⟨j, ?_⟩, .inr ⟨i, ?_⟩, ?_⟩
  · simp only [World.put, if_true, hj]
  · simp only [World.put, if_neg (Ne.symm hne), if_true, hi]
  · intro p h1 h2; simp only [World.put, if_neg h1, if_neg h2]

/-- A reported success: all but the last buffer is stored. -/
theorem writeFiles_success {np ep : String} (hne : np ≠ ep) {nb eb : List Byte} {w w' : World}
    (h : writeFiles np ep nb eb w = (true, w')) :
    (∃ i, w'.files np = some (nb.take i) ∧ nb.length - i ≤ CsvOut.capacity) ∧
    (∃ i, w'.files ep = some (eb.take i) ∧ eb.length - i ≤ CsvOut.capacity) := by
  unfold writeFiles at h
  by_cases h0 : w.room = 0
  · rw [if_pos h0] at h; cases h
  rw [if_neg h0] at h
  have hn := CsvOut.pushAll_holds nb (new_holds (w.room - 1))
  simp only [List.nil_append] at hn h
  generalize hN : (⟨⟨[], w.room - 1⟩, []⟩ : CsvOut).pushAll nb = N at hn h
  rcases hn with ⟨e1, e2⟩ | ⟨e1, -⟩
  swap
  · rw [if_pos e1] at h; cases h
  rw [if_neg (by rw [e1]; simp)] at h
  by_cases h1 : N.2.inner.room = 0
  · rw [if_pos h1] at h; cases h
  rw [if_neg h1] at h
  have he := CsvOut.pushAll_holds eb (new_holds (N.2.inner.room - 1))
  simp only [List.nil_append] at he
  generalize hE : (⟨⟨[], N.2.inner.room - 1⟩, []⟩ : CsvOut).pushAll eb = E at he h
  rcases he with ⟨f1, f2⟩ | ⟨f1, -⟩
  swap
  · have := (Prod.mk.inj h).1
    rw [f1] at this; cases this
  have d1 := CsvOut.drop_holds f2
  have d2 := CsvOut.drop_holds (d := nb) (t := N.2.inner.data.length + E.2.drop.room)
        (w := ⟨⟨N.2.inner.data, E.2.drop.room⟩, N.2.buf⟩) ⟨e2.eq, rfl, e2.cap⟩
  have l1 := congrArg List.length e2.eq
  have l2 := congrArg List.length f2.eq
  have c1 := e2.cap
  have c2 := f2.cap
  have r2 := f2.room
  rw [List.length_append] at l1 l2
  obtain rfl := (Prod.mk.inj h).2
  refine ⟨⟨N.2.inner.data.length + E.2.drop.room, ?_, by omega⟩, N.2.inner.room - 1, ?_, by omega⟩
  · simp only [World.put, if_true, d2]
  · simp only [World.put, if_neg (Ne.symm hne), if_true, d1]

end Csv

end Verif
