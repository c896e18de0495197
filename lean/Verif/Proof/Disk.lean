import Verif.Model.Disk
import Verif.Proof.LabelMap

/-! Buffered writing: what reaches the file. -/

namespace Verif

namespace BufWriter

theorem flush_eq (w : BufWriter) : w.flush = (decide (w.buf.length ≤ w.inner.room),
    ⟨⟨w.inner.data ++ w.buf.take w.inner.room, w.inner.room - w.buf.length⟩,
      w.buf.drop w.inner.room⟩) := by
  obtain ⟨⟨data, room⟩, buf⟩ := w
  unfold flush
  cases buf with
  | nil => simp [flushLoop]
  | cons b bs =>
    by_cases h0 : room = 0
    · subst h0
      simp [flushLoop, Sink.write]
    · have hmin : min (bs.length + 1) room ≠ 0 := by omega
      obtain ⟨c, hc⟩ := Nat.exists_eq_succ_of_ne_zero hmin
      have e1 : flushLoop ((b :: bs).length + 1) ⟨⟨data, room⟩, b :: bs⟩ =
          flushLoop (b :: bs).length ⟨⟨data ++ (b :: bs).take room, room - (b :: bs).length⟩,
            (b :: bs).drop (min (bs.length + 1) room)⟩ := by
        rw [flushLoop]
        simp only [List.length_cons, Nat.add_one_ne_zero, if_false, Sink.write, h0, hc]
      show flushLoop ((b :: bs).length + 1) ⟨⟨data, room⟩, b :: bs⟩ = _
      rw [e1]
      by_cases hle : bs.length + 1 ≤ room
      · rw [Nat.min_eq_left hle]
        simp only [List.length_cons, flushLoop]
        rw [List.drop_of_length_le (by simp), List.drop_of_length_le (by simpa using hle)]
        simp [hle]
      · have h1 : min (bs.length + 1) room = room := by omega
        have h2 : room - (bs.length + 1) = 0 := by omega
        rw [h1]
        simp only [List.length_cons, flushLoop, Sink.write, List.length_drop, h2]
        have h3 : ¬ bs.length + 1 - room = 0 := by omega
        simp [h3, hle]

/-- The bytes accepted so far are `d`, and `t` can ever reach the file. -/
structure Holds (d : List Byte) (t : Nat) (w : BufWriter) : Prop where
  eq : w.inner.data ++ w.buf = d
  room : w.inner.data.length + w.inner.room = t

theorem flush_holds {d t} {w : BufWriter} (h : Holds d t w) : Holds d t w.flush.2 := by
  rw [flush_eq]
  refine ⟨?_, ?_⟩
  · simp only [List.append_assoc, List.take_append_drop]; exact h.eq
  · have := h.room
    simp only [List.length_append, List.length_take]
    omega

theorem write_holds {d t} {w : BufWriter} (h : Holds d t w) {bs : List Byte} (hb : bs ≠ []) :
    (∃ n w', w.write bs = (some n, w') ∧ 0 < n ∧ n ≤ bs.length ∧ Holds (d ++ bs.take n) t w') ∨
    (∃ w', w.write bs = (none, w') ∧ w'.inner.room = 0 ∧ Holds d t w' ∧ t < d.length + bs.length) := by
  have hlen : 0 < bs.length := List.length_pos_iff.2 hb
  have hdl := congrArg List.length h.eq
  rw [List.length_append] at hdl
  have hroom := h.room
  unfold write
  -- the flush before
  obtain ⟨r, hr, hr1, hr2⟩ : ∃ r, (if w.buf.length + bs.length > capacity then w.flush else (true, w)) = r ∧
      Holds d t r.2 ∧ ((r.1 = false ∧ r.2.inner.room = 0 ∧ t < d.length + bs.length) ∨
        (r.1 = true ∧ (capacity ≤ bs.length → r.2.buf = []))) := by
    refine ⟨_, rfl, ?_, ?_⟩
    · split
      · exact flush_holds h
      · exact h
    · split
      · rw [flush_eq]
        by_cases hle : w.buf.length ≤ w.inner.room
        · refine .inr ⟨by simpa using hle, fun _ => List.drop_of_length_le hle⟩
        · exact .inl ⟨by simpa using hle, by simp only; omega, by omega⟩
      · refine .inr ⟨rfl, fun hc => List.length_eq_zero_iff.1 (by simp only; omega)⟩
  rw [hr]
  rcases hr2 with ⟨e1, e2, e3⟩ | ⟨e1, e2⟩
  · right
    exact ⟨r.2, by simp [e1], e2, hr1, e3⟩
  · by_cases hcap : bs.length ≥ capacity
    · have hbuf := e2 hcap
      have heq := hr1.eq
      rw [hbuf, List.append_nil] at heq
      have hrm := hr1.room
      by_cases h0 : r.2.inner.room = 0
      · right
        refine ⟨⟨r.2.inner, r.2.buf⟩, ?_, h0, ⟨hr1.eq, hr1.room⟩, ?_⟩
        · simp only [e1, Bool.not_true, Bool.false_eq_true, if_false, hcap, if_true, Sink.write,
            Nat.ne_of_gt hlen, h0]
        · rw [← heq]; omega
      · left
        refine ⟨min bs.length r.2.inner.room,
          ⟨⟨r.2.inner.data ++ bs.take r.2.inner.room, r.2.inner.room - bs.length⟩, r.2.buf⟩,
          ?_, by omega, by omega, ⟨?_, ?_⟩⟩
        · simp only [e1, Bool.not_true, Bool.false_eq_true, if_false, hcap, if_true, Sink.write,
            Nat.ne_of_gt hlen, h0]
        · have : bs.take (min bs.length r.2.inner.room) = bs.take r.2.inner.room := by
            rw [Nat.min_comm, ← List.take_eq_take_min]
          simp only
          rw [this, hbuf, List.append_nil, ← heq]
        · simp only [List.length_append, List.length_take]; omega
    · left
      refine ⟨bs.length, ⟨r.2.inner, r.2.buf ++ bs⟩, ?_, hlen, le_refl _, ⟨?_, hr1.room⟩⟩
      · simp [e1, hcap]
      · simp only
        rw [List.take_length, ← List.append_assoc, hr1.eq]

theorem writeAll_holds {t} : ∀ (fuel : Nat) {d : List Byte} {w : BufWriter} {bs : List Byte},
    Holds d t w → bs.length < fuel →
    (∃ w', writeLoop fuel w bs = (true, w') ∧ Holds (d ++ bs) t w') ∨
    (∃ w' n, writeLoop fuel w bs = (false, w') ∧ w'.inner.room = 0 ∧ Holds (d ++ bs.take n) t w' ∧
      t < d.length + bs.length) := by
  intro fuel
  induction fuel with
  | zero => intro d w bs _ hf; omega
  | succ fuel ih =>
    intro d w bs h hf
    unfold writeLoop
    by_cases h0 : bs.length = 0
    · left
      have : bs = [] := List.length_eq_zero_iff.1 h0
      subst this
      exact ⟨w, rfl, by simpa using h⟩
    · simp only [h0, if_false]
      rcases write_holds h (bs := bs) (fun hc => h0 (by rw [hc]; rfl)) with
        ⟨n, w', e1, e2, e3, e4⟩ | ⟨w', e1, e2, e3, e4⟩
      · rw [e1]
        obtain ⟨c, rfl⟩ := Nat.exists_eq_succ_of_ne_zero (Nat.ne_of_gt e2)
        simp only
        have hl : (bs.take (c + 1)).length = c + 1 := by rw [List.length_take]; omega
        rcases ih e4 (bs := bs.drop (c + 1)) (by rw [List.length_drop]; omega) with
          ⟨w'', f1, f2⟩ | ⟨w'', n, f1, f2, f3, f4⟩
        · left
          refine ⟨w'', f1, ?_⟩
          rw [List.append_assoc, List.take_append_drop] at f2; exact f2
        · right
          refine ⟨w'', c + 1 + n, f1, f2, ?_, ?_⟩
          · rw [List.append_assoc] at f3
            rw [List.take_add]; exact f3
          · rw [List.length_append, List.length_drop, hl] at f4
            omega
      · right
        rw [e1]
        exact ⟨w', 0, rfl, e2, by simpa using e3, e4⟩

theorem writeEach_holds {t} : ∀ (ps : List (List Byte)) {d : List Byte} {w : BufWriter}, Holds d t w →
    (∃ w', writeEach w ps = (true, w') ∧ Holds (d ++ ps.flatten) t w') ∨
    (∃ w' p, writeEach w ps = (false, w') ∧ w'.inner.room = 0 ∧ p <+: d ++ ps.flatten ∧ Holds p t w' ∧
      t < d.length + ps.flatten.length) := by
  intro ps
  induction ps with
  | nil => intro d w h; exact .inl ⟨w, rfl, by simpa using h⟩
  | cons p ps ih =>
    intro d w h
    unfold writeEach writeAll
    rcases writeAll_holds (p.length + 1) h (bs := p) (by omega) with
      ⟨w', e1, e2⟩ | ⟨w', n, e1, e2, e3, e4⟩
    · rw [e1]
      simp only [if_true]
      rcases ih e2 with ⟨w'', f1, f2⟩ | ⟨w'', q, f1, f2, f3, f4, f5⟩
      · left
        exact ⟨w'', f1, by rw [List.flatten_cons, ← List.append_assoc]; exact f2⟩
      · right
        refine ⟨w'', q, f1, f2, ?_, f4, ?_⟩
        · rw [List.flatten_cons, ← List.append_assoc]; exact f3
        · rw [List.flatten_cons, List.length_append]
          rw [List.length_append] at f5
          omega
    · right
      rw [e1]
      refine ⟨w', d ++ p.take n, by simp, e2, ?_, e3, ?_⟩
      · rw [List.flatten_cons, ← List.append_assoc]
        exact (List.prefix_append_right_inj d |>.2 (List.take_prefix n p)).trans (List.prefix_append _ _)
      · rw [List.flatten_cons, List.length_append]; omega

theorem drop_holds {d t} {w : BufWriter} (h : Holds d t w) : w.drop = ⟨d.take t, t - d.length⟩ := by
  unfold drop
  rw [flush_eq]
  have h1 := h.eq
  have h2 := h.room
  simp only [Sink.mk.injEq]
  rw [← h1]
  constructor
  · rw [List.take_append, List.take_of_length_le (l := w.inner.data) (by omega)]
    congr 2; omega
  · rw [List.length_append]; omega

/-- The failing case, finished. -/
theorem drop_failed {p d : List Byte} {t} {w : BufWriter} (h : Holds p t w) (h0 : w.inner.room = 0)
    (hp : p <+: d) (ht : t < d.length) : w.drop = ⟨d.take t, t - d.length⟩ := by
  rw [drop_holds h]
  have h1 := congrArg List.length h.eq
  have h2 := h.room
  rw [List.length_append] at h1
  obtain ⟨q, rfl⟩ := hp
  have : t ≤ p.length := by omega
  simp only [Sink.mk.injEq]
  constructor
  · rw [List.take_append_of_le_length this]
  · omega

/-- Small writes stay in the buffer. -/
theorem writeEach_small : ∀ (ps : List (List Byte)) (w : BufWriter), (∀ p ∈ ps, p.length < capacity) →
    w.buf.length + ps.flatten.length ≤ capacity →
    writeEach w ps = (true, ⟨w.inner, w.buf ++ ps.flatten⟩) := by
  intro ps
  induction ps with
  | nil => intro w _ _; simp [writeEach]
  | cons p ps ih =>
    intro w h1 h2
    have hp := h1 p (by simp)
    rw [List.flatten_cons, List.length_append] at h2
    have e : w.writeAll p = (true, ⟨w.inner, w.buf ++ p⟩) := by
      unfold writeAll writeLoop
      by_cases h0 : p.length = 0
      · have : p = [] := List.length_eq_zero_iff.1 h0
        subst this; simp
      · have hw : w.write p = (some p.length, ⟨w.inner, w.buf ++ p⟩) := by
          unfold write
          have : ¬ w.buf.length + p.length > capacity := by omega
          have h3 : ¬ p.length ≥ capacity := by omega
          simp [this, h3]
        obtain ⟨c, hc⟩ := Nat.exists_eq_succ_of_ne_zero h0
        rw [if_neg h0, hw]
        simp only [hc]
        rw [← hc, List.drop_length, hc]
        simp [writeLoop]
    unfold writeEach
    rw [e]
    simp only [if_true]
    rw [ih _ (fun q hq => h1 q (by simp [hq])) (by simp only [List.length_append]; omega)]
    simp

end BufWriter

theorem chunks_flatten : ∀ (fuel : Nat) (bs : List Byte), bs.length < fuel → (chunks fuel bs).flatten = bs := by
  intro fuel
  induction fuel with
  | zero => intro bs h; omega
  | succ fuel ih =>
    intro bs h
    unfold chunks
    by_cases h0 : bs.length = 0
    · rw [if_pos h0, List.length_eq_zero_iff.1 h0]; rfl
    · rw [if_neg h0]
      simp only [List.flatten_cons]
      rw [ih _ (by rw [List.length_drop]; unfold pieceLen; split <;> omega), List.take_append_drop]

theorem chunks_length : ∀ (fuel : Nat) (bs : List Byte), bs.length < fuel →
    (chunks fuel bs).length = (bs.length + 9999) / 10000 := by
  intro fuel
  induction fuel with
  | zero => intro bs h; omega
  | succ fuel ih =>
    intro bs h
    unfold chunks
    by_cases h0 : bs.length = 0
    · rw [if_pos h0, h0]; rfl
    · rw [if_neg h0]
      simp only [List.length_cons]
      rw [ih _ (by rw [List.length_drop]; unfold pieceLen; split <;> omega), List.length_drop]
      unfold pieceLen
      split <;> omega

theorem chunks_pieces : ∀ (fuel : Nat) (bs : List Byte), ∀ p ∈ chunks fuel bs, 0 < p.length ∧ p.length ≤ 10000 := by
  intro fuel
  induction fuel with
  | zero => intro bs p h; cases h
  | succ fuel ih =>
    intro bs p h
    unfold chunks at h
    by_cases h0 : bs.length = 0
    · rw [if_pos h0] at h; cases h
    · rw [if_neg h0] at h
      rcases List.mem_cons.1 h with rfl | h
      · rw [List.length_take]
        unfold pieceLen
        split <;> omega
      · exact ih _ p h

theorem new_holds (s : Sink) : BufWriter.Holds s.data (s.data.length + s.room) (BufWriter.new s) :=
  ⟨by simp [BufWriter.new], rfl⟩

theorem take_data (s : Sink) (bs : List Byte) :
    (s.data ++ bs).take (s.data.length + s.room) = s.data ++ bs.take s.room := by
  rw [List.take_append, List.take_of_length_le (by omega)]
  congr 2; omega

theorem dumpTo_eq (s : Sink) (bs : List Byte) : dumpTo s bs =
    (decide (bs.length ≤ s.room), ⟨s.data ++ bs.take s.room, s.room - bs.length⟩) := by
  unfold dumpTo
  have hroom : s.data.length + s.room - (s.data ++ bs).length = s.room - bs.length := by
    rw [List.length_append]; omega
  rcases BufWriter.writeEach_holds (chunks (bs.length + 1) bs) (new_holds s) with
    ⟨w', e1, e2⟩ | ⟨w', p, e1, e2, e3, e4, e5⟩
  · rw [chunks_flatten _ _ (Nat.lt_succ_self _)] at e2
    rw [e1]
    simp only [if_true]
    rw [BufWriter.drop_holds (BufWriter.flush_holds e2), BufWriter.flush_eq, take_data, hroom]
    have h1 := congrArg List.length e2.eq
    have h2 := e2.room
    simp only [List.length_append] at h1
    simp only [Prod.mk.injEq, and_true]
    rw [decide_eq_decide]
    omega
  · rw [chunks_flatten _ _ (Nat.lt_succ_self _)] at e3 e5
    rw [e1]
    simp only [Bool.false_eq_true, if_false]
    rw [BufWriter.drop_failed e4 e2 e3 (by rw [List.length_append]; exact e5), take_data, hroom]
    simp only [Prod.mk.injEq, and_true]
    rw [eq_comm, decide_eq_false_iff_not]
    omega

theorem exportTo_eq (s : Sink) (ps : List (List Byte)) : ∃ ok, exportTo s ps =
    (ok, ⟨s.data ++ ps.flatten.take s.room, s.room - ps.flatten.length⟩) ∧
    (ps.flatten.length ≤ s.room → ok = true) := by
  unfold exportTo
  have hroom : s.data.length + s.room - (s.data ++ ps.flatten).length = s.room - ps.flatten.length := by
    rw [List.length_append]; omega
  rcases BufWriter.writeEach_holds ps (new_holds s) with ⟨w', e1, e2⟩ | ⟨w', p, e1, e2, e3, e4, e5⟩
  · refine ⟨true, ?_, fun _ => rfl⟩
    rw [e1]
    simp only
    rw [BufWriter.drop_holds e2, take_data, hroom]
  · refine ⟨false, ?_, fun h => by omega⟩
    rw [e1]
    simp only
    rw [BufWriter.drop_failed e4 e2 e3 (by rw [List.length_append]; exact e5), take_data, hroom]

theorem exportTo_small (s : Sink) (ps : List (List Byte)) (h1 : ∀ p ∈ ps, p.length < BufWriter.capacity)
    (h2 : ps.flatten.length ≤ BufWriter.capacity) : (exportTo s ps).1 = true := by
  unfold exportTo
  rw [BufWriter.writeEach_small ps _ h1 (by simpa [BufWriter.new] using h2)]

end Verif
