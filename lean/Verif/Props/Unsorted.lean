import Verif.Proof.Unsorted
import Verif.Props.Loops

/-! C179: enumerating frozen graphs whose rows need not be sorted. -/

namespace Verif.Props

open Spec EdgeVec EdgeIter

variable {m k : Nat} {NL EL S R : Type}

/-- **C179.** There is exactly one row an enumeration gets to, unless there are no offsets at all. -/
theorem c179_gets_to (ev : EdgeVec m k) (d : Bool) : (∃ j, GetsTo ev d j) ↔ ev.offsets ≠ [] := by
  constructor
  · rintro ⟨j, h, -⟩ e
    simp [e] at h
  · intro h0
    have h0' : ev.offsets.length ≠ 0 := by simpa using h0
    by_cases hb : ∃ n, n + 1 ≤ ev.offsets.length ∧ ¬ (Passable ev n ∧ Settles d n (rowOf ev n))
    · classical
      refine ⟨Nat.find hb, (Nat.find_spec hb).1, fun n hn => ?_, .inr (not_and_or.1 (Nat.find_spec hb).2)⟩
      by_contra hp
      exact Nat.find_min hb hn ⟨by have := (Nat.find_spec hb).1; omega, hp⟩
    · refine ⟨ev.offsets.length - 1, by omega, fun n hn => ?_, .inl (by omega)⟩
      by_contra hp
      exact hb ⟨n, by omega, hp⟩

/-- The rows that are gone through do not overlap. -/
theorem shown_length {ev : EdgeVec m k} {d : Bool} : ∀ j,
    (∀ n, n < j → Passable ev n ∧ Settles d n (rowOf ev n)) →
    (shownBefore ev d j).length ≤ ev.edges.length ∧
    (1 ≤ j → (shownBefore ev d j).length ≤ ev.offsets.getD j 0) := by
  have hrow : ∀ n, Settles d n (rowOf ev n) → (shown d n (rowOf ev n)).length ≤ (rowOf ev n).length := by
    intro n hs
    unfold shown
    split
    · exact le_refl _
    · rename_i hno
      rw [not_or] at hno
      rcases hs with h | h | h
      · exact absurd h hno.1
      · exact absurd h hno.2
      · -- everything after the landing is in order, so the entries before it come first
        have hle : ((rowOf ev n).takeWhile (fun t => decide (n ≤ t.val))).length ≤ landing (rowOf ev n) n := by
          by_contra hcon
          apply hno.2
          intro t ht
          rw [← List.take_append_drop (landing (rowOf ev n) n + 1) (rowOf ev n), List.mem_append] at ht
          rcases ht with ht | ht
          · have hpre := List.takeWhile_prefix (l := rowOf ev n) (fun t => decide (n ≤ t.val))
            obtain ⟨z, hz⟩ := hpre
            generalize landing (rowOf ev n) n = p at hcon ht
            rw [← hz, List.take_append_of_le_length (by omega)] at ht
            have := List.all_eq_true.1 (List.all_takeWhile (p := fun t => decide (n ≤ t.val)) (l := rowOf ev n)) t
              (List.mem_of_mem_take ht)
            simpa using this
          · exact h t ht
        have h2 := (List.takeWhile_prefix (l := rowOf ev n) (fun t => decide (n ≤ t.val))).length_le
        simp only [List.length_append, List.length_drop]
        omega
  intro j
  induction j with
  | zero => intro _; simp [shownBefore]
  | succ j ih =>
    intro h
    obtain ⟨i1, i2⟩ := ih (fun n hn => h n (by omega))
    obtain ⟨⟨a, b, hab, h1, h2⟩, hs⟩ := h j (by omega)
    have hlen := rowOf_length hab h1 h2
    have hr := hrow j hs
    have hb : ev.offsets.getD (j + 1) 0 = b := by simp [List.getD_eq_getElem?_getD, hab.2]
    have ha : ev.offsets.getD j 0 = a := by simp [List.getD_eq_getElem?_getD, hab.1]
    have hsucc : (shownBefore ev d (j + 1)).length = (shownBefore ev d j).length + (shown d j (rowOf ev j)).length := by
      unfold shownBefore
      rw [List.range_succ, List.flatMap_append, List.length_append]
      simp
    rw [hsucc, hb]
    rw [ha] at i2
    have hz : j = 0 → (shownBefore ev d j).length = 0 := by rintro rfl; simp [shownBefore]
    constructor <;> [skip; intro _] <;> rcases Nat.eq_zero_or_pos j with h0 | h0
    · rw [hz h0]; rcases h2 with h2 | h2 <;> omega
    · have := i2 h0; rcases h2 with h2 | h2 <;> omega
    · rw [hz h0]; omega
    · have := i2 h0; omega

theorem trace_gets {ev : EdgeVec m k} {d : Bool} {j : Nat} (hj : GetsTo ev d j) (hm : ev.offsets.length ≤ m + 1)
    (fuel : Nat) (hf : ev.offsets.length + ev.edges.length + 1 ≤ fuel) :
    trace ev d fuel ⟨0, 0⟩ =
      (shownBefore ev d j ++ (trace ev d (fuel - (shownBefore ev d j).length) ⟨j, 0⟩).1,
        (trace ev d (fuel - (shownBefore ev d j).length) ⟨j, 0⟩).2) := by
  obtain ⟨h1, h2, -⟩ := hj
  obtain ⟨c, hc⟩ : ∃ c, ev.offsets.length = c + 1 := ⟨ev.offsets.length - 1, by omega⟩
  have hl := (shown_length j h2).1
  have := trace_rows c hc (by omega) d j 0 (fuel - (shownBefore ev d j).length) (by omega)
    (fun n _ hn => h2 n (by omega)) (by omega)
  rw [← List.range_eq_range', Nat.zero_add] at this
  change trace ev d ((shownBefore ev d j).length + _) _ = _ at this
  rw [Nat.add_sub_cancel' (by omega)] at this
  exact this

theorem trace_last {ev : EdgeVec m k} {d : Bool} {j : Nat} (hm : ev.offsets.length ≤ m + 1)
    (hj : j + 1 ≤ ev.offsets.length) (h : j + 1 = ev.offsets.length ∨ ¬ Passable ev j) (F : Nat)
    (hF : ev.offsets.length ≤ F) :
    trace ev d F ⟨j, 0⟩ = ([], if j + 1 = ev.offsets.length then none else some (rowPanic ev j)) := by
  obtain ⟨c, hc⟩ : ∃ c, ev.offsets.length = c + 1 := ⟨ev.offsets.length - 1, by omega⟩
  obtain ⟨F, rfl⟩ : ∃ f, F = f + 1 := ⟨F - 1, by omega⟩
  by_cases he : j + 1 = ev.offsets.length
  · obtain rfl : j = c := by omega
    rw [if_pos he]
    unfold trace next
    rw [skip_end j hc (by omega) (by omega), bind_ok]
    rw [has_at j hc (by omega) (le_refl _)]
    simp [bind_ok, pure_ok]
  · rw [if_neg he]
    have hbad : ¬ Passable ev j := h.resolve_left he
    have hlt : j < c := by omega
    obtain ⟨a, b, hab⟩ := bounds_of (ev := ev) (n := j) (by omega)
    have hv : (Id.new j : Id m).val = j := Id_new_val (by omega)
    have hnn : (Id.new j : Id m).val < ev.offsets.length - 1 := by rw [hv]; omega
    have hab' : Bounds ev (Id.new j : Id m).val a b := by rw [hv]; exact hab
    have hdeg := degree_raw hnn hab'
    have ha : ev.offsets.getD j 0 = a := by simp [List.getD_eq_getElem?_getD, hab.1]
    have hb : ev.offsets.getD (j + 1) 0 = b := by simp [List.getD_eq_getElem?_getD, hab.2]
    unfold rowPanic trace next
    rw [ha, hb]
    by_cases hba : b < a
    · rw [if_pos hba] at hdeg
      rw [skip_fails c hc (by omega) hlt hdeg (by omega)]
      simp [hba, bind_error]
    · rw [if_neg hba] at hdeg
      have h2 : ¬ b ≤ ev.edges.length := fun h => hbad ⟨a, b, hab, by omega, .inr h⟩
      have h3 : a ≠ b := fun h => hbad ⟨a, b, hab, by omega, .inl h⟩
      have hnb := neighbors_raw hnn hab'
      rw [if_neg (by omega)] at hnb
      rw [skip_stay c hc (by omega) hlt hdeg (by omega) (by omega)]
      simp only [bind_ok]
      rw [has_at c hc (by omega) hlt.le]
      simp only [bind_ok, hlt, decide_true, if_true, hnb, bind_error, hba, if_false]

/-- **C179.** Any loop over the edges of any adjacency: if the row it gets to is not there or can not be passed, it takes
its turns over what the rows before show, then ends or panics. -/
theorem c179_loop {ev : EdgeVec m k} {d : Bool} {j : Nat} (hj : GetsTo ev d j) (hm : ev.offsets.length ≤ m + 1)
    (h : j + 1 = ev.offsets.length ∨ ¬ Passable ev j) (body : S → Id m × Id m → Res (Turn S R)) (s : S)
    (fuel : Nat) (hf : ev.offsets.length + ev.edges.length + 1 ≤ fuel) :
    EdgeIter.loop ev d body fuel s ⟨0, 0⟩ = (do
      match ← turns body s (shownBefore ev d j) with
      | .leave r => pure (.leave r)
      | .on s => if j + 1 = ev.offsets.length then pure (.on s) else .error (rowPanic ev j)) := by
  have hl := (shown_length j hj.2.1).1
  rw [loop_trace, trace_gets hj hm fuel hf, trace_last hm hj.1 h _ (by omega), List.append_nil]
  cases turns body s (shownBefore ev d j) with
  | error p => rfl
  | ok t =>
    cases t with
    | leave r => rfl
    | on s =>
      simp only [bind_ok, after]
      by_cases h : j + 1 = ev.offsets.length <;> simp [h]

theorem trace_mono {ev : EdgeVec m k} {d : Bool} : ∀ F F' it, F ≤ F' → (trace ev d F it).2 = none →
    trace ev d F' it = trace ev d F it := by
  intro F
  induction F with
  | zero => intro F' it _ h; cases h
  | succ F ih =>
    intro F' it hF h
    obtain ⟨F', rfl⟩ : ∃ g, F' = g + 1 := ⟨F' - 1, by omega⟩
    unfold trace at h ⊢
    cases hn : next ev d (F + 1) it with
    | error p => rw [hn] at h; cases h
    | ok o =>
      rw [next_mono hn hF]
      rw [hn] at h
      cases o with
      | none => rfl
      | some p =>
        simp only at h ⊢
        rw [ih F' p.2 (by omega) h]

theorem trace_unsettled {ev : EdgeVec m k} {d : Bool} {j : Nat} (hj : GetsTo ev d j) (hm : ev.offsets.length ≤ m + 1)
    (h1 : j + 1 < ev.offsets.length) (h2 : Passable ev j) :
    (∀ fuel, (trace ev d fuel ⟨0, 0⟩).2 ≠ none) ∧
    ∀ fuel, ev.offsets.length + ev.edges.length + 1 ≤ fuel →
      (trace ev d fuel ⟨0, 0⟩).2 = some .diverge ∧ (trace ev d fuel ⟨0, 0⟩).1.length = fuel := by
  obtain ⟨c, hc⟩ : ∃ c, ev.offsets.length = c + 1 := ⟨ev.offsets.length - 1, by omega⟩
  have hs : ¬ Settles d j (rowOf ev j) := by
    rcases hj.2.2 with h | h | h
    · omega
    · exact absurd h2 h
    · exact h
  have hex : ∃ s, ∃ h : s < (rowOf ev j).length, 0 ≤ s ∧ landing (rowOf ev j) j < s ∧ (rowOf ev j)[s].val < j := by
    by_contra hcon
    apply hs
    refine .inr (.inr fun t ht => ?_)
    obtain ⟨i, hi, rfl⟩ := List.mem_iff_getElem.1 ht
    rw [List.getElem_drop]
    by_contra hlt
    rw [List.length_drop] at hi
    exact hcon ⟨landing (rowOf ev j) j + 1 + i, by omega, Nat.zero_le _, by omega, by omega⟩
  have hbig : ∀ fuel, ev.offsets.length + ev.edges.length + 1 ≤ fuel →
      (trace ev d fuel ⟨0, 0⟩).2 = some .diverge ∧ (trace ev d fuel ⟨0, 0⟩).1.length = fuel := by
    intro fuel hf
    have hl := (shown_length j hj.2.1).1
    rw [trace_gets hj hm fuel hf]
    obtain ⟨e1, e2⟩ := trace_stuck c hc (by omega) d (n := j) (by omega) h2 hs
      (fuel - (shownBefore ev d j).length) 0 hex
    exact ⟨e1, by simp only [List.length_append, e2]; omega⟩
  refine ⟨fun fuel e => ?_, hbig⟩
  have := trace_mono fuel (fuel + (ev.offsets.length + ev.edges.length + 1)) ⟨0, 0⟩ (by omega) e
  rw [← this, (hbig _ (by omega)).1] at e
  cases e

/-- **C179.** If the row it gets to can be passed but does not settle, a loop never comes to its end, however long it
runs: it has to be left from within. One that is not left takes as many turns as it is given time. -/
theorem c179_stuck {ev : EdgeVec m k} {d : Bool} {j : Nat} (hj : GetsTo ev d j) (hm : ev.offsets.length ≤ m + 1)
    (h1 : j + 1 < ev.offsets.length) (h2 : Passable ev j) :
    (∀ (body : S → Id m × Id m → Res (Turn S R)) fuel s s', EdgeIter.loop ev d body fuel s ⟨0, 0⟩ ≠ .ok (.on s')) ∧
    (∀ fuel l, EdgeIter.collect ev d fuel ⟨0, 0⟩ ≠ .ok l) ∧
    ∀ N, 0 < N → ∃ fuel, EdgeIter.loop ev d
      (fun (c : Nat) _ => pure (if c + 1 = N then .leave () else .on (c + 1))) fuel 0 ⟨0, 0⟩ = .ok (.leave ()) := by
  obtain ⟨t1, t2⟩ := trace_unsettled hj hm h1 h2
  refine ⟨fun body fuel s s' e => ?_, fun fuel l e => ?_, fun N h0 => ?_⟩
  · rw [loop_trace] at e
    obtain ⟨t, -, e⟩ := bind_eq_ok e
    cases ho : (trace ev d fuel ⟨0, 0⟩).2 with
    | none => exact t1 fuel ho
    | some p =>
      rw [ho] at e
      cases t <;> cases e
  · rw [collect_trace] at e
    cases ho : (trace ev d fuel ⟨0, 0⟩).2 with
    | none => exact t1 fuel ho
    | some p => rw [ho] at e; cases e
  · refine ⟨ev.offsets.length + ev.edges.length + 1 + N, ?_⟩
    rw [loop_trace]
    have hlen := (t2 (ev.offsets.length + ev.edges.length + 1 + N) (by omega)).2
    have key : ∀ (l : List (Id m × Id m)) c, c < N → N ≤ c + l.length →
        turns (fun (c : Nat) _ => pure (if c + 1 = N then Turn.leave () else .on (c + 1))) c l = .ok (.leave ()) := by
      intro l
      induction l with
      | nil => intro c h1 h2; simp at h2; omega
      | cons x l ih =>
        intro c h1 h2
        unfold turns
        by_cases hc : c + 1 = N
        · simp [hc, pure_ok, bind_ok]
        · simp only [hc, if_false, pure_ok, bind_ok]
          exact ih (c + 1) (by omega) (by simp only [List.length_cons] at h2; omega)
    rw [key _ 0 h0 (by omega)]
    rfl

/-- **C179.** What an enumeration of any adjacency lists, and when it ends. -/
theorem c179_edges (ev : EdgeVec m k) (h0 : ev.offsets ≠ []) (hm : ev.offsets.length ≤ m + 1) (d : Bool)
    (fuel : Nat) (hf : ev.offsets.length + ev.edges.length + 1 ≤ fuel) (l : List (Id m × Id m)) :
    EdgeIter.collect ev d fuel ⟨0, 0⟩ = .ok l ↔
      (∀ n, n + 1 < ev.offsets.length → Passable ev n ∧ Settles d n (rowOf ev n)) ∧
      l = shownBefore ev d (ev.offsets.length - 1) := by
  have h0' : ev.offsets.length ≠ 0 := by simpa using h0
  obtain ⟨j, hj⟩ := (c179_gets_to ev d).2 h0
  have hl := (shown_length j hj.2.1).1
  by_cases he : j + 1 = ev.offsets.length
  · rw [collect_trace, trace_gets hj hm fuel hf, trace_last hm hj.1 (.inl he) _ (by omega)]
    simp only [he, if_true, List.append_nil, Except.ok.injEq]
    rw [show ev.offsets.length - 1 = j by omega]
    exact ⟨fun e => ⟨fun n hn => hj.2.1 n (by omega), e.symm⟩, fun e => e.2.symm⟩
  · have hno : ¬ (Passable ev j ∧ Settles d j (rowOf ev j)) := by
      rcases hj.2.2 with h | h | h
      · exact absurd h he
      · exact fun e => h e.1
      · exact fun e => h e.2
    have hj1 := hj.1
    constructor
    · intro e
      by_cases hp : Passable ev j
      · exact absurd e ((c179_stuck (S := Unit) (R := Unit) hj hm (by omega) hp).2.1 fuel l)
      · rw [collect_trace, trace_gets hj hm fuel hf, trace_last hm hj.1 (.inr hp) _ (by omega)] at e
        simp [he] at e
    · intro e
      exact absurd (e.1 j (by omega)) hno

/-- **C179.** Rows in order settle, and show the entries that are not less than their node; so do those of directed
graphs, all of them. -/
theorem c179_sorted (d : Bool) (n : Nat) (hn : n ≤ m) (nb : List (Id m)) (h : d = true ∨ nb.Pairwise (· < ·)) :
    Settles d n nb ∧ shown d n nb = nb.filter (fun t => d || decide (n ≤ t.val)) := by
  cases d with
  | true => exact ⟨.inl rfl, by simp [shown]⟩
  | false =>
    have hs : nb.Pairwise (· < ·) := h.resolve_left (by simp)
    simp only [Bool.false_or]
    by_cases hall : ∀ t ∈ nb, n ≤ t.val
    · refine ⟨.inr (.inl hall), ?_⟩
      unfold shown
      rw [if_pos (.inr hall), List.filter_eq_self.2 (by simpa using hall)]
    · have hv : (Id.new n : Id m).val = n := Id_new_val hn
      have hland : landing nb n ≤ nb.length ∧ (∀ i (h : i < nb.length), i < landing nb n → nb[i].val < n) ∧
          ∀ i (h : i < nb.length), landing nb n ≤ i → n ≤ nb[i].val := by
        unfold landing
        rcases binarySearch_spec nb (Id.new n) hs with ⟨i, e, hi⟩ | ⟨i, e, -, h1, h2, h3⟩
        · rw [e]
          obtain ⟨hil, hi⟩ := List.getElem?_eq_some_iff.1 hi
          refine ⟨hil.le, fun j hj hlt => ?_, fun j hj hle => ?_⟩
          · have := List.pairwise_iff_getElem.1 hs j i hj hil hlt
            rw [hi, Fin.lt_def, hv] at this; exact this
          · rcases Nat.lt_or_eq_of_le hle with h | rfl
            · have := List.pairwise_iff_getElem.1 hs i j hil hj h
              rw [hi, Fin.lt_def, hv] at this; exact this.le
            · rw [hi, hv]
        · rw [e]
          refine ⟨h1, fun j hj hlt => ?_, fun j hj hle => ?_⟩
          · have := h2 j hj hlt
            rw [Fin.lt_def, hv] at this; exact this
          · have := h3 j hj hle
            rw [Fin.lt_def, hv] at this; exact this.le
      obtain ⟨l1, l2, l3⟩ := hland
      have hdrop : ∀ t ∈ nb.drop (landing nb n), n ≤ t.val := by
        intro t ht
        obtain ⟨i, hi, rfl⟩ := List.mem_iff_getElem.1 ht
        rw [List.getElem_drop]
        exact l3 _ _ (by omega)
      have htake : ∀ t ∈ nb.take (landing nb n), t.val < n := by
        intro t ht
        obtain ⟨i, hi, rfl⟩ := List.mem_iff_getElem.1 ht
        rw [List.getElem_take]
        rw [List.length_take] at hi
        exact l2 i _ (by omega)
      refine ⟨.inr (.inr fun t ht => hdrop t ?_), ?_⟩
      · rw [← List.drop_drop] at ht
        exact List.mem_of_mem_drop ht
      · unfold shown
        rw [if_neg (by simp only [Bool.false_eq_true, false_or]; exact hall)]
        have hpos : 0 < landing nb n := by
          by_contra hz
          apply hall
          intro t ht
          exact hdrop t (by rw [show landing nb n = 0 by omega]; exact ht)
        have hne : nb ≠ [] := by rintro rfl; simp at hall
        have htw : nb.takeWhile (fun t => decide (n ≤ t.val)) = [] := by
          cases nb with
          | nil => rfl
          | cons x xs =>
            have := l2 0 (by simp) hpos
            simp only [List.getElem_cons_zero] at this
            rw [List.takeWhile_cons, if_neg (by simp; exact this)]
        rw [htw, List.nil_append]
        conv_rhs => rw [← List.take_append_drop (landing nb n) nb]
        rw [List.filter_append, List.filter_eq_nil_iff.2 (by
          intro t ht; simp; exact htake t ht), List.filter_eq_self.2 (by
          intro t ht; simp; exact hdrop t ht), List.nil_append]

/-- **C179.** Graphs as `TypedStaticGraph::new` takes them, undirected, with the row of node 3 out of order: one of them
lists nothing of it though node 3 has node 5 for a neighbour, the other never stops listing it. -/
theorem c179_rows :
    (⟨[0, 0, 0, 0, 4, 4, 4], [0, 5, 1, 2], none⟩ : EdgeVec 9 3).edgeIndices false = .ok [] ∧
    (⟨[0, 0, 0, 0, 4, 4, 4], [0, 5, 1, 2], none⟩ : EdgeVec 9 3).hasEdge 3 5 = .ok false ∧
    (⟨[0, 0, 0, 0, 4, 4, 4], [0, 5, 1, 2], none⟩ : EdgeVec 9 3).neighbors 3 = .ok [0, 5, 1, 2] ∧
    GetsTo (⟨[0, 0, 0, 0, 3, 3, 3], [0, 5, 1], none⟩ : EdgeVec 9 3) false 3 ∧
    Passable (⟨[0, 0, 0, 0, 3, 3, 3], [0, 5, 1], none⟩ : EdgeVec 9 3) 3 := by
  refine ⟨by decide +kernel, by decide +kernel, by decide +kernel, ⟨by decide, ?_, .inr (.inr ?_)⟩, ?_⟩
  · intro n hn
    refine ⟨⟨0, 0, ?_, by decide, .inl rfl⟩, .inr (.inl ?_)⟩
    · obtain rfl | rfl | rfl : n = 0 ∨ n = 1 ∨ n = 2 := by omega
      all_goals exact ⟨rfl, rfl⟩
    · obtain rfl | rfl | rfl : n = 0 ∨ n = 1 ∨ n = 2 := by omega
      all_goals decide
  · rintro (h | h | h)
    · cases h
    · revert h; decide
    · revert h; decide +kernel
  · exact ⟨0, 3, ⟨rfl, rfl⟩, by decide, .inr (by decide)⟩

end Verif.Props
