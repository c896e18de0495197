import Verif.Proof.Detect
import Verif.Props.AnyComp
import Verif.Props.Unsorted

/-! C181: the components found so far when a damaged graph file stops the detection. -/

namespace Verif.Props

open Spec EdgeIter

variable {m k : Nat} {NL EL : Type}

/-- The answers of a `ConnComp` are those for the edges `E`. -/
def AnswersFor (E : List (Id m × Id m)) (c : ConnComp m) : Prop :=
  (∀ a b, ∃ c' r, c.isConnected a b = .ok (c', r) ∧ (r = true ↔ Occurs E a ∧ Occurs E b ∧ Linked E a b)) ∧
  c.getCount = (components E).ncard ∧
  ∀ n, (¬ Occurs E n → c.getConnectedNodes n = .ok (c, none)) ∧
    (Occurs E n → ∃ c' l, c.getConnectedNodes n = .ok (c', some l) ∧ l.Nodup ∧ ∀ x, x ∈ l ↔ Linked E n x)

theorem answers {E : List (Id m × Id m)} {c : ConnComp m} (H : History E c) : AnswersFor E c :=
  ⟨c35_is_connected H, c36_count H, c36_connected_nodes H⟩

/-- The edge labels to zip with. -/
def zipped (ev : EdgeVec m k) : Option (List (Id k)) := if ev.getLabels = [] then none else some ev.getLabels

theorem dressed_pairs (ev : EdgeVec m k) (l : List (Id m × Id m)) :
    (dressed (zipped ev) l).map (fun e => (e.src, e.dst)) = kept ev l := by
  rw [← edges_pairs]
  unfold zipped
  split <;> rfl

theorem short_iff (ev : EdgeVec m k) (l : List (Id m × Id m)) :
    short (zipped ev) l ↔ ev.getLabels ≠ [] ∧ ev.getLabels.length < l.length := by
  unfold short zipped
  split
  · rename_i h; simp [h]
  · rename_i h; simp [h]

theorem detect_trace (ev : EdgeVec m k) (d : Bool) {E : List (Id m × Id m)} {c : ConnComp m} (H : History E c)
    (F : Nat) :
    ∃ c', each ev d ConnComp.detectTurn F (zipped ev) c ⟨0, 0⟩ =
        (c', if short (zipped ev) (trace ev d F ⟨0, 0⟩).1 then none else (trace ev d F ⟨0, 0⟩).2) ∧
      (dressed (zipped ev) (trace ev d F ⟨0, 0⟩).1).foldlM (fun c e => c.processEdge e.src e.dst) c = .ok c' ∧
      History (E ++ kept ev (trace ev d F ⟨0, 0⟩).1) c' := by
  obtain ⟨c', h1, h2, h3⟩ := writes_detect (dressed (zipped ev) (trace ev d F ⟨0, 0⟩).1) E c H
  rw [dressed_pairs] at h3
  exact ⟨c', by rw [each_trace, h1], h2, h3⟩

/-- **C181.** The detection run over a frozen graph from any file, in any state of the `ConnComp`: the panic, if there is
one, is that of the first row that can not be passed, and it is not even noticed if the labels run out first. Caught or
not, the `ConnComp` is left as after the pairs listed before it, with all the edges from before the run; nothing of
those is lost. -/
theorem c181_run {ev : EdgeVec m k} {d : Bool} {j : Nat} (hj : GetsTo ev d j) (hm : ev.offsets.length ≤ m + 1)
    (h : j + 1 = ev.offsets.length ∨ ¬ Passable ev j) {E : List (Id m × Id m)} {c : ConnComp m} (H : History E c) :
    ∃ c', ev.eachEdge d ConnComp.detectTurn c =
        (c', if j + 1 = ev.offsets.length ∨
            (ev.getLabels ≠ [] ∧ ev.getLabels.length < (shownBefore ev d j).length) then none
          else some (rowPanic ev j)) ∧
      History (E ++ kept ev (shownBefore ev d j)) c' ∧ AnswersFor (E ++ kept ev (shownBefore ev d j)) c' := by
  have hl := (shown_length j hj.2.1).1
  have ht := trace_gets hj hm _ (le_refl _)
  rw [trace_last hm hj.1 h _ (by omega), List.append_nil] at ht
  obtain ⟨c', h1, -, h3⟩ := detect_trace ev d H (ev.offsets.length + ev.edges.length + 1)
  rw [ht] at h1 h3
  refine ⟨c', ?_, h3, answers h3⟩
  unfold EdgeVec.eachEdge
  change each ev d ConnComp.detectTurn _ (zipped ev) c ⟨0, 0⟩ = _
  rw [h1]
  simp only [short_iff]
  by_cases a : j + 1 = ev.offsets.length
  · simp [a]
  · by_cases b : ev.getLabels ≠ [] ∧ ev.getLabels.length < (shownBefore ev d j).length
    · rw [if_pos b, if_pos (.inr b)]
    · rw [if_neg b, if_neg a, if_neg (by simp only [not_or]; exact ⟨a, b⟩)]

/-- **C181.** So for a frozen graph without edge labels: `run_detection` panics exactly if some row can not be passed,
and the pairs of the rows before it are in. -/
theorem c181_frozen {g : StaticGraph m k NL EL} {j : Nat} (hj : GetsTo g.edgeVec g.directed j)
    (hm : g.edgeVec.offsets.length ≤ m + 1) (h : j + 1 = g.edgeVec.offsets.length ∨ ¬ Passable g.edgeVec j)
    (hl : g.edgeVec.getLabels = []) {E : List (Id m × Id m)} {c : ConnComp m} (H : History E c) :
    ∃ c', g.detect c = (c', if j + 1 = g.edgeVec.offsets.length then none else some (rowPanic g.edgeVec j)) ∧
      AnswersFor (E ++ shownBefore g.edgeVec g.directed j) c' := by
  obtain ⟨c', h1, -, h3⟩ := c181_run hj hm h H
  unfold kept at h3
  rw [if_pos hl] at h3
  refine ⟨c', ?_, h3⟩
  unfold StaticGraph.detect
  rw [h1]
  simp [hl]

/-- **C181.** And for a mapped graph. -/
theorem c181_mapped {g : MmapGraph m k NL EL} {j : Nat} (hj : GetsTo g.edges g.isDirected j)
    (hm : g.edges.offsets.length ≤ m + 1) (h : j + 1 = g.edges.offsets.length ∨ ¬ Passable g.edges j)
    (hl : g.edges.getLabels = []) {E : List (Id m × Id m)} {c : ConnComp m} (H : History E c) :
    ∃ c', g.detect c = (c', if j + 1 = g.edges.offsets.length then none else some (rowPanic g.edges j)) ∧
      AnswersFor (E ++ shownBefore g.edges g.isDirected j) c' := by
  obtain ⟨c', h1, -, h3⟩ := c181_run hj hm h H
  unfold kept at h3
  rw [if_pos hl] at h3
  refine ⟨c', ?_, h3⟩
  unfold MmapGraph.detect
  rw [h1]
  simp [hl]

/-- **C181.** Trying again after a caught panic, as often as one likes, changes none of the answers. -/
theorem c181_again {ev : EdgeVec m k} {d : Bool} {j : Nat} (hj : GetsTo ev d j) (hm : ev.offsets.length ≤ m + 1)
    (h : j + 1 = ev.offsets.length ∨ ¬ Passable ev j) {E : List (Id m × Id m)} {c : ConnComp m} (H : History E c)
    (n : Nat) :
    AnswersFor (E ++ kept ev (shownBefore ev d j))
      ((fun c => (ev.eachEdge d ConnComp.detectTurn c).1)^[n + 1] c) := by
  have key : ∀ n (c : ConnComp m) E', History E' c → SameEdges E' (E ++ kept ev (shownBefore ev d j)) →
      ∃ F, History F ((fun c => (ev.eachEdge d ConnComp.detectTurn c).1)^[n] c) ∧
        SameEdges F (E ++ kept ev (shownBefore ev d j)) := by
    intro n
    induction n with
    | zero => intro c E' h1 h2; exact ⟨E', h1, h2⟩
    | succ n ih =>
      intro c E' h1 h2
      obtain ⟨c', e1, e2, -⟩ := c181_run hj hm h h1
      rw [Function.iterate_succ_apply, e1]
      refine ih _ _ e2 (fun a b => ?_)
      have := h2 a b
      simp only [List.mem_append] at this ⊢
      tauto
  obtain ⟨c', e1, e2, -⟩ := c181_run hj hm h H
  obtain ⟨F, f1, f2⟩ := key n _ _ e2 (fun a b => Iff.rfl)
  rw [Function.iterate_succ_apply, e1]
  have hl : ∀ a b, Linked F a b ↔ Linked (E ++ kept ev (shownBefore ev d j)) a b := ConnComp.linked_ext f2
  have ho : ∀ n, Occurs F n ↔ Occurs (E ++ kept ev (shownBefore ev d j)) n := occurs_ext f2
  obtain ⟨a1, a2, a3⟩ := answers f1
  refine ⟨fun a b => ?_, ?_, fun x => ?_⟩
  · obtain ⟨c2, r, b1, b2⟩ := a1 a b
    exact ⟨c2, r, b1, by rw [b2, ho, ho, hl]⟩
  · rw [a2]
    congr 1
    ext C
    unfold components component
    simp only [Set.mem_ofPred_eq, ho, hl]
  · have := a3 x
    simpa only [ho, hl] using this

/-- **C181.** If a row never settles the detection never ends; but if there are edge labels, no more than edges, the
labels end it: without a panic, after as many pairs as there are labels, of which the first are those of the rows
before. -/
theorem c181_stuck {ev : EdgeVec m k} {d : Bool} {j : Nat} (hj : GetsTo ev d j) (hm : ev.offsets.length ≤ m + 1)
    (h1 : j + 1 < ev.offsets.length) (h2 : Passable ev j) {E : List (Id m × Id m)} {c : ConnComp m}
    (H : History E c) :
    (ev.getLabels = [] → ∀ fuel, ∃ p, (each ev d ConnComp.detectTurn fuel none c ⟨0, 0⟩).2 = some p) ∧
    (ev.getLabels ≠ [] → ev.getLabels.length ≤ ev.edges.length →
      ∃ c' l, ev.eachEdge d ConnComp.detectTurn c = (c', none) ∧ AnswersFor (E ++ l) c' ∧
        l.length = ev.getLabels.length ∧
        l.take (shownBefore ev d j).length = (shownBefore ev d j).take ev.getLabels.length) := by
  obtain ⟨t1, t2⟩ := trace_unsettled hj hm h1 h2
  constructor
  · intro hl fuel
    obtain ⟨c', e1, -⟩ := detect_trace ev d H fuel
    have hz : zipped ev = none := if_pos hl
    rw [hz] at e1
    rw [e1]
    have hs : ¬ short (none : Option (List (Id k))) (trace ev d fuel ⟨0, 0⟩).1 := by rintro ⟨x, h, -⟩; cases h
    rw [if_neg hs]
    exact Option.ne_none_iff_exists'.1 (t1 fuel)
  · intro hl hle
    obtain ⟨c', e1, -, e3⟩ := detect_trace ev d H (ev.offsets.length + ev.edges.length + 1)
    obtain ⟨-, t3⟩ := t2 _ (le_refl _)
    refine ⟨c', _, ?_, answers e3, ?_, ?_⟩
    · change each ev d ConnComp.detectTurn _ (zipped ev) c ⟨0, 0⟩ = _
      rw [e1, if_pos]
      rw [short_iff]
      exact ⟨hl, by omega⟩
    · unfold kept
      rw [if_neg hl, List.length_take, t3]
      omega
    · unfold kept
      rw [if_neg hl, trace_gets hj hm _ (le_refl _)]
      rw [List.take_take, Nat.min_comm, ← List.take_take, List.take_left]

/-- **C181.** If the enumeration ends by itself, this is the detection of C158. -/
theorem c181_view {g : StaticGraph m k NL EL} {v : GView m k NL EL} (hv : g.view = .ok v)
    {E : List (Id m × Id m)} {c : ConnComp m} (H : History E c) :
    ∃ c', g.detect c = (c', none) ∧ c.runDetection v = .ok c' := by
  unfold StaticGraph.view at hv
  obtain ⟨es, he, hv⟩ := bind_eq_ok hv
  obtain ⟨eds, hd, hv⟩ := bind_eq_ok hv
  obtain rfl := Except.ok.inj hv
  rw [StaticGraph.edges_of he] at hd
  obtain ⟨c', e1, e2, -⟩ := detect_trace g.edgeVec g.directed H (g.edgeVec.offsets.length + g.edgeVec.edges.length + 1)
  have he' : EdgeIter.collect g.edgeVec g.directed (g.edgeVec.offsets.length + g.edgeVec.edges.length + 1) ⟨0, 0⟩ =
    .ok es := he
  rw [collect_trace] at he'
  split at he'
  · cases he'
  · rename_i hn
    obtain rfl := Except.ok.inj he'
    refine ⟨c', ?_, ?_⟩
    · change each g.edgeVec g.directed ConnComp.detectTurn _ (zipped g.edgeVec) c ⟨0, 0⟩ = _
      rw [e1, hn]
      simp
    · unfold ConnComp.runDetection
      rw [← e2]
      congr 1
      unfold zipped dressed
      split at hd
      · rename_i hl; rw [if_pos hl]; exact (Except.ok.inj hd).symm
      · rename_i hl; rw [if_neg hl]; exact (Except.ok.inj hd).symm

/-- Three rows, the last of which points beyond the edges. -/
def torn : StaticGraph 9 3 String String :=
  ⟨true, 5, 3, ⟨[0, 1, 2, 2, 9, 9], [1, 0], none⟩, some ⟨[0, 0, 0, 0, 0, 0], [], none⟩, none, ⟨[]⟩, ⟨[]⟩⟩

/-- **C181.** An edge of an earlier graph, then a file torn at row 3: after the caught panic both are there. -/
theorem c181_torn : (do
      let c ← ConnComp.processEdge (m := 9) ConnComp.empty 7 8
      let r := torn.detect c
      let x ← r.1.isConnected 0 1
      let y ← r.1.isConnected 7 8
      let z ← r.1.isConnected 1 8
      pure (r.2, r.1.getCount, x.2, y.2, z.2) : Res _) =
    .ok (some .indexOutOfBounds, 2, true, true, false) := by decide +kernel

example : GetsTo torn.edgeVec torn.directed 3 ∧ torn.edgeVec.offsets.length ≤ 10 ∧ ¬ Passable torn.edgeVec 3 := by
  refine ⟨⟨by decide, ?_, .inr (.inl ?_)⟩, by decide, ?_⟩
  · intro n hn
    refine ⟨?_, .inl rfl⟩
    have : n = 0 ∨ n = 1 ∨ n = 2 := by omega
    rcases this with rfl | rfl | rfl
    · exact ⟨0, 1, ⟨rfl, rfl⟩, by decide, by decide⟩
    · exact ⟨1, 2, ⟨rfl, rfl⟩, by decide, by decide⟩
    · exact ⟨2, 2, ⟨rfl, rfl⟩, by decide, by decide⟩
  all_goals
    rintro ⟨a, b, ⟨h1, h2⟩, h3, h4⟩
    cases h1; cases h2; revert h4; decide

end Verif.Props
