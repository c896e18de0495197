import Verif.Proof.Loops
import Verif.Props.AnyEqual

/-! C178: loops over the edges of frozen graphs from any file. -/

namespace Verif.Props

open Spec EdgeVec EdgeIter

variable {m k k' : Nat} {NL EL S R : Type}

/-- **C178.** There is exactly one row an enumeration gets to, unless there are no offsets at all. -/
theorem c178_reaches (ev : EdgeVec m k) : (∃ j, Reaches ev j) ↔ ev.offsets ≠ [] := by
  constructor
  · rintro ⟨j, h, -⟩ e
    simp [e] at h
  · intro h0
    have h0' : ev.offsets.length ≠ 0 := by simpa using h0
    by_cases hb : ∃ n, n + 1 ≤ ev.offsets.length ∧ ¬ Passable ev n
    · classical
      refine ⟨Nat.find hb, (Nat.find_spec hb).1, fun n hn => ?_, .inr (Nat.find_spec hb).2⟩
      by_contra hp
      exact Nat.find_min hb hn ⟨by have := (Nat.find_spec hb).1; omega, hp⟩
    · refine ⟨ev.offsets.length - 1, by omega, fun n hn => ?_, .inl (by omega)⟩
      by_contra hp
      exact hb ⟨n, by omega, hp⟩

/-- **C178.** … one only. -/
theorem c178_unique {ev : EdgeVec m k} {i j : Nat} (hi : Reaches ev i) (hj : Reaches ev j) : i = j := by
  obtain ⟨a1, a2, a3⟩ := hi
  obtain ⟨b1, b2, b3⟩ := hj
  rcases Nat.lt_trichotomy i j with h | h | h
  · rcases a3 with a3 | a3
    · omega
    · exact absurd (b2 i h) a3
  · exact h
  · rcases b3 with b3 | b3
    · omega
    · exact absurd (a2 j h) b3

theorem trace_reaches {ev : EdgeVec m k} {j : Nat} (hj : Reaches ev j) (hm : ev.offsets.length ≤ m + 1) (d : Bool)
    (hrow : d = true ∨ ∀ n, (rowOf ev n).Pairwise (· < ·)) (fuel : Nat)
    (hf : ev.offsets.length + ev.edges.length + 1 ≤ fuel) :
    trace ev d fuel ⟨0, 0⟩ =
      (pairsBefore ev d j, if j + 1 = ev.offsets.length then none else some (rowPanic ev j)) := by
  obtain ⟨h1, h2, h3⟩ := hj
  obtain ⟨c, hc⟩ : ∃ c, ev.offsets.length = c + 1 := ⟨ev.offsets.length - 1, by omega⟩
  rw [trace_raw c hc (by omega) d (hrow.imp id (fun h n _ => h n)) fuel c 0 0 (by omega)
    (fun _ _ _ => Nat.zero_le _) (by omega)]
  have := listed_rows c hc (by omega) d j (c - j) 0 (by omega) (fun i _ hi => h2 i (by omega))
    (h3.imp (by omega) (by rw [Nat.zero_add]; exact id))
  rw [show j + (c - j) = c by omega, Nat.zero_add] at this
  rw [this]
  unfold pairsBefore
  rw [List.range_eq_range']
  have e : (c - j = 0) = (j + 1 = ev.offsets.length) := by
    apply propext; omega
  simp only [e]

/-- **C178.** Any loop over the edges of any adjacency takes its turns over the edges of the rows before the first one
that can not be passed. If it has not left by then, it panics at that row, or ends if there is none. -/
theorem c178_loop {ev : EdgeVec m k} {j : Nat} (hj : Reaches ev j) (hm : ev.offsets.length ≤ m + 1) (d : Bool)
    (hrow : d = true ∨ ∀ n, (rowOf ev n).Pairwise (· < ·)) (body : S → Id m × Id m → Res (Turn S R)) (s : S)
    (fuel : Nat) (hf : ev.offsets.length + ev.edges.length + 1 ≤ fuel) :
    EdgeIter.loop ev d body fuel s ⟨0, 0⟩ = (do
      match ← turns body s (pairsBefore ev d j) with
      | .leave r => pure (.leave r)
      | .on s => if j + 1 = ev.offsets.length then pure (.on s) else .error (rowPanic ev j)) := by
  rw [loop_trace, trace_reaches hj hm d hrow fuel hf]
  cases turns body s (pairsBefore ev d j) with
  | error p => rfl
  | ok t =>
    cases t with
    | leave r => rfl
    | on s =>
      simp only [bind_ok, after]
      by_cases h : j + 1 = ev.offsets.length <;> simp [h]

/-- **C178.** Where the enumeration ends, and whatever the adjacency, loops over it are loops over its list. -/
theorem c178_list {ev : EdgeVec m k} {d : Bool} {l : List (Id m × Id m)} (h : ev.edgeIndices d = .ok l)
    (body : S → Id m × Id m → Res (Turn S R)) (s : S) : ev.forEdges d body s = turns body s l := by
  unfold edgeIndices at h
  unfold forEdges
  rw [collect_trace] at h
  rw [loop_trace]
  split at h
  · cases h
  · rename_i h2
    cases h
    rw [h2]
    cases turns body s _ with
    | error p => rfl
    | ok t => cases t <;> rfl

/-- The iterator never ends if every number below the id range is a node. -/
theorem trace_endless {ev : EdgeVec m k} (h : m + 2 ≤ ev.offsets.length) (d : Bool) : ∀ F it,
    (trace ev d F it).2 ≠ none := by
  have hn : ∀ n : Id m, ev.hasNode n = .ok true := by
    intro n
    rw [hasNode_raw, if_neg (by omega)]
    have := n.isLt
    simp only [Except.ok.injEq, decide_eq_true_eq]
    omega
  have hnext : ∀ F it, next ev d F it ≠ .ok none := by
    intro F
    induction F with
    | zero => intro it e; cases e
    | succ F ih =>
      intro it e
      unfold next at e
      obtain ⟨it', -, e⟩ := bind_eq_ok e
      rw [hn] at e
      simp only [bind_ok, if_true] at e
      obtain ⟨nb, -, e⟩ := bind_eq_ok e
      obtain ⟨o, -, e⟩ := bind_eq_ok e
      cases o with
      | none => exact ih _ e
      | some i =>
        simp only at e
        obtain ⟨x, -, e⟩ := bind_eq_ok e
        cases e
  intro F
  induction F with
  | zero => intro it; simp [trace]
  | succ F ih =>
    intro it
    unfold trace
    cases h1 : next ev d (F + 1) it with
    | error p => simp
    | ok o =>
      cases o with
      | none => exact absurd h1 (hnext _ _)
      | some p => exact ih _

/-- **C178.** With a node for every number of the id range a loop over the edges never comes to its end, however long
it runs; it can only be left from within, or panic. -/
theorem c178_endless {ev : EdgeVec m k} (h : m + 2 ≤ ev.offsets.length) (d : Bool)
    (body : S → Id m × Id m → Res (Turn S R)) (fuel : Nat) (s s' : S) (it : EdgeIter) :
    EdgeIter.loop ev d body fuel s it ≠ .ok (.on s') := by
  rw [loop_trace]
  intro e
  obtain ⟨t, -, e⟩ := bind_eq_ok e
  cases ho : (trace ev d fuel it).2 with
  | none => exact trace_endless h d fuel it ho
  | some p =>
    rw [ho] at e
    cases t <;> cases e

variable [DecidableEq NL] [DecidableEq EL]

omit [DecidableEq NL] in
theorem turns_agree (g : GView m k NL EL) (h : GView m k' NL EL) : ∀ l,
    turns (R := Bool) (fun (_ : Unit) e => do
      if ← g.edgeAgrees h e then pure (.on ()) else pure (.leave false)) () l =
    (do if ← GView.allM (g.edgeAgrees h) l then pure (.on ()) else pure (.leave false)) := by
  intro l
  induction l with
  | nil => rfl
  | cons e l ih =>
    unfold turns GView.allM
    cases g.edgeAgrees h e with
    | error p => rfl
    | ok b =>
      cases b
      · rfl
      · simp only [bind_ok, if_true, pure_ok]
        exact ih

omit [DecidableEq NL] in
theorem same_edges_trace (ev : EdgeVec m k) (g : GView m k NL EL) (h : GView m k' NL EL) (fuel : Nat) :
    ev.sameEdges g h fuel = (do
      if ← GView.allM (g.edgeAgrees h) (trace ev g.directed fuel ⟨0, 0⟩).1 then
        match (trace ev g.directed fuel ⟨0, 0⟩).2 with
        | some p => .error p
        | none => pure true
      else pure false) := by
  unfold sameEdges
  rw [loop_trace, turns_agree]
  cases GView.allM (g.edgeAgrees h) (trace ev g.directed fuel ⟨0, 0⟩).1 with
  | error p => rfl
  | ok b =>
    cases b
    · rfl
    · cases (trace ev g.directed fuel ⟨0, 0⟩).2 <;> rfl

theorem equal_by_list {ev : EdgeVec m k} {g v : GView m k NL EL} {l : List (Id m × Id m)}
    (h : ev.edgeIndices g.directed = .ok l) (hv : v.directed = g.directed ∧ v.nodeCount = g.nodeCount ∧
      v.edgeCount = g.edgeCount ∧ v.nodeIndices = g.nodeIndices ∧ v.edgeIndices = l ∧
      (∀ x : GView m k' NL EL, v.nodeAgrees x = g.nodeAgrees x ∧ v.edgeAgrees x = g.edgeAgrees x))
    (x : GView m k' NL EL) :
    ev.equalBy g x (ev.offsets.length + ev.edges.length + 1) = v.equal x := by
  obtain ⟨h1, h2, h3, h4, h5, h6⟩ := hv
  unfold equalBy GView.equal GView.contained
  rw [h1, h2, h3, h4, h5, (h6 x).1, (h6 x).2, same_edges_trace]
  unfold edgeIndices at h
  rw [collect_trace] at h
  split at h
  · cases h
  · rename_i ho
    cases h
    rw [ho]
    have key : ∀ b : Res Bool, (do if ← b then pure true else pure false) = b := by
      intro b; rcases b with p | b
      · rfl
      · cases b <;> rfl
    simp only [key]

/-- **C178.** Where a frozen graph can be enumerated, comparing it turn by turn is comparing it. -/
theorem c178_view {g : StaticGraph m k NL EL} {v : GView m k NL EL} (h : g.view = .ok v) (x : GView m k' NL EL) :
    g.equalSteps x = v.equal x := by
  unfold StaticGraph.view at h
  obtain ⟨l, h1, h⟩ := bind_eq_ok h
  obtain ⟨l', h2, h⟩ := bind_eq_ok h
  cases h
  refine equal_by_list (ev := g.edgeVec) (g := g.calls) h1 ?_ x
  exact ⟨rfl, rfl, rfl, rfl, rfl, fun x => ⟨rfl, rfl⟩⟩

/-- **C178.** The same for mapped graphs. -/
theorem c178_mapped_view {g : MmapGraph m k NL EL} {v : GView m k NL EL} (h : g.view = .ok v)
    (x : GView m k' NL EL) : g.equalSteps x = v.equal x := by
  unfold MmapGraph.view at h
  obtain ⟨l, h1, h⟩ := bind_eq_ok h
  obtain ⟨l', h2, h⟩ := bind_eq_ok h
  cases h
  refine equal_by_list (ev := g.edges) (g := g.calls) h1 ?_ x
  exact ⟨rfl, rfl, rfl, rfl, rfl, fun x => ⟨rfl, rfl⟩⟩

/-- **C178.** What comparing does with an adjacency of which nothing is known: as if there were only the rows before
the first one that can not be passed; if nothing has been found to differ by then, it panics there. -/
theorem c178_equal {ev : EdgeVec m k} {j : Nat} (hj : Reaches ev j) (hm : ev.offsets.length ≤ m + 1)
    (g : GView m k NL EL) (hrow : g.directed = true ∨ ∀ n, (rowOf ev n).Pairwise (· < ·)) (x : GView m k' NL EL)
    (fuel : Nat) (hf : ev.offsets.length + ev.edges.length + 1 ≤ fuel) (v : GView m k NL EL)
    (hv : v = { g with edgeIndices := pairsBefore ev g.directed j }) :
    (ev.equalBy g x fuel = .ok true ↔ SameSizes g x ∧ AllSame v x ∧ j + 1 = ev.offsets.length) ∧
    (ev.equalBy g x fuel = .ok false ↔ ¬ SameSizes g x ∨ SomeOther v x) ∧
    ∀ p, ev.equalBy g x fuel = .error p ↔ SameSizes g x ∧
      (SomeStops v x p ∨ AllSame v x ∧ j + 1 ≠ ev.offsets.length ∧ p = rowPanic ev j) := by
  obtain ⟨c1, c2, c3⟩ := contained_any v x
  have hstep : ∀ y, (do if ← GView.allM (g.nodeAgrees x) g.nodeIndices then ev.sameEdges g x fuel else pure false) = y ↔
      (do if ← v.contained x then
            if j + 1 = ev.offsets.length then pure true else .error (rowPanic ev j)
          else pure false) = y := by
    intro y
    rw [same_edges_trace, trace_reaches hj hm g.directed hrow fuel hf]
    have e1 : v.contained x = (do
        if ← GView.allM (g.nodeAgrees x) g.nodeIndices then
          GView.allM (g.edgeAgrees x) (pairsBefore ev g.directed j) else pure false) := by
      subst hv; rfl
    rw [e1]
    rcases GView.allM (g.nodeAgrees x) g.nodeIndices with p | b
    · rfl
    · cases b
      · rfl
      · simp only [bind_ok, if_true]
        rcases GView.allM (g.edgeAgrees x) (pairsBefore ev g.directed j) with p | b
        · rfl
        · cases b
          · rfl
          · by_cases hl : j + 1 = ev.offsets.length <;> simp [hl, bind_ok]
  unfold equalBy
  by_cases hs : SameSizes g x
  · have hf : (g.directed != x.directed || g.nodeCount != x.nodeCount || g.edgeCount != x.edgeCount) = false := by
      obtain ⟨a, b, c⟩ := hs
      simp [a, b, c]
    simp only [hf, Bool.false_eq_true, if_false, hstep, hs, true_and, not_true_eq_false, false_or, ← c1, ← c2, ← c3]
    rcases v.contained x with p | b
    · simp [bind_error]
    · cases b
      · simp [bind_ok, pure_ok]
      · by_cases hl : j + 1 = ev.offsets.length
        · simp [bind_ok, pure_ok, hl]
        · simp [bind_ok, pure_ok, hl, eq_comm]
  · have hf : (g.directed != x.directed || g.nodeCount != x.nodeCount || g.edgeCount != x.edgeCount) = true := by
      by_contra hc
      apply hs
      simp only [Bool.or_eq_true, bne_iff_ne, not_or, ne_eq, not_not] at hc
      exact ⟨hc.1.1, hc.1.2, hc.2⟩
    simp [hf, hs, pure_ok]

/-- **C178.** A graph with a node for every number of the id range is never found to be equal to anything, not even to
itself, however long the comparison runs. -/
theorem c178_never_equal {ev : EdgeVec m k} (h : m + 2 ≤ ev.offsets.length) (g : GView m k NL EL)
    (x : GView m k' NL EL) (fuel : Nat) : ev.equalBy g x fuel ≠ .ok true := by
  unfold equalBy
  split
  · intro e; cases e
  · intro e
    obtain ⟨b, -, e⟩ := bind_eq_ok e
    cases b
    · cases e
    · simp only [if_true] at e
      rw [same_edges_trace] at e
      obtain ⟨b, -, e⟩ := bind_eq_ok e
      cases b
      · cases e
      · simp only [if_true] at e
        cases ho : (trace ev g.directed fuel ⟨0, 0⟩).2 with
        | none => exact trace_endless h _ _ _ ho
        | some p => rw [ho] at e; cases e

/-- A file of three nodes whose second row ends after the edges. -/
def brokenGraph : StaticGraph 9 3 String String :=
  ⟨true, 3, 2, ⟨[0, 1, 9, 9], [1, 2], none⟩, none, none, ⟨[]⟩, ⟨[]⟩⟩

/-- Nodes 0 and 1, which are all there can be, and an edge from 0 to 1. -/
def fullGraph : StaticGraph 1 3 String String :=
  ⟨true, 2, 1, ⟨[0, 1, 1], [1], none⟩, none, none, ⟨[]⟩, ⟨[]⟩⟩

/-- **C178.** The enumeration of the broken graph panics; comparing it with a graph that lacks its first edge does not
get that far and answers `false`, with one that has it, it panics. Of the full graph the enumeration never ends; still
it is found to differ from one without its edge. -/
theorem c178_lazy : brokenGraph.view = .error .indexOutOfBounds ∧
    (∃ v, (⟨true, 3, 2, ⟨[0, 0, 2, 2], [0, 2], none⟩, none, none, ⟨[]⟩, ⟨[]⟩⟩ : StaticGraph 9 3 String String).view =
      .ok v ∧ brokenGraph.equalSteps v = .ok false) ∧
    (∃ v, (⟨true, 3, 2, ⟨[0, 1, 2, 2], [1, 2], none⟩, none, none, ⟨[]⟩, ⟨[]⟩⟩ : StaticGraph 9 3 String String).view =
      .ok v ∧ brokenGraph.equalSteps v = .error .indexOutOfBounds) ∧
    (∀ fuel, (∃ l, EdgeIter.collect fullGraph.edgeVec true fuel ⟨0, 0⟩ = .ok l) → False) ∧
    fullGraph.edgeVec.equalBy fullGraph.calls
      (⟨true, 2, 1, ⟨[0, 0, 1], [0], none⟩, none, none, ⟨[]⟩, ⟨[]⟩⟩ : StaticGraph 1 3 String String).calls 5 =
      .ok false := by
  refine ⟨by rfl, ⟨_, rfl, by decide +kernel⟩, ⟨_, rfl, by decide +kernel⟩, ?_, by decide +kernel⟩
  rintro fuel ⟨l, h⟩
  rw [collect_trace] at h
  cases ho : (trace fullGraph.edgeVec true fuel ⟨0, 0⟩).2 with
  | none => exact trace_endless (by decide) _ _ _ ho
  | some p => rw [ho] at h; cases h

/-- The conditions of `c178_loop` and `c178_equal` are met by a graph that stops halfway and by one that does not. -/
example : Reaches brokenGraph.edgeVec 1 ∧ pairsBefore brokenGraph.edgeVec true 1 = [(0, 1)] ∧
    rowPanic brokenGraph.edgeVec 1 = .indexOutOfBounds ∧
    Reaches (⟨[0, 1, 2, 2], [1, 2], none⟩ : EdgeVec 9 3) 3 ∧
    pairsBefore (⟨[0, 1, 2, 2], [1, 2], none⟩ : EdgeVec 9 3) true 3 = [(0, 1), (1, 2)] := by
  refine ⟨⟨by decide, ?_, .inr ?_⟩, by decide +kernel, by decide, ⟨by decide, ?_, .inl (by decide)⟩, by decide +kernel⟩
  · intro n hn
    obtain rfl : n = 0 := by omega
    exact ⟨0, 1, ⟨rfl, rfl⟩, by decide, .inr (by decide)⟩
  · rintro ⟨a, b, ⟨h1, h2⟩, h3, h4⟩
    cases h1; cases h2
    revert h4; decide
  · intro n hn
    obtain rfl | rfl | rfl : n = 0 ∨ n = 1 ∨ n = 2 := by omega
    · exact ⟨0, 1, ⟨rfl, rfl⟩, by decide, .inr (by decide)⟩
    · exact ⟨1, 2, ⟨rfl, rfl⟩, by decide, .inr (by decide)⟩
    · exact ⟨2, 2, ⟨rfl, rfl⟩, by decide, .inl rfl⟩

end Verif.Props
