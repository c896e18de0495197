import Verif.Proof.CsvSteps
import Verif.Props.AnyCsv
import Verif.Props.Detect

/-! C188: the CSV files that are left when a damaged graph stops the writing. -/

namespace Verif.Props

open Verif Verif.GraphMap Verif.Spec Csv

variable {m k : Nat} {NL EL : Type}

/-- What is written before the panics: the given nodes and pairs up to the first whose label panics. -/
def cutAt (g : GView m k NL EL) (E : List (Id m × Id m)) : GView m k NL EL :=
  { g with
    nodeIndices := beforePanic g.getNodeLabel g.nodeIndices
    edgeIndices := beforePanic (fun e => g.getEdgeLabel e.1 e.2) E }

theorem cut_write (xf : Field (Id m)) (nf : Field NL) (ef : Field EL) (g : GView m k NL EL)
    (E : List (Id m × Id m)) :
    write comma xf nf ef (cutAt g E) = .ok
      (writeAll comma [idName, labelName] ((beforePanic g.getNodeLabel g.nodeIndices).map
        (fun n => record [xf.shown n] nf (given (g.getNodeLabel n)))),
       writeAll comma [startName, endName, typeName] ((beforePanic (fun e => g.getEdgeLabel e.1 e.2) E).map
        (fun e => record [xf.shown e.1, xf.shown e.2] ef (given (g.getEdgeLabel e.1 e.2))))) := by
  unfold write
  have h1 := mapM_given g.getNodeLabel (fun n l => record [xf.shown n] nf l) (fun n => given (g.getNodeLabel n))
    (beforePanic g.getNodeLabel g.nodeIndices)
    (fun n hn => by obtain ⟨y, hy⟩ := before_ok _ _ n hn; rw [hy]; rfl)
  have h2 := mapM_given (fun e : Id m × Id m => g.getEdgeLabel e.1 e.2)
    (fun e l => record [xf.shown e.1, xf.shown e.2] ef l) (fun e => given (g.getEdgeLabel e.1 e.2))
    (beforePanic (fun e => g.getEdgeLabel e.1 e.2) E)
    (fun e he => by obtain ⟨y, hy⟩ := before_ok _ _ e he; rw [hy]; rfl)
  have r1 : (cutAt g E).getNodeLabel = g.getNodeLabel := rfl
  have r2 : (cutAt g E).getEdgeLabel = g.getEdgeLabel := rfl
  rw [r1, r2]
  unfold cutAt
  simp only [h1, h2, bind_ok]
  rfl

/-- What the loops come to, for any enumeration. -/
theorem steps_trace (xf : Field (Id m)) (nf : Field NL) (ef : Field EL) (g : GView m k NL EL) (ev : EdgeVec m k)
    (d : Bool) (np ep : String) (w : World) {E : List (Id m × Id m)} {o : Option Panic}
    (ht : EdgeIter.trace ev d (ev.offsets.length + ev.edges.length + 1) ⟨0, 0⟩ = (E, o)) {nb eb : List Byte}
    (hb : write comma xf nf ef (cutAt g E) = .ok (nb, eb)) :
    writeSteps xf nf ef g ev d np ep w =
      match firstPanic (g.nodeIndices.map g.getNodeLabel) with
      | some p =>
        if w.room = 0 then (.ok false, w)
        else (if ((⟨⟨[], w.room - 1⟩, []⟩ : CsvOut).pushAll nb).1 then .error p else .ok false,
          w.put np ((⟨⟨[], w.room - 1⟩, []⟩ : CsvOut).pushAll nb).2.drop)
      | none =>
        (if (writeFiles np ep nb eb w).1 then
          (match (firstPanic (E.map (fun e => g.getEdgeLabel e.1 e.2))).or o with
            | some p => .error p
            | none => .ok true)
         else .ok false, (writeFiles np ep nb eb w).2) := by
  rw [cut_write] at hb
  obtain ⟨rfl, rfl⟩ := Prod.mk.inj (Except.ok.inj hb)
  have hn := fun f => eachNode_eq comma [idName, labelName]
    (fun n => (g.getNodeLabel n >>= fun l => pure (record [xf.shown n] nf l) : Res _))
    (fun n => record [xf.shown n] nf (given (g.getNodeLabel n))) g.nodeIndices f (by
      intro x hx
      rw [beforePanic_bind g.nodeIndices g.getNodeLabel (fun n l => record [xf.shown n] nf l)] at hx
      obtain ⟨y, hy⟩ := before_ok _ _ x hx
      rw [hy]; rfl)
  have he := fun f => eachNode_eq comma [startName, endName, typeName]
    (fun e : Id m × Id m => (g.getEdgeLabel e.1 e.2 >>= fun l => pure (record [xf.shown e.1, xf.shown e.2] ef l) : Res _))
    (fun e => record [xf.shown e.1, xf.shown e.2] ef (given (g.getEdgeLabel e.1 e.2))) E f (by
      intro x hx
      rw [beforePanic_bind E (fun e => g.getEdgeLabel e.1 e.2) (fun e l => record [xf.shown e.1, xf.shown e.2] ef l)] at hx
      obtain ⟨y, hy⟩ := before_ok _ _ x hx
      rw [hy]; rfl)
  rw [beforePanic_bind g.nodeIndices g.getNodeLabel (fun n l => record [xf.shown n] nf l),
    firstPanic_bind g.nodeIndices g.getNodeLabel (fun n l => record [xf.shown n] nf l)] at hn
  rw [beforePanic_bind E (fun e => g.getEdgeLabel e.1 e.2) (fun e l => record [xf.shown e.1, xf.shown e.2] ef l),
    firstPanic_bind E (fun e => g.getEdgeLabel e.1 e.2) (fun e l => record [xf.shown e.1, xf.shown e.2] ef l)] at he
  generalize hnb : writeAll comma [idName, labelName] ((beforePanic g.getNodeLabel g.nodeIndices).map
        (fun n => record [xf.shown n] nf (given (g.getNodeLabel n)))) = nb
  generalize heb : writeAll comma [startName, endName, typeName] ((beforePanic (fun e => g.getEdgeLabel e.1 e.2) E).map
        (fun e => record [xf.shown e.1, xf.shown e.2] ef (given (g.getEdgeLabel e.1 e.2)))) = eb
  have hn' := fun s : CsvOut => hn ⟨s, false⟩
  have he' := fun s : CsvOut => he ⟨s, false⟩
  simp only [bytesOf, Bool.false_eq_true, if_false, hnb, heb] at hn' he'
  clear hn he hnb heb hb
  unfold writeSteps writeFiles
  by_cases h0 : w.room = 0
  · simp only [h0, if_true]
    cases firstPanic (g.nodeIndices.map g.getNodeLabel) <;> simp
  · simp only [if_neg h0]
    obtain ⟨n1, n2⟩ := hn' ⟨⟨[], w.room - 1⟩, []⟩
    simp only [eachPair_trace, ht]
    generalize eachNode _ (⟨⟨⟨[], w.room - 1⟩, []⟩, false⟩ : OutFile) g.nodeIndices = N at n1 n2 ⊢
    obtain ⟨N, ns⟩ := N
    simp only at n1 n2 ⊢
    subst n2
    rw [n1]
    generalize (⟨⟨[], w.room - 1⟩, []⟩ : CsvOut).pushAll nb = q
    obtain ⟨ok, q⟩ := q
    simp only
    cases ok with
    | false => cases firstPanic (g.nodeIndices.map g.getNodeLabel) <;> simp [stopped]
    | true =>
      cases firstPanic (g.nodeIndices.map g.getNodeLabel) with
      | some p => simp [stopped]
      | none =>
        simp only [Option.map_none, if_true, ne_eq, not_true_eq_false, if_false, Bool.true_eq_false]
        by_cases hr : q.inner.room = 0
        · simp [hr]
        · simp only [if_neg hr]
          obtain ⟨e1, e2⟩ := he' ⟨⟨[], q.inner.room - 1⟩, []⟩
          generalize eachNode _ (⟨⟨⟨[], q.inner.room - 1⟩, []⟩, false⟩ : OutFile) E = M at e1 e2 ⊢
          obtain ⟨M, ms⟩ := M
          simp only at e1 e2 ⊢
          generalize (⟨⟨[], q.inner.room - 1⟩, []⟩ : CsvOut).pushAll eb = r at e1 e2 ⊢
          obtain ⟨ok, r⟩ := r
          simp only at e1 e2 ⊢
          subst e2
          cases ok with
          | false => simp [stopped, e1]
          | true =>
            cases firstPanic (E.map (fun e => g.getEdgeLabel e.1 e.2)) with
            | some p => simp [stopped, e1]
            | none => cases o <;> simp [stopped, e1]

theorem trace_before {ev : EdgeVec m k} {d : Bool} {j : Nat} (hj : GetsTo ev d j) (hm : ev.offsets.length ≤ m + 1)
    (h : j + 1 = ev.offsets.length ∨ ¬ Passable ev j) :
    EdgeIter.trace ev d (ev.offsets.length + ev.edges.length + 1) ⟨0, 0⟩ =
      (shownBefore ev d j, if j + 1 = ev.offsets.length then none else some (rowPanic ev j)) := by
  have hl := (shown_length j hj.2.1).1
  have ht := trace_gets hj hm _ (le_refl _)
  rw [trace_last hm hj.1 h _ (by omega), List.append_nil] at ht
  exact ht

/-- The panic in the loop over the edges: of a label before row `j`, else of row `j` itself. -/
def edgePanic (g : GView m k NL EL) (ev : EdgeVec m k) (d : Bool) (j : Nat) : Option Panic :=
  (firstPanic ((shownBefore ev d j).map (fun e => g.getEdgeLabel e.1 e.2))).or
    (if j + 1 = ev.offsets.length then none else some (rowPanic ev j))

/-- **C188.** What comes before the first panic can always be written. -/
theorem c188_part (xf : Field (Id m)) (nf : Field NL) (ef : Field EL) (g : GView m k NL EL) (ev : EdgeVec m k)
    (d : Bool) (j : Nat) : ∃ nb eb, write comma xf nf ef (partBefore g ev d j) = .ok (nb, eb) :=
  ⟨_, _, cut_write xf nf ef g (shownBefore ev d j)⟩

/-- **C188.** All nodes have their labels; the rows before `j` are gone through, and row `j` is the end or can not be
passed. Then the two files are those that a write of the part before the panic makes, on any disk; and the call panics
exactly if a row or a label panics and the disk did not fail before. -/
theorem c188_edges {xf : Field (Id m)} {nf : Field NL} {ef : Field EL} {g : GView m k NL EL} {ev : EdgeVec m k}
    {d : Bool} {j : Nat} (hj : GetsTo ev d j) (hm : ev.offsets.length ≤ m + 1)
    (h : j + 1 = ev.offsets.length ∨ ¬ Passable ev j) (hn : ∀ n ∈ g.nodeIndices, ∃ l, g.getNodeLabel n = .ok l)
    (np ep : String) (w : World) :
    ∃ ok w', writeTo xf nf ef (partBefore g ev d j) np ep w = .ok (ok, w') ∧
      writeSteps xf nf ef g ev d np ep w =
        (if ok then (match edgePanic g ev d j with | some p => .error p | none => .ok true) else .ok false, w') := by
  obtain ⟨nb, eb, hb⟩ := c188_part xf nf ef g ev d j
  refine ⟨(writeFiles np ep nb eb w).1, (writeFiles np ep nb eb w).2, ?_, ?_⟩
  · unfold writeTo
    rw [hb, bind_ok, pure_ok]
  · rw [steps_trace xf nf ef g ev d np ep w (trace_before hj hm h) hb, panic_none_iff.2 hn]
    rfl

/-- **C188.** With room on the disk: both files hold the part before the panic, whatever they held before, and nothing
else changes; the panic, if any, comes after. -/
theorem c188_left {xf : Field (Id m)} {nf : Field NL} {ef : Field EL} {g : GView m k NL EL} {ev : EdgeVec m k}
    {d : Bool} {j : Nat} (hj : GetsTo ev d j) (hm : ev.offsets.length ≤ m + 1)
    (h : j + 1 = ev.offsets.length ∨ ¬ Passable ev j) (hn : ∀ n ∈ g.nodeIndices, ∃ l, g.getNodeLabel n = .ok l)
    {np ep : String} (hne : np ≠ ep) {nb eb : List Byte}
    (hb : write comma xf nf ef (partBefore g ev d j) = .ok (nb, eb)) {w : World}
    (hw : nb.length + eb.length + 2 ≤ w.room) :
    ∃ w', writeSteps xf nf ef g ev d np ep w =
        (match edgePanic g ev d j with | some p => .error p | none => .ok true, w') ∧
      w'.files np = some nb ∧ w'.files ep = some eb ∧ (∀ p, p ≠ np → p ≠ ep → w'.files p = w.files p) ∧
      w'.room = w.room - (nb.length + eb.length + 2) := by
  obtain ⟨ok, w', h1, h2⟩ := c188_edges (xf := xf) (nf := nf) (ef := ef) hj hm h hn np ep w
  unfold writeTo at h1
  rw [hb, bind_ok, pure_ok] at h1
  obtain ⟨a1, a2, a3, a4, a5⟩ := writeFiles_room hne nb eb hw
  have h1 := Except.ok.inj h1
  rw [Prod.ext_iff] at h1
  obtain ⟨h3, h4⟩ := h1
  simp only at h3 h4
  rw [← h4, ← h3, a1, if_pos rfl] at h2
  exact ⟨_, h2, a2, a3, a4, a5⟩

/-- **C188.** A node whose label panics: the node file holds the nodes before it, and the edge file is not touched: what
was there before is still there. -/
theorem c188_nodes {xf : Field (Id m)} {nf : Field NL} {ef : Field EL} {g : GView m k NL EL} {ev : EdgeVec m k}
    {d : Bool} {a b : List (Id m)} {n : Id m} {p : Panic} (hab : g.nodeIndices = a ++ n :: b)
    (ha : ∀ x ∈ a, ∃ l, g.getNodeLabel x = .ok l) (hp : g.getNodeLabel n = .error p)
    {np ep : String} (hne : np ≠ ep) {nb eb : List Byte}
    (hb : write comma xf nf ef { g with nodeIndices := a, edgeIndices := [] } = .ok (nb, eb)) {w : World}
    (hw : nb.length + 1 ≤ w.room) :
    ∃ w', writeSteps xf nf ef g ev d np ep w = (.error p, w') ∧
      w'.files np = some nb ∧ w'.files ep = w.files ep ∧ (∀ q, q ≠ np → w'.files q = w.files q) := by
  have hcut : ∀ l, beforePanic g.getNodeLabel (a ++ n :: l) = a ∧
      firstPanic ((a ++ n :: l).map g.getNodeLabel) = some p := by
    intro l
    clear hab hb
    induction a with
    | nil => simp [beforePanic, hp, firstPanic]
    | cons x a ih =>
      obtain ⟨y, hy⟩ := ha x (List.mem_cons_self ..)
      have := ih (fun z hz => ha z (List.mem_cons_of_mem _ hz))
      simp only [List.cons_append, beforePanic, hy, List.map_cons, firstPanic, this.1]
      exact ⟨trivial, this.2⟩
  have hc := hcut b
  rw [← hab] at hc
  rcases ht : EdgeIter.trace ev d (ev.offsets.length + ev.edges.length + 1) ⟨0, 0⟩ with ⟨E, o⟩
  have hcw := cut_write xf nf ef g E
  have hnb : nb = writeAll comma [idName, labelName] ((beforePanic g.getNodeLabel g.nodeIndices).map
        (fun n => record [xf.shown n] nf (given (g.getNodeLabel n)))) := by
    obtain ⟨-, e, -⟩ := write_given hb
    rw [hc.1]
    exact e
  rw [← hnb] at hcw
  rw [steps_trace xf nf ef g ev d np ep w ht hcw, hc.2]
  simp only
  rw [if_neg (by omega)]
  rcases CsvOut.pushAll_holds nb (Csv.new_holds (w.room - 1)) with ⟨e1, e2⟩ | ⟨-, -, e3, -⟩
  · rw [e1, if_pos rfl]
    have hd := CsvOut.drop_holds e2
    rw [hd]
    refine ⟨_, rfl, ?_, ?_, ?_⟩
    · simp only [World.put, if_true, List.nil_append]
      rw [List.take_of_length_le (by omega)]
    · simp only [World.put]
      rw [if_neg (Ne.symm hne)]
    · intro q hq
      simp only [World.put]
      rw [if_neg hq]
  · simp only [List.nil_append] at e3
    omega

/-- **C188.** What is left is read back as exactly the nodes and the pairs before the panic. -/
theorem c188_read {xf : Field (Id m)} {nf : Field NL} {ef : Field EL} {g : GView m k NL EL} {ev : EdgeVec m k}
    {d : Bool} {j : Nat} (hj : GetsTo ev d j) (hm : ev.offsets.length ≤ m + 1)
    (h : j + 1 = ev.offsets.length ∨ ¬ Passable ev j) (hn : ∀ n ∈ g.nodeIndices, ∃ l, g.getNodeLabel n = .ok l)
    (hx : ∀ n, xf.parse (xf.shown n) = some n) (hnl : ∀ x, nf.shown x ≠ [] → nf.parse (nf.shown x) = some x)
    (hel : ∀ x, ef.shown x ≠ [] → ef.parse (ef.shown x) = some x)
    {np ep : String} (hne : np ≠ ep) {nb eb : List Byte}
    (hb : write comma xf nf ef (partBefore g ev d j) = .ok (nb, eb)) {w : World}
    (hw : nb.length + eb.length + 2 ≤ w.room) [DecidableEq NL] [DecidableEq EL] (fl : Bool) (h0 : GraphMap m k NL EL) :
    readFrom xf nf ef (some np) ep none true fl (writeSteps xf nf ef g ev d np ep w).2 h0 =
      (h0.exec (writtenOps nf ef (partBefore g ev d j))).map (fun g' => (true, g')) := by
  obtain ⟨w', h1, h2, h3, -, -⟩ := c188_left hj hm h hn hne hb hw
  rw [h1]
  unfold readFrom
  simp only [givenSeparator, pure_ok, bind_ok, h2, h3, Option.map_some]
  rw [c177_reads (c := ⟨comma, true, fl⟩) (by unfold SeparatorOk; simp only; decide) rfl hb (fun n _ => hx n)
    (fun _ _ x _ => hnl x) (fun _ _ x _ => hel x)]
  cases h0.exec (writtenOps nf ef (partBefore g ev d j)) <;> rfl

/-- **C188.** A graph whose iterators and labels all answer is written as `writeTo` has it. -/
theorem c188_whole {xf : Field (Id m)} {nf : Field NL} {ef : Field EL} {g : StaticGraph m k NL EL} {v : GView m k NL EL}
    (hv : g.view = .ok v) (np ep : String) (w : World) {r : Bool × World} (h : writeTo xf nf ef v np ep w = .ok r) :
    g.writeCsv xf nf ef np ep w = (.ok r.1, r.2) := by
  unfold StaticGraph.view at hv
  obtain ⟨es, h1, hv⟩ := bind_eq_ok hv
  obtain ⟨eds, -, hv⟩ := bind_eq_ok hv
  have hv := Except.ok.inj hv
  unfold writeTo at h
  obtain ⟨⟨nb, eb⟩, hb, h⟩ := bind_eq_ok h
  have h := Except.ok.inj h
  obtain ⟨⟨a1, a2⟩, -, -⟩ := write_given hb
  have hi : v.nodeIndices = g.calls.nodeIndices := by rw [← hv]; rfl
  have hei : v.edgeIndices = es := by rw [← hv]
  have hnl : v.getNodeLabel = g.calls.getNodeLabel := by rw [← hv]; rfl
  have hel : v.getEdgeLabel = g.calls.getEdgeLabel := by rw [← hv]; rfl
  rw [hi, hnl] at a1
  rw [hei, hel] at a2
  have hp1 := panic_none_iff.2 a1
  have hp2 := panic_none_iff (f := fun e : Id m × Id m => g.calls.getEdgeLabel e.1 e.2).2 a2
  unfold StaticGraph.edgeIndices EdgeVec.edgeIndices at h1
  rw [EdgeIter.collect_trace] at h1
  have ht : EdgeIter.trace g.edgeVec g.directed (g.edgeVec.offsets.length + g.edgeVec.edges.length + 1) ⟨0, 0⟩ =
      (es, none) := by
    revert h1
    generalize EdgeIter.trace g.edgeVec g.directed _ ⟨0, 0⟩ = q
    obtain ⟨E, _ | p⟩ := q
    · intro h1; cases h1; rfl
    · intro h1; cases h1
  have hcut : write comma xf nf ef (cutAt g.calls es) = .ok (nb, eb) := by
    rw [← hb]
    unfold write
    have r1 : (cutAt g.calls es).getNodeLabel = v.getNodeLabel := hnl.symm
    have r2 : (cutAt g.calls es).getEdgeLabel = v.getEdgeLabel := hel.symm
    have r3 : (cutAt g.calls es).nodeIndices = v.nodeIndices := by rw [hi]; exact before_all hp1
    have r4 : (cutAt g.calls es).edgeIndices = v.edgeIndices := by rw [hei]; exact before_all hp2
    rw [r1, r2, r3, r4]
  unfold StaticGraph.writeCsv
  rw [steps_trace xf nf ef g.calls g.edgeVec g.directed np ep w ht hcut, hp1, hp2, ← h]
  simp only [Option.or_none]
  cases (writeFiles np ep nb eb w).1 <;> rfl

/-- **C188.** The same for a mapped graph. -/
theorem c188_mapped_whole {xf : Field (Id m)} {nf : Field NL} {ef : Field EL} {g : MmapGraph m k NL EL}
    {v : GView m k NL EL} (hv : g.view = .ok v) (np ep : String) (w : World) {r : Bool × World}
    (h : writeTo xf nf ef v np ep w = .ok r) : g.writeCsv xf nf ef np ep w = (.ok r.1, r.2) := by
  unfold MmapGraph.view at hv
  obtain ⟨es, h1, hv⟩ := bind_eq_ok hv
  obtain ⟨eds, -, hv⟩ := bind_eq_ok hv
  have hv := Except.ok.inj hv
  unfold writeTo at h
  obtain ⟨⟨nb, eb⟩, hb, h⟩ := bind_eq_ok h
  have h := Except.ok.inj h
  obtain ⟨⟨a1, a2⟩, -, -⟩ := write_given hb
  have hi : v.nodeIndices = g.calls.nodeIndices := by rw [← hv]; rfl
  have hei : v.edgeIndices = es := by rw [← hv]
  have hnl : v.getNodeLabel = g.calls.getNodeLabel := by rw [← hv]; rfl
  have hel : v.getEdgeLabel = g.calls.getEdgeLabel := by rw [← hv]; rfl
  rw [hi, hnl] at a1
  rw [hei, hel] at a2
  have hp1 := panic_none_iff.2 a1
  have hp2 := panic_none_iff (f := fun e : Id m × Id m => g.calls.getEdgeLabel e.1 e.2).2 a2
  unfold MmapGraph.edgeIndices EdgeVec.edgeIndices at h1
  rw [EdgeIter.collect_trace] at h1
  have ht : EdgeIter.trace g.edges g.isDirected (g.edges.offsets.length + g.edges.edges.length + 1) ⟨0, 0⟩ =
      (es, none) := by
    revert h1
    generalize EdgeIter.trace g.edges g.isDirected _ ⟨0, 0⟩ = q
    obtain ⟨E, _ | p⟩ := q
    · intro h1; cases h1; rfl
    · intro h1; cases h1
  have hcut : write comma xf nf ef (cutAt g.calls es) = .ok (nb, eb) := by
    rw [← hb]
    unfold write
    have r1 : (cutAt g.calls es).getNodeLabel = v.getNodeLabel := hnl.symm
    have r2 : (cutAt g.calls es).getEdgeLabel = v.getEdgeLabel := hel.symm
    have r3 : (cutAt g.calls es).nodeIndices = v.nodeIndices := by rw [hi]; exact before_all hp1
    have r4 : (cutAt g.calls es).edgeIndices = v.edgeIndices := by rw [hei]; exact before_all hp2
    rw [r1, r2, r3, r4]
  unfold MmapGraph.writeCsv
  rw [steps_trace xf nf ef g.calls g.edges g.isDirected np ep w ht hcut, hp1, hp2, ← h]
  simp only [Option.or_none]
  cases (writeFiles np ep nb eb w).1 <;> rfl

theorem listed_there {ev : EdgeVec m k} {d : Bool} {j : Nat} (hj : GetsTo ev d j) (hm : ev.offsets.length ≤ m + 1)
    {e : Id m × Id m} (he : e ∈ shownBefore ev d j) : RowThere ev e.1.val := by
  unfold shownBefore at he
  obtain ⟨n, hn, he⟩ := List.mem_flatMap.1 he
  obtain ⟨t, ht, rfl⟩ := List.mem_map.1 he
  have hn := List.mem_range.1 hn
  have hv : (Id.new n : Id m).val = n := Nat.mod_eq_of_lt (by have := hj.1; omega)
  simp only [hv]
  obtain ⟨a, b, h1, h2, h3⟩ := (hj.2.1 n hn).1
  refine ⟨a, b, h1, h2, ?_⟩
  rcases h3 with rfl | h3
  · exfalso
    have hrow : Verif.Spec.rowOf ev n = [] := by
      unfold Verif.Spec.rowOf
      rw [List.getD_eq_getElem?_getD, List.getD_eq_getElem?_getD, h1.1, h1.2]
      simp only [Option.getD_some]
      exact List.drop_eq_nil_of_le (by rw [List.length_take]; omega)
    unfold shown at ht
    rw [hrow] at ht
    simp at ht
  · exact h3

theorem index_ok {ev : EdgeVec m k} {s t : Id m} (h : RowThere ev s.val) : ∃ r, ev.findEdgeIndex s t = .ok r := by
  have hs := row_ok_lt h
  rcases hasEdge_cases ev s t (by rintro h0; rw [h0] at hs; simp at hs) with ⟨-, e⟩ | ⟨-, -, e⟩
  · exact ⟨_, e⟩
  · rw [e]
    rcases searchRow_cases (t := t) hs with ⟨hno, -⟩ | ⟨-, ⟨o, i, -, -, e⟩ | ⟨e, -⟩⟩
    · exact absurd h hno
    · exact ⟨_, e⟩
    · exact ⟨_, e⟩

theorem label_id_ok {ev : EdgeVec m k} {s t : Id m} (h : RowThere ev s.val) : ∃ r, ev.findEdgeLabelId s t = .ok r := by
  unfold EdgeVec.findEdgeLabelId
  split
  · exact ⟨_, rfl⟩
  · obtain ⟨r, hr⟩ := index_ok (t := t) h
    rw [hr, bind_ok]
    cases r <;> exact ⟨_, rfl⟩

/-- **C188.** Asking for the label of a pair that is listed never panics, however wrong the rows are. -/
theorem c188_labels {g : StaticGraph m k NL EL} {j : Nat} (hj : GetsTo g.edgeVec g.directed j)
    (hm : g.edgeVec.offsets.length ≤ m + 1) :
    ∀ e ∈ shownBefore g.edgeVec g.directed j, ∃ l, g.calls.getEdgeLabel e.1 e.2 = .ok l := by
  intro e he
  have hr := listed_there hj hm he
  obtain ⟨r, hi⟩ := index_ok (t := e.2) hr
  obtain ⟨l, hl⟩ := label_id_ok (t := e.2) hr
  have hlid : ∃ x, g.calls.edgeLid e.1 e.2 = .ok x := by
    change ∃ x, (g.getEdge e.1 e.2 >>= fun e => pure (e.bind (·.label)) : Res _) = .ok x
    unfold StaticGraph.getEdge StaticGraph.hasEdge EdgeVec.hasEdge
    rw [hi, hl]
    simp only [bind_ok, pure_ok]
    cases r with
    | none => exact ⟨_, rfl⟩
    | some i => cases l <;> exact ⟨_, rfl⟩
  obtain ⟨x, hx⟩ := hlid
  unfold GView.getEdgeLabel
  rw [hx, bind_ok]
  cases x <;> exact ⟨_, rfl⟩

/-- **C188.** Nor for a mapped graph. -/
theorem c188_mapped_labels {g : MmapGraph m k NL EL} {j : Nat} (hj : GetsTo g.edges g.isDirected j)
    (hm : g.edges.offsets.length ≤ m + 1) :
    ∀ e ∈ shownBefore g.edges g.isDirected j, ∃ l, g.calls.getEdgeLabel e.1 e.2 = .ok l := by
  intro e he
  have hr := listed_there hj hm he
  obtain ⟨b, hb⟩ := (c156_mapped_has_edge g e.1 e.2).1.2 hr
  obtain ⟨l, hl⟩ := label_id_ok (t := e.2) hr
  have hlid : ∃ x, g.calls.edgeLid e.1 e.2 = .ok x := by
    change ∃ x, (g.getEdge e.1 e.2 >>= fun e => pure (e.bind (·.label)) : Res _) = .ok x
    unfold MmapGraph.getEdge
    rw [hb, hl]
    simp only [bind_ok, pure_ok]
    cases b with
    | false => exact ⟨_, rfl⟩
    | true => cases l <;> exact ⟨_, rfl⟩
  obtain ⟨x, hx⟩ := hlid
  unfold GView.getEdgeLabel
  rw [hx, bind_ok]
  cases x <;> exact ⟨_, rfl⟩

theorem all_before {f : X → Res Y} {l : List X} (h : ∀ x ∈ l, ∃ y, f x = .ok y) : beforePanic f l = l :=
  before_all (panic_none_iff.2 h)

/-- **C188.** So for a frozen graph with a label, or none, for every node, with room on the disk: the files hold every
node and the pairs of the rows before the first that can not be passed, and the call panics exactly if there is such a
row. -/
theorem c188_frozen {xf : Field (Id m)} {nf : Field NL} {ef : Field EL} {g : StaticGraph m k NL EL} {j : Nat}
    (hj : GetsTo g.edgeVec g.directed j) (hm : g.edgeVec.offsets.length ≤ m + 1)
    (h : j + 1 = g.edgeVec.offsets.length ∨ ¬ Passable g.edgeVec j) (hl : ∀ ls, g.labels = some ls → g.numNodes ≤ ls.length)
    {np ep : String} (hne : np ≠ ep) {nb eb : List Byte}
    (hb : write comma xf nf ef { g.calls with edgeIndices := shownBefore g.edgeVec g.directed j } = .ok (nb, eb))
    {w : World} (hw : nb.length + eb.length + 2 ≤ w.room) :
    ∃ w', g.writeCsv xf nf ef np ep w =
        (if j + 1 = g.edgeVec.offsets.length then .ok true else .error (rowPanic g.edgeVec j), w') ∧
      w'.files np = some nb ∧ w'.files ep = some eb ∧ (∀ p, p ≠ np → p ≠ ep → w'.files p = w.files p) := by
  have hn : ∀ n ∈ g.calls.nodeIndices, ∃ l, g.calls.getNodeLabel n = .ok l := by
    intro n _
    obtain ⟨h1, h2⟩ := c156_node_label g n
    have : ∃ l, g.nodeLid n = .ok l := h2.resolve_left (fun e => by
      obtain ⟨a, ls, b, c⟩ := h1.1 e
      have := hl ls b
      omega)
    obtain ⟨l, hl⟩ := this
    unfold GView.getNodeLabel
    rw [show g.calls.nodeLid n = .ok l from hl, bind_ok]
    cases l <;> exact ⟨_, rfl⟩
  have he := c188_labels hj hm
  have hp : partBefore g.calls g.edgeVec g.directed j =
      { g.calls with edgeIndices := shownBefore g.edgeVec g.directed j } := by
    unfold partBefore
    rw [all_before hn, all_before (f := fun e : Id m × Id m => g.calls.getEdgeLabel e.1 e.2) he]
  rw [← hp] at hb
  obtain ⟨w', a1, a2, a3, a4, -⟩ := c188_left hj hm h hn hne hb hw
  refine ⟨w', ?_, a2, a3, a4⟩
  unfold StaticGraph.writeCsv
  rw [a1]
  unfold edgePanic
  rw [panic_none_iff (f := fun e : Id m × Id m => g.calls.getEdgeLabel e.1 e.2).2 he, Option.none_or]
  split <;> simp_all

/-- Bytes as a text field. -/
def plain : Field (List Byte) := ⟨id, some⟩

/-- The file torn at row 3, as in C181, with text labels. -/
def tornText : StaticGraph 9 3 (List Byte) (List Byte) :=
  ⟨true, 5, 3, ⟨[0, 1, 2, 2, 9, 9], [1, 0], none⟩, some ⟨[0, 0, 0, 0, 0, 0], [], none⟩, none, ⟨[]⟩, ⟨[]⟩⟩

/-- **C188.** Written, it panics and leaves two files that read without complaint: five nodes and the first two of the
edges. The old edge file, which had more, is gone. -/
theorem c188_torn :
    let w : World := ⟨fun p => if p = "e" then some (ascii ":START_ID,:END_ID,:TYPE\n3,4,\n") else none, 1000⟩
    let r := tornText.writeCsv (.decimal 9) plain plain "n" "e" w
    r.1 = .error .indexOutOfBounds ∧
    r.2.files "n" = some (ascii "nodeId:ID,:LABEL\n0,\n1,\n2,\n3,\n4,\n") ∧
    r.2.files "e" = some (ascii ":START_ID,:END_ID,:TYPE\n0,1,\n1,0,\n") := by
  decide +kernel

/-- **C188.** A frozen graph with too few node labels: the node file is cut after the labelled nodes, the edge file is
that of an earlier write. -/
theorem c188_short_labels :
    let w : World := ⟨fun p => if p = "e" then some (ascii ":START_ID,:END_ID,:TYPE\n3,4,\n") else none, 1000⟩
    let g : StaticGraph 9 3 (List Byte) (List Byte) := { tornText with labels := some [0, 0], nodeLabels := ⟨[ascii "x"]⟩ }
    let r := g.writeCsv (.decimal 9) plain plain "n" "e" w
    r.1 = .error .indexOutOfBounds ∧
    r.2.files "n" = some (ascii "nodeId:ID,:LABEL\n0,x\n1,x\n") ∧
    r.2.files "e" = some (ascii ":START_ID,:END_ID,:TYPE\n3,4,\n") := by
  decide +kernel

example : GetsTo tornText.edgeVec tornText.directed 3 ∧ tornText.edgeVec.offsets.length ≤ 10 ∧
    ¬ Passable tornText.edgeVec 3 ∧ (∀ ls, tornText.labels = some ls → tornText.numNodes ≤ ls.length) := by
  refine ⟨⟨by decide, ?_, .inr (.inl ?_)⟩, by decide, ?_, fun ls h => by cases h⟩
  · intro n hn
    refine ⟨?_, .inl rfl⟩
    have : n = 0 ∨ n = 1 ∨ n = 2 := by omega
    rcases this with rfl | rfl | rfl
    · exact ⟨0, 1, ⟨rfl, rfl⟩, by decide, by decide⟩
    · exact ⟨1, 2, ⟨rfl, rfl⟩, by decide, by decide⟩
    · exact ⟨2, 2, ⟨rfl, rfl⟩, by decide, by decide⟩
  all_goals
    rintro ⟨a, b, ⟨h1, h2⟩, h3, h4⟩
    cases h1; cases h2; revert h4; decide

end Verif.Props
