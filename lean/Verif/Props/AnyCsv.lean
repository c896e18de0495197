import Verif.Proof.Csv
import Verif.Props.AnyEqual
import Verif.Props.CsvFiles

/-! C177: CSV files written from anything behind the traits. -/

namespace Verif.Props

open Verif Verif.GraphMap Verif.Spec Csv

variable {m k : Nat} {NL EL : Type}

/-- The calls that reading the files back makes: the nodes and pairs listed, each with the label given for it, a label
with an empty text taken for none. -/
def writtenOps (nf : Field NL) (ef : Field EL) (g : GView m k NL EL) : List (Op m k NL EL) :=
  g.nodeIndices.map (fun n => .addNode n ((given (g.getNodeLabel n)).filter (fun x => decide (nf.shown x ≠ [])))) ++
  g.edgeIndices.map (fun e =>
    .addEdge e.1 e.2 ((given (g.getEdgeLabel e.1 e.2)).filter (fun x => decide (ef.shown x ≠ []))))

theorem firstPanic_shape {X Y Z : Type} (l : List X) (f : X → Res Y) (c : X → Y → Z) :
    firstPanic (l.map (fun x => (f x >>= fun y => pure (c x y) : Res Z))) = firstPanic (l.map f) := by
  induction l with
  | nil => rfl
  | cons x l ih =>
    simp only [List.map_cons]
    rcases f x with p | y
    · rfl
    · exact ih

theorem firstPanic_asks {X Y Z : Type} (l : List X) (f : X → Res Y) (c : X → Y → Z) :
    firstPanic (l.map (fun x => (f x).map (c x))) = firstPanic (l.map f) := by
  induction l with
  | nil => rfl
  | cons x l ih =>
    simp only [List.map_cons]
    rcases f x with p | y
    · rfl
    · exact ih

theorem given_ok {X : Type} {r : Res (Option X)} (h : ∃ x, r = .ok x) : r = .ok (given r) := by
  obtain ⟨x, rfl⟩ := h; rfl

/-- **C177.** Writing panics exactly as cloning does: with the first label that can not be asked for. -/
theorem c177_panics [DecidableEq NL] [DecidableEq EL] (sep : Byte) (xf : Field (Id m)) (nf : Field NL) (ef : Field EL)
    (g : GView m k NL EL) (p : Panic) :
    (write sep xf nf ef g = .error p ↔ firstPanic (g.nodeIndices.map g.getNodeLabel) = some p ∨
      firstPanic (g.nodeIndices.map g.getNodeLabel) = none ∧
        firstPanic (g.edgeIndices.map (fun e => g.getEdgeLabel e.1 e.2)) = some p) ∧
    (write sep xf nf ef g = .error p ↔ cloneBox g = .error p) := by
  have h1 := (mapM_firstPanic (fun n => do
    let l ← g.getNodeLabel n
    pure (record [xf.shown n] nf l)) g.nodeIndices).1
  have h2 := (mapM_firstPanic (fun e : Id m × Id m => do
    let l ← g.getEdgeLabel e.1 e.2
    pure (record [xf.shown e.1, xf.shown e.2] ef l)) g.edgeIndices).1
  simp only [firstPanic_shape g.nodeIndices g.getNodeLabel (fun n l => record [xf.shown n] nf l)] at h1
  simp only [firstPanic_shape g.edgeIndices (fun e => g.getEdgeLabel e.1 e.2)
    (fun e l => record [xf.shown e.1, xf.shown e.2] ef l)] at h2
  have key : write sep xf nf ef g = .error p ↔ firstPanic (g.nodeIndices.map g.getNodeLabel) = some p ∨
      firstPanic (g.nodeIndices.map g.getNodeLabel) = none ∧
        firstPanic (g.edgeIndices.map (fun e => g.getEdgeLabel e.1 e.2)) = some p := by
    unfold write
    generalize (g.nodeIndices.mapM (fun n => do
      let l ← g.getNodeLabel n
      pure (record [xf.shown n] nf l))) = a at h1
    generalize (g.edgeIndices.mapM (fun e : Id m × Id m => do
      let l ← g.getEdgeLabel e.1 e.2
      pure (record [xf.shown e.1, xf.shown e.2] ef l))) = b at h2
    rcases a with q | ns
    · have hq := (h1 q).1 rfl
      rw [hq, bind_error]
      simp
    · have hn : firstPanic (g.nodeIndices.map g.getNodeLabel) = none := by
        cases hf : firstPanic (g.nodeIndices.map g.getNodeLabel) with
        | none => rfl
        | some q => have := (h1 q).2 hf; cases this
      rw [hn, bind_ok]
      rcases b with q | es
      · rw [(h2 q).1 rfl, bind_error]
        simp
      · have he : firstPanic (g.edgeIndices.map (fun e => g.getEdgeLabel e.1 e.2)) = none := by
          cases hf : firstPanic (g.edgeIndices.map (fun e => g.getEdgeLabel e.1 e.2)) with
          | none => rfl
          | some q => have := (h2 q).2 hf; cases this
        rw [he, bind_ok]
        simp [pure_ok]
  refine ⟨key, ?_⟩
  rw [key, (c159_clone g).1, firstPanic_append]
  unfold nodeAsks edgeAsks
  rw [firstPanic_asks, firstPanic_asks g.edgeIndices (fun e => g.getEdgeLabel e.1 e.2)]
  cases firstPanic (g.nodeIndices.map g.getNodeLabel) <;> simp

theorem clone_exec [DecidableEq NL] [DecidableEq EL] {g : GView m k NL EL}
    (h : firstPanic (nodeAsks g ++ edgeAsks g) = none) :
    cloneBox g = (new g.directed).exec (answersOf (nodeAsks g ++ edgeAsks g)) := by
  have e : unionAsks g (new g.directed : GraphMap m k NL EL).view = nodeAsks g ++ edgeAsks g := by
    have e1 : nodeAsks (new g.directed : GraphMap m k NL EL).view = [] := rfl
    have e2 : edgeAsks (new g.directed : GraphMap m k NL EL).view = [] := by
      show List.map _ (edgeIndices _) = _
      unfold edgeIndices
      cases g.directed <;> rfl
    unfold unionAsks
    rw [e1, e2]; simp
  have hinv : (new g.directed : GraphMap m k NL EL).Inv := inv_withLabelMap _ _ _ List.nodup_nil List.nodup_nil
  unfold cloneBox
  rw [union_follow, (follow_adds _ _ hinv (unionAsks_add g _)).2 (by rw [e]; exact h), e]

theorem write_given {sep : Byte} {xf : Field (Id m)} {nf : Field NL} {ef : Field EL} {g : GView m k NL EL}
    {nb eb : List Byte} (h : write sep xf nf ef g = .ok (nb, eb)) :
    ((∀ n ∈ g.nodeIndices, ∃ l, g.getNodeLabel n = .ok l) ∧
      ∀ e ∈ g.edgeIndices, ∃ l, g.getEdgeLabel e.1 e.2 = .ok l) ∧
    nb = writeAll sep [idName, labelName]
      (g.nodeIndices.map (fun n => record [xf.shown n] nf (given (g.getNodeLabel n)))) ∧
    eb = writeAll sep [startName, endName, typeName]
      (g.edgeIndices.map (fun e => record [xf.shown e.1, xf.shown e.2] ef (given (g.getEdgeLabel e.1 e.2)))) := by
  unfold write at h
  obtain ⟨ns, h1, h⟩ := bind_eq_ok h
  obtain ⟨es, h2, h⟩ := bind_eq_ok h
  have hn : ∀ n ∈ g.nodeIndices, ∃ l, g.getNodeLabel n = .ok l := by
    have hf : firstPanic (g.nodeIndices.map g.getNodeLabel) = none := by
      cases hf : firstPanic (g.nodeIndices.map g.getNodeLabel) with
      | none => rfl
      | some p =>
        rw [← firstPanic_shape g.nodeIndices g.getNodeLabel (fun n l => record [xf.shown n] nf l)] at hf
        rw [((mapM_firstPanic _ g.nodeIndices).1 p).2 hf] at h1
        cases h1
    intro n hn
    exact firstPanic_none.1 hf _ (List.mem_map_of_mem hn)
  have he : ∀ e ∈ g.edgeIndices, ∃ l, g.getEdgeLabel e.1 e.2 = .ok l := by
    have hf : firstPanic (g.edgeIndices.map (fun e => g.getEdgeLabel e.1 e.2)) = none := by
      cases hf : firstPanic (g.edgeIndices.map (fun e => g.getEdgeLabel e.1 e.2)) with
      | none => rfl
      | some p =>
        rw [← firstPanic_shape g.edgeIndices (fun e => g.getEdgeLabel e.1 e.2)
          (fun e l => record [xf.shown e.1, xf.shown e.2] ef l)] at hf
        rw [((mapM_firstPanic _ g.edgeIndices).1 p).2 hf] at h2
        cases h2
    intro n hn
    exact firstPanic_none.1 hf _ (List.mem_map_of_mem (f := fun e : Id m × Id m => g.getEdgeLabel e.1 e.2) hn)
  rw [mapM_ok _ (fun n => record [xf.shown n] nf (given (g.getNodeLabel n))) _
    (fun n hm => by rw [given_ok (hn n hm)]; rfl)] at h1
  rw [mapM_ok _ (fun e => record [xf.shown e.1, xf.shown e.2] ef (given (g.getEdgeLabel e.1 e.2))) _
    (fun e hm => by rw [given_ok (he e hm)]; rfl)] at h2
  cases h1; cases h2; cases h
  exact ⟨⟨hn, he⟩, rfl, rfl⟩

variable [DecidableEq NL] [DecidableEq EL]

/-- **C177.** Reading the written files into any graph adds the nodes and pairs listed, with the labels given for them
as far as their texts are not empty. -/
theorem c177_reads {c : Settings} (hs : SeparatorOk c.separator) (hh : c.hasHeaders = true)
    {xf : Field (Id m)} {nf : Field NL} {ef : Field EL} {g : GView m k NL EL} {nb eb : List Byte}
    (h : write c.separator xf nf ef g = .ok (nb, eb)) (hx : ∀ n, Names g n → xf.parse (xf.shown n) = some n)
    (hn : ∀ n ∈ g.nodeIndices, ∀ x, g.getNodeLabel n = .ok (some x) → nf.shown x ≠ [] →
      nf.parse (nf.shown x) = some x)
    (he : ∀ e ∈ g.edgeIndices, ∀ x, g.getEdgeLabel e.1 e.2 = .ok (some x) → ef.shown x ≠ [] →
      ef.parse (ef.shown x) = some x) (h0 : GraphMap m k NL EL) :
    read c xf nf ef (some nb) eb h0 = h0.exec (writtenOps nf ef g) := by
  obtain ⟨⟨a1, a2⟩, rfl, rfl⟩ := write_given h
  rw [read_exec]
  simp only [Option.map_some, Option.getD_some]
  rw [nodeIter_write hs hh xf nf g.nodeIndices (fun n => given (g.getNodeLabel n))
      (fun n hm => hx n (.inl hm)) (fun n hm x hl => hn n hm x (by rw [given_ok (a1 n hm), hl])),
    edgeIter_write hs hh xf ef g.edgeIndices (fun e => given (g.getEdgeLabel e.1 e.2))
      (fun e hm => ⟨hx _ (.inr ⟨e, hm, .inl rfl⟩), hx _ (.inr ⟨e, hm, .inr rfl⟩)⟩)
      (fun e hm x hl => he e hm x (by rw [given_ok (a2 e hm), hl]))]
  unfold writtenOps nodeOps edgeOps
  rw [List.map_map, List.map_map]
  rfl

/-- **C177.** Where no label has an empty text, the files read back into an empty graph give the very graph that
`clone` gives. -/
theorem c177_clone {c : Settings} (hs : SeparatorOk c.separator) (hh : c.hasHeaders = true)
    {xf : Field (Id m)} {nf : Field NL} {ef : Field EL} {g : GView m k NL EL} {nb eb : List Byte}
    (h : write c.separator xf nf ef g = .ok (nb, eb)) (hx : ∀ n, Names g n → xf.parse (xf.shown n) = some n)
    (hn : ∀ n ∈ g.nodeIndices, ∀ x, g.getNodeLabel n = .ok (some x) → nf.shown x ≠ [] ∧
      nf.parse (nf.shown x) = some x)
    (he : ∀ e ∈ g.edgeIndices, ∀ x, g.getEdgeLabel e.1 e.2 = .ok (some x) → ef.shown x ≠ [] ∧
      ef.parse (ef.shown x) = some x) :
    read c xf nf ef (some nb) eb (new g.directed) = cloneBox g := by
  rw [c177_reads hs hh h hx (fun n hm x e _ => (hn n hm x e).2) (fun n hm x e _ => (he n hm x e).2)]
  obtain ⟨⟨a1, a2⟩, -, -⟩ := write_given h
  have hnn : firstPanic (nodeAsks g) = none := by
    unfold nodeAsks
    rw [firstPanic_asks, firstPanic_none, List.forall_mem_map]
    exact a1
  have hne : firstPanic (edgeAsks g) = none := by
    unfold edgeAsks
    rw [firstPanic_asks g.edgeIndices (fun e => g.getEdgeLabel e.1 e.2), firstPanic_none, List.forall_mem_map]
    exact a2
  have hops : writtenOps nf ef g = answersOf (nodeAsks g ++ edgeAsks g) := by
    rw [answersOf_append, nodeAsks_answers hnn, edgeAsks_answers hne]
    unfold writtenOps
    congr 1
    · refine List.map_congr_left (fun n hm => ?_)
      congr 1
      cases hl : given (g.getNodeLabel n) with
      | none => rfl
      | some x => simp [(hn n hm x (by rw [given_ok (a1 n hm), hl])).1]
    · refine List.map_congr_left (fun e hm => ?_)
      congr 1
      cases hl : given (g.getEdgeLabel e.1 e.2) with
      | none => rfl
      | some x => simp [(he e hm x (by rw [given_ok (a2 e hm), hl])).1]
  rw [hops, clone_exec (by rw [firstPanic_append, hnn, hne]; rfl)]

/-- The frozen graph of `c158_lopsided` with texts for labels: rows that are not symmetric, fewer labels than edges. -/
def uneven : StaticGraph 9 3 (List Byte) (List Byte) :=
  ⟨false, 4, 2, ⟨[0, 1, 3, 4, 5], [1, 0, 3, 0, 1], some [2]⟩, none, none, ⟨[]⟩, ⟨[[97], [98], [99]]⟩⟩

/-- **C177.** A graph that lists pairs no calls can have made: its files are read back as its clone, without the entries
that are not listed. With a label for one node only, writing panics. -/
theorem c177_odd : ∃ v w nb eb c, uneven.view = .ok v ∧ { uneven with labels := some [0] }.view = .ok w ∧
    write 44 (.decimal 9) .text .text v = .ok (nb, eb) ∧
    eb = lines [":START_ID,:END_ID,:TYPE", "0,1,c", "1,3,"] ∧
    read usual (.decimal 9) .text .text (some nb) eb (new false) = .ok c ∧ cloneBox v = .ok c ∧
    c.hasEdge 1 0 = true ∧ c.hasEdge 2 0 = false ∧ v.hasEdge 2 0 = .ok true ∧
    write 44 (.decimal 9) .text .text w = .error .indexOutOfBounds := by
  refine ⟨_, _, _, _, _, rfl, rfl, rfl, by decide, rfl, by decide, by decide, by decide, by decide, by decide⟩

/-- It meets the hypotheses of `c177_clone`. -/
example : ∃ v nb eb, uneven.view = .ok v ∧ write usual.separator (.decimal 9) .text .text v = .ok (nb, eb) ∧
    SeparatorOk usual.separator ∧ usual.hasHeaders = true ∧
    (∀ n, Names v n → (Field.decimal 9).parse ((Field.decimal 9).shown n) = some n) ∧
    (∀ n ∈ v.nodeIndices, ∀ x, v.getNodeLabel n = .ok (some x) → Field.text.shown x ≠ [] ∧
      Field.text.parse (Field.text.shown x) = some x) ∧
    ∀ e ∈ v.edgeIndices, ∀ x, v.getEdgeLabel e.1 e.2 = .ok (some x) → Field.text.shown x ≠ [] ∧
      Field.text.parse (Field.text.shown x) = some x := by
  refine ⟨_, _, _, rfl, rfl, ⟨by decide, by decide, by decide⟩, rfl, fun n _ => decimal_round 9 n, ?_, ?_⟩
  · intro n _ x hx
    have h2 : uneven.nodeLid n = .ok none := by
      unfold StaticGraph.nodeLid
      cases uneven.hasNode n <;> rfl
    simp only [GView.getNodeLabel, h2, bind_ok, pure_ok] at hx
    cases hx
  · intro e he x hx
    rcases List.mem_cons.1 he with rfl | he
    · cases (show Except.ok (some [99]) = Except.ok (some x) from hx)
      decide
    · rcases List.mem_cons.1 he with rfl | he
      · cases (show Except.ok none = Except.ok (some x) from hx)
      · cases he

end Verif.Props
