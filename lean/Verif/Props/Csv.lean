import Verif.Proof.Csv
import Verif.Proof.Names
import Verif.Props.Serde

/-! Property theorems about CSV files and names: C51, C52, C57, C76. -/

namespace Verif.Props

open GraphMap Spec Csv

variable {m k : Nat} {NL EL : Type} [DecidableEq NL] [DecidableEq EL]

/-! ### C51 -/

/-- **C51.** Any graph `g` holding the abstract graph `A`, whatever the order of its iterators, written with
any usable separator and read into an empty graph of the same kind: nodes, edges and labels are those of `A`,
provided every id and label is read back from the field it is written in and no label's field is empty. -/
theorem c51_round_trip {g : GView m k NL EL} {A : AGraph (Id m) NL EL} (S : Shows g A) {c : Settings}
    (hs : SeparatorOk c.separator) (hh : c.hasHeaders = true)
    {xf : Field (Id m)} {nf : Field NL} {ef : Field EL}
    (hx : ∀ n, (A.node n).isSome = true → xf.parse (xf.shown n) = some n)
    (hn : ∀ n x, A.node n = some (some x) → nf.shown x ≠ [] ∧ nf.parse (nf.shown x) = some x)
    (he : ∀ s t x, A.edge s t = some (some x) → ef.shown x ≠ [] ∧ ef.parse (ef.shown x) = some x) :
    ∃ (nb eb : List Byte) (g' : GraphMap m k NL EL), Csv.write c.separator xf nf ef g = .ok (nb, eb) ∧
      Csv.read c xf nf ef (some nb) eb (new g.directed) = .ok g' ∧ Reachable g' ∧
      g'.directed = g.directed ∧ Shows g'.view A ∧ g'.edgeCount = g.edgeIndices.length := by
  have := roundTrip S hs hh hx (fun n x h _ => (hn n x h).2) (fun s t x h _ => (he s t x h).2)
  rwa [dropEmpty_self (fun n x h => (hn n x h).1) (fun s t x h => (he s t x h).1)] at this

/-- Without the last condition: exactly the labels with an empty field are lost, everything else is kept. -/
theorem c51_empty_labels {g : GView m k NL EL} {A : AGraph (Id m) NL EL} (S : Shows g A) {c : Settings}
    (hs : SeparatorOk c.separator) (hh : c.hasHeaders = true)
    {xf : Field (Id m)} {nf : Field NL} {ef : Field EL}
    (hx : ∀ n, (A.node n).isSome = true → xf.parse (xf.shown n) = some n)
    (hn : ∀ n x, A.node n = some (some x) → nf.shown x ≠ [] → nf.parse (nf.shown x) = some x)
    (he : ∀ s t x, A.edge s t = some (some x) → ef.shown x ≠ [] → ef.parse (ef.shown x) = some x) :
    ∃ (nb eb : List Byte) (g' : GraphMap m k NL EL), Csv.write c.separator xf nf ef g = .ok (nb, eb) ∧
      Csv.read c xf nf ef (some nb) eb (new g.directed) = .ok g' ∧ Reachable g' ∧
      g'.directed = g.directed ∧ Shows g'.view (A.dropEmpty nf ef) ∧
      g'.edgeCount = g.edgeIndices.length :=
  roundTrip S hs hh hx hn he

/-- For `GraphMap` with decimal ids and text labels nothing is left to assume but non-empty labels. -/
theorem c51_graph_map {g : GraphMap m k (List Byte) (List Byte)} (hg : Reachable g) {c : Settings}
    (hs : SeparatorOk c.separator) (hh : c.hasHeaders = true)
    (hn : ∀ n, g.view.getNodeLabel n ≠ .ok (some [])) (he : ∀ s t, g.view.getEdgeLabel s t ≠ .ok (some [])) :
    ∃ (nb eb : List Byte) (g' : GraphMap m k (List Byte) (List Byte))
        (A : AGraph (Id m) (List Byte) (List Byte)),
      Csv.write c.separator (.decimal m) .text .text g.view = .ok (nb, eb) ∧
      Csv.read c (.decimal m) .text .text (some nb) eb (new g.directed) = .ok g' ∧ Reachable g' ∧
      g'.directed = g.directed ∧ Shows g.view A ∧ Shows g'.view A ∧
      g'.edgeCount = g.view.edgeIndices.length := by
  have S := inv_shows hg.inv
  obtain ⟨nb, eb, g', a1, a2, a3, a4, a5, a6⟩ := c51_round_trip S (xf := .decimal m) (nf := .text)
    (ef := .text) hs hh (fun n _ => decimal_round m n)
    (fun n x h => ⟨fun hx => hn n (by rw [S.nodeLabel n _ h]; exact congrArg _ (congrArg _ hx)), rfl⟩)
    (fun s t x h => ⟨fun hx => by
      have hx : x = [] := hx
      subst hx
      cases hd : g.view.directed with
      | true => exact he s t (S.edgeLabel s t _ h (.inl hd))
      | false =>
        rcases le_total s t with hle | hle
        · exact he s t (S.edgeLabel s t _ h (.inr hle))
        · exact he t s (S.edgeLabel t s _ (by rw [S.sym hd]; exact h) (.inr hle)), rfl⟩)
  exact ⟨nb, eb, g', g.abs, a1, a2, a3, a4, S, a5, a6⟩

/-- The usual settings: comma, headers, all rows of the same length. -/
def usual : Settings := ⟨44, true, false⟩

/-- A file with the given text. -/
def lines (l : List String) : List Byte := l.flatMap (fun s => ascii s ++ [10])

set_option maxRecDepth 4000 in
example : SeparatorOk usual.separator ∧ ∃ g, small false = .ok g ∧ Reachable g ∧
    (∀ n, g.view.getNodeLabel n ≠ .ok (some [])) ∧ g.view.nodeIndices.length = 2 ∧
    Csv.write 44 (.decimal 255) .text .text g.view =
      .ok (lines ["nodeId:ID,:LABEL", "1,hi", "0,"], lines [":START_ID,:END_ID,:TYPE", "0,1,e"]) := by
  refine ⟨by unfold SeparatorOk; decide, ?_⟩
  obtain ⟨g, h, hr⟩ := small_reachable false
  cases h
  exact ⟨_, rfl, hr, by decide, by decide, by decide⟩

/-- **C51 needs its condition**: an empty label comes back as no label. -/
theorem c51_empty_label_lost : ∃ (g g' : GraphMap 255 255 (List Byte) (List Byte)) (nb eb : List Byte),
    Reachable g ∧ Csv.write 44 (.decimal 255) .text .text g.view = .ok (nb, eb) ∧
    Csv.read usual (.decimal 255) .text .text (some nb) eb (new g.directed) = .ok g' ∧
    g.view.getNodeLabel 7 = .ok (some []) ∧ g'.view.getNodeLabel 7 = .ok none := by
  have h0 : Reachable (new true : GraphMap 255 255 (List Byte) (List Byte)) :=
    .start true _ _ List.nodup_nil List.nodup_nil
  have h : ∃ g, (new true : GraphMap 255 255 (List Byte) (List Byte)).apply (.addNode 7 (some [])) = .ok g :=
    ⟨_, rfl⟩
  obtain ⟨g, h⟩ := h
  have hr := Reachable.step h0 h
  cases h
  exact ⟨_, _, _, _, hr, rfl, rfl, rfl, rfl⟩

/-! ### C52 -/

/-- The record of a row, going by the names of the columns. -/
def nodeOf {X L : Type} (xf : Field X) (lf : Field L) (hdr row : List (List Byte)) : Option (X × Option L) :=
  ((column hdr row "nodeId:ID").bind xf.parse).map (fun i => (i, labelOf lf (column hdr row ":LABEL")))

/-- The same for edges. -/
def edgeOf {X L : Type} (xf : Field X) (lf : Field L) (hdr row : List (List Byte)) :
    Option (X × X × Option L) :=
  match (column hdr row ":START_ID").bind xf.parse, (column hdr row ":END_ID").bind xf.parse with
  | some s, some t => some (s, t, labelOf lf (column hdr row ":TYPE"))
  | _, _ => none

/-- The rows that count: all, or those as long as the first record. -/
def fitting (c : Settings) (first : List (List Byte)) (rs : List (List (List Byte))) :
    List (List (List Byte)) :=
  rs.filter (fun r => c.flexible || decide (r.length = first.length))

/-- **C52**, node files with a header: the rows whose id parses, in order; columns may stand in any order; a
label that is missing, empty or does not parse is none. -/
theorem c52_nodes {X L : Type} (c : Settings) (hh : c.hasHeaders = true) (xf : Field X) (lf : Field L)
    {bs : List Byte} {hdr : List (List Byte)} {rs : List (List (List Byte))}
    (hp : Csv.parse c.separator bs = hdr :: rs) (hok : HeaderOk hdr ["nodeId:ID"] ":LABEL") :
    nodeIter c xf lf bs = (fitting c hdr rs).filterMap (nodeOf xf lf hdr) := by
  unfold nodeIter Csv.rows
  rw [hp]
  simp only [hh, if_true]
  unfold fitting
  apply List.filterMap_congr
  intro row _
  rw [nodeMap_eq _ _ _ _ _ _ hok.1 (fun h hm => by simpa [idName, labelName] using hok.2.1 h hm)
    (by simp) (by simp)]
  simp only [Option.none_or, Option.getD_none]
  rfl

/-- **C52**, edge files with a header. -/
theorem c52_edges {X L : Type} (c : Settings) (hh : c.hasHeaders = true) (xf : Field X) (lf : Field L)
    {bs : List Byte} {hdr : List (List Byte)} {rs : List (List (List Byte))}
    (hp : Csv.parse c.separator bs = hdr :: rs) (hok : HeaderOk hdr [":START_ID", ":END_ID"] ":TYPE") :
    edgeIter c xf lf bs = (fitting c hdr rs).filterMap (edgeOf xf lf hdr) := by
  unfold edgeIter Csv.rows
  rw [hp]
  simp only [hh, if_true]
  unfold fitting
  apply List.filterMap_congr
  intro row _
  rw [edgeMap_eq _ _ _ _ _ _ _ hok.1
    (fun h hm => by simpa [startName, endName, typeName, or_assoc] using hok.2.1 h hm)
    (by simp) (by simp) (by simp)]
  simp only [Option.none_or, Option.getD_none]
  unfold edgeOf
  change ((column hdr row ":START_ID").bind xf.parse).bind (fun i =>
    ((column hdr row ":END_ID").bind xf.parse).map fun j => (i, j, labelOf lf (column hdr row ":TYPE"))) = _
  cases (column hdr row ":START_ID").bind xf.parse <;>
    cases (column hdr row ":END_ID").bind xf.parse <;> rfl

/-- **C52**, node files without a header: the first field is the id, the second the label. -/
theorem c52_nodes_plain {X L : Type} (c : Settings) (hh : c.hasHeaders = false) (xf : Field X) (lf : Field L)
    {bs : List Byte} {r : List (List Byte)} {rs : List (List (List Byte))}
    (hp : Csv.parse c.separator bs = r :: rs) :
    nodeIter c xf lf bs = (fitting c r (r :: rs)).filterMap (fun row =>
      (row[0]?.bind xf.parse).map (fun i => (i, row[1]?.bind lf.parse))) := by
  unfold nodeIter Csv.rows
  rw [hp]
  simp only [hh]
  unfold fitting
  apply List.filterMap_congr
  rintro row _
  rcases row with _ | ⟨f, _ | ⟨l, row⟩⟩
  · rfl
  · simp only [nodeSeq]; cases hf : xf.parse f <;> simp [hf]
  · simp only [nodeSeq]; cases hf : xf.parse f <;> simp [hf]

/-- **C52**, edge files without a header. -/
theorem c52_edges_plain {X L : Type} (c : Settings) (hh : c.hasHeaders = false) (xf : Field X) (lf : Field L)
    {bs : List Byte} {r : List (List Byte)} {rs : List (List (List Byte))}
    (hp : Csv.parse c.separator bs = r :: rs) :
    edgeIter c xf lf bs = (fitting c r (r :: rs)).filterMap (fun row =>
      match row[0]?.bind xf.parse, row[1]?.bind xf.parse with
      | some s, some t => some (s, t, row[2]?.bind lf.parse)
      | _, _ => none) := by
  unfold edgeIter Csv.rows
  rw [hp]
  simp only [hh]
  unfold fitting
  apply List.filterMap_congr
  rintro row _
  rcases row with _ | ⟨f, _ | ⟨f', _ | ⟨l, row⟩⟩⟩
  · rfl
  · simp only [edgeSeq]; cases hf : xf.parse f <;> simp [hf]
  · simp only [edgeSeq]; cases hf : xf.parse f <;> cases hf' : xf.parse f' <;> simp [hf, hf']
  · simp only [edgeSeq]; cases hf : xf.parse f <;> cases hf' : xf.parse f' <;> simp [hf, hf']

theorem reachable_exec {g : GraphMap m k NL EL} (hg : Reachable g) {ops} {g' : GraphMap m k NL EL}
    (h : g.exec ops = .ok g') : Reachable g' := by
  induction ops generalizing g with
  | nil => cases h; exact hg
  | cons o ops ih =>
    unfold exec at h
    rw [List.foldlM_cons] at h
    obtain ⟨g1, h1, h2⟩ := bind_eq_ok h
    exact ih (.step hg h1) h2

/-- **C52**: reading never fails, and is the same as calling `add_node` and then `add_edge` for the records,
in order, on any graph. -/
theorem c52_read {g : GraphMap m k NL EL} (hg : Reachable g) (c : Settings) (xf : Field (Id m))
    (nf : Field NL) (ef : Field EL) (nodes : Option (List Byte)) (edges : List Byte) :
    ∃ g', Csv.read c xf nf ef nodes edges g = .ok g' ∧ Reachable g' ∧
      g.exec (((nodes.map (nodeIter c xf nf)).getD []).map (fun r => Op.addNode r.1 r.2) ++
        (edgeIter c xf ef edges).map (fun r => Op.addEdge r.1 r.2.1 r.2.2)) = .ok g' := by
  rw [read_exec]
  obtain ⟨g', h, -⟩ := exec_adds (nodeOps ((nodes.map (nodeIter c xf nf)).getD []) ++
    edgeOps (edgeIter c xf ef edges) : List (Op m k NL EL)) g hg.inv (by
      intro op ho
      simp only [nodeOps, edgeOps, List.mem_append, List.mem_map] at ho
      rcases ho with ⟨_, _, rfl⟩ | ⟨_, _, rfl⟩ <;> rfl)
  refine ⟨g', h, ?_, h⟩
  exact reachable_exec hg h

/-- **C52**: a row that is too short or whose id does not parse changes nothing, wherever it stands. -/
theorem c52_bad_row {X L : Type} (c : Settings) (hh : c.hasHeaders = true) (xf : Field X) (lf : Field L)
    {bs bs' : List Byte} {hdr bad : List (List Byte)} {rs rs' : List (List (List Byte))}
    (hp : Csv.parse c.separator bs = hdr :: (rs ++ bad :: rs'))
    (hp' : Csv.parse c.separator bs' = hdr :: (rs ++ rs'))
    (hok : HeaderOk hdr ["nodeId:ID"] ":LABEL") (hbad : (column hdr bad "nodeId:ID").bind xf.parse = none) :
    nodeIter c xf lf bs = nodeIter c xf lf bs' := by
  rw [c52_nodes c hh xf lf hp hok, c52_nodes c hh xf lf hp' hok]
  unfold fitting
  rw [List.filter_append, List.filter_append, List.filterMap_append, List.filterMap_append, List.filter_cons]
  have : nodeOf xf lf hdr bad = none := by unfold nodeOf; rw [hbad]; rfl
  split
  · rw [List.filterMap_cons, this]
  · rfl

/-- The same for edges. -/
theorem c52_bad_edge_row {X L : Type} (c : Settings) (hh : c.hasHeaders = true) (xf : Field X) (lf : Field L)
    {bs bs' : List Byte} {hdr bad : List (List Byte)} {rs rs' : List (List (List Byte))}
    (hp : Csv.parse c.separator bs = hdr :: (rs ++ bad :: rs'))
    (hp' : Csv.parse c.separator bs' = hdr :: (rs ++ rs'))
    (hok : HeaderOk hdr [":START_ID", ":END_ID"] ":TYPE")
    (hbad : (column hdr bad ":START_ID").bind xf.parse = none ∨
      (column hdr bad ":END_ID").bind xf.parse = none) :
    edgeIter c xf lf bs = edgeIter c xf lf bs' := by
  rw [c52_edges c hh xf lf hp hok, c52_edges c hh xf lf hp' hok]
  unfold fitting
  rw [List.filter_append, List.filter_append, List.filterMap_append, List.filterMap_append, List.filter_cons]
  have : edgeOf xf lf hdr bad = none := by
    unfold edgeOf
    rcases hbad with h | h <;> rw [h]
    cases (column hdr bad ":START_ID").bind xf.parse <;> rfl
  split
  · rw [List.filterMap_cons, this]
  · rfl

/-- The rows of a file that was written as CSV are the ones that were written, whatever bytes the fields
hold. -/
theorem c52_rows {sep : Byte} (h : SeparatorOk sep) (rs : List (List (List Byte))) (hne : ∀ r ∈ rs, r ≠ []) :
    Csv.parse sep (rs.flatMap (writeRecord sep)) = rs := parse_write h rs hne

set_option maxRecDepth 8000 in
/-- Columns swapped, an id that is no number, one out of range, a missing label, a row too long. -/
example : HeaderOk ((Csv.parse 44 (lines [":LABEL,nodeId:ID"])).headD []) ["nodeId:ID"] ":LABEL" ∧
    nodeIter usual (.decimal 255) .text
      (lines [":LABEL,nodeId:ID", "a,1", "b,x", ",+2", "c,256", "\"d,d\",3", "e,4,5"]) =
      [(1, some (ascii "a")), (2, none), (3, some (ascii "d,d"))] := by
  refine ⟨?_, by decide⟩
  unfold HeaderOk
  decide

set_option maxRecDepth 8000 in
/-- A quote that is never closed is part of its row, and so is all that follows it. -/
example : nodeIter usual (.decimal 255) .text (lines ["nodeId:ID,:LABEL", "1,\"a", "2,b"]) =
    [(1, some (ascii "a\n2,b\n"))] := by decide

set_option maxRecDepth 8000 in
/-- Without headers an empty label is a label; with headers it is none. -/
theorem c52_empty_label_depends : nodeIter ⟨44, false, false⟩ (.decimal 255) .text (lines ["7,"]) = [(7, some [])] ∧
    nodeIter usual (.decimal 255) .text (lines ["nodeId:ID,:LABEL", "7,"]) = [(7, none)] := by
  decide

/-! ### C76 -/

/-- **C76.** A header with an unknown or repeated column, or without the id column: no row is read. -/
theorem c76_bad_header {X L : Type} (c : Settings) (hh : c.hasHeaders = true) (xf : Field X) (lf : Field L)
    {bs : List Byte} {hdr : List (List Byte)} {rs : List (List (List Byte))}
    (hp : Csv.parse c.separator bs = hdr :: rs) (hbad : ¬ HeaderOk hdr ["nodeId:ID"] ":LABEL") :
    nodeIter c xf lf bs = [] := by
  unfold nodeIter Csv.rows
  rw [hp]
  simp only [hh, if_true]
  rw [List.filterMap_eq_nil_iff]
  intro row _
  cases h : nodeMap xf lf hdr row none none with
  | none => rfl
  | some r =>
    obtain ⟨a1, a2, -, -, a5⟩ := nodeMap_some _ _ _ _ _ _ _ h
    refine absurd ⟨a1, ?_, ?_⟩ hbad
    · intro x hx; simpa [idName, labelName] using a2 x hx
    · simpa [idName] using a5

/-- The same for edges. -/
theorem c76_bad_edge_header {X L : Type} (c : Settings) (hh : c.hasHeaders = true) (xf : Field X)
    (lf : Field L) {bs : List Byte} {hdr : List (List Byte)} {rs : List (List (List Byte))}
    (hp : Csv.parse c.separator bs = hdr :: rs)
    (hbad : ¬ HeaderOk hdr [":START_ID", ":END_ID"] ":TYPE") : edgeIter c xf lf bs = [] := by
  unfold edgeIter Csv.rows
  rw [hp]
  simp only [hh, if_true]
  rw [List.filterMap_eq_nil_iff]
  intro row _
  cases h : edgeMap xf lf hdr row none none none with
  | none => rfl
  | some r =>
    obtain ⟨a1, a2, -, -, -, a6, a7⟩ := edgeMap_some _ _ _ _ _ _ _ _ h
    refine absurd ⟨a1, ?_, ?_⟩ hbad
    · intro x hx; simpa [startName, endName, typeName, or_assoc] using a2 x hx
    · simp only [Option.isSome_none, Bool.false_eq_true, false_or] at a6 a7
      intro n hn
      simp only [List.mem_cons, List.not_mem_nil, or_false] at hn
      rcases hn with rfl | rfl
      · exact a6
      · exact a7

/-- **C76**: for `read` such a file is as good as none; with two of them it succeeds and changes nothing. -/
theorem c76_read (c : Settings) (hh : c.hasHeaders = true)
    (xf : Field (Id m)) (nf : Field NL) (ef : Field EL) {nb eb : List Byte} {nh eh : List (List Byte)}
    {nrs ers : List (List (List Byte))} (hn : Csv.parse c.separator nb = nh :: nrs)
    (he : Csv.parse c.separator eb = eh :: ers) (g : GraphMap m k NL EL) :
    (¬ HeaderOk nh ["nodeId:ID"] ":LABEL" →
      ∀ es, Csv.read c xf nf ef (some nb) es g = Csv.read c xf nf ef none es g) ∧
    (¬ HeaderOk eh [":START_ID", ":END_ID"] ":TYPE" →
      ∀ ns, Csv.read c xf nf ef ns eb g = Csv.read c xf nf ef ns [] g) ∧
    (¬ HeaderOk nh ["nodeId:ID"] ":LABEL" → ¬ HeaderOk eh [":START_ID", ":END_ID"] ":TYPE" →
      Csv.read c xf nf ef (some nb) eb g = .ok g) := by
  have hempty : ∀ {L : Type} (lf : Field L), edgeIter c xf lf [] = [] := by
    intro L lf
    have : Csv.parse c.separator [] = [] := rfl
    simp [edgeIter, Csv.rows, this]
  refine ⟨fun h es => ?_, fun h ns => ?_, fun h h' => ?_⟩
  · unfold Csv.read
    simp only [c76_bad_header c hh xf nf hn h]
    rfl
  · unfold Csv.read
    rw [c76_bad_edge_header c hh xf ef he h, hempty]
  · unfold Csv.read
    simp only [c76_bad_header c hh xf nf hn h, c76_bad_edge_header c hh xf ef he h']
    rfl

set_option maxRecDepth 8000 in
/-- An extra column, and the whole node file is passed over without an error. -/
example : nodeIter usual (.decimal 255) .text (lines ["nodeId:ID,:LABEL,age", "1,a,30", "2,b,31"]) = [] := by
  decide

/-! ### C57 -/

/-- **C57**, separators: the three words and every single ASCII character are accepted, with the byte
meant. -/
theorem c57_separator (s : String) (b : Byte) : separatorOf s = .ok b ↔
    (s = "comma" ∧ b = 44) ∨ (s = "space" ∧ b = 32) ∨ (s = "tab" ∧ b = 9) ∨
      ∃ c : Char, c.toNat < 128 ∧ s = String.singleton c ∧ b.val = c.toNat := by
  have key : ∀ (c : Char), c.toNat < 128 → separatorOf (String.singleton c) = .ok (Id.new c.toNat) := by
    intro c hc
    have hl : (String.singleton c).toList = [c] := by simp
    have h1 : String.singleton c ≠ "comma" := by
      intro h; have := congrArg String.toList h; rw [hl] at this; simp at this
    have h2 : String.singleton c ≠ "space" := by
      intro h; have := congrArg String.toList h; rw [hl] at this; simp at this
    have h3 : String.singleton c ≠ "tab" := by
      intro h; have := congrArg String.toList h; rw [hl] at this; simp at this
    unfold separatorOf
    simp only [h1, h2, h3, if_false]
    rw [if_neg (by simp [(utf8_one (String.singleton c)).2 ⟨c, hc, rfl⟩]), hl]
    rfl
  have k1 : separatorOf "comma" = .ok 44 := by decide
  have k2 : separatorOf "space" = .ok 32 := by decide
  have k3 : separatorOf "tab" = .ok 9 := by decide
  have hval : ∀ c : Char, c.toNat < 128 → (Id.new c.toNat : Byte).val = c.toNat := by
    intro c hc
    show c.toNat % 256 = _
    omega
  constructor
  · intro h
    by_cases h1 : s = "comma"
    · subst h1; rw [k1] at h; exact .inl ⟨rfl, (Except.ok.inj h).symm⟩
    by_cases h2 : s = "space"
    · subst h2; rw [k2] at h; exact .inr (.inl ⟨rfl, (Except.ok.inj h).symm⟩)
    by_cases h3 : s = "tab"
    · subst h3; rw [k3] at h; exact .inr (.inr (.inl ⟨rfl, (Except.ok.inj h).symm⟩))
    refine .inr (.inr (.inr ?_))
    by_cases hu : s.utf8ByteSize = 1
    · obtain ⟨c, hc, rfl⟩ := (utf8_one s).1 hu
      rw [key c hc] at h
      exact ⟨c, hc, rfl, (Except.ok.inj h) ▸ hval c hc⟩
    · unfold separatorOf at h
      simp only [h1, h2, h3, if_false] at h
      rw [if_pos hu] at h
      cases h
  · rintro (⟨rfl, rfl⟩ | ⟨rfl, rfl⟩ | ⟨rfl, rfl⟩ | ⟨c, hc, rfl, hb⟩)
    · exact k1
    · exact k2
    · exact k3
    · rw [key c hc]
      exact congrArg _ (Fin.ext (by rw [hval c hc, hb]))

/-- Everything else panics. -/
theorem c57_separator_panics (s : String) (h : ∀ b, separatorOf s ≠ .ok b) :
    separatorOf s = .error .explicit := by
  by_cases h1 : s = "comma"
  · exact absurd ((c57_separator s 44).2 (.inl ⟨h1, rfl⟩)) (h 44)
  by_cases h2 : s = "space"
  · exact absurd ((c57_separator s 32).2 (.inr (.inl ⟨h2, rfl⟩))) (h 32)
  by_cases h3 : s = "tab"
  · exact absurd ((c57_separator s 9).2 (.inr (.inr (.inl ⟨h3, rfl⟩)))) (h 9)
  by_cases hu : s.utf8ByteSize = 1
  · obtain ⟨c, hc, he⟩ := (utf8_one s).1 hu
    exact absurd ((c57_separator s ⟨c.toNat, by omega⟩).2 (.inr (.inr (.inr ⟨c, hc, he, rfl⟩)))) (h _)
  · unfold separatorOf
    simp only [h1, h2, h3, if_false]
    rw [if_pos hu]

example : separatorOf ";" = .ok 59 ∧ separatorOf "tab" = .ok 9 ∧ separatorOf "||" = .error .explicit ∧
    separatorOf "é" = .error .explicit ∧ separatorOf "" = .error .explicit := by decide

/-- **C57**, implementations: exactly the three names, in any letter case. -/
theorem c57_names {lower : Char → List Char} (h : LowerTable lower) (s : String) (i : GraphImpl) :
    GraphImpl.fromStr lower s = .ok i ↔ SameButCase s (implName i) := by
  have h1 := toLowercase_iff h s "graphmap" (by decide) (by decide) (by decide)
  have h2 := toLowercase_iff h s "staticgraph" (by decide) (by decide) (by decide)
  have h3 := toLowercase_iff h s "staticgraphmmap" (by decide) (by decide) (by decide)
  unfold GraphImpl.fromStr
  simp only
  cases i with
  | graphMap =>
    show _ ↔ SameButCase s "graphmap"
    rw [← h1]
    constructor
    · intro he
      split at he
      · assumption
      · split at he
        · cases he
        · split at he <;> cases he
    · intro he; rw [if_pos he]
  | staticGraph =>
    show _ ↔ SameButCase s "staticgraph"
    rw [← h2]
    constructor
    · intro he
      split at he
      · cases he
      · split at he
        · assumption
        · split at he <;> cases he
    · intro he; rw [he, if_neg (by decide), if_pos rfl]
  | staticGraphMmap =>
    show _ ↔ SameButCase s "staticgraphmmap"
    rw [← h3]
    constructor
    · intro he
      split at he
      · cases he
      · split at he
        · cases he
        · split at he
          · assumption
          · cases he
    · intro he; rw [he, if_neg (by decide), if_neg (by decide), if_pos rfl]

example : LowerTable (fun c => if c.toNat < 128 then [c.toLower] else if c.toNat = 304 then ['i', '̇'] else [c]) := by
  constructor
  · intro c hc; rw [if_pos hc]
  · intro c hc
    rw [if_neg (by omega)]
    have hmem : ∀ x ∈ "staticgraphmmap".toList, x.toNat < 128 := by decide
    split
    · exact ⟨'̇', by simp, by decide⟩
    · exact ⟨c, by simp, fun hm => absurd (hmem c hm) (by omega)⟩

example : GraphImpl.fromStr (fun c => [c.toLower]) "StaticGraph" = .ok .staticGraph ∧
    SameButCase "StaticGraph" (implName .staticGraph) ∧
    GraphImpl.fromStr (fun c => [c.toLower]) "static" = .error "static" := by decide

end Verif.Props
