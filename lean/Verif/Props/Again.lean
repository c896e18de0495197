import Verif.Proof.Again
import Verif.Props.Order
import Verif.Props.Union
import Verif.Props.CsvFiles
import Verif.Props.Pipeline

/-! C145: additions made again. C146: labels on their way through CSV files. -/

namespace Verif.Props

open GraphMap Spec Order Csv

variable {m k : Nat} {NL EL : Type} [DecidableEq NL] [DecidableEq EL]

/-! ### C145 -/

theorem foldl_named_mem {X : Type} [DecidableEq X] (ls : List (Option X)) (U : List X) :
    (∀ x ∈ U, x ∈ ls.foldl named U) ∧ ∀ x, some x ∈ ls → x ∈ ls.foldl named U := by
  induction ls generalizing U with
  | nil => exact ⟨fun _ h => h, fun x h => by simp at h⟩
  | cons l ls ih =>
    obtain ⟨a, b⟩ := ih (named U l)
    refine ⟨fun x hx => a x ((named_prefix U l).subset hx), fun x hx => ?_⟩
    rcases List.mem_cons.1 hx with rfl | hx
    · exact a x (Spec.mem_named U x)
    · exact b x hx

theorem foldl_named_same {X : Type} [DecidableEq X] (ls : List (Option X)) (U : List X)
    (h : ∀ x, some x ∈ ls → x ∈ U) : ls.foldl named U = U := by
  induction ls with
  | nil => rfl
  | cons l ls ih =>
    have e : named U l = U := by
      cases l with
      | none => rfl
      | some x => exact if_pos (h x (by simp))
    rw [List.foldl_cons, e, ih (fun x hx => h x (by simp [hx]))]

/-- **C145.** Nodes and edges added to a graph and then added once more, by the same calls in the same
order: the second time changes no answer, no label table and no `max_seen_id`; only `edge_count` grows, by one
for every `add_edge`. -/
theorem c145_again {d : Bool} {nl : SetMap NL} {el : SetMap EL} (hn : nl.labels.Nodup) (he : el.labels.Nodup)
    {ops more : List (Op m k NL EL)} {g : GraphMap m k NL EL} (h : Run (withLabelMap d nl el) ops g)
    (hl : ∀ op ∈ ops, labelOnly op = true)
    (ha : ∀ op ∈ more, (∃ n l, op = .addNode n l) ∨ ∃ s t l, op = .addEdge s t l) :
    ∃ g1 g2, g.exec more = .ok g1 ∧ g1.exec more = .ok g2 ∧
      g2.nodeLabels = g1.nodeLabels ∧ g2.edgeLabels = g1.edgeLabels ∧ g2.maxSeenId = g1.maxSeenId ∧
      g2.edgeCount = g1.edgeCount + more.countP (fun op => match op with | .addEdge _ _ _ => true | _ => false) ∧
      (g1.nodeLabels.len ≤ k + 1 → g1.edgeLabels.len ≤ k + 1 → SameAnswers g1 g2) := by
  have hadd : ∀ op ∈ more, op.isAdd = true := fun op ho => by
    rcases ha op ho with ⟨n, l, rfl⟩ | ⟨s, t, l, rfl⟩ <;> rfl
  have hR := Run.reachable hn he h
  obtain ⟨g1, a1, a2, -, -, -⟩ := exec_adds more g hR.inv hadd
  obtain ⟨g2, b1, b2, b3, -, -⟩ := exec_adds more g1 a2 hadd
  have r1 := run_append h (exec_run a1)
  have r2 := run_append r1 (exec_run b1)
  have again := Again.adds_again (d := d) (Spec.run d ops) more hadd
  have e1 : Spec.run d (ops ++ more) = more.foldl (step d) (Spec.run d ops) := by
    unfold Spec.run; rw [List.foldl_append]
  have hl1 : ∀ op ∈ ops ++ more, labelOnly op = true := fun op ho => by
    rcases List.mem_append.1 ho with ho | ho
    · exact hl op ho
    · exact add_labelOnly (hadd op ho)
  have hl2 : ∀ op ∈ (ops ++ more) ++ more, labelOnly op = true := fun op ho => by
    rcases List.mem_append.1 ho with ho | ho
    · exact hl1 op ho
    · exact add_labelOnly (hadd op ho)
  have tables : g2.nodeLabels.items = g1.nodeLabels.items ∧ g2.edgeLabels.items = g1.edgeLabels.items := by
    obtain ⟨t1, t2⟩ := c82_tables hn he r1
    obtain ⟨t3, t4⟩ := c82_tables hn he r2
    rw [t1, t2, t3, t4]
    unfold Tabled.run
    simp only [List.foldl_append]
    obtain ⟨u1, u2⟩ := adds_tables d more hadd (ops.foldl (Tabled.step d) _)
    obtain ⟨u3, u4⟩ := adds_tables d more hadd (more.foldl (Tabled.step d) (ops.foldl (Tabled.step d) _))
    refine ⟨u3.trans (foldl_named_same _ _ ?_), u4.trans (foldl_named_same _ _ ?_)⟩
    · intro x hx; rw [u1]; exact (foldl_named_mem _ _).2 x hx
    · intro x hx; rw [u2]; exact (foldl_named_mem _ _).2 x hx
  have tn : g2.nodeLabels = g1.nodeLabels := by
    cases hx : g2.nodeLabels; cases hy : g1.nodeLabels; rw [hx, hy] at tables; exact congrArg SetMap.mk tables.1
  have te : g2.edgeLabels = g1.edgeLabels := by
    cases hx : g2.edgeLabels; cases hy : g1.edgeLabels; rw [hx, hy] at tables; exact congrArg SetMap.mk tables.2
  refine ⟨g1, g2, a1, b1, tn, te, ?_, ?_, fun h1 h2 => ?_⟩
  · refine maxSeen_extend hn he r1 (exec_run b1) (fun x hx => ?_)
    rw [c05_has_node hn he r1, e1]
    exact Again.adds_touch x more hadd _ (.inr hx)
  · unfold edgeCount
    rw [b3, List.countP_eq_length_filter]
    rfl
  · exact sameAnswers_extend hn he r1 (exec_run b1) hl2 (tn ▸ h1) (te ▸ h2) (by rw [e1, again])

/-- **C145** for CSV files: reading the same files into a graph a second time changes nothing but
`edge_count`, which grows by the number of edge records. -/
theorem c145_csv {d : Bool} {nl : SetMap NL} {el : SetMap EL} (hn : nl.labels.Nodup) (he : el.labels.Nodup)
    {ops : List (Op m k NL EL)} {g : GraphMap m k NL EL} (h : Run (withLabelMap d nl el) ops g)
    (hl : ∀ op ∈ ops, labelOnly op = true) (c : Settings) (xf : Field (Id m)) (nf : Field NL) (ef : Field EL)
    (nodes : Option (List Byte)) (edges : List Byte) :
    ∃ g1 g2, Csv.read c xf nf ef nodes edges g = .ok g1 ∧ Csv.read c xf nf ef nodes edges g1 = .ok g2 ∧
      g2.nodeLabels = g1.nodeLabels ∧ g2.edgeLabels = g1.edgeLabels ∧ g2.maxSeenId = g1.maxSeenId ∧
      g2.edgeCount = g1.edgeCount + (edgeIter c xf ef edges).length ∧
      (g1.nodeLabels.len ≤ k + 1 → g1.edgeLabels.len ≤ k + 1 → SameAnswers g1 g2) := by
  obtain ⟨g1, a1, a2, a3⟩ := c52_read (Run.reachable hn he h) c xf nf ef nodes edges
  obtain ⟨g2, b1, -, b3⟩ := c52_read a2 c xf nf ef nodes edges
  obtain ⟨g1', g2', c1, c2, c3⟩ := c145_again hn he h hl
    (more := ((nodes.map (nodeIter c xf nf)).getD []).map (fun r => Op.addNode r.1 r.2) ++
      (edgeIter c xf ef edges).map (fun r => Op.addEdge r.1 r.2.1 r.2.2)) (fun op ho => by
    rcases List.mem_append.1 ho with ho | ho
    · obtain ⟨r, -, rfl⟩ := List.mem_map.1 ho; exact .inl ⟨_, _, rfl⟩
    · obtain ⟨r, -, rfl⟩ := List.mem_map.1 ho; exact .inr ⟨_, _, _, rfl⟩)
  rw [a3] at c1
  cases c1
  rw [b3] at c2
  cases c2
  refine ⟨g1, g2, a1, b1, c3.1, c3.2.1, c3.2.2.1, ?_, c3.2.2.2.2⟩
  rw [c3.2.2.2.1]
  congr 1
  rw [List.countP_append, List.countP_map, List.countP_map]
  have z : ∀ (l : List (Id m × Option NL)), l.countP ((fun op : Op m k NL EL => match op with
      | .addEdge _ _ _ => true | _ => false) ∘ fun r => Op.addNode r.1 r.2) = 0 := fun l =>
    List.countP_eq_zero.2 (fun _ _ => by simp)
  have o : ∀ (l : List (Id m × Id m × Option EL)), l.countP ((fun op : Op m k NL EL => match op with
      | .addEdge _ _ _ => true | _ => false) ∘ fun r => Op.addEdge r.1 r.2.1 r.2.2) = l.length := fun l =>
    List.countP_eq_length.2 (fun _ _ => rfl)
  rw [z, o, Nat.zero_add]

/-- Two edges on three ids, one with a label. -/
def twoEdges : List (Op 3 3 Nat Nat) := [.addEdge 0 1 (some 5), .addNode 0 (some 7), .addEdge 1 2 none]

example : (∀ op ∈ twoEdges, (∃ n l, op = .addNode n l) ∨ ∃ s t l, op = .addEdge s t l) ∧
    ∃ g1 g2, (new false : GraphMap 3 3 Nat Nat).exec twoEdges = .ok g1 ∧ g1.exec twoEdges = .ok g2 ∧
      g1.edgeCount = 2 ∧ g2.edgeCount = 4 ∧ g1.nodeLabels.labels = [7] ∧ g2.nodeLabels.labels = [7] ∧
      g2.neighbors 1 = .ok [0, 2] := by
  refine ⟨?_, _, _, rfl, rfl, ?_⟩
  · intro op ho
    simp only [twoEdges, List.mem_cons, List.not_mem_nil, or_false] at ho
    rcases ho with rfl | rfl | rfl
    · exact .inr ⟨_, _, _, rfl⟩
    · exact .inl ⟨_, _, rfl⟩
    · exact .inr ⟨_, _, _, rfl⟩
  · decide

set_option maxRecDepth 4000 in
example : ∃ g1 g2, Csv.read usual (.decimal 3) .text .text (some (lines ["nodeId:ID,:LABEL", "1,hi"]))
      (lines [":START_ID,:END_ID,:TYPE", "0,1,e"]) (new true : GraphMap 3 3 (List Byte) (List Byte)) = .ok g1 ∧
    Csv.read usual (.decimal 3) .text .text (some (lines ["nodeId:ID,:LABEL", "1,hi"]))
      (lines [":START_ID,:END_ID,:TYPE", "0,1,e"]) g1 = .ok g2 ∧
    g1.edgeCount = 1 ∧ g2.edgeCount = 2 ∧ g2.getNodeLabel 1 = some (ascii "hi") ∧ g2.edges.length = 1 := by
  refine ⟨_, _, rfl, rfl, ?_⟩
  decide

/-! ### C146 -/

omit [DecidableEq NL] [DecidableEq EL] in
/-- **C146**: with a header line, labels come from fields that are not empty. -/
theorem c146_labels (c : Settings) (hh : c.hasHeaders = true) (xf : Field (Id m)) (nf : Field NL) (ef : Field EL)
    (bs : List Byte) :
    (∀ i x, (i, some x) ∈ nodeIter c xf nf bs → ∃ f, f ≠ [] ∧ nf.parse f = some x) ∧
    (∀ i j x, (i, j, some x) ∈ edgeIter c xf ef bs → ∃ f, f ≠ [] ∧ ef.parse f = some x) := by
  have key : ∀ {L : Type} (lf : Field L) (o : Option (List Byte)) (x : L), labelOf lf o = some x →
      ∃ f, f ≠ [] ∧ lf.parse f = some x := by
    intro L lf o x h
    unfold labelOf at h
    obtain ⟨f, -, hf⟩ := Option.bind_eq_some_iff.1 h
    split at hf
    · cases hf
    · exact ⟨f, by assumption, hf⟩
  cases hp : Csv.parse c.separator bs with
  | nil =>
    constructor
    · intro i x h
      simp [nodeIter, Csv.rows, hp] at h
    · intro i j x h
      simp [edgeIter, Csv.rows, hp] at h
  | cons hdr rs =>
    constructor
    · intro i x h
      by_cases hok : HeaderOk hdr ["nodeId:ID"] ":LABEL"
      · rw [c52_nodes c hh xf nf hp hok, List.mem_filterMap] at h
        obtain ⟨row, -, hr⟩ := h
        unfold nodeOf at hr
        obtain ⟨j, -, hj⟩ := Option.map_eq_some_iff.1 hr
        exact key nf _ x (Prod.mk.inj hj).2
      · rw [c76_bad_header c hh xf nf hp hok] at h
        simp at h
    · intro i j x h
      by_cases hok : HeaderOk hdr [":START_ID", ":END_ID"] ":TYPE"
      · rw [c52_edges c hh xf ef hp hok, List.mem_filterMap] at h
        obtain ⟨row, -, hr⟩ := h
        unfold edgeOf at hr
        split at hr
        · simp only [Option.some.injEq, Prod.mk.injEq] at hr
          exact key ef _ x hr.2.2
        · cases hr
      · rw [c76_bad_edge_header c hh xf ef hp hok] at h
        simp at h

/-- **C146**: what comes back from CSV files is the graph without the labels whose text is empty. -/
theorem c146_write_read {g : GView m k NL EL} {A : AGraph (Id m) NL EL} (S : Shows g A)
    {xf : Field (Id m)} {nf : Field NL} {ef : Field EL}
    (hx : ∀ n, (A.node n).isSome = true → xf.parse (xf.shown n) = some n)
    (hn : ∀ n x, A.node n = some (some x) → nf.shown x ≠ [] → nf.parse (nf.shown x) = some x)
    (he : ∀ s t x, A.edge s t = some (some x) → ef.shown x ≠ [] → ef.parse (ef.shown x) = some x)
    {np ep : String} (hne : np ≠ ep) {s : Option String} (hs : IsComma s) (fl : Bool) :
    ∀ w : World, csvRoom xf nf ef A g.nodeIndices g.edgeIndices ≤ w.room → ∃ (w' : World) (g' : GraphMap m k NL EL),
      writeTo xf nf ef g np ep w = .ok (true, w') ∧
      (∀ p, p ≠ np → p ≠ ep → w'.files p = w.files p) ∧
      w'.room = w.room - csvRoom xf nf ef A g.nodeIndices g.edgeIndices ∧
      readFrom xf nf ef (some np) ep s true fl w' (new g.directed) = .ok (true, g') ∧
      Reachable g' ∧ g'.directed = g.directed ∧ Shows g'.view (A.withoutEmpty nf ef) := by
  let g0 : GView m k NL EL := { g with
    nodeLid := fun n => (g.nodeLid n).map (fun o => o.filter (fun i =>
      ((g.nodeLabels.getItem i.val).map (fun x => decide (nf.shown x ≠ []))).getD true))
    edgeLid := fun s t => (g.edgeLid s t).map (fun o => o.filter (fun i =>
      ((g.edgeLabels.getItem i.val).map (fun x => decide (ef.shown x ≠ []))).getD true)) }
  have gn : ∀ n, g0.getNodeLabel n = (g.getNodeLabel n).map (fun l => l.filter (fun x => nf.shown x ≠ [])) := by
    intro n
    unfold GView.getNodeLabel
    simp only [g0]
    cases g.nodeLid n with
    | error e => rfl
    | ok o =>
      cases o with
      | none => rfl
      | some i =>
        simp only [Except.map, bind_ok, pure_ok, Option.filter]
        obtain ⟨y, hi⟩ : ∃ y, g.nodeLabels.getItem i.val = y := ⟨_, rfl⟩
        rcases y with _ | x
        · simp [hi]
        · by_cases h : nf.shown x = [] <;> simp [h, hi]
  have ge : ∀ s t, g0.getEdgeLabel s t = (g.getEdgeLabel s t).map (fun l => l.filter (fun x => ef.shown x ≠ [])) := by
    intro s t
    unfold GView.getEdgeLabel
    simp only [g0]
    cases g.edgeLid s t with
    | error e => rfl
    | ok o =>
      cases o with
      | none => rfl
      | some i =>
        simp only [Except.map, bind_ok, pure_ok, Option.filter]
        obtain ⟨y, hi⟩ : ∃ y, g.edgeLabels.getItem i.val = y := ⟨_, rfl⟩
        rcases y with _ | x
        · simp [hi]
        · by_cases h : ef.shown x = [] <;> simp [h, hi]
  have isn : ∀ n, ((A.withoutEmpty nf ef).node n).isSome = (A.node n).isSome := fun n => Option.isSome_map
  have ise : ∀ a b, ((A.withoutEmpty nf ef).edge a b).isSome = (A.edge a b).isSome := fun a b => Option.isSome_map
  have S0 : Shows g0 (A.withoutEmpty nf ef) := by
    refine ⟨?_, ?_, ?_, S.nodesNodup, ?_, S.nodeCount, ?_, S.edgesNodup, ?_, S.edgesEnds, ?_, ?_, ?_, ?_⟩
    · intro a b h; rw [isn, isn]; exact S.ends a b (by rw [← ise]; exact h)
    · intro hd a b
      exact congrArg (Option.map _) (S.sym hd a b)
    · intro n; rw [isn]; exact S.hasNode n
    · intro n; rw [isn]; exact S.memNodes n
    · intro a b h; rw [isn] at h; rw [ise]; exact S.hasEdge a b h
    · intro a b
      unfold AGraph.Listed
      rw [ise]
      exact S.memEdges a b
    · intro n l h
      obtain ⟨l', h1, rfl⟩ := Option.map_eq_some_iff.1 h
      rw [gn, S.nodeLabel n l' h1]
      rfl
    · intro a b l h hd
      obtain ⟨l', h1, rfl⟩ := Option.map_eq_some_iff.1 h
      rw [ge, S.edgeLabel a b l' h1 hd]
      rfl
    · intro n h
      rw [isn] at h
      obtain ⟨l, a1, a2, a3, a4⟩ := S.neighbors n h
      exact ⟨l, a1, a2, fun t => by rw [ise]; exact a3 t, a4⟩
    · rintro ⟨n, h⟩
      obtain ⟨M, a1, a2⟩ := S.maxSeen ⟨n, by rw [← isn]; exact h⟩
      exact ⟨M, a1, fun i hi => a2 i (by rw [← isn]; exact hi)⟩
  have hw : write comma xf nf ef g0 = write comma xf nf ef g := by
    have rec0 : ∀ {L : Type} (lf : Field L) (ids : List (List Byte)) (l : Option L),
        record ids lf (l.filter (fun x => lf.shown x ≠ [])) = record ids lf l := by
      intro L lf ids l
      cases l with
      | none => rfl
      | some x => by_cases h : lf.shown x = [] <;> simp [record, Option.filter, h]
    have n0 : ∀ n, (g0.getNodeLabel n >>= fun l => pure (record [xf.shown n] nf l) : Res _) =
        (g.getNodeLabel n >>= fun l => pure (record [xf.shown n] nf l)) := by
      intro n
      rw [gn]
      cases g.getNodeLabel n with
      | error e => rfl
      | ok l => simp only [Except.map, bind_ok, rec0]
    have e0 : ∀ a b, (g0.getEdgeLabel a b >>= fun l => pure (record [xf.shown a, xf.shown b] ef l) : Res _) =
        (g.getEdgeLabel a b >>= fun l => pure (record [xf.shown a, xf.shown b] ef l)) := by
      intro a b
      rw [ge]
      cases g.getEdgeLabel a b with
      | error e => rfl
      | ok l => simp only [Except.map, bind_ok, rec0]
    unfold write
    simp only [n0, e0]
    rfl
  have h := c88_write_read S0 (xf := xf) (nf := nf) (ef := ef) (fun n h => hx n (by rw [← isn]; exact h))
    (fun n x h => by
      obtain ⟨l, h1, h2⟩ := Option.map_eq_some_iff.1 h
      obtain ⟨h3, h4⟩ := Option.filter_eq_some_iff.1 h2
      have h4 : nf.shown x ≠ [] := by simpa using h4
      exact ⟨h4, hn n x (by rw [h1, h3]) h4⟩)
    (fun a b x h => by
      obtain ⟨l, h1, h2⟩ := Option.map_eq_some_iff.1 h
      obtain ⟨h3, h4⟩ := Option.filter_eq_some_iff.1 h2
      have h4 : ef.shown x ≠ [] := by simpa using h4
      exact ⟨h4, he a b x (by rw [h1, h3]) h4⟩) hne hs fl
  have hsize : csvRoom xf nf ef (A.withoutEmpty nf ef) g0.nodeIndices g0.edgeIndices =
      csvRoom xf nf ef A g.nodeIndices g.edgeIndices := by
    unfold csvRoom nodeFileBytes edgeFileBytes AGraph.withoutEmpty
    simp only [textOf_filter]
    rfl
  rw [hsize] at h
  intro w hroom
  obtain ⟨w', g', a1, a2⟩ := h w hroom
  refine ⟨w', g', ?_, a2⟩
  rw [← a1]
  unfold writeTo
  rw [hw]

/-- **C146** for the program `static_to_csv`: its output is read as the graph of its input without the labels
that are empty. -/
theorem c146_static_to_csv {wd v : Nat} {g : GraphMap m k (List Byte) (List Byte)}
    {A : AGraph (Id m) (List Byte) (List Byte)} (S : Shows g.view A)
    {inFile np ep : String} (hne : np ≠ ep) {s : Option String} (hs : IsComma s) (fl : Bool) :
    ∀ w : World, w.import (.graphMap wd v Programs.text Programs.text false) inFile = some g →
      csvRoom (.decimal m) .text .text A g.nodeIndices g.edgeIndices ≤ w.room → ∃ (w' : World) (g' : GraphMap m k (List Byte) (List Byte)),
        Programs.staticToCsv m k wd v inFile np ep w = (.ok (), w') ∧
        (∀ p, p ≠ np → p ≠ ep → w'.files p = w.files p) ∧
        readFrom (.decimal m) .text .text (some np) ep s true fl w' (new false) = .ok (true, g') ∧
        Reachable g' ∧ Shows g'.view (A.withoutEmpty .text .text) := by
  have h := c146_write_read S (xf := .decimal m) (nf := .text) (ef := .text)
    (fun n _ => decimal_round m n) (fun _ _ _ _ => rfl) (fun _ _ _ _ _ => rfl) hne hs fl
  intro w hw hroom
  obtain ⟨w', g', a1, a2, -, a3, a4, -, a5⟩ := h w hroom
  have hd : g.view.directed = false := by
    obtain ⟨bs, r, -, h2⟩ := import_get hw
    simp only [Codec.graphMap, Option.bind_eq_bind, Option.bind_eq_some_iff, Option.pure_def,
      Option.some.injEq, Prod.mk.injEq] at h2
    obtain ⟨_, _, _, _, _, _, _, _, _, _, rfl, _⟩ := h2
    rfl
  rw [hd] at a3
  refine ⟨w', g', ?_, a2, a3, a4, a5⟩
  unfold Programs.staticToCsv
  rw [hw]
  show (match Csv.writeTo _ _ _ _ _ _ _ with | .error p => _ | .ok r => _) = _
  rw [a1]
  rfl

/-- **C146**: a graph read from CSV files with header lines, whatever they hold, is written to CSV files from
which it is read again as it was. -/
theorem c146_round {np : Option String} {ep : String} {s : Option String} {fl d ok : Bool} {w0 : World}
    {g : GraphMap m k (List Byte) (List Byte)}
    (h : readFrom (.decimal m) .text .text np ep s true fl w0 (new d) = .ok (ok, g))
    {np' ep' : String} (hne : np' ≠ ep') {s' : Option String} (hs : IsComma s') (fl' : Bool) :
    ∃ A : AGraph (Id m) (List Byte) (List Byte), Shows g.view A ∧ ∀ w : World,
      csvRoom (.decimal m) .text .text A g.nodeIndices g.edgeIndices ≤ w.room →
      ∃ (w' : World) (g' : GraphMap m k (List Byte) (List Byte)),
      writeTo (.decimal m) .text .text g.view np' ep' w = .ok (true, w') ∧
      readFrom (.decimal m) .text .text (some np') ep' s' true fl' w' (new d) = .ok (true, g') ∧
      Reachable g' ∧ Shows g'.view A := by
  have h0 : Reachable (new d : GraphMap m k (List Byte) (List Byte)) := .start d _ _ List.nodup_nil List.nodup_nil
  obtain ⟨hg, -, h2, sep, -, h3⟩ := c90_outcome h0 _ _ _ np ep s true fl w0 h
  have facts : g.directed = d ∧ (∀ x ∈ g.nodeLabels.labels, x ≠ []) ∧ (∀ x ∈ g.edgeLabels.labels, x ≠ []) := by
    by_cases hnp : ∀ p, np = some p → (w0.files p).isSome = true
    · have h4 := h3 hnp
      obtain ⟨g', e1, -, -, e2, e3⟩ := exec_adds _ (new d : GraphMap m k (List Byte) (List Byte)) h0.inv (by
        intro op ho
        rcases List.mem_append.1 ho with ho | ho
        · obtain ⟨r, -, rfl⟩ := List.mem_map.1 ho; rfl
        · obtain ⟨r, -, rfl⟩ := List.mem_map.1 ho; rfl : ∀ op ∈
          (((np.bind w0.files).elim [] (nodeIter ⟨sep, true, fl⟩ (.decimal m) .text)).map
            (fun r => (Op.addNode r.1 r.2 : Op m k (List Byte) (List Byte))) ++
          ((w0.files ep).elim [] (edgeIter ⟨sep, true, fl⟩ (.decimal m) .text)).map
            (fun r => Op.addEdge r.1 r.2.1 r.2.2)), op.isAdd = true)
      rw [h4] at e1
      cases e1
      refine ⟨(run_shape List.nodup_nil List.nodup_nil (exec_run h4 : Run (withLabelMap d SetMap.empty SetMap.empty) _ g)).1,
        fun x hx => ?_, fun x hx => ?_⟩
      · rcases e2 x hx with hx | ⟨op, ho, hx⟩
        · cases hx
        · rcases List.mem_append.1 ho with ho | ho
          · obtain ⟨r, hr, rfl⟩ := List.mem_map.1 ho
            cases hb : np.bind w0.files with
            | none => rw [hb] at hr; cases hr
            | some bs =>
              rw [hb] at hr
              obtain ⟨f, f1, f2⟩ := (c146_labels ⟨sep, true, fl⟩ rfl (.decimal m) .text (.text) bs).1 r.1 x (by
                have : r.2 = some x := hx
                rw [← this]; exact hr)
              cases f2
              exact f1
          · obtain ⟨r, hr, rfl⟩ := List.mem_map.1 ho
            cases hx
      · rcases e3 x hx with hx | ⟨op, ho, hx⟩
        · cases hx
        · rcases List.mem_append.1 ho with ho | ho
          · obtain ⟨r, hr, rfl⟩ := List.mem_map.1 ho
            cases hx
          · obtain ⟨r, hr, rfl⟩ := List.mem_map.1 ho
            cases hb : w0.files ep with
            | none => rw [hb] at hr; cases hr
            | some bs =>
              rw [hb] at hr
              obtain ⟨f, f1, f2⟩ := (c146_labels ⟨sep, true, fl⟩ rfl (.decimal m) .text (.text) bs).2 r.1 r.2.1 x (by
                have : r.2.2 = some x := hx
                rw [← this]; exact hr)
              cases f2
              exact f1
    · have : g = new d := by
        refine h2 ?_
        simp only [not_forall] at hnp
        obtain ⟨p, hp, hq⟩ := hnp
        exact ⟨p, hp, by simpa using hq⟩
      subst this
      exact ⟨rfl, fun x hx => (by cases hx), fun x hx => (by cases hx)⟩
  obtain ⟨f1, f2, f3⟩ := facts
  have hn : ∀ n, g.view.getNodeLabel n ≠ .ok (some []) := by
    intro n hc
    unfold GView.getNodeLabel at hc
    obtain ⟨o, -, ho⟩ := bind_eq_ok hc
    cases o with
    | none => cases ho
    | some i => exact f2 [] (List.mem_of_getElem? (Except.ok.inj ho)) rfl
  have he : ∀ s t, g.view.getEdgeLabel s t ≠ .ok (some []) := by
    intro a b hc
    unfold GView.getEdgeLabel at hc
    obtain ⟨o, -, ho⟩ := bind_eq_ok hc
    cases o with
    | none => cases ho
    | some i => exact f3 [] (List.mem_of_getElem? (Except.ok.inj ho)) rfl
  obtain ⟨A, S, h5⟩ := c88_graph_map hg hn he hne hs fl'
  refine ⟨A, S, fun w hw => ?_⟩
  obtain ⟨w', g', a1, a2, a3, a4, a6⟩ := h5 w hw
  rw [f1] at a2
  exact ⟨w', g', a1, a2, a3, a6⟩

/-- Only with header lines: in a file without them an empty last field is the empty label, which is lost when the
graph is written. -/
theorem c146_lost : ∃ (g g' : GraphMap 3 3 (List Byte) (List Byte)) (w : World),
    readFrom (.decimal 3) .text .text (some "n") "e" none false false
      ⟨fun p => if p = "n" then some (lines ["1,"]) else some [], 9⟩ (new true) = .ok (true, g) ∧
    g.getNodeLabel 1 = some [] ∧
    writeTo (.decimal 3) .text .text g.view "n" "e" (blank 100) = .ok (true, w) ∧
    readFrom (.decimal 3) .text .text (some "n") "e" none true false w (new true) = .ok (true, g') ∧
    g'.hasNode 1 = true ∧ g'.getNodeLabel 1 = none := by
  refine ⟨_, _, _, rfl, ?_, rfl, rfl, ?_⟩ <;> decide

set_option maxRecDepth 4000 in
example : ∃ g : GraphMap 3 3 (List Byte) (List Byte),
    readFrom (.decimal 3) .text .text (some "n") "e" none true false
      ⟨fun p => if p = "n" then some (lines [":LABEL,nodeId:ID", ",1", "x,2", "y,9", "1"]) else
        some (lines ["odd"]), 9⟩ (new true) = .ok (true, g) ∧
    g.nodeCount = 2 ∧ g.getNodeLabel 1 = none ∧ g.getNodeLabel 2 = some (ascii "x") := by
  refine ⟨_, rfl, ?_⟩
  decide

set_option maxRecDepth 4000 in
example : ∃ g : GraphMap 3 3 (List Byte) (List Byte),
    (new true).exec [.addNode 1 (some []), .addEdge 0 1 (some (ascii "e"))] = .ok g ∧
    (g.abs.node 1 = some (some []) ∧ (g.abs.withoutEmpty .text .text).node 1 = some none) ∧
    Csv.write 44 (.decimal 3) .text .text g.view =
      .ok (lines ["nodeId:ID,:LABEL", "1,", "0,"], lines [":START_ID,:END_ID,:TYPE", "0,1,e"]) := by
  refine ⟨_, rfl, ?_, ?_⟩ <;> decide

end Verif.Props
