import Verif.Props.Lids
import Verif.Props.CsvUtf8
import Verif.Props.Strings
import Verif.Props.Ldbc

/-! C170: LDBC files that are not text. -/

namespace Verif.Props

open Spec Ldbc GraphMap

variable {m k : Nat}

theorem loop_congr {S X : Type} {f g : X → S → Res (Option S)} {l : List X} (h : ∀ x ∈ l, f x = g x) (s : S) :
    loop f l s = loop g l s := by
  induction l generalizing s with
  | nil => rfl
  | cons x l ih =>
    simp only [loop, h x List.mem_cons_self]
    congr 1
    funext o
    cases o with
    | none => rfl
    | some s => exact ih (fun y hy => h y (List.mem_cons_of_mem _ hy)) s

/-- **C170.** The records of a file that is text, with a separator that is an ASCII character, are all text. -/
theorem c170_records {sep : Byte} (hs : sep.val < 128) {bs : List Byte} (h : utf8 bs = true) :
    records utf8 sep bs = records (fun _ => true) sep bs := by
  have ht := c165_file hs h
  unfold records
  cases hp : Csv.parse sep bs with
  | nil => rfl
  | cons r rs =>
    refine List.map_congr_left (fun x hx => ?_)
    have : x.all utf8 = true := List.all_eq_true.2 (fun f hf => ht x (by rw [hp]; exact List.mem_cons_of_mem _ hx) f hf)
    simp [this]

/-- **C170.** If every file of the directory is text, nothing is refused for not being text. -/
theorem c170_text (digit : Char → Bool) {s : Scheme} (hs : s.delimiter.val < 128) (d : Bool) {files : List File}
    (h : ∀ f ∈ files, utf8 f.bytes = true) :
    (s.fromPath digit utf8 d (some files) : Res (Option (GraphMap m k Text Text))) =
      s.fromPath digit (fun _ => true) d (some files) := by
  have h1 : ∀ (n : Node), (loop (fun (f : File) (st : State m k) =>
        if n.isMatch digit f.name then feed n.addNode (records utf8 s.delimiter f.bytes) st else pure (some st)) files) =
      loop (fun (f : File) st =>
        if n.isMatch digit f.name then feed n.addNode (records (fun _ => true) s.delimiter f.bytes) st
        else pure (some st)) files := by
    intro n
    funext st
    refine loop_congr (fun f hf => ?_) st
    rw [c170_records hs (h f hf)]
  have h2 : ∀ (n : Relation), (loop (fun (f : File) (st : State m k) =>
        if n.isMatch digit f.name then feed n.addEdge (records utf8 s.delimiter f.bytes) st else pure (some st)) files) =
      loop (fun (f : File) st =>
        if n.isMatch digit f.name then feed n.addEdge (records (fun _ => true) s.delimiter f.bytes) st
        else pure (some st)) files := by
    intro n
    funext st
    refine loop_congr (fun f hf => ?_) st
    rw [c170_records hs (h f hf)]
  unfold Scheme.fromPath
  simp only [h1, h2]

/-- **C170.** A graph is made only if every field of every row below the header is text, in each file that is read,
also in columns nothing is taken from. -/
theorem c170_needed {digit : Char → Bool} {s : Scheme} {files : List File} {d : Bool} (hm : 0 < m)
    {g : GraphMap m k Text Text} (h : s.fromPath digit utf8 d (some files) = .ok (some g)) {f : File} (hf : f ∈ files)
    (hr : (∃ n ∈ s.nodes, n.isMatch digit f.name = true) ∨ ∃ x ∈ s.relations, x.isMatch digit f.name = true) :
    ∀ r ∈ body s.delimiter f.bytes, ∀ x ∈ r, utf8 x = true := by
  obtain ⟨⟨h1, h2⟩, -⟩ := c53_needed hm h
  intro r hrr x hx
  rcases hr with ⟨n, hn, hmt⟩ | ⟨n, hn, hmt⟩
  · exact (h1 n hn f hf hmt r hrr).2.1 x hx
  · exact (h2 n hn f hf hmt r hrr).2.1 x hx

/-- All labels are text. -/
def TextLabels (g : GraphMap m k Text Text) : Prop :=
  (∀ x ∈ g.nodeLabels.labels, utf8 x = true) ∧ ∀ x ∈ g.edgeLabels.labels, utf8 x = true

theorem text_node {g : GraphMap m k Text Text} (hi : g.Inv) (ht : TextLabels g) {i : Id m} {l : Text}
    (hl : utf8 l = true) {q : GraphMap m k Text Text × Bool} (h : g.addNode i (some l) = .ok q) :
    q.1.Inv ∧ TextLabels q.1 := by
  have ha : g.apply (.addNode i (some l)) = .ok q.1 := by simp only [GraphMap.apply, h, bind_ok, pure_ok]
  obtain ⟨h1, h2⟩ := table_apply hi ha
  refine ⟨inv_apply hi ha, fun x hx => ?_, fun x hx => ?_⟩
  · rcases h1 x hx with h | h
    · exact ht.1 x h
    · cases h; exact hl
  · rcases h2 x hx with h | h
    · exact ht.2 x h
    · cases h

theorem text_edge {g : GraphMap m k Text Text} (hi : g.Inv) (ht : TextLabels g) {i j : Id m} {l : Text}
    (hl : utf8 l = true) {q : GraphMap m k Text Text × Bool} (h : g.addEdge i j (some l) = .ok q) :
    q.1.Inv ∧ TextLabels q.1 := by
  have ha : g.apply (.addEdge i j (some l)) = .ok q.1 := by simp only [GraphMap.apply, h, bind_ok, pure_ok]
  obtain ⟨h1, h2⟩ := table_apply hi ha
  refine ⟨inv_apply hi ha, fun x hx => ?_, fun x hx => ?_⟩
  · rcases h1 x hx with h | h
    · exact ht.1 x h
    · cases h
  · rcases h2 x hx with h | h
    · exact ht.2 x h
    · cases h; exact hl

theorem field_text {r : Record} (hr : ∀ f ∈ r, utf8 f = true) {i : Nat} {f : Text} (h : field r i = .ok f) :
    utf8 f = true := by
  unfold field at h
  cases hx : r[i]? with
  | none => rw [hx] at h; cases h
  | some y => rw [hx] at h; cases h; exact hr _ (List.mem_of_getElem? hx)

theorem add_node_text {n : Node} {r : Record} (hr : ∀ f ∈ r, utf8 f = true) {s t : State m k}
    (hs : s.graph.Inv ∧ TextLabels s.graph) (h : n.addNode r s = .ok t) : t.graph.Inv ∧ TextLabels t.graph := by
  unfold Node.addNode at h
  obtain ⟨f, -, h⟩ := bind_eq_ok h
  obtain ⟨p, -, h⟩ := bind_eq_ok h
  obtain ⟨l, h1, h⟩ := bind_eq_ok h
  obtain ⟨q, h2, h⟩ := bind_eq_ok h
  cases h
  exact text_node hs.1 hs.2 (field_text hr h1) h2

theorem entry_text {key : Text} {kind : String} (hk : utf8 (ascii kind) = true) {s : State m k} {t : State m k × Id m}
    (hs : s.graph.Inv ∧ TextLabels s.graph) (h : entry key kind s = .ok t) :
    t.1.graph.Inv ∧ TextLabels t.1.graph := by
  unfold entry at h
  cases hx : AL.get s.ids key with
  | some i => rw [hx] at h; cases h; exact hs
  | none =>
    rw [hx] at h
    obtain ⟨i, -, h⟩ := bind_eq_ok h
    obtain ⟨q, h2, h⟩ := bind_eq_ok h
    cases h
    exact text_node hs.1 hs.2 hk h2

/-- The names a scheme gives as labels are text. -/
def TextNames (s : Scheme) : Prop :=
  ∀ x ∈ s.relations, utf8 (ascii x.startLabel) = true ∧ utf8 (ascii x.targetLabel) = true ∧
    utf8 (ascii x.edgeLabel) = true

theorem add_edge_text {x : Relation} (hx : utf8 (ascii x.startLabel) = true ∧ utf8 (ascii x.targetLabel) = true ∧
    utf8 (ascii x.edgeLabel) = true) {r : Record} {s t : State m k}
    (hs : s.graph.Inv ∧ TextLabels s.graph) (h : x.addEdge r s = .ok t) : t.graph.Inv ∧ TextLabels t.graph := by
  unfold Relation.addEdge at h
  obtain ⟨a, -, h⟩ := bind_eq_ok h
  obtain ⟨b, -, h⟩ := bind_eq_ok h
  obtain ⟨p, h1, h⟩ := bind_eq_ok h
  obtain ⟨q, h2, h⟩ := bind_eq_ok h
  obtain ⟨e, h3, h⟩ := bind_eq_ok h
  cases h
  have i1 := entry_text hx.1 hs h1
  have i2 := entry_text hx.2.1 i1 h2
  exact text_edge i2.1 i2.2 hx.2.2 h3

theorem feed_text {f : Record → State m k → Res (State m k)} {P : State m k → Prop}
    (hf : ∀ r, (∀ x ∈ r, utf8 x = true) → ∀ s t, P s → f r s = .ok t → P t) (l : List (Option Record))
    (hl : ∀ r, some r ∈ l → ∀ x ∈ r, utf8 x = true) {s t : State m k} (hs : P s) (h : feed f l s = .ok (some t)) :
    P t := by
  induction l generalizing s with
  | nil => cases h; exact hs
  | cons o l ih =>
    cases o with
    | none => cases h
    | some r =>
      unfold feed at h
      obtain ⟨u, h1, h2⟩ := bind_eq_ok h
      exact ih (fun r hr => hl r (List.mem_cons_of_mem _ hr)) (hf r (hl r List.mem_cons_self) s u hs h1) h2

theorem loop_text {S X : Type} {f : X → S → Res (Option S)} {P : S → Prop} {l : List X}
    (hf : ∀ x ∈ l, ∀ s t, P s → f x s = .ok (some t) → P t) {s t : S} (hs : P s) (h : loop f l s = .ok (some t)) :
    P t := by
  induction l generalizing s with
  | nil => cases h; exact hs
  | cons x l ih =>
    unfold loop at h
    obtain ⟨o, h1, h2⟩ := bind_eq_ok h
    cases o with
    | none => cases h2
    | some u =>
      exact ih (fun y hy => hf y (List.mem_cons_of_mem _ hy)) (hf x List.mem_cons_self s u hs h1) h2

theorem records_text (sep : Byte) (bs : List Byte) {r : Record} (h : some r ∈ records utf8 sep bs) :
    ∀ x ∈ r, utf8 x = true := by
  unfold records at h
  cases hp : Csv.parse sep bs with
  | nil => rw [hp] at h; cases h
  | cons a rs =>
    rw [hp] at h
    obtain ⟨y, -, hy⟩ := List.mem_map.1 h
    split_ifs at hy with hc
    cases hy
    exact List.all_eq_true.1 hc.2

/-- **C170.** Every label of a graph that is loaded is text. -/
theorem c170_labels {digit : Char → Bool} {s : Scheme} (hn : TextNames s) {dir : Option (List File)} {d : Bool}
    {g : GraphMap m k Text Text} (h : s.fromPath digit utf8 d dir = .ok (some g)) : TextLabels g := by
  unfold Scheme.fromPath at h
  cases dir with
  | none => cases h
  | some files =>
    obtain ⟨o, h1, h2⟩ := bind_eq_ok h
    cases o with
    | none => cases h2
    | some s1 =>
      obtain ⟨o, h3, h4⟩ := bind_eq_ok h2
      cases o with
      | none => cases h4
      | some s2 =>
        cases h4
        let P : State m k → Prop := fun s => s.graph.Inv ∧ TextLabels s.graph
        have p0 : P ⟨GraphMap.new d, []⟩ :=
          ⟨inv_withLabelMap d SetMap.empty SetMap.empty List.nodup_nil List.nodup_nil,
            fun x hx => absurd hx List.not_mem_nil, fun x hx => absurd hx List.not_mem_nil⟩
        have p1 : P s1 := by
          refine loop_text (P := P) (fun n _ s t hs ht => ?_) p0 h1
          refine loop_text (P := P) (fun f _ s t hs ht => ?_) hs ht
          split_ifs at ht
          · exact feed_text (fun r hr s t => add_node_text hr) _ (fun r hr => records_text _ _ hr) hs ht
          · cases ht; exact hs
        have p2 : P s2 := by
          refine loop_text (P := P) (fun n hn' s t hs ht => ?_) p1 h3
          refine loop_text (P := P) (fun f _ s t hs ht => ?_) hs ht
          split_ifs at ht
          · exact feed_text (fun r _ s t => add_edge_text (hn n hn')) _ (fun r hr => records_text _ _ hr) hs ht
          · cases ht; exact hs
        exact p2.2

/-- **C170.** So the bytes the model has for labels are those of Strings. -/
theorem c170_strings {digit : Char → Bool} {s : Scheme} (hn : TextNames s) {dir : Option (List File)} {d : Bool}
    {g : GraphMap m k Text Text} (h : s.fromPath digit utf8 d dir = .ok (some g)) :
    ∃ g' : GraphMap m k Str Str, mapValues Subtype.val Subtype.val g' = g := by
  obtain ⟨h1, h2⟩ := c170_labels hn h
  obtain ⟨t1, e1⟩ := table_strings h1
  obtain ⟨t2, e2⟩ := table_strings h2
  exact ⟨⟨g.directed, g.nodeMap, g.numEdges, t1, t2, g.maxId⟩, by simp only [mapValues, e1, e2]⟩

/-- The scheme of the code meets the conditions. -/
theorem c170_init : TextNames Scheme.init ∧ Scheme.init.delimiter.val < 128 := by
  have h : (Scheme.init.relations.all fun x =>
      utf8 (ascii x.startLabel) && utf8 (ascii x.targetLabel) && utf8 (ascii x.edgeLabel)) = true := by
    decide +kernel
  refine ⟨fun x hx => ?_, by decide⟩
  have := List.all_eq_true.1 h x hx
  simpa [and_assoc] using this

/-- A file with the byte 255 in a column from which nothing is taken, and one with it in the header. -/
def latinDir (header row : Byte) : List File :=
  [⟨"person_knows_person_0_0.csv", ascii "Person.id|Person.id|x" ++ [header, 10] ++ ascii "3|5|" ++ [row, 10]⟩]

set_option maxRecDepth 100000 in
/-- **C170.** A row that is not text stops the loading, though the graph would not depend on the column; a header that
is not text does not matter, and neither does a file that is not read. -/
theorem c170_refused :
    (Scheme.init.fromPath isDigit utf8 true (some (latinDir 65 255)) : Res (Option (GraphMap 9 9 Text Text))) =
      .ok none ∧
    (∃ g : GraphMap 9 9 Text Text, Scheme.init.fromPath isDigit utf8 true (some (latinDir 255 65)) = .ok (some g) ∧
      g.numEdges = 1) ∧
    (Scheme.init.fromPath isDigit utf8 true (some [⟨"readme.txt", [255, 10, 255, 10]⟩]) :
      Res (Option (GraphMap 9 9 Text Text))) = .ok (some (GraphMap.new true)) :=
  ⟨by rfl, ⟨_, by rfl, by rfl⟩, by rfl⟩

example : ∀ f ∈ ldbcDir, utf8 f.bytes = true := by decide +kernel

end Verif.Props
