import Verif.Proof.LdbcNames
import Verif.Props.Csv

/-! Property theorems about loading LDBC data: C53, C54, C77, C78. -/

namespace Verif.Props

open GraphMap Spec Ldbc

variable {m k : Nat}

/-- Example files. -/
def ldbcFile (name : String) (rows : List String) : File :=
  ⟨name, (rows.map (fun r => ascii r ++ [10])).flatten⟩

/-- ASCII digits. -/
def isDigit (c : Char) : Bool := c.isDigit

/-- A small directory. -/
def ldbcDir : List File :=
  [ldbcFile "person_knows_person_0_0.csv" ["Person.id|Person.id|creationDate", "3|5|x", "5|7|y"],
   ldbcFile "readme.txt" ["nothing"],
   ldbcFile "person_isLocatedIn_place_0_0.csv" ["Person.id|Place.id", "3|1", "5|1"],
   ldbcFile "place_0_0.csv" ["id|name|url|type", "1|Rome|u|city", "2|Italy|u|country"]]

/-! ### C53 -/

/-- **C53.** A directory whose files can be read and that speaks of at most `m + 1` keys is loaded, provided
there are no more labels than label ids. With `ks` the distinct keys in the order in which they are first
mentioned, node `i` of the graph stands for `ks[i]`, there are no other nodes, and its label and edges are
those the records describe. -/
theorem c53_loaded {digit : Char → Bool} {utf8 : Text → Bool} {s : Scheme} {files : List File} (d : Bool)
    (hm : 0 < m) (h : AllReadable digit utf8 s files) (hlen : (firsts (events digit s files)).length ≤ m + 1)
    {nl el : List Text} (hnl : nl.length ≤ k + 1) (hel : el.length ≤ k + 1)
    (hn : ∀ e ∈ events digit s files, ∀ x ∈ e.nodeLabels, x ∈ nl)
    (he : ∀ e ∈ events digit s files, ∀ x ∈ e.edgeLabels, x ∈ el) :
    ∃ g : GraphMap m k Text Text, s.fromPath digit utf8 d (some files) = .ok (some g) ∧ Reachable g ∧
      g.directed = d ∧
      Shows g.view (numbered (firsts (events digit s files)) (described d (events digit s files))) ∧
      (firsts (events digit s files)).Nodup ∧
      (∀ i : Id m, g.hasNode i = true ↔ i.val < (firsts (events digit s files)).length) ∧
      (∀ key, key ∈ firsts (events digit s files) ↔ ∃ e ∈ events digit s files, key ∈ e.keys) := by
  obtain ⟨st, ops, h1, h2⟩ := events_ok hm (events digit s files) (linv_start (m := m) (k := k) d nl el) hn he hlen
  obtain ⟨g, b1, b2, b3, b4, -⟩ := build_shows (m := m) (k := k) d ops h2.adds hnl hel h2.nlabs h2.elabs
  have hg : g = st.graph := by
    have := b1.symm.trans h2.run
    exact Except.ok.inj this
  subst hg
  have hA : Spec.run d ops = numbered (firsts (events digit s files)) (described d (events digit s files)) :=
    AGraph_ext h2.node h2.edge
  have S := hA ▸ b4
  refine ⟨st.graph, by rw [fromPath_good h, h1, bind_ok]; rfl, b3.reachable List.nodup_nil List.nodup_nil, b2, S,
    h2.nodup, ?_, ?_⟩
  · intro i
    have e : st.graph.view.hasNode i = st.graph.hasNode i := rfl
    rw [← e, S.hasNode i]
    show ((firsts (events digit s files))[i.val]?.bind (described d (events digit s files)).node).isSome = true ↔ _
    constructor
    · intro hs
      by_contra hc
      rw [List.getElem?_eq_none (by omega)] at hs
      cases hs
    · intro hs
      rw [List.getElem?_eq_getElem hs]
      exact (h2.mem _).2 (List.getElem_mem hs)
  · intro key
    unfold firsts
    rw [foldl_mention_mem, List.mem_flatMap]
    simp

/-- The conditions are needed: what is loaded was readable and had few enough keys. -/
theorem c53_needed {digit : Char → Bool} {utf8 : Text → Bool} {s : Scheme} {files : List File} {d : Bool}
    (hm : 0 < m) {g : GraphMap m k Text Text} (h : s.fromPath digit utf8 d (some files) = .ok (some g)) :
    AllReadable digit utf8 s files ∧ (firsts (events digit s files)).length ≤ m + 1 := by
  refine ⟨fromPath_readable h, ?_⟩
  by_contra hc
  rw [fromPath_good (fromPath_readable h), events_over hm _
    (linv_start (m := m) (k := k) d ((events digit s files).flatMap Event.nodeLabels)
      ((events digit s files).flatMap Event.edgeLabels))
    (fun e he x hx => List.mem_flatMap.2 ⟨e, he, hx⟩) (fun e he x hx => List.mem_flatMap.2 ⟨e, he, hx⟩)
    (by show m + 1 < (firsts (events digit s files)).length; omega), bind_error] at h
  cases h

/-- With more keys than ids the next id overflows. -/
theorem c53_too_many {digit : Char → Bool} {utf8 : Text → Bool} {s : Scheme} {files : List File} (d : Bool)
    (hm : 0 < m) (h : AllReadable digit utf8 s files)
    (hlen : m + 1 < (firsts (events digit s files)).length) :
    (s.fromPath digit utf8 d (some files) : Res (Option (GraphMap m k Text Text))) = .error .overflow := by
  rw [fromPath_good h, events_over hm _
    (linv_start (m := m) (k := k) d ((events digit s files).flatMap Event.nodeLabels)
      ((events digit s files).flatMap Event.edgeLabels))
    (fun e he x hx => List.mem_flatMap.2 ⟨e, he, hx⟩) (fun e he x hx => List.mem_flatMap.2 ⟨e, he, hx⟩)
    hlen, bind_error]

/-- The number of a key is settled when it is first mentioned: what comes later does not change it. -/
theorem c53_order (es es' : List Event) : firsts es <+: firsts (es ++ es') := by
  unfold firsts
  rw [List.flatMap_append, List.foldl_append]
  exact foldl_mention_prefix _ _

/-- What the records describe: a node has the label of its last node record, or else the kind under which a
relation record first speaks of it; … -/
theorem c53_labels (d : Bool) (es : List Event) (key : Text) :
    (described d es).node key =
      ((es.reverse.findSome? (Event.names key)).or (es.findSome? (Event.kind key))).map some :=
  described_node d es key

/-- … and every record is represented. -/
theorem c53_represented (d : Bool) (es : List Event) {e : Event} (he : e ∈ es) :
    (∀ key ∈ e.keys, ((described d es).node key).isSome = true) ∧
    (∀ s ks t kt l, e = .edge s ks t kt l → ((described d es).edge s t).isSome = true) := by
  constructor
  · intro key hk
    rw [described_node, Option.isSome_map, Option.isSome_or, Bool.or_eq_true]
    cases e with
    | node k l =>
      left
      rw [List.findSome?_isSome_iff]
      refine ⟨_, List.mem_reverse.2 he, ?_⟩
      simp [Event.keys] at hk
      simp [Event.names, hk]
    | edge s ks t kt l =>
      right
      rw [List.findSome?_isSome_iff]
      refine ⟨_, he, ?_⟩
      simp [Event.keys] at hk
      simp only [Event.kind]
      rcases hk with rfl | rfl
      · simp
      · split <;> simp
  · rintro s ks t kt l rfl
    rw [described_edge, Option.isSome_map, List.findSome?_isSome_iff]
    refine ⟨_, List.mem_reverse.2 he, ?_⟩
    simp [Event.joins, AGraph.same]

/-- The kinds of the scheme. -/
def kinds : List String :=
  Scheme.init.nodes.map (·.name) ++ Scheme.init.relations.flatMap (fun x => [x.startLabel, x.targetLabel])

/-- A text of digits. -/
def Digits (f : Text) : Prop := ∀ c ∈ f, 48 ≤ c.val ∧ c.val ≤ 57

set_option maxRecDepth 100000 in
/-- Kind and number can be read off a key. -/
theorem c53_injective {a b : String} (ha : a ∈ kinds) (hb : b ∈ kinds) {f f' : Text} (hf : Digits f)
    (hf' : Digits f') (h : ascii a ++ f = ascii b ++ f') : a = b ∧ f = f' := by
  have hno : ∀ a ∈ kinds, ∀ c ∈ ascii a, ¬(48 ≤ c.val ∧ c.val ≤ 57) := by decide
  have hinj : ∀ a ∈ kinds, ∀ b ∈ kinds, ascii a = ascii b → a = b := by decide
  have htake : ∀ (p g : Text), (∀ c ∈ p, ¬(48 ≤ c.val ∧ c.val ≤ 57)) → Digits g →
      (p ++ g).takeWhile (fun c => !decide (48 ≤ c.val ∧ c.val ≤ 57)) = p := by
    intro p g hp hg
    rw [List.takeWhile_append_of_pos (by intro c hc; simp only [hp c hc]; rfl)]
    cases g with
    | nil => simp
    | cons c g =>
      rw [List.takeWhile_cons_of_neg (by simpa using hg c (by simp))]
      simp
  have e : ascii a = ascii b := by
    rw [← htake _ f (hno a ha) hf, ← htake _ f' (hno b hb) hf', h]
  refine ⟨hinj a ha b hb e, ?_⟩
  rw [e] at h
  exact List.append_cancel_left h

/-- Other ids can collide: tag `class5` and tag class `5`. -/
theorem c53_collision : ascii "tag" ++ ascii "class5" = ascii "tagclass" ++ ascii "5" := by decide

set_option maxRecDepth 100000 in
example : AllReadable isDigit (fun _ => true) .init ldbcDir ∧
    firsts (events isDigit .init ldbcDir) = ["place1", "place2", "person3", "person5", "person7"].map ascii := by
  unfold AllReadable Readable
  decide

/-! ### C54 -/

/-- How `edge_count` comes about: a row counts once for every relation that reads its file. -/
theorem c54_edge_count {digit : Char → Bool} {utf8 : Text → Bool} {s : Scheme} {files : List File} {d : Bool}
    (hm : 0 < m) {g : GraphMap m k Text Text} (h : s.fromPath digit utf8 d (some files) = .ok (some g)) :
    g.edgeCount = (files.map (fun f => (body s.delimiter f.bytes).length *
      (s.relations.filter (fun x => x.isMatch digit f.name)).length)).sum := by
  obtain ⟨h1, h2⟩ := c53_needed hm h
  obtain ⟨st, ops, h3, h4⟩ := events_ok hm (events digit s files)
    (linv_start (m := m) (k := k) d ((events digit s files).flatMap Event.nodeLabels)
      ((events digit s files).flatMap Event.edgeLabels))
    (fun e he x hx => List.mem_flatMap.2 ⟨e, he, hx⟩) (fun e he x hx => List.mem_flatMap.2 ⟨e, he, hx⟩) h2
  rw [fromPath_good h1, h3, bind_ok] at h
  cases h
  have hc := h4.count
  rw [Nat.zero_add, edges_count] at hc
  rw [← hc]
  obtain ⟨g, a1, -, a3, -⟩ := exec_adds ops (new d : GraphMap m k Text Text)
    (inv_withLabelMap d _ _ List.nodup_nil List.nodup_nil) h4.adds
  have := a1.symm.trans h4.run
  cases this
  show st.graph.numEdges = _
  rw [a3]
  simp [new, withLabelMap]

/-- **C54**, for directories in which no file is read by two relations: `edge_count` is the number of rows of
relation files. Missing: the files of the two relations the scheme has twice, for which it is false. -/
theorem c54_once_partial {digit : Char → Bool} {utf8 : Text → Bool} {s : Scheme} {files : List File} {d : Bool}
    (hm : 0 < m) {g : GraphMap m k Text Text} (h : s.fromPath digit utf8 d (some files) = .ok (some g))
    (h1 : ∀ f ∈ files, (s.relations.filter (fun x => x.isMatch digit f.name)).length ≤ 1) :
    g.edgeCount = relationRows digit s files := by
  rw [c54_edge_count hm h]
  unfold relationRows
  clear h
  induction files with
  | nil => rfl
  | cons f fs ih =>
    have hf := h1 f (by simp)
    rw [List.map_cons, List.sum_cons, ih (fun f hm => h1 f (by simp [hm])), List.filter_cons]
    cases hany : s.relations.any (fun x => x.isMatch digit f.name) with
    | false =>
      have : s.relations.filter (fun x => x.isMatch digit f.name) = [] := by
        rw [List.filter_eq_nil_iff]
        intro x hx hc
        rw [List.any_eq_false] at hany
        exact hany x hx hc
      rw [this]
      simp
    | true =>
      obtain ⟨x, hx, hmx⟩ := List.any_eq_true.1 hany
      have : 0 < (s.relations.filter (fun x => x.isMatch digit f.name)).length :=
        List.length_pos_of_mem (List.mem_filter.2 ⟨hx, hmx⟩)
      have e : (s.relations.filter (fun x => x.isMatch digit f.name)).length = 1 := by omega
      rw [e]
      simp

/-- The two relations that the scheme has twice. -/
def doubled : List String := ["forum_containerOf_post_", "forum_hasModerator_person_"]

set_option maxRecDepth 100000 in
/-- Files with the names LDBC's generator gives them: those of the two doubled relations count twice. -/
theorem c54_doubled {digit : Char → Bool} (hd : DigitTable digit) {utf8 : Text → Bool} {files : List File}
    {d : Bool} (hm : 0 < m) {g : GraphMap m k Text Text}
    (h : Scheme.init.fromPath digit utf8 d (some files) = .ok (some g))
    (hc : ∀ f ∈ files, ∃ X ∈ starts, Canonical digit X f.name) :
    g.edgeCount = relationRows digit .init files +
      ((files.filter (fun f => doubled.any (fun X => startMatches digit X f.name.toList))).map
        (fun f => (body 124 f.bytes).length)).sum := by
  rw [c54_edge_count hm h]
  unfold relationRows
  clear h
  induction files with
  | nil => rfl
  | cons f fs ih =>
    obtain ⟨X, hX, hcan⟩ := hc f (by simp)
    have hmatch : ∀ x ∈ Scheme.init.relations, x.isMatch digit f.name = decide (x.start = X) := by
      intro x hx
      rw [Bool.eq_iff_iff, relation_match hd hx hX hcan, decide_eq_true_iff]
    have e1 : Scheme.init.relations.filter (fun x => x.isMatch digit f.name) =
        Scheme.init.relations.filter (fun x => decide (x.start = X)) :=
      List.filter_congr hmatch
    have e2 : Scheme.init.relations.any (fun x => x.isMatch digit f.name) =
        Scheme.init.relations.any (fun x => decide (x.start = X)) := by
      rw [Bool.eq_iff_iff, List.any_eq_true, List.any_eq_true]
      exact exists_congr (fun x => and_congr_right (fun hx => by rw [hmatch x hx]))
    have e3 : doubled.any (fun Y => startMatches digit Y f.name.toList) = doubled.any (fun Y => decide (Y = X)) := by
      rw [Bool.eq_iff_iff, List.any_eq_true, List.any_eq_true]
      refine exists_congr (fun Y => and_congr_right (fun hY => ?_))
      have hrel : ∀ Y ∈ doubled, ∃ x ∈ Scheme.init.relations, x.start = Y := by decide
      obtain ⟨x, hx, rfl⟩ := hrel Y hY
      rw [decide_eq_true_iff]
      constructor
      · intro hs
        refine (relation_match hd hx hX hcan).1 ?_
        exact List.any_eq_true.2 ⟨_, (List.mem_tails _ _).2 (List.suffix_refl _), hs⟩
      · rintro rfl
        exact start_canonical hcan
    rw [List.map_cons, List.sum_cons, ih (fun f hm => hc f (by simp [hm])), List.filter_cons, List.filter_cons,
      e1, e2, e3]
    have hdel : Scheme.init.delimiter = 124 := rfl
    rw [hdel]
    have key : ∀ X ∈ starts, (Scheme.init.relations.filter (fun x => decide (x.start = X))).length =
        (if Scheme.init.relations.any (fun x => decide (x.start = X)) then 1 else 0) +
        (if doubled.any (fun Y => decide (Y = X)) then 1 else 0) := by decide
    rw [key X hX]
    split <;> split <;> simp <;> omega

/-- Reading them twice does not change the graph: with every relation once the records describe the same. -/
theorem c54_same_graph (digit : Char → Bool) (d : Bool) (files : List File) :
    described d (events digit .init files) = described d (events digit once files) ∧
    firsts (events digit .init files) = firsts (events digit once files) := by
  have hrel : Scheme.init.relations = Scheme.init.relations.take 5 ++
      ([⟨"forum", "post", "containerOf", 0, 1, "forum_containerOf_post_"⟩] ++
        [⟨"forum", "post", "containerOf", 0, 1, "forum_containerOf_post_"⟩]) ++
      (((Scheme.init.relations.drop 7).take 1) ++
      ([⟨"forum", "person", "hasModerator", 0, 1, "forum_hasModerator_person_"⟩] ++
        [⟨"forum", "person", "hasModerator", 0, 1, "forum_hasModerator_person_"⟩]) ++
      (Scheme.init.relations.drop 10)) := rfl
  have honce : once.relations = Scheme.init.relations.take 5 ++
      [⟨"forum", "post", "containerOf", 0, 1, "forum_containerOf_post_"⟩] ++
      (((Scheme.init.relations.drop 7).take 1) ++
      [⟨"forum", "person", "hasModerator", 0, 1, "forum_hasModerator_person_"⟩] ++
      (Scheme.init.relations.drop 10)) := by decide
  have := twice_twice d (Scheme.init.nodes.flatMap (fun n => (files.filter (fun f =>
      n.isMatch digit f.name)).flatMap (fun f => (body Scheme.init.delimiter f.bytes).map (nodeEvent n))))
    (fun x => (files.filter (fun f => x.isMatch digit f.name)).flatMap
      (fun f => (body Scheme.init.delimiter f.bytes).map (relEvent x))) (by
        intro x e he
        simp only [List.mem_flatMap, List.mem_map] at he
        obtain ⟨f, -, r, -, rfl⟩ := he
        exact ⟨_, _, _, _, rfl⟩) (Scheme.init.relations.take 5) ((Scheme.init.relations.drop 7).take 1)
    (Scheme.init.relations.drop 10) ⟨"forum", "post", "containerOf", 0, 1, "forum_containerOf_post_"⟩
    ⟨"forum", "person", "hasModerator", 0, 1, "forum_hasModerator_person_"⟩
  rw [← hrel, ← honce] at this
  exact this

/-- A directory with one row of a doubled relation. -/
def forumDir : List File :=
  [ldbcFile "forum_containerOf_post_0_0.csv" ["Forum.id|Post.id", "1|2"]]

set_option maxRecDepth 100000 in
/-- **C54** is false: one row, one edge, `edge_count` 2. -/
theorem c54_twice : ∃ g : GraphMap 9 9 Text Text,
    Scheme.init.fromPath isDigit (fun _ => true) true (some forumDir) = .ok (some g) ∧
    relationRows isDigit .init forumDir = 1 ∧ g.view.edgeIndices.length = 1 ∧ g.edgeCount = 2 := by
  have h : (match (Scheme.init.fromPath isDigit (fun _ => true) true (some forumDir) :
      Res (Option (GraphMap 9 9 Text Text))) with
    | .ok (some g) => decide (relationRows isDigit .init forumDir = 1 ∧ g.view.edgeIndices.length = 1 ∧
        g.edgeCount = 2)
    | _ => false) = true := by decide
  split at h
  · rename_i g hg
    exact ⟨g, hg, of_decide_eq_true h⟩
  · cases h

set_option maxRecDepth 100000 in
example : ∃ X ∈ starts, Canonical isDigit X "forum_containerOf_post_0_0.csv" :=
  ⟨"forum_containerOf_post_", by decide, "0_0".toList, by decide, by decide⟩

example : DigitTable isDigit := by unfold DigitTable; decide

/-! ### C77 -/

/-- **C77.** Of several relation records about the same two nodes the last one in reading order — nodes and
relations of the scheme in order, files in the order of the directory — decides the label of their only edge. -/
theorem c77_last_wins {digit : Char → Bool} {utf8 : Text → Bool} {s : Scheme} {files : List File} {d : Bool}
    (hm : 0 < m) {g : GraphMap m k Text Text} (h : s.fromPath digit utf8 d (some files) = .ok (some g))
    {nl el : List Text} (hnl : nl.length ≤ k + 1) (hel : el.length ≤ k + 1)
    (hn : ∀ e ∈ events digit s files, ∀ x ∈ e.nodeLabels, x ∈ nl)
    (he : ∀ e ∈ events digit s files, ∀ x ∈ e.edgeLabels, x ∈ el) {i j : Id m} {a b : Text}
    (ha : (firsts (events digit s files))[i.val]? = some a)
    (hb : (firsts (events digit s files))[j.val]? = some b) (hij : d = true ∨ i ≤ j) :
    match (events digit s files).reverse.findSome? (Event.joins d a b) with
    | some l => g.hasEdge i j = true ∧ g.view.getEdgeLabel i j = .ok (some l)
    | none => g.hasEdge i j = false := by
  obtain ⟨h1, h2⟩ := c53_needed hm h
  obtain ⟨g', e1, e2, e3, S, -⟩ := c53_loaded (m := m) (k := k) d hm h1 h2 hnl hel hn he
  rw [h] at e1
  cases e1
  have hE : (numbered (firsts (events digit s files)) (described d (events digit s files)) :
      AGraph (Id m) Text Text).edge i j =
      ((events digit s files).reverse.findSome? (Event.joins d a b)).map some := by
    rw [← described_edge]
    show ((firsts (events digit s files))[i.val]?).bind _ = _
    rw [ha, Option.bind_some]
    rw [hb, Option.bind_some]
  have hN : ((numbered (firsts (events digit s files)) (described d (events digit s files)) :
      AGraph (Id m) Text Text).node i).isSome = true := by
    show (((firsts (events digit s files))[i.val]?).bind _).isSome = true
    rw [ha, Option.bind_some]
    have := List.mem_of_getElem? ha
    unfold firsts at this
    rw [foldl_mention_mem, List.mem_flatMap] at this
    simp at this
    obtain ⟨e, hm1, hm2⟩ := this
    exact (c53_represented d _ hm1).1 a hm2
  have hh := S.hasEdge i j hN
  rw [hE] at hh
  have hh : (Except.ok (g.hasEdge i j) : Res Bool) = _ := hh
  cases hf : (events digit s files).reverse.findSome? (Event.joins d a b) with
  | none =>
    rw [hf] at hh
    simpa using hh
  | some l =>
    rw [hf] at hh hE
    refine ⟨by simpa using hh, S.edgeLabel i j _ hE ?_⟩
    rwa [show g.view.directed = d from e3]

/-- A person who studies and works at the same organisation. -/
def personDir : List File :=
  [ldbcFile "person_workAt_organisation_0_0.csv" ["Person.id|Organisation.id|workFrom", "1|2|2000"],
   ldbcFile "person_studyAt_organisation_0_0.csv" ["Person.id|Organisation.id|classYear", "1|2|1999"]]

set_option maxRecDepth 100000 in
/-- So relations are lost: `studyAt` comes before `workAt` in the scheme, and is overwritten. -/
theorem c77_lost : ∃ g : GraphMap 9 9 Text Text,
    Scheme.init.fromPath isDigit (fun _ => true) true (some personDir) = .ok (some g) ∧
    g.view.getEdgeLabel 0 1 = .ok (some (ascii "workAt")) ∧ g.view.edgeIndices = [(0, 1)] ∧
    g.edgeCount = 2 := by
  have h : (match (Scheme.init.fromPath isDigit (fun _ => true) true (some personDir) :
      Res (Option (GraphMap 9 9 Text Text))) with
    | .ok (some g) => decide (g.view.getEdgeLabel 0 1 = .ok (some (ascii "workAt")) ∧
        g.view.edgeIndices = [(0, 1)] ∧ g.edgeCount = 2)
    | _ => false) = true := by decide
  split at h
  · rename_i g hg
    exact ⟨g, hg, of_decide_eq_true h⟩
  · cases h

set_option maxRecDepth 100000 in
/-- And with ids of type `()` there is only one node. -/
theorem c53_unit_id : ∃ g : GraphMap 0 9 Text Text,
    Scheme.init.fromPath isDigit (fun _ => true) true (some personDir) = .ok (some g) ∧
    g.view.nodeIndices = [0] ∧ g.view.edgeIndices = [(0, 0)] ∧
    (firsts (events isDigit .init personDir)).length = 2 := by
  have h : (match (Scheme.init.fromPath isDigit (fun _ => true) true (some personDir) :
      Res (Option (GraphMap 0 9 Text Text))) with
    | .ok (some g) => decide (g.view.nodeIndices = [0] ∧ g.view.edgeIndices = [(0, 0)] ∧
        (firsts (events isDigit .init personDir)).length = 2)
    | _ => false) = true := by decide
  split at h
  · rename_i g hg
    exact ⟨g, hg, of_decide_eq_true h⟩
  · cases h

/-! ### C78 -/

/-- **C78.** What loading a directory comes to, if every file that is read has the columns that are read: too
many keys before the first bad row and it panics; else a bad row, wherever it is, and the call returns an error
and no graph; else there is a graph. -/
theorem c78_outcome {digit : Char → Bool} (utf8 : Text → Bool) {s : Scheme} {files : List File}
    (hc : Columns digit s files) (hm : 0 < m) (d : Bool) :
    (m + 1 < (firsts (before (reads digit utf8 s files))).length →
      (s.fromPath digit utf8 d (some files) : Res (Option (GraphMap m k Text Text))) = .error .overflow) ∧
    ((firsts (before (reads digit utf8 s files))).length ≤ m + 1 → none ∈ reads digit utf8 s files →
      (s.fromPath digit utf8 d (some files) : Res (Option (GraphMap m k Text Text))) = .ok none) ∧
    ((firsts (before (reads digit utf8 s files))).length ≤ m + 1 → none ∉ reads digit utf8 s files →
      ∃ g : GraphMap m k Text Text, s.fromPath digit utf8 d (some files) = .ok (some g)) := by
  have hs := linv_start (m := m) (k := k) d ((before (reads digit utf8 s files)).flatMap Event.nodeLabels)
    ((before (reads digit utf8 s files)).flatMap Event.edgeLabels)
  have l1 : ∀ e ∈ before (reads digit utf8 s files), ∀ x ∈ e.nodeLabels,
      x ∈ (before (reads digit utf8 s files)).flatMap Event.nodeLabels :=
    fun e he x hx => List.mem_flatMap.2 ⟨e, he, hx⟩
  have l2 : ∀ e ∈ before (reads digit utf8 s files), ∀ x ∈ e.edgeLabels,
      x ∈ (before (reads digit utf8 s files)).flatMap Event.edgeLabels :=
    fun e he x hx => List.mem_flatMap.2 ⟨e, he, hx⟩
  rw [fromPath_reads utf8 hc]
  refine ⟨fun h => ?_, fun h hb => ?_, fun h hb => ?_⟩
  · rw [events_over hm _ hs l1 l2 h, bind_error]
  · obtain ⟨st, ops, h1, -⟩ := events_ok hm _ hs l1 l2 h
    rw [h1, bind_ok, if_pos hb]
    rfl
  · obtain ⟨st, ops, h1, -⟩ := events_ok hm _ hs l1 l2 h
    rw [h1, bind_ok, if_neg hb]
    exact ⟨_, rfl⟩

/-- Without bad rows the rows are the events of C53. -/
theorem c78_events {digit : Char → Bool} {utf8 : Text → Bool} {s : Scheme} {files : List File}
    (h : none ∉ reads digit utf8 s files) : before (reads digit utf8 s files) = events digit s files :=
  before_reads h

/-- A path that is no directory panics. -/
theorem c78_no_directory (digit : Char → Bool) (utf8 : Text → Bool) (s : Scheme) (d : Bool) :
    (s.fromPath digit utf8 d none : Res (Option (GraphMap m k Text Text))) = .error .explicit := rfl

/-- `read_ldbc_from_path` gives the graph, or panics. -/
theorem c78_read_from_path (digit : Char → Bool) (utf8 : Text → Bool) (d : Bool) (dir : Option (List File))
    (g : GraphMap m k Text Text) :
    (readFromPath digit utf8 d dir = .ok g ↔ Scheme.init.fromPath digit utf8 d dir = .ok (some g)) ∧
    (Scheme.init.fromPath digit utf8 d dir = .ok (none : Option (GraphMap m k Text Text)) →
      (readFromPath digit utf8 d dir : Res (GraphMap m k Text Text)) = .error .unwrapNone) := by
  unfold readFromPath
  cases (Scheme.init.fromPath digit utf8 d dir : Res (Option (GraphMap m k Text Text))) with
  | error e => exact ⟨⟨fun h => (by cases h), fun h => (by cases h)⟩, fun h => (by cases h)⟩
  | ok o =>
    cases o with
    | none => exact ⟨⟨fun h => (by cases h), fun h => (by cases h)⟩, fun _ => rfl⟩
    | some g' =>
      refine ⟨⟨fun h => ?_, fun h => ?_⟩, fun h => (by cases h)⟩
      · cases h; rfl
      · cases h; rfl

/-- A directory with a short row at its end. -/
def badDir : List File :=
  [ldbcFile "person_knows_person_0_0.csv" ["Person.id|Person.id", "3|5", "5"]]

set_option maxRecDepth 100000 in
example : Columns isDigit .init badDir ∧ none ∈ reads isDigit (fun _ => true) .init badDir ∧
    (firsts (before (reads isDigit (fun _ => true) .init badDir))).length = 2 := by
  unfold Columns
  decide

set_option maxRecDepth 100000 in
/-- A file with too few columns panics at its first row. -/
theorem c78_short_header : (Scheme.init.fromPath isDigit (fun _ => true) true
    (some [ldbcFile "place_0_0.csv" ["id|name", "1|Rome"]]) : Res (Option (GraphMap 9 9 Text Text))) =
      .error .indexOutOfBounds := by rfl

end Verif.Props
