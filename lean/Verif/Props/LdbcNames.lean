import Verif.Spec.LdbcNames
import Verif.Props.Ldbc

/-! C189: the names of LDBC files say what is read from them. -/

namespace Verif.Props

open Verif Verif.Spec Verif.Ldbc

set_option maxRecDepth 100000 in
theorem generated_end : ∀ X ∈ generated, EndsWell X.toList := by decide

set_option maxRecDepth 100000 in
theorem generated_starts : ∀ X ∈ starts, X ∈ generated := by decide

set_option maxRecDepth 100000 in
theorem generated_apart : ∀ x ∈ Scheme.init.relations, ∀ X ∈ generated, occurs x.start.toList X.toList = true →
    x.start = X := by decide

set_option maxRecDepth 100000 in
theorem generated_tail : ∀ n ∈ Scheme.init.nodes, ∀ X ∈ generated, n.start.toList.isPrefixOf X.toList = true →
    n.start = X ∨ ∃ c ∈ "abcdefghijklmnopqrstuvwxyz".toList,
      (X.toList.drop n.start.toList.length).head? = some c ∧
      4 ≤ (X.toList.drop n.start.toList.length).length ∧
      (X.toList.drop n.start.toList.length).tail.take 3 ≠ ['c', 's', 'v'] := by decide

/-- **C189.** Of the files of the generator a relation reads exactly those with its own start. -/
theorem c189_relation {digit : Char → Bool} (hd : DigitTable digit) {x : Relation}
    (hx : x ∈ Scheme.init.relations) {X name : String} (hX : X ∈ generated) (h : Canonical digit X name) :
    x.isMatch digit name = true ↔ x.start = X := by
  unfold Relation.isMatch
  constructor
  · intro hm
    obtain ⟨s, hs, hm⟩ := List.any_eq_true.1 hm
    obtain ⟨a, ha⟩ := (List.mem_tails _ _).1 hs
    unfold startMatches at hm
    rw [Bool.and_eq_true] at hm
    obtain ⟨b, hb⟩ := List.isPrefixOf_iff_prefix.1 hm.1
    obtain ⟨t, ht, hn⟩ := h
    apply generated_apart x hx X hX
    rw [occurs_iff]
    refine infix_canonical hd (generated_end X hX) (starts_end _ (relations_start x hx)) ht ⟨a, b, ?_⟩
    rw [← hn, ← ha, ← hb]
    simp
  · rintro rfl
    exact List.any_eq_true.2 ⟨name.toList, (List.mem_tails _ _).2 (List.suffix_refl _), start_canonical h⟩

/-- **C189.** So does a kind of node. -/
theorem c189_kind {digit : Char → Bool} (hd : DigitTable digit) {n : Node}
    (hx : n ∈ Scheme.init.nodes) {X name : String} (hX : X ∈ generated) (h : Canonical digit X name) :
    n.isMatch digit name = true ↔ n.start = X := by
  unfold Node.isMatch
  constructor
  · intro hm
    unfold startMatches at hm
    rw [Bool.and_eq_true] at hm
    obtain ⟨b, hb⟩ := List.isPrefixOf_iff_prefix.1 hm.1
    obtain ⟨t, ht, hn⟩ := h
    have hin := infix_canonical hd (generated_end X hX) (starts_end _ (nodes_start n hx)) ht
      ⟨[], b, by rw [← hn, ← hb]; simp⟩
    have hle := hin.length_le
    have hpre : n.start.toList <+: X.toList :=
      List.prefix_of_prefix_length_le (l₃ := X.toList ++ t ++ ['.', 'c', 's', 'v']) ⟨b, by rw [hb, hn]⟩
        ⟨t ++ ['.', 'c', 's', 'v'], by simp⟩ hle
    rcases generated_tail n hx X hX (List.isPrefixOf_iff_prefix.2 hpre) with e | ⟨c, hc, h1, h2, h3⟩
    · exact e
    · exfalso
      obtain ⟨R, hR⟩ := hpre
      rw [← hR, List.drop_left] at h1 h2 h3
      have hm2 := hm.2
      rw [hn, ← hR, List.append_assoc, List.append_assoc, List.drop_left] at hm2
      match R, h1, h2, h3 with
      | c0 :: c1 :: c2 :: c3 :: r, h1, h2, h3 =>
        cases h1
        rw [List.cons_append, tailMatches] at hm2
        have hno : ∀ c ∈ "abcdefghijklmnopqrstuvwxyz".toList, c ≠ '_' := by decide
        simp [hd c hc, hno c hc, List.isPrefixOf] at hm2
        simp at h3
        exact h3 hm2.2.1.symm hm2.2.2.1.symm hm2.2.2.2.symm
  · rintro rfl
    exact start_canonical h

set_option maxRecDepth 100000 in
theorem triples_relations : ∀ x ∈ triples,
    (⟨x.1, x.2.2, x.2.1, 0, 1, tripleStart x⟩ : Relation) ∈ Scheme.init.relations := by decide

set_option maxRecDepth 100000 in
theorem relations_triples : ∀ x ∈ Scheme.init.relations,
    x.start = tripleStart (x.startLabel, x.edgeLabel, x.targetLabel) ∧
    (x.startLabel, x.edgeLabel, x.targetLabel) ∈ triples ∧ x.startIndex = 0 ∧ x.targetIndex = 1 := by decide

set_option maxRecDepth 100000 in
theorem triples_generated : ∀ x ∈ triples, tripleStart x ∈ generated := by decide

/-- **C189.** In a directory as the generator makes it, the relations read are exactly those the names speak of: each
row of a file `source_relation_target_*.csv` is an edge from the source in the first column to the target in the second,
labelled with the relation; there are no others. -/
theorem c189_edges {digit : Char → Bool} (hd : DigitTable digit) {files : List File}
    (hc : ∀ f ∈ files, ∃ X ∈ generated, Canonical digit X f.name) (e : Event) (he : e.isEdge = true) :
    e ∈ events digit .init files ↔
      ∃ x ∈ triples, ∃ f ∈ files, Canonical digit (tripleStart x) f.name ∧ ∃ r ∈ body 124 f.bytes, e = tripleEvent x r := by
  have hdel : Scheme.init.delimiter = 124 := rfl
  unfold events
  rw [List.mem_append, hdel]
  simp only [List.mem_flatMap, List.mem_map, List.mem_filter]
  constructor
  · rintro (⟨n, -, f, -, r, -, rfl⟩ | ⟨x, hx, f, ⟨hf, hm⟩, r, hr, rfl⟩)
    · simp [nodeEvent, Event.isEdge] at he
    · obtain ⟨h1, h2, h3, h4⟩ := relations_triples x hx
      obtain ⟨X, hX, hcan⟩ := hc f hf
      refine ⟨_, h2, f, hf, ?_, r, hr, ?_⟩
      · rw [← h1, (c189_relation hd hx hX hcan).1 hm]
        exact hcan
      · unfold relEvent tripleEvent
        rw [h3, h4]
  · rintro ⟨x, hx, f, hf, hcan, r, hr, rfl⟩
    refine .inr ⟨_, triples_relations x hx, f, ⟨hf, ?_⟩, r, hr, rfl⟩
    exact (c189_relation hd (triples_relations x hx) (triples_generated x hx) hcan).2 rfl

/-- **C189.** Files of their own are read only for organisations and places: the label of an organisation is in the
second column, that of a place in the fourth. The files of persons, posts, comments, forums, tags and classes of tags,
and those of their mails and languages, are not looked at. -/
theorem c189_nodes {digit : Char → Bool} (hd : DigitTable digit) {files : List File}
    (hc : ∀ f ∈ files, ∃ X ∈ generated, Canonical digit X f.name) (key label : Text) :
    .node key label ∈ events digit .init files ↔
      ∃ f ∈ files, ∃ r ∈ body 124 f.bytes,
        (Canonical digit "organisation_" f.name ∧ key = ascii "organisation" ++ r.getD 0 [] ∧ label = r.getD 1 []) ∨
        (Canonical digit "place_" f.name ∧ key = ascii "place" ++ r.getD 0 [] ∧ label = r.getD 3 []) := by
  have hdel : Scheme.init.delimiter = 124 := rfl
  have hnodes : Scheme.init.nodes = [⟨"organisation", 0, 1, "organisation_"⟩, ⟨"place", 0, 3, "place_"⟩] := rfl
  have key' : ∀ n ∈ Scheme.init.nodes, ∀ f ∈ files, n.isMatch digit f.name = true ↔ Canonical digit n.start f.name := by
    intro n hn f hf
    obtain ⟨X, hX, hcan⟩ := hc f hf
    constructor
    · intro hm
      rw [(c189_kind hd hn hX hcan).1 hm]
      exact hcan
    · exact fun h => start_canonical h
  unfold events
  rw [List.mem_append, hdel]
  simp only [List.mem_flatMap, List.mem_map, List.mem_filter]
  constructor
  · rintro (⟨n, hn, f, ⟨hf, hm⟩, r, hr, e⟩ | ⟨x, hx, f, -, r, -, e⟩)
    · have hcan := (key' n hn f hf).1 hm
      rw [hnodes] at hn
      simp only [nodeEvent, Event.node.injEq] at e
      refine ⟨f, hf, r, hr, ?_⟩
      rcases List.mem_cons.1 hn with rfl | hn
      · exact .inl ⟨hcan, e.1.symm, e.2.symm⟩
      · rw [List.mem_singleton] at hn
        subst hn
        exact .inr ⟨hcan, e.1.symm, e.2.symm⟩
    · simp [relEvent] at e
  · rintro ⟨f, hf, r, hr, ⟨hcan, rfl, rfl⟩ | ⟨hcan, rfl, rfl⟩⟩
    · exact .inl ⟨⟨"organisation", 0, 1, "organisation_"⟩, by rw [hnodes]; simp, f, ⟨hf, start_canonical hcan⟩, r, hr, rfl⟩
    · exact .inl ⟨⟨"place", 0, 3, "place_"⟩, by rw [hnodes]; simp, f, ⟨hf, start_canonical hcan⟩, r, hr, rfl⟩

set_option maxRecDepth 100000 in
/-- **C189.** So a person is in the graph only through its relations. -/
theorem c189_unread {digit : Char → Bool} (hd : DigitTable digit) {f : File} {X : String}
    (hX : X ∈ ["comment_", "forum_", "person_", "post_", "tag_", "tagclass_"] ++ listFiles)
    (h : Canonical digit X f.name) (files files' : List File) :
    events digit .init (files ++ f :: files') = events digit .init (files ++ files') := by
  have hg : ∀ X ∈ ["comment_", "forum_", "person_", "post_", "tag_", "tagclass_"] ++ listFiles, X ∈ generated := by decide
  have hn : ∀ X ∈ ["comment_", "forum_", "person_", "post_", "tag_", "tagclass_"] ++ listFiles,
      ∀ n ∈ Scheme.init.nodes, n.start ≠ X := by decide
  have hr : ∀ X ∈ ["comment_", "forum_", "person_", "post_", "tag_", "tagclass_"] ++ listFiles,
      ∀ x ∈ Scheme.init.relations, x.start ≠ X := by decide
  unfold events
  congr 1
  · apply List.flatMap_congr
    intro n hn'
    have : n.isMatch digit f.name = false := by
      rw [Bool.eq_false_iff]
      exact fun hm => hn X hX n hn' ((c189_kind hd hn' (hg X hX) h).1 hm)
    rw [List.filter_append, List.filter_cons_of_neg (by simp [this]), ← List.filter_append]
  · apply List.flatMap_congr
    intro x hx'
    have : x.isMatch digit f.name = false := by
      rw [Bool.eq_false_iff]
      exact fun hm => hr X hX x hx' ((c189_relation hd hx' (hg X hX) h).1 hm)
    rw [List.filter_append, List.filter_cons_of_neg (by simp [this]), ← List.filter_append]

example : Canonical isDigit "person_knows_person_" "person_knows_person_0_0.csv" ∧ DigitTable isDigit :=
  ⟨⟨['0', '_', '0'], by decide, by decide⟩, by unfold DigitTable; decide⟩

end Verif.Props
