import Verif.Props.Gen
import Verif.Props.CsvFiles
import Verif.Props.Equality2

/-! C111: the randomised tests of the repository (tests/graph_gen.rs, tests/io.rs) pass whatever the random
source yields, and with any numbers of nodes and edges and any label lists in place of the ones chosen there. -/

namespace Verif.Props

open GraphMap Spec Csv Gen

variable {m k : Nat} {NL EL : Type} [DecidableEq NL] [DecidableEq EL]

/-- Two views of one abstract graph are `==`. -/
theorem typedEq_same {g h : GView m k NL EL} {A : AGraph (Id m) NL EL} (hg : Shows g A) (hh : Shows h A)
    (hd : g.directed = h.directed) (hn : g.nodeCount + h.nodeCount < 2 ^ 64 - 1)
    (he : g.edgeCount + h.edgeCount < 2 ^ 64 - 1) : g.typedEq h = .ok true := by
  obtain ⟨b, h1, h2⟩ := c61_eq_is_containment hg hh hd hn he
  rw [h1, h2.2 ⟨fun _ _ h => h, fun _ _ _ h => h⟩]

/-- Without labels to choose from, generated graphs with the same edges are one abstract graph. -/
theorem generated_unlabelled {d : Bool} {n c c' : Nat} {g h : GraphMap m k NL EL} {A B : AGraph (Id m) NL EL}
    (hg : Generated d n c [] [] g A) (hh : Generated d n c' [] [] h B)
    (he : ∀ s t, (A.edge s t).isSome ↔ (B.edge s t).isSome) : A = B := by
  obtain ⟨-, -, -, a1, -, ⟨a2, a3⟩, -⟩ := hg
  obtain ⟨-, -, -, b1, -, ⟨b2, b3⟩, -⟩ := hh
  have t : ∀ {X : Type} {o : Option X}, TakenFrom [] o → o = none := by
    rintro X o (⟨-, h⟩ | ⟨x, hx, -⟩)
    · exact h
    · cases hx
  apply AGraph_ext
  · intro x
    have := (a1 x).trans (b1 x).symm
    cases ha : A.node x with
    | none => cases hb : B.node x with
      | none => rfl
      | some l => simp [ha, hb] at this
    | some l => cases hb : B.node x with
      | none => simp [ha, hb] at this
      | some l' => rw [t (a2 x l ha), t (b2 x l' hb)]
  · intro s u
    have := he s u
    cases ha : A.edge s u with
    | none => cases hb : B.edge s u with
      | none => rfl
      | some l => simp [ha, hb] at this
    | some l => cases hb : B.edge s u with
      | none => simp [ha, hb] at this
      | some l' => rw [t (a3 s u l ha), t (b3 s u l' hb)]

/-- **C111** (tests/graph_gen.rs:34-35). `random_gnp_graph_unlabeled(n, 0) == empty_graph_unlabeled(n)`, in
both directions, whatever the two calls draw. -/
theorem c111_gnp_zero (d : Bool) {n : Nat} (hn : n ≤ m + 1) (hs : n < 2 ^ 62) (r₁ r₂ : Rng) :
    ∃ (g h : GraphMap m k NL EL) (r₁' r₂' : Rng), gnp d n (.fin 0) [] [] r₁ = .ok (g, r₁') ∧
      emptyGraph d n [] [] r₂ = .ok (h, r₂') ∧ g.view.typedEq h.view = .ok true ∧
      h.view.typedEq g.view = .ok true := by
  obtain ⟨g, r', A, c, a1, a2, a3, -⟩ := c45_gnp_partial (m := m) (k := k) d hn (le_refl (0 : ℚ)) (by norm_num)
    ([] : List NL) ([] : List EL) r₁
  obtain ⟨h, r2', B, b1, b2, b3⟩ := c43_empty_graph (m := m) (k := k) d hn ([] : List NL) ([] : List EL) r₂
  obtain ⟨rfl, a4⟩ := a3 rfl
  obtain rfl := generated_unlabelled a2 b2 (fun s t => by rw [a4, b3])
  obtain ⟨-, S1, d1, -, -, -, n1, e1, -⟩ := a2
  obtain ⟨-, S2, d2, -, -, -, n2, e2, -⟩ := b2
  have n1 : g.view.nodeCount = n := n1
  have n2 : h.view.nodeCount = n := n2
  have e1 : g.view.edgeCount = 0 := e1
  have e2 : h.view.edgeCount = 0 := e2
  exact ⟨g, h, r', r2', a1, b1,
    typedEq_same S1 S2 (d1.trans d2.symm) (by omega) (by omega),
    typedEq_same S2 S1 (d2.trans d1.symm) (by omega) (by omega)⟩

/-- **C111** (tests/graph_gen.rs:37-38). `random_gnp_graph_unlabeled(n, 1) == complete_graph_unlabeled(n)`, in
both directions, whatever the two calls draw. -/
theorem c111_gnp_one (d : Bool) {n : Nat} (hn : n ≤ m + 1) (hs : n < 2 ^ 31) (r₁ r₂ : Rng) :
    ∃ (g h : GraphMap m k NL EL) (r₁' r₂' : Rng), gnp d n (.fin 1) [] [] r₁ = .ok (g, r₁') ∧
      completeGraph d n [] [] r₂ = .ok (h, r₂') ∧ g.view.typedEq h.view = .ok true ∧
      h.view.typedEq g.view = .ok true := by
  obtain ⟨g, r', A, c, a1, a2, -, a3⟩ := c45_gnp_partial (m := m) (k := k) d hn (by norm_num) (le_refl (1 : ℚ))
    ([] : List NL) ([] : List EL) r₁
  obtain ⟨h, r2', B, b1, b2, b3⟩ := c43_complete_graph (m := m) (k := k) d hn ([] : List NL) ([] : List EL) r₂
  obtain ⟨rfl, a4⟩ := a3 rfl
  obtain rfl := generated_unlabelled a2 b2 (fun s t => by rw [a4, b3])
  obtain ⟨-, S1, d1, -, -, -, n1, e1, -⟩ := a2
  obtain ⟨-, S2, d2, -, -, -, n2, e2, -⟩ := b2
  have n1 : g.view.nodeCount = n := n1
  have n2 : h.view.nodeCount = n := n2
  have hb : n * (n - 1) < 2 ^ 62 := by
    calc n * (n - 1) ≤ n * n := Nat.mul_le_mul_left _ (by omega)
      _ < 2 ^ 31 * 2 ^ 31 := Nat.mul_lt_mul'' hs hs
      _ = 2 ^ 62 := by norm_num
  have e1 : g.view.edgeCount ≤ n * (n - 1) := by
    rw [show g.view.edgeCount = _ from e1]
    unfold possibleEdges
    split
    · exact le_refl _
    · exact Nat.div_le_self _ _
  have e2 : h.view.edgeCount ≤ n * (n - 1) := by
    rw [show h.view.edgeCount = _ from e2]
    split
    · exact le_refl _
    · exact Nat.div_le_self _ _
  exact ⟨g, h, r', r2', a1, b1,
    typedEq_same S1 S2 (d1.trans d2.symm) (by omega) (by omega),
    typedEq_same S2 S1 (d2.trans d1.symm) (by omega) (by omega)⟩

/-- **C111** (tests/graph_gen.rs:42-52). `random_gnm_graph_unlabeled(n, c)` has `n` nodes and `c` edges, for
both kinds of graphs and whatever is drawn, provided so many edges are possible. -/
theorem c111_gnm (d : Bool) {n c : Nat} (hn : n ≤ m + 1) (hc : c ≤ possibleEdges d n) (r : Rng) :
    ∃ (g : GraphMap m k NL EL) (r' : Rng), gnm d n c [] [] r = .ok (g, r') ∧ g.nodeCount = n ∧
      g.edgeCount = c := by
  obtain ⟨g, r', A, h, -, -, -, -, -, -, h1, h2, -⟩ := c44_gnm (m := m) (k := k) d hn hc ([] : List NL)
    ([] : List EL) r
  exact ⟨g, r', h, h1, h2⟩

/-- Files written by `write_to_csv` and read by `read_from_csv` into an empty graph whose label tables are
filled already: the same graph, if the labels in the tables and in the graph are few enough for label ids. -/
theorem c111_read_into {g : GView m k NL EL} {A : AGraph (Id m) NL EL} (S : Shows g A)
    {xf : Field (Id m)} {nf : Field NL} {ef : Field EL}
    (hx : ∀ n, (A.node n).isSome = true → xf.parse (xf.shown n) = some n)
    (hn : ∀ n x, A.node n = some (some x) → nf.shown x ≠ [] ∧ nf.parse (nf.shown x) = some x)
    (he : ∀ s t x, A.edge s t = some (some x) → ef.shown x ≠ [] ∧ ef.parse (ef.shown x) = some x)
    {nm : SetMap NL} {em : SetMap EL} (hnm : nm.labels.Nodup) (hem : em.labels.Nodup)
    {nl : List NL} {el : List EL} (hnl : nl.length ≤ k + 1) (hel : el.length ≤ k + 1)
    (h0 : ∀ x ∈ nm.labels, x ∈ nl) (h0' : ∀ x ∈ em.labels, x ∈ el)
    (hnl' : ∀ n x, A.node n = some (some x) → x ∈ nl) (hel' : ∀ s t x, A.edge s t = some (some x) → x ∈ el)
    {np ep : String} (hne : np ≠ ep) {s : Option String} (hs : IsComma s) (fl : Bool) :
    ∀ w : World, csvRoom xf nf ef A g.nodeIndices g.edgeIndices ≤ w.room → ∃ (w' : World) (g' : GraphMap m k NL EL),
      writeTo xf nf ef g np ep w = .ok (true, w') ∧
      readFrom xf nf ef (some np) ep s true fl w' (withLabelMap g.directed nm em) = .ok (true, g') ∧
      Reachable g' ∧ g'.directed = g.directed ∧ Shows g'.view A ∧ g'.edgeCount = g.edgeIndices.length := by
  obtain ⟨nb, eb, g', a1, a2, a3, a4, a5, a6⟩ := roundTripInto S (c := ⟨44, true, fl⟩)
    (by unfold SeparatorOk; simp only; decide) rfl hx (fun n x h _ => (hn n x h).2)
    (fun s t x h _ => (he s t x h).2) hnm hem hnl hel h0 h0' hnl' hel'
  rw [dropEmpty_self (fun n x h => (hn n x h).1) (fun s t x h => (he s t x h).1)] at a5
  intro w hw
  obtain ⟨nb', eb', c1, c2, c3⟩ := write_lengths S 44 xf nf ef
  rw [show write 44 xf nf ef g = _ from a1] at c1
  cases c1
  have size : csvRoom xf nf ef A g.nodeIndices g.edgeIndices = nb.length + eb.length + 2 := by
    unfold csvRoom; omega
  rw [size] at hw
  obtain ⟨b1, b2, b3, b4, b5⟩ := writeFiles_room hne nb eb hw
  refine ⟨(writeFiles np ep nb eb w).2, g', ?_, ?_, a3, a4, a5, a6⟩
  · unfold writeTo
    have a1 : write comma xf nf ef g = .ok (nb, eb) := a1
    rw [a1, bind_ok, pure_ok, ← b1]
  · rw [readFrom_ok (separator_comma hs) b3 (nb := some nb) (by simp [b2]), a2, bind_ok]
    rfl

/-- **C111** (tests/io.rs:31-124). `random_gnm_graph(n, c, nl, el)`, written to two CSV files and read back into
an empty graph with the label tables `nl` and `el`: both calls succeed and `assert_eq!(g, g_)` holds, in both
directions, whatever is drawn. With `nl = el = []` this is the test without labels. -/
theorem c111_csv (d : Bool) {n c : Nat} (hn : n ≤ m + 1) (hc : c ≤ possibleEdges d n) (hs : n < 2 ^ 31)
    {nl : List NL} {el : List EL} (hnl : nl.length ≤ k + 1) (hel : el.length ≤ k + 1)
    {nf : Field NL} {ef : Field EL} (hnf : ∀ x ∈ nl, nf.shown x ≠ [] ∧ nf.parse (nf.shown x) = some x)
    (hef : ∀ x ∈ el, ef.shown x ≠ [] ∧ ef.parse (ef.shown x) = some x) {np ep : String} (hne : np ≠ ep)
    {s : Option String} (hsep : IsComma s) (fl : Bool) (r : Rng) :
    ∃ (g : GraphMap m k NL EL) (r' : Rng), gnm d n c nl el r = .ok (g, r') ∧
      ∃ A : AGraph (Id m) NL EL, Shows g.view A ∧
      ∀ w : World, csvRoom (.decimal m) nf ef A g.nodeIndices g.edgeIndices ≤ w.room →
        ∃ (w' : World) (g' : GraphMap m k NL EL),
        writeTo (.decimal m) nf ef g.view np ep w = .ok (true, w') ∧
        readFrom (.decimal m) nf ef (some np) ep s true fl w'
          (withLabelMap d (SetMap.fromVec nl) (SetMap.fromVec el)) = .ok (true, g') ∧
        g.view.typedEq g'.view = .ok true ∧ g'.view.typedEq g.view = .ok true := by
  obtain ⟨g, r', A, h, -, S, hd, hA, -, ⟨l1, l2⟩, h1, h2, h3⟩ := c44_gnm (m := m) (k := k) d hn hc nl el r
  have t : ∀ {X : Type} {l : List X} {x : X}, TakenFrom l (some x) → x ∈ l := by
    rintro X l x (⟨-, h⟩ | ⟨y, hy, h⟩)
    · cases h
    · cases h; exact hy
  refine ⟨g, r', h, A, S, ?_⟩
  have H := c111_read_into S (xf := .decimal m) (fun n _ => decimal_round m n)
    (fun n x h => hnf x (t (l1 n _ h))) (fun s u x h => hef x (t (l2 s u _ h)))
    (SetMap.fromVec_nodup nl) (SetMap.fromVec_nodup el) hnl hel (fun x => (SetMap.mem_fromVec nl x).1)
    (fun x => (SetMap.mem_fromVec el x).1) (fun n x h => t (l1 n _ h)) (fun s u x h => t (l2 s u _ h))
    hne hsep fl
  intro w hw
  obtain ⟨w', g', a1, a2, a3, a4, a5, a6⟩ := H w hw
  rw [show g.view.directed = d from hd] at a2
  have hb : c < 2 ^ 62 := by
    have : possibleEdges d n ≤ n * (n - 1) := by
      unfold possibleEdges
      split
      · exact le_refl _
      · exact Nat.div_le_self _ _
    calc c ≤ n * (n - 1) := hc.trans this
      _ ≤ n * n := Nat.mul_le_mul_left _ (by omega)
      _ < 2 ^ 31 * 2 ^ 31 := Nat.mul_lt_mul'' hs hs
      _ = 2 ^ 62 := by norm_num
  have e1 : g.view.edgeCount = c := h2
  have e2 : g'.view.edgeCount = c := a6.trans h3
  have n1 : g.view.nodeCount = n := h1
  have n2 : g'.view.nodeCount = n := by
    rw [← n1, S.nodeCount, a5.nodeCount]
    exact ((List.perm_ext_iff_of_nodup a5.nodesNodup S.nodesNodup).2
      (fun x => (a5.memNodes x).trans (S.memNodes x).symm)).length_eq
  exact ⟨w', g', a1, a2, typedEq_same S a5 a4.symm (by omega) (by omega),
    typedEq_same a5 S a4 (by omega) (by omega)⟩

/-- The hypotheses hold in the tests: 10 nodes, 20 edges, labels `a`, `b` and `1`, `2`, `3`. -/
example : (10 : Nat) ≤ 4294967295 + 1 ∧ 20 ≤ possibleEdges false 10 ∧ 20 ≤ possibleEdges true 10 ∧
    (∀ x ∈ [ascii "a", ascii "b"], Field.text.shown x ≠ [] ∧ Field.text.parse (Field.text.shown x) = some x) ∧
    (∀ x ∈ [(1 : Id 4294967295), 2, 3], (Field.decimal 4294967295).shown x ≠ [] ∧
      (Field.decimal 4294967295).parse ((Field.decimal 4294967295).shown x) = some x) ∧
    1000 ≤ possibleEdges false 100 ∧ IsComma none := by
  refine ⟨by decide, by decide, by decide, by decide, fun x hx => ⟨?_, decimal_round _ x⟩, by decide, .inl rfl⟩
  rcases List.mem_cons.1 hx with rfl | hx
  · decide
  rcases List.mem_cons.1 hx with rfl | hx
  · decide
  rcases List.mem_cons.1 hx with rfl | hx
  · decide
  · cases hx

end Verif.Props
