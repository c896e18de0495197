import Verif.Proof.CsvFiles
import Verif.Proof.CsvSize
import Verif.Props.Csv

/-! Property theorems about CSV files on the disk: C88, C89, C90. -/

namespace Verif.Props

open GraphMap Spec Csv

variable {m k : Nat} {NL EL : Type} [DecidableEq NL] [DecidableEq EL]

/-! ### C88 -/

/-- The texts a user may give for a comma, or nothing. -/
def IsComma (s : Option String) : Prop := s = none ∨ s = some "comma" ∨ s = some ","

theorem separator_comma {s : Option String} (h : IsComma s) :
    givenSeparator s = .ok 44 := by
  rcases h with rfl | rfl | rfl
  · rfl
  · decide
  · decide

theorem readFrom_ok {xf : Field (Id m)} {nf : Field NL} {ef : Field EL} {s : Option String} {sep : Byte}
    (hs : givenSeparator s = .ok sep) {w : World} {ep : String} {eb : List Byte}
    (he : w.files ep = some eb) {np : Option String} {nb : Option (List Byte)}
    (hn : np.map w.files = nb.map some) (hh fl : Bool) (g : GraphMap m k NL EL) :
    readFrom xf nf ef np ep s hh fl w g =
      (read ⟨sep, hh, fl⟩ xf nf ef nb eb g >>= fun g => pure (true, g)) := by
  unfold readFrom
  rw [hs, bind_ok]
  cases np with
  | none =>
    cases nb with
    | none => simp only [pure_ok, bind_ok, he]
    | some nb => cases hn
  | some p =>
    cases nb with
    | none => cases hn
    | some nb =>
      have hp : w.files p = some nb := Option.some.inj hn
      simp only [pure_ok, bind_ok, he, hp, Option.map_some]

/-- **C88.** A graph written with `write_to_csv` and read with `read_from_csv` from the two files into a new
graph comes back the same, for all graphs whose ids and labels can be read back from their texts and whose
labels are not empty; no other file changes. The disk needs room for the files and their bytes (`csvRoom`). -/
theorem c88_write_read {g : GView m k NL EL} {A : AGraph (Id m) NL EL} (S : Shows g A)
    {xf : Field (Id m)} {nf : Field NL} {ef : Field EL}
    (hx : ∀ n, (A.node n).isSome = true → xf.parse (xf.shown n) = some n)
    (hn : ∀ n x, A.node n = some (some x) → nf.shown x ≠ [] ∧ nf.parse (nf.shown x) = some x)
    (he : ∀ s t x, A.edge s t = some (some x) → ef.shown x ≠ [] ∧ ef.parse (ef.shown x) = some x)
    {np ep : String} (hne : np ≠ ep) {s : Option String} (hs : IsComma s) (fl : Bool) :
    ∀ w : World, csvRoom xf nf ef A g.nodeIndices g.edgeIndices ≤ w.room → ∃ (w' : World) (g' : GraphMap m k NL EL),
      writeTo xf nf ef g np ep w = .ok (true, w') ∧
      (∀ p, p ≠ np → p ≠ ep → w'.files p = w.files p) ∧
      w'.room = w.room - csvRoom xf nf ef A g.nodeIndices g.edgeIndices ∧
      readFrom xf nf ef (some np) ep s true fl w' (new g.directed) = .ok (true, g') ∧
      Reachable g' ∧ g'.directed = g.directed ∧ Shows g'.view A := by
  obtain ⟨nb, eb, g', a1, a2, a3, a4, a5, -⟩ := c51_round_trip S (c := ⟨44, true, fl⟩) (xf := xf)
    (nf := nf) (ef := ef) (by unfold SeparatorOk; simp only; decide) rfl hx hn he
  intro w hw
  obtain ⟨nb', eb', c1, c2, c3⟩ := write_lengths S 44 xf nf ef
  rw [show write 44 xf nf ef g = _ from a1] at c1
  cases c1
  have size : csvRoom xf nf ef A g.nodeIndices g.edgeIndices = nb.length + eb.length + 2 := by
    unfold csvRoom; omega
  rw [size] at hw ⊢
  obtain ⟨b1, b2, b3, b4, b5⟩ := writeFiles_room hne nb eb hw
  refine ⟨(writeFiles np ep nb eb w).2, g', ?_, b4, b5, ?_, a3, a4, a5⟩
  · unfold writeTo
    have a1 : write comma xf nf ef g = .ok (nb, eb) := a1
    rw [a1, bind_ok, pure_ok, ← b1]
  · rw [readFrom_ok (separator_comma hs) b3 (nb := some nb) (by simp [b2]), a2, bind_ok]
    rfl

/-- **C88** for `GraphMap` with integer ids and text labels: only empty labels are excluded. -/
theorem c88_graph_map {g : GraphMap m k (List Byte) (List Byte)} (hg : Reachable g)
    (hn : ∀ n, g.view.getNodeLabel n ≠ .ok (some [])) (he : ∀ s t, g.view.getEdgeLabel s t ≠ .ok (some []))
    {np ep : String} (hne : np ≠ ep) {s : Option String} (hs : IsComma s) (fl : Bool) :
    ∃ A : AGraph (Id m) (List Byte) (List Byte), Shows g.view A ∧ ∀ w : World,
      csvRoom (.decimal m) .text .text A g.nodeIndices g.edgeIndices ≤ w.room →
      ∃ (w' : World) (g' : GraphMap m k (List Byte) (List Byte)),
      writeTo (.decimal m) .text .text g.view np ep w = .ok (true, w') ∧
      readFrom (.decimal m) .text .text (some np) ep s true fl w' (new g.directed) = .ok (true, g') ∧
      Reachable g' ∧ g'.directed = g.directed ∧ Shows g'.view A := by
  have S := inv_shows hg.inv
  have h := c88_write_read S (xf := .decimal m) (nf := .text) (ef := .text)
    (fun n _ => decimal_round m n)
    (fun n x h => ⟨fun hx => hn n (by rw [S.nodeLabel n _ h]; exact congrArg _ (congrArg _ hx)), rfl⟩)
    (fun s t x h => ⟨fun hx => by
      have hx : x = [] := hx
      subst hx
      cases hd : g.view.directed with
      | true => exact he s t (S.edgeLabel s t _ h (.inl hd))
      | false =>
        rcases le_total s t with hle | hle
        · exact he s t (S.edgeLabel s t _ h (.inr hle))
        · exact he t s (S.edgeLabel t s _ (by rw [S.sym hd]; exact h) (.inr hle)), rfl⟩) hne hs fl
  refine ⟨_, S, fun w hw => ?_⟩
  obtain ⟨w', g', a1, -, -, a2, a3, a4, a5⟩ := h w hw
  exact ⟨w', g', a1, a2, a3, a4, a5⟩

set_option maxRecDepth 4000 in
example : ∃ g, small false = .ok g ∧ Reachable g ∧ IsComma (some ",") ∧
    (∀ n, g.view.getNodeLabel n ≠ .ok (some [])) ∧
    ∃ w, writeTo (.decimal 255) .text .text g.view "n" "e" (blank 57) = .ok (true, w) ∧
      w.files "n" = some (lines ["nodeId:ID,:LABEL", "1,hi", "0,"]) ∧
      w.files "e" = some (lines [":START_ID,:END_ID,:TYPE", "0,1,e"]) ∧ w.room = 0 := by
  obtain ⟨g, h, hr⟩ := small_reachable false
  cases h
  exact ⟨_, rfl, hr, .inr (.inr rfl), by decide, _, rfl, by decide, by decide, by decide⟩

/-! ### C89 -/

/-- **C89.** If both files fit into the writers' buffers (8192 bytes each), `write_to_csv` reports success
as soon as both files can be created, however little of them can be stored: what is stored goes to the
edge file first. -/
theorem c89_silent_loss {g : GView m k NL EL} {xf : Field (Id m)} {nf : Field NL} {ef : Field EL}
    {nb eb : List Byte} (hb : write 44 xf nf ef g = .ok (nb, eb)) (h1 : nb.length ≤ 8192)
    (h2 : eb.length ≤ 8192) {np ep : String} (hne : np ≠ ep) {w : World} (hw : 2 ≤ w.room) :
    ∃ w', writeTo xf nf ef g np ep w = .ok (true, w') ∧
      w'.files ep = some (eb.take (w.room - 2)) ∧
      w'.files np = some (nb.take (w.room - 2 - eb.length)) := by
  obtain ⟨b1, b2, b3⟩ := writeFiles_small hne h1 h2 hw
  refine ⟨(writeFiles np ep nb eb w).2, ?_, b2, b3⟩
  unfold writeTo
  have hb : write comma xf nf ef g = .ok (nb, eb) := hb
  rw [hb, bind_ok, pure_ok, ← b1]

/-- **C89**: in every case each of the two files is as before or a beginning of what it should hold, and no
other file changes. -/
theorem c89_beginnings {g : GView m k NL EL} {xf : Field (Id m)} {nf : Field NL} {ef : Field EL}
    {nb eb : List Byte} (hb : write 44 xf nf ef g = .ok (nb, eb)) {np ep : String} (hne : np ≠ ep)
    (w : World) :
    ∃ ok w', writeTo xf nf ef g np ep w = .ok (ok, w') ∧
      (w'.files np = w.files np ∨ ∃ c, w'.files np = some c ∧ c <+: nb) ∧
      (w'.files ep = w.files ep ∨ ∃ c, w'.files ep = some c ∧ c <+: eb) ∧
      (∀ p, p ≠ np → p ≠ ep → w'.files p = w.files p) := by
  obtain ⟨b1, b2, b3⟩ := writeFiles_prefix hne nb eb w
  refine ⟨(writeFiles np ep nb eb w).1, (writeFiles np ep nb eb w).2, ?_, ?_, ?_, b3⟩
  · unfold writeTo
    have hb : write comma xf nf ef g = .ok (nb, eb) := hb
    rw [hb, bind_ok, pure_ok]
  · rcases b1 with h | ⟨i, h⟩
    · exact .inl h
    · exact .inr ⟨_, h, List.take_prefix i nb⟩
  · rcases b2 with h | ⟨i, h⟩
    · exact .inl h
    · exact .inr ⟨_, h, List.take_prefix i eb⟩

/-- **C89**: a reported success means that at most the last 8192 bytes of each file are missing. -/
theorem c89_success {g : GView m k NL EL} {xf : Field (Id m)} {nf : Field NL} {ef : Field EL}
    {nb eb : List Byte} (hb : write 44 xf nf ef g = .ok (nb, eb)) {np ep : String} (hne : np ≠ ep)
    {w w' : World} (h : writeTo xf nf ef g np ep w = .ok (true, w')) :
    (∃ c d, w'.files np = some c ∧ nb = c ++ d ∧ d.length ≤ 8192) ∧
    (∃ c d, w'.files ep = some c ∧ eb = c ++ d ∧ d.length ≤ 8192) := by
  unfold writeTo at h
  have hb : write comma xf nf ef g = .ok (nb, eb) := hb
  rw [hb, bind_ok, pure_ok] at h
  have h := Except.ok.inj h
  obtain ⟨⟨i, b1, b2⟩, j, b3, b4⟩ := writeFiles_success hne h
  exact ⟨⟨_, _, b1, (List.take_append_drop i nb).symm, by rw [List.length_drop]; exact b2⟩,
    _, _, b3, (List.take_append_drop j eb).symm, by rw [List.length_drop]; exact b4⟩

set_option maxRecDepth 4000 in
example : ∃ g, small false = .ok g ∧
    ∃ w, writeTo (.decimal 255) .text .text g.view "n" "e" (blank 12) = .ok (true, w) ∧
      w.files "n" = some [] ∧ w.files "e" = some (ascii ":START_ID,") := by
  refine ⟨_, rfl, _, rfl, ?_, ?_⟩ <;> decide

/-! ### C90 -/

/-- **C90.** `read_from_csv` panics exactly for a separator text that is none of the names and not a single
ASCII character. -/
theorem c90_panics {g : GraphMap m k NL EL} (hg : Reachable g) (xf : Field (Id m)) (nf : Field NL)
    (ef : Field EL) (np : Option String) (ep : String) (s : Option String) (hh fl : Bool) (w : World) :
    (∃ p, readFrom xf nf ef np ep s hh fl w g = .error p) ↔
      ∃ t, s = some t ∧ ¬ (t = "comma" ∨ t = "space" ∨ t = "tab" ∨
        ∃ c : Char, c.toNat < 128 ∧ t = String.singleton c) := by
  have tot : ∀ sep : Byte, givenSeparator s = .ok sep → ∃ r, readFrom xf nf ef np ep s hh fl w g = .ok r := by
    intro sep e
    unfold readFrom
    rw [e, bind_ok]
    cases np with
    | none =>
      simp only [pure_ok, bind_ok]
      cases hE : w.files ep with
      | none =>
        obtain ⟨g', h, -⟩ := c52_read hg ⟨sep, hh, fl⟩ xf nf ef none []
        exact ⟨(false, g'), by simp only [h, bind_ok]⟩
      | some eb =>
        obtain ⟨g', h, -⟩ := c52_read hg ⟨sep, hh, fl⟩ xf nf ef none eb
        exact ⟨(true, g'), by simp only [h, bind_ok]⟩
    | some p =>
      simp only [pure_ok, bind_ok]
      cases hN : w.files p with
      | none => exact ⟨(false, g), rfl⟩
      | some nb =>
        simp only [Option.map_some]
        cases hE : w.files ep with
        | none =>
          obtain ⟨g', h, -⟩ := c52_read hg ⟨sep, hh, fl⟩ xf nf ef (some nb) []
          exact ⟨(false, g'), by simp only [h, bind_ok]⟩
        | some eb =>
          obtain ⟨g', h, -⟩ := c52_read hg ⟨sep, hh, fl⟩ xf nf ef (some nb) eb
          exact ⟨(true, g'), by simp only [h, bind_ok]⟩
  have good : ∀ t, (t = "comma" ∨ t = "space" ∨ t = "tab" ∨
        ∃ c : Char, c.toNat < 128 ∧ t = String.singleton c) ↔ ∃ b, separatorOf t = .ok b := by
    intro t
    constructor
    · rintro (rfl | rfl | rfl | ⟨c, hc, rfl⟩)
      · exact ⟨44, by decide⟩
      · exact ⟨32, by decide⟩
      · exact ⟨9, by decide⟩
      · exact ⟨_, (c57_separator _ (Id.new c.toNat)).2 (by
          refine .inr (.inr (.inr ?_))
          exact ⟨c, hc, rfl, Nat.mod_eq_of_lt (by omega)⟩)⟩
    · rintro ⟨b, hb⟩
      rcases (c57_separator t b).1 hb with ⟨h, -⟩ | ⟨h, -⟩ | ⟨h, -⟩ | ⟨c, h1, h2, -⟩
      · exact .inl h
      · exact .inr (.inl h)
      · exact .inr (.inr (.inl h))
      · exact .inr (.inr (.inr ⟨c, by assumption, by assumption⟩))
  constructor
  · rintro ⟨p, hp⟩
    cases s with
    | none =>
      obtain ⟨r, hr⟩ := tot 44 rfl
      rw [hr] at hp; cases hp
    | some t =>
      refine ⟨t, rfl, fun hc => ?_⟩
      obtain ⟨b, hb⟩ := (good t).1 hc
      obtain ⟨r, hr⟩ := tot b hb
      rw [hr] at hp; cases hp
  · rintro ⟨t, rfl, ht⟩
    have := c57_separator_panics t (fun b hb => ht ((good t).2 ⟨b, hb⟩))
    refine ⟨.explicit, ?_⟩
    unfold readFrom givenSeparator
    simp only [this]
    rfl

/-- **C90**: without a panic, it returns `Ok` exactly if all the files it was given are there; it then has
made the `add_node` and `add_edge` calls of the records. If the node file is missing the graph is as
before; if only the edge file is missing the nodes have been added all the same. -/
theorem c90_outcome {g : GraphMap m k NL EL} (hg : Reachable g) (xf : Field (Id m)) (nf : Field NL)
    (ef : Field EL) (np : Option String) (ep : String) (s : Option String) (hh fl : Bool) (w : World)
    {ok : Bool} {g' : GraphMap m k NL EL} (h : readFrom xf nf ef np ep s hh fl w g = .ok (ok, g')) :
    Reachable g' ∧
    (ok = true ↔ (∀ p, np = some p → (w.files p).isSome = true) ∧ (w.files ep).isSome = true) ∧
    ((∃ p, np = some p ∧ w.files p = none) → g' = g) ∧
    ∃ sep, ((s = none ∧ sep = 44) ∨ ∃ t, s = some t ∧ separatorOf t = .ok sep) ∧
      ((∀ p, np = some p → (w.files p).isSome = true) →
        g.exec (((np.bind w.files).elim [] (nodeIter ⟨sep, hh, fl⟩ xf nf)).map
            (fun r => Op.addNode r.1 r.2) ++
          ((w.files ep).elim [] (edgeIter ⟨sep, hh, fl⟩ xf ef)).map
            (fun r => Op.addEdge r.1 r.2.1 r.2.2)) = .ok g') := by
  unfold readFrom at h
  obtain ⟨sep, hs, h⟩ := bind_eq_ok h
  have hsep : (s = none ∧ sep = 44) ∨ ∃ t, s = some t ∧ separatorOf t = .ok sep := by
    cases s with
    | none => exact .inl ⟨rfl, (Except.ok.inj hs).symm⟩
    | some t => exact .inr ⟨t, rfl, hs⟩
  have hnil : edgeIter ⟨sep, hh, fl⟩ xf ef [] = [] := rfl
  have fin : ∀ (nb : Option (List Byte)) (eb : Option (List Byte)),
      (do
        let g ← read ⟨sep, hh, fl⟩ xf nf ef nb (eb.getD []) g
        pure (eb.isSome, g)) = .ok (ok, g') →
      Reachable g' ∧ ok = eb.isSome ∧
        g.exec ((nb.elim [] (nodeIter ⟨sep, hh, fl⟩ xf nf)).map (fun r => Op.addNode r.1 r.2) ++
          (eb.elim [] (edgeIter ⟨sep, hh, fl⟩ xf ef)).map (fun r => Op.addEdge r.1 r.2.1 r.2.2)) = .ok g' := by
    intro nb eb e
    obtain ⟨g1, e1, e2, e3⟩ := c52_read hg ⟨sep, hh, fl⟩ xf nf ef nb (eb.getD [])
    rw [e1, bind_ok] at e
    cases e
    refine ⟨e2, rfl, ?_⟩
    rw [← e3]
    cases nb <;> cases eb <;> simp [hnil]
  cases np with
  | none =>
    simp only [pure_ok, bind_ok] at h
    have h : (do
        let g ← read ⟨sep, hh, fl⟩ xf nf ef none ((w.files ep).getD []) g
        pure ((w.files ep).isSome, g)) = .ok (ok, g') := by
      rw [← h]; cases w.files ep <;> rfl
    obtain ⟨a1, a2, a3⟩ := fin _ _ h
    refine ⟨a1, ?_, ?_, sep, hsep, fun _ => a3⟩
    · rw [a2]; simp
    · rintro ⟨p, hp, -⟩; cases hp
  | some p =>
    simp only [pure_ok, bind_ok] at h
    cases hN : w.files p with
    | none =>
      rw [hN] at h
      simp only [Option.map_none] at h
      cases h
      refine ⟨hg, ?_, fun _ => rfl, sep, hsep, ?_⟩
      · simp [hN]
      · intro hc
        have := hc p rfl
        rw [hN] at this; cases this
    | some nb =>
      rw [hN] at h
      simp only [Option.map_some] at h
      have h : (do
          let g ← read ⟨sep, hh, fl⟩ xf nf ef (some nb) ((w.files ep).getD []) g
          pure ((w.files ep).isSome, g)) = .ok (ok, g') := by
        rw [← h]; cases w.files ep <;> rfl
      obtain ⟨a1, a2, a3⟩ := fin _ _ h
      refine ⟨a1, ?_, ?_, sep, hsep, fun _ => by simpa [hN] using a3⟩
      · rw [a2]
        simp [hN]
      · rintro ⟨q, hq, hq'⟩
        cases hq
        rw [hN] at hq'; cases hq'

/-- The disk with a node file only. -/
def nodesOnly : World := ⟨fun p => if p = "n" then some (lines ["nodeId:ID,:LABEL", "7,hi"]) else none, 0⟩

set_option maxRecDepth 4000 in
example : (∃ g', readFrom (m := 255) (k := 255) (.decimal 255) .text .text (some "n") "e" none true false
      nodesOnly (new true) = .ok (false, g') ∧ g'.hasNode 7 = true) ∧
    readFrom (m := 255) (k := 255) (.decimal 255) .text .text (some "n") "e" (some "bar") true false
      nodesOnly (new true) = .error .explicit := by
  refine ⟨⟨_, rfl, ?_⟩, ?_⟩ <;> decide

end Verif.Props
