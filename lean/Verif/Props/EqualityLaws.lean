import Verif.Props.Equality2

/-! C192: which laws of an equivalence `equal` and `==` keep. -/

namespace Verif.Props

open Verif Verif.GraphMap Verif.Spec

variable {m k k' k'' : Nat} {NL EL : Type} [DecidableEq NL] [DecidableEq EL]

omit [DecidableEq NL] [DecidableEq EL] in
theorem sub_refl (A : AGraph (Id m) NL EL) : A.Sub A := ⟨fun _ _ h => h, fun _ _ _ h => h⟩

omit [DecidableEq NL] [DecidableEq EL] in
theorem sub_trans {A B C : AGraph (Id m) NL EL} (h1 : A.Sub B) (h2 : B.Sub C) : A.Sub C :=
  ⟨fun n l h => h2.1 n l (h1.1 n l h), fun s t l h => h2.2 s t l (h1.2 s t l h)⟩

omit [DecidableEq NL] [DecidableEq EL] in
theorem sub_antisymm {A B : AGraph (Id m) NL EL} (h1 : A.Sub B) (h2 : B.Sub A) : A = B := by
  have hn : A.node = B.node := by
    funext n
    cases ha : A.node n with
    | some l => exact (h1.1 n l ha).symm
    | none =>
      cases hb : B.node n with
      | none => rfl
      | some l => rw [h2.1 n l hb] at ha; cases ha
  have he : A.edge = B.edge := by
    funext s t
    cases ha : A.edge s t with
    | some l => exact (h1.2 s t l ha).symm
    | none =>
      cases hb : B.edge s t with
      | none => rfl
      | some l => rw [h2.2 s t l hb] at ha; cases ha
  cases A
  cases B
  simp_all

theorem equal_true {g : GView m k NL EL} {h : GView m k' NL EL} {A B : AGraph (Id m) NL EL}
    (hg : Shows g A) (hh : Shows h B) : g.equal h = .ok true ↔ g.directed = h.directed ∧
      g.nodeCount = h.nodeCount ∧ g.edgeCount = h.edgeCount ∧ A.Sub B := by
  obtain ⟨b, h1, h2⟩ := c84_equal_exact hg hh
  rw [h1, ← h2]
  simp

theorem typed_true {g h : GView m k NL EL} {A B : AGraph (Id m) NL EL} (hg : Shows g A) (hh : Shows h B)
    (hd : g.directed = h.directed) (hn : g.nodeCount < 2 ^ 64) (he : g.edgeCount < 2 ^ 64) :
    g.typedEq h = .ok true ↔ g.nodeCount + h.nodeCount ≠ 2 ^ 64 - 1 ∧ g.edgeCount + h.edgeCount ≠ 2 ^ 64 - 1 ∧
      A.Sub B := by
  obtain ⟨b, h1, h2⟩ := c61_eq_exact hg hh hd hn he
  rw [h1, ← h2]
  simp

/-- **C192.** `equal` is reflexive, whatever the counters say, -/
theorem c192_equal_refl {g : GView m k NL EL} {A : AGraph (Id m) NL EL} (hg : Shows g A) : g.equal g = .ok true :=
  (equal_true hg hg).2 ⟨rfl, rfl, rfl, sub_refl A⟩

/-- **C192.** and transitive, also across implementations and label-id types. -/
theorem c192_equal_trans {g : GView m k NL EL} {h : GView m k' NL EL} {i : GView m k'' NL EL}
    {A B C : AGraph (Id m) NL EL} (hg : Shows g A) (hh : Shows h B) (hi : Shows i C)
    (h1 : g.equal h = .ok true) (h2 : h.equal i = .ok true) : g.equal i = .ok true := by
  obtain ⟨a1, a2, a3, a4⟩ := (equal_true hg hh).1 h1
  obtain ⟨b1, b2, b3, b4⟩ := (equal_true hh hi).1 h2
  exact (equal_true hg hi).2 ⟨a1.trans b1, a2.trans b2, a3.trans b3, sub_trans a4 b4⟩

/-- **C192.** It is symmetric exactly between graphs that list equally many edges, -/
theorem c192_equal_symm_iff {g : GView m k NL EL} {h : GView m k' NL EL} {A B : AGraph (Id m) NL EL}
    (hg : Shows g A) (hh : Shows h B) (h1 : g.equal h = .ok true) :
    h.equal g = .ok true ↔ g.edgeIndices.length = h.edgeIndices.length := by
  obtain ⟨a1, a2, a3, a4⟩ := (equal_true hg hh).1 h1
  rw [equal_true hh hg, ← c84_equal_right_iff hg hh h1, sameGraph_iff hg hh]
  constructor
  · rintro ⟨-, -, -, b4⟩
    exact ⟨a1, sub_antisymm a4 b4⟩
  · rintro ⟨-, rfl⟩
    exact ⟨a1.symm, a2.symm, a3.symm, sub_refl A⟩

/-- **C192.** hence wherever both counters tell the number of edges. -/
theorem c192_equal_symm {g : GView m k NL EL} {h : GView m k' NL EL} {A B : AGraph (Id m) NL EL}
    (hg : Shows g A) (hh : Shows h B) (cg : g.edgeCount = g.edgeIndices.length)
    (ch : h.edgeCount = h.edgeIndices.length) : g.equal h = .ok true ↔ h.equal g = .ok true := by
  constructor
  · intro h1
    refine (c192_equal_symm_iff hg hh h1).2 ?_
    rw [← cg, ← ch, ((equal_true hg hh).1 h1).2.2.1]
  · intro h1
    refine (c192_equal_symm_iff hh hg h1).2 ?_
    rw [← cg, ← ch, ((equal_true hh hg).1 h1).2.2.1]

/-- **C192.** Both ways round, `equal` is being the same labelled graph with the same edge counter; -/
theorem c192_equal_both {g : GView m k NL EL} {h : GView m k' NL EL} {A B : AGraph (Id m) NL EL}
    (hg : Shows g A) (hh : Shows h B) :
    (g.equal h = .ok true ∧ h.equal g = .ok true) ↔ SameGraph g h ∧ g.edgeCount = h.edgeCount := by
  rw [equal_true hg hh, equal_true hh hg, sameGraph_iff hg hh]
  constructor
  · rintro ⟨⟨a1, -, a3, a4⟩, ⟨-, -, -, b4⟩⟩
    exact ⟨⟨a1, sub_antisymm a4 b4⟩, a3⟩
  · rintro ⟨⟨a1, rfl⟩, a3⟩
    have hn : g.nodeCount = h.nodeCount := by rw [shows_nodeNumber hg, shows_nodeNumber hh]
    exact ⟨⟨a1, hn, a3, sub_refl A⟩, ⟨a1.symm, hn.symm, a3.symm, sub_refl A⟩⟩

/-- **C192.** then the boxed graphs feed the same data to a hasher, as keys of a map must. -/
theorem c192_keys {g : GView m k NL EL} {h : GView m k' NL EL} {A B : AGraph (Id m) NL EL}
    (hg : Shows g A) (hh : Shows h B) (h1 : g.equal h = .ok true) (h2 : h.equal g = .ok true) :
    g.boxHashData = h.boxHashData :=
  (c84_boxed_hash_data_iff hg hh).2 ((c192_equal_both hg hh).1 ⟨h1, h2⟩).1

/-- **C192.** `==` is reflexive: the number it compares with is odd, twice a counter is not. -/
theorem c192_eq_refl {g : GView m k NL EL} {A : AGraph (Id m) NL EL} (hg : Shows g A) (hn : g.nodeCount < 2 ^ 64)
    (he : g.edgeCount < 2 ^ 64) : g.typedEq g = .ok true :=
  (typed_true hg hg rfl hn he).2 ⟨by omega, by omega, sub_refl A⟩

/-- **C192.** It is transitive unless the counters of the outer two add up to the largest `usize`, -/
theorem c192_eq_trans {g h i : GView m k NL EL} {A B C : AGraph (Id m) NL EL} (hg : Shows g A) (hh : Shows h B)
    (hi : Shows i C) (d1 : g.directed = h.directed) (d2 : h.directed = i.directed)
    (hn : g.nodeCount < 2 ^ 64 ∧ h.nodeCount < 2 ^ 64) (he : g.edgeCount < 2 ^ 64 ∧ h.edgeCount < 2 ^ 64)
    (h1 : g.typedEq h = .ok true) (h2 : h.typedEq i = .ok true) :
    g.typedEq i = .ok true ↔ g.nodeCount + i.nodeCount ≠ 2 ^ 64 - 1 ∧ g.edgeCount + i.edgeCount ≠ 2 ^ 64 - 1 := by
  have hs := sub_trans ((typed_true hg hh d1 hn.1 he.1).1 h1).2.2 ((typed_true hh hi d2 hn.2 he.2).1 h2).2.2
  rw [typed_true hg hi (d1.trans d2) hn.1 he.1]
  tauto

/-- **C192.** and both ways round it is being the same labelled graph. -/
theorem c192_eq_both {g h : GView m k NL EL} {A B : AGraph (Id m) NL EL} (hg : Shows g A) (hh : Shows h B)
    (hd : g.directed = h.directed) (hn : g.nodeCount < 2 ^ 64 ∧ h.nodeCount < 2 ^ 64)
    (he : g.edgeCount < 2 ^ 64 ∧ h.edgeCount < 2 ^ 64) (hs : g.edgeCount + h.edgeCount ≠ 2 ^ 64 - 1) :
    (g.typedEq h = .ok true ∧ h.typedEq g = .ok true) ↔ SameGraph g h := by
  rw [typed_true hg hh hd hn.1 he.1, typed_true hh hg hd.symm hn.2 he.2, sameGraph_iff hg hh]
  constructor
  · rintro ⟨⟨-, -, a4⟩, ⟨-, -, b4⟩⟩
    exact ⟨hd, sub_antisymm a4 b4⟩
  · rintro ⟨-, rfl⟩
    have hc : g.nodeCount = h.nodeCount := by rw [shows_nodeNumber hg, shows_nodeNumber hh]
    exact ⟨⟨by omega, hs, sub_refl A⟩, ⟨by omega, by omega, sub_refl A⟩⟩

/-- **C192.** Neither is symmetric: a graph with an edge added twice is `equal` to one with two edges, which is not
`equal` to it. -/
theorem c192_not_symmetric : ∃ g h : GraphMap 9 3 String String, Reachable g ∧ Reachable h ∧
    g.view.equal h.view = .ok true ∧ h.view.equal g.view = .ok false ∧
    g.view.typedEq h.view = .ok true ∧ h.view.typedEq g.view = .ok false ∧
    g.view.boxHashData ≠ h.view.boxHashData := by
  have rg := smallGraph_reachable (d := true) (es := [(1, 2, none), (1, 2, none)]) rfl
  have rh := smallGraph_reachable (d := true) (es := [(1, 2, none), (2, 3, none)]) rfl
  refine ⟨_, _, rg, rh, by decide, by decide, by decide, by decide, fun e => ?_⟩
  have := (c84_boxed_hash_alike_iff (reachable_shows rg) (reachable_shows rh) (by decide)).1 e
  exact absurd this (by decide)

/-- Three graphs with their labels numbered differently: equal to each other both ways, by either comparison, with
counters that tell the number of edges. -/
example : ∃ g h i : GraphMap 9 3 String String, Reachable g ∧ Reachable h ∧ Reachable i ∧
    g.view.edgeCount = g.view.edgeIndices.length ∧ h.view.edgeCount = h.view.edgeIndices.length ∧
    g.edgeLabels ≠ h.edgeLabels ∧
    g.view.equal h.view = .ok true ∧ h.view.equal g.view = .ok true ∧ h.view.equal i.view = .ok true ∧
    g.view.typedEq h.view = .ok true ∧ h.view.typedEq g.view = .ok true ∧ h.view.typedEq i.view = .ok true := by
  refine ⟨_, _, _,
    smallGraph_reachable (d := false) (es := [(1, 2, some "x"), (3, 2, some "y")]) rfl,
    smallGraph_reachable (d := false) (es := [(2, 3, some "y"), (2, 1, some "x")]) rfl,
    smallGraph_reachable (d := false) (es := [(3, 2, some "y"), (2, 1, some "x")]) rfl,
    by decide, by decide, by decide, by decide, by decide, by decide, by decide, by decide, by decide⟩

end Verif.Props
