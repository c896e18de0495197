import Verif.Proof.ConnComp

/-! `ConnComp` on a graph. -/

namespace Verif.ConnComp

open Verif.Spec

variable {m k : Nat} {NL EL : Type}

theorem fold_history : ∀ (es : List (Edge m k)) (E : List (Id m × Id m)) (c : ConnComp m), History E c →
    ∃ c', es.foldlM (fun c e => c.processEdge e.src e.dst) c = .ok c' ∧
      History (E ++ es.map (fun e => (e.src, e.dst))) c' := by
  intro es
  induction es with
  | nil => intro E c H; exact ⟨c, rfl, by simpa using H⟩
  | cons e es ih =>
    intro E c H
    obtain ⟨rep, I⟩ := history_inv H
    obtain ⟨c1, g1, _, _⟩ := inv_edge I e.src e.dst
    obtain ⟨c2, g2, H2⟩ := ih _ c1 (History.edge H g1)
    refine ⟨c2, ?_, by simpa using H2⟩
    rw [List.foldlM_cons, g1, bind_ok, g2]

theorem new_history {g : GView m k NL EL} {A : AGraph (Id m) NL EL} (S : Shows g A) :
    ∃ c, ConnComp.new g = .ok c ∧ History g.edgeIndices c := by
  obtain ⟨c, h1, h2⟩ := fold_history g.edges [] ConnComp.empty History.empty
  rw [S.edgesEnds, List.nil_append] at h2
  exact ⟨c, h1, h2⟩

theorem edge_listed {g : GView m k NL EL} {A : AGraph (Id m) NL EL} (S : Shows g A) {s t : Id m}
    (h : (A.edge s t).isSome) : (s, t) ∈ g.edgeIndices ∨ (t, s) ∈ g.edgeIndices := by
  rcases e : g.directed
  · rcases le_total s t with hle | hle
    · exact .inl ((S.memEdges s t).2 ⟨h, .inr hle⟩)
    · exact .inr ((S.memEdges t s).2 ⟨by rw [← S.sym e]; exact h, .inr hle⟩)
  · exact .inl ((S.memEdges s t).2 ⟨h, .inl e⟩)

theorem occurs_graph {g : GView m k NL EL} {A : AGraph (Id m) NL EL} (S : Shows g A) (n : Id m) :
    Occurs g.edgeIndices n ↔ A.Touched n := by
  unfold Occurs AGraph.Touched
  constructor
  · rintro ⟨⟨s, t⟩, he, h⟩
    have := ((S.memEdges s t).1 he).1
    rcases h with rfl | rfl
    · exact ⟨t, .inl this⟩
    · exact ⟨s, .inr this⟩
  · rintro ⟨t, h | h⟩
    · rcases edge_listed S h with h | h
      · exact ⟨_, h, .inl rfl⟩
      · exact ⟨_, h, .inr rfl⟩
    · rcases edge_listed S h with h | h
      · exact ⟨_, h, .inr rfl⟩
      · exact ⟨_, h, .inl rfl⟩

theorem linked_graph {g : GView m k NL EL} {A : AGraph (Id m) NL EL} (S : Shows g A) (a b : Id m) :
    Linked g.edgeIndices a b ↔ A.Connected a b := by
  constructor
  · intro h
    exact Relation.EqvGen.mono (fun a b hab => ((S.memEdges a b).1 hab).1) _ _ h
  · intro h
    induction h with
    | rel a b hab =>
      rcases edge_listed S hab with g | g
      · exact linked_edge g
      · exact linked_symm (linked_edge g)
    | refl a => exact linked_refl _ _
    | symm a b _ ih => exact linked_symm ih
    | trans a b c _ _ ih1 ih2 => exact linked_trans ih1 ih2

end Verif.ConnComp
