import Verif.Proof.Cycles

/-! The components of a graph without one of its nodes. -/

namespace Verif.Cut

open Spec GraphMap

variable {m k : Nat} {NL EL : Type} {A B : AGraph (Id m) NL EL} {n : Id m}

/-- `B` has the edges of `A` that avoid `n`. -/
def Avoids (A B : AGraph (Id m) NL EL) (n : Id m) : Prop :=
  ∀ a b, (B.edge a b).isSome ↔ (A.edge a b).isSome ∧ a ≠ n ∧ b ≠ n

theorem Avoids.connected (h : Avoids A B n) {a b : Id m} (hc : B.Connected a b) : A.Connected a b :=
  Relation.EqvGen.mono (fun _ _ e => ((h _ _).1 e).1) _ _ hc

theorem Avoids.touched (h : Avoids A B n) {x : Id m} (hx : B.Touched x) : x ≠ n ∧ A.Touched x := by
  obtain ⟨t, ht | ht⟩ := hx
  · have := (h _ _).1 ht; exact ⟨this.2.1, t, .inl this.1⟩
  · have := (h _ _).1 ht; exact ⟨this.2.2, t, .inr this.1⟩

/-- Away from `n` nothing changes. -/
theorem Avoids.away (h : Avoids A B n) {a b : Id m} (hc : A.Connected a b) (hn : ¬ A.Connected a n) :
    B.Connected a b := by
  induction hc with
  | rel x y e => exact .rel _ _ ((h _ _).2 ⟨e, fun e' => hn (e' ▸ .refl _), fun e' => hn (e' ▸ .rel _ _ e)⟩)
  | refl x => exact .refl _
  | symm x y hxy ih => exact .symm _ _ (ih fun h' => hn (.trans _ _ _ (.symm _ _ hxy) h'))
  | trans x y z hxy _ ih1 ih2 =>
    exact .trans _ _ _ (ih1 hn) (ih2 fun h' => hn (.trans _ _ _ hxy h'))

theorem Avoids.touched_away (h : Avoids A B n) {x : Id m} (hn : ¬ A.Connected x n) : B.Touched x ↔ A.Touched x := by
  refine ⟨fun hx => (h.touched hx).2, ?_⟩
  have hx : x ≠ n := fun e => hn (e ▸ .refl _)
  rintro ⟨t, ht | ht⟩
  · exact ⟨t, .inl ((h _ _).2 ⟨ht, hx, fun e => hn (e ▸ .rel _ _ ht)⟩)⟩
  · exact ⟨t, .inr ((h _ _).2 ⟨ht, fun e => hn (e ▸ .symm _ _ (.rel _ _ ht)), hx⟩)⟩

/-- What is linked to `n` is still linked to one of its neighbours. -/
theorem Avoids.neighbour (h : Avoids A B n) {x : Id m} (hc : A.Connected x n) (hx : x ≠ n) :
    ∃ y, y ≠ n ∧ ((A.edge n y).isSome ∨ (A.edge y n).isSome) ∧ B.Connected x y := by
  have hr : ∀ {a b : Id m}, A.Connected a b →
      Relation.ReflTransGen (fun s t => (A.edge s t).isSome ∨ (A.edge t s).isSome) a b := by
    intro a b hc
    induction hc with
    | rel a b e => exact .single (.inl e)
    | refl a => exact .refl
    | symm a b _ ih =>
      have hs : Std.Symm (fun s t : Id m => (A.edge s t).isSome = true ∨ (A.edge t s).isSome = true) :=
        ⟨fun _ _ => Or.symm⟩
      exact Std.Symm.symm _ _ ih
    | trans a b c _ _ ih1 ih2 => exact ih1.trans ih2
  have hr := hr hc
  induction hr using Relation.ReflTransGen.head_induction_on with
  | refl => exact absurd rfl hx
  | head hab hbc ih =>
    rename_i a c
    by_cases hc : c = n
    · subst hc
      exact ⟨a, hx, hab.symm, .refl _⟩
    · have hcn : A.Connected c n := by
        clear ih hab
        induction hbc using Relation.ReflTransGen.head_induction_on with
        | refl => exact .refl _
        | head h1 h2 ih =>
          rename_i u v
          have huv : A.Connected u v := by
            rcases h1 with h1 | h1
            · exact .rel _ _ h1
            · exact .symm _ _ (.rel _ _ h1)
          by_cases hv : v = n
          · exact hv ▸ huv
          · exact .trans _ _ _ huv (ih hv)
      obtain ⟨y, h1, h2, h3⟩ := ih hcn hc
      refine ⟨y, h1, h2, .trans _ _ _ ?_ h3⟩
      rcases hab with hab | hab
      · exact .rel _ _ ((h _ _).2 ⟨hab, hx, hc⟩)
      · exact .symm _ _ (.rel _ _ ((h _ _).2 ⟨hab, hc, hx⟩))

/-- The components of the nodes some edge touches. -/
def parts (A : AGraph (Id m) NL EL) : Set (Set (Id m)) := {C | ∃ x, A.Touched x ∧ C = {y | A.Connected x y}}

/-- What becomes of the component of `n`. -/
def pieces (A B : AGraph (Id m) NL EL) (n : Id m) : Set (Set (Id m)) :=
  {C | ∃ x, B.Touched x ∧ A.Connected n x ∧ C = {y | B.Connected x y}}

theorem class_eq {x y : Id m} (h : A.Connected x y) : {z | A.Connected x z} = {z | A.Connected y z} := by
  ext z
  exact ⟨fun h' => .trans _ _ _ (.symm _ _ h) h', fun h' => .trans _ _ _ h h'⟩

theorem Avoids.parts (h : Avoids A B n) :
    Cut.parts B = (Cut.parts A \ {{y | A.Connected n y}}) ∪ pieces A B n ∧
    Disjoint (Cut.parts A \ {{y | A.Connected n y}}) (pieces A B n) := by
  constructor
  · ext C
    constructor
    · rintro ⟨x, hx, rfl⟩
      by_cases hn : A.Connected x n
      · exact .inr ⟨x, hx, .symm _ _ hn, rfl⟩
      · refine .inl ⟨⟨x, (h.touched hx).2, ?_⟩, ?_⟩
        · ext y
          exact ⟨h.connected, fun h' => h.away h' hn⟩
        · intro e
          have : x ∈ {y | B.Connected x y} := .refl _
          rw [e] at this
          exact hn (.symm _ _ this)
    · rintro (⟨⟨x, hx, rfl⟩, hne⟩ | ⟨x, hx, -, rfl⟩)
      · have hn : ¬ A.Connected x n := fun hn => hne (class_eq hn)
        refine ⟨x, (h.touched_away hn).2 hx, ?_⟩
        ext y
        exact ⟨fun h' => h.away h' hn, h.connected⟩
      · exact ⟨x, hx, rfl⟩
  · rw [Set.disjoint_left]
    rintro C ⟨⟨x, hx, rfl⟩, hne⟩ ⟨y, hy, hny, e⟩
    have : y ∈ {z | B.Connected y z} := .refl _
    rw [← e] at this
    exact hne (class_eq (.trans _ _ _ this (.symm _ _ hny)))

theorem Avoids.count (h : Avoids A B n) :
    (A.Touched n → (Cut.parts B).ncard + 1 = (Cut.parts A).ncard + (pieces A B n).ncard) ∧
    (¬ A.Touched n → (Cut.parts B).ncard = (Cut.parts A).ncard) := by
  obtain ⟨h1, h2⟩ := h.parts
  have e := Set.ncard_union_eq h2 (Set.toFinite _) (Set.toFinite _)
  rw [← h1] at e
  constructor
  · intro hn
    have hm : {y | A.Connected n y} ∈ Cut.parts A := ⟨n, hn, rfl⟩
    have := Set.ncard_sdiff_singleton_add_one hm (Set.toFinite _)
    omega
  · intro hn
    have none : ∀ x, A.Connected n x → x = n := by
      intro x hx
      by_contra hne
      have : ∀ {a b : Id m}, A.Connected a b → a ≠ b → A.Touched a ∧ A.Touched b := by
        intro a b hab
        induction hab with
        | rel a b e => exact fun _ => ⟨⟨b, .inl e⟩, ⟨a, .inr e⟩⟩
        | refl a => exact fun h => absurd rfl h
        | symm a b _ ih => exact fun h => (ih (Ne.symm h)).symm
        | trans a b c _ _ ih1 ih2 =>
          intro hac
          by_cases hab : a = b
          · subst hab; exact ih2 hac
          · by_cases hbc : b = c
            · subst hbc; exact ih1 hab
            · exact ⟨(ih1 hab).1, (ih2 hbc).2⟩
      exact hn (this hx (Ne.symm hne)).1
    have hp : pieces A B n = ∅ := by
      rw [Set.eq_empty_iff_forall_notMem]
      rintro C ⟨x, hx, hnx, -⟩
      exact (h.touched hx).1 (none x hnx)
    have hd : Cut.parts A \ {{y | A.Connected n y}} = Cut.parts A := by
      rw [Set.sdiff_singleton_eq_self]
      rintro ⟨x, hx, e⟩
      have : x ∈ {y | A.Connected x y} := .refl _
      rw [← e] at this
      exact hn (none x this ▸ hx)
    rw [hp, hd] at e
    simpa using e

theorem Avoids.pieces_le (h : Avoids A B n) :
    (pieces A B n).ncard ≤ {y | y ≠ n ∧ ((A.edge n y).isSome ∨ (A.edge y n).isSome)}.ncard := by
  have : pieces A B n ⊆ (fun y => {z | B.Connected y z}) '' {y | y ≠ n ∧ ((A.edge n y).isSome ∨ (A.edge y n).isSome)} := by
    rintro C ⟨x, hx, hnx, rfl⟩
    obtain ⟨y, h1, h2, h3⟩ := h.neighbour (.symm _ _ hnx) (h.touched hx).1
    exact ⟨y, ⟨h1, h2⟩, (class_eq h3).symm⟩
  exact (Set.ncard_le_ncard this (Set.toFinite _)).trans (Set.ncard_image_le (Set.toFinite _))

end Verif.Cut
