import Verif.Proof.ReorderIso
import Verif.Proof.Makeable

/-! Graphs whose ids have been renamed more than once. -/

namespace Verif.GraphMap

open Spec

variable {m k : Nat} {NL EL : Type}

/-- `h` is `g` with ids and label ids related by `R`, `N` and `E`. -/
structure Moved (g h : GraphMap m k NL EL) (R : Id m → Id m → Prop) (N E : Option (Id k) → Option (Id k) → Prop) :
    Prop where
  node : ∀ n' l', h.labE n' = some l' ↔ ∃ n l, g.labE n = some l ∧ R n n' ∧ N l l'
  arc : ∀ s' t' l', h.outE s' t' = some l' ↔ ∃ s t l, g.outE s t = some l ∧ R s s' ∧ R t t' ∧ E l l'
  inArc : ∀ t' s', h.inE t' s' ↔ ∃ t s, g.inE t s ∧ R t t' ∧ R s s'

theorem Renamed.moved {g h : GraphMap m k NL EL} {idm : Option (SetMap (Id m))} {nlm elm : Option (SetMap (Id k))}
    (H : Renamed g h idm nlm elm) :
    Moved g h (fun n n' => newId idm n = .ok n') (fun l l' => newLabel nlm l = .ok l')
      (fun l l' => newLabel elm l = .ok l') := ⟨H.node, H.arc, H.inArc⟩

theorem moved_refl (g : GraphMap m k NL EL) : Moved g g Eq Eq Eq := by
  refine ⟨fun n' l' => ?_, fun s' t' l' => ?_, fun t' s' => ?_⟩ <;> simp

theorem Moved.trans {g h j : GraphMap m k NL EL} {R R' : Id m → Id m → Prop}
    {N E N' E' : Option (Id k) → Option (Id k) → Prop} (H : Moved g h R N E) (H' : Moved h j R' N' E') :
    Moved g j (Relation.Comp R R') (Relation.Comp N N') (Relation.Comp E E') := by
  refine ⟨fun n' l' => ?_, fun s' t' l' => ?_, fun t' s' => ?_⟩
  · rw [H'.node]
    constructor
    · rintro ⟨a, b, h1, h2, h3⟩
      obtain ⟨n, l, e1, e2, e3⟩ := (H.node _ _).1 h1
      exact ⟨n, l, e1, ⟨a, e2, h2⟩, ⟨b, e3, h3⟩⟩
    · rintro ⟨n, l, e1, ⟨a, e2, h2⟩, ⟨b, e3, h3⟩⟩
      exact ⟨a, b, (H.node _ _).2 ⟨n, l, e1, e2, e3⟩, h2, h3⟩
  · rw [H'.arc]
    constructor
    · rintro ⟨a, b, c, h1, h2, h3, h4⟩
      obtain ⟨s, t, l, e1, e2, e3, e4⟩ := (H.arc _ _ _).1 h1
      exact ⟨s, t, l, e1, ⟨a, e2, h2⟩, ⟨b, e3, h3⟩, ⟨c, e4, h4⟩⟩
    · rintro ⟨s, t, l, e1, ⟨a, e2, h2⟩, ⟨b, e3, h3⟩, ⟨c, e4, h4⟩⟩
      exact ⟨a, b, c, (H.arc _ _ _).2 ⟨s, t, l, e1, e2, e3, e4⟩, h2, h3, h4⟩
  · rw [H'.inArc]
    constructor
    · rintro ⟨a, b, h1, h2, h3⟩
      obtain ⟨t, s, e1, e2, e3⟩ := (H.inArc _ _).1 h1
      exact ⟨t, s, e1, ⟨a, e2, h2⟩, ⟨b, e3, h3⟩⟩
    · rintro ⟨t, s, e1, ⟨a, e2, h2⟩, ⟨b, e3, h3⟩⟩
      exact ⟨a, b, (H.inArc _ _).2 ⟨t, s, e1, e2, e3⟩, h2, h3⟩

/-- Relations that agree on what is in use lead to the same graph, up to the order of the hash map. -/
theorem Moved.perm {g h j : GraphMap m k NL EL} {R R' : Id m → Id m → Prop}
    {N E N' E' : Option (Id k) → Option (Id k) → Prop} (H : Moved g h R N E) (H' : Moved g j R' N' E')
    (hh : h.NWF) (hj : j.NWF) (hg : g.Inv)
    (hR : ∀ n, g.hasNode n = true → ∀ n', R n n' ↔ R' n n')
    (hN : ∀ n l, g.labE n = some l → ∀ l', N l l' ↔ N' l l')
    (hE : ∀ s t l, g.outE s t = some l → ∀ l', E l l' ↔ E' l l') : h.nodeMap.Perm j.nodeMap := by
  have hlab : ∀ n l, g.labE n = some l → g.hasNode n = true := fun n l e => by rw [hasNode_eq_labE, e]; rfl
  have hsrc : ∀ s t l, g.outE s t = some l → g.hasNode s = true := fun s t l e =>
    outE_hasNode (show (g.outE s t).isSome by rw [e]; rfl)
  have hdst : ∀ s t l, g.outE s t = some l → g.hasNode t = true := fun s t l e =>
    hg.target s t (show (g.outE s t).isSome by rw [e]; rfl)
  refine perm_of_same hj hh ?_ ?_
  · have e1 : h.labE = j.labE := by
      funext n'
      refine Option.ext fun l' => ?_
      rw [H.node, H'.node]
      constructor
      · rintro ⟨n, l, a, b, c⟩; exact ⟨n, l, a, (hR n (hlab n l a) _).1 b, (hN n l a _).1 c⟩
      · rintro ⟨n, l, a, b, c⟩; exact ⟨n, l, a, (hR n (hlab n l a) _).2 b, (hN n l a _).2 c⟩
    have e2 : h.outE = j.outE := by
      funext s' t'
      refine Option.ext fun l' => ?_
      rw [H.arc, H'.arc]
      constructor
      · rintro ⟨s, t, l, a, b, c, d⟩
        exact ⟨s, t, l, a, (hR s (hsrc s t l a) _).1 b, (hR t (hdst s t l a) _).1 c, (hE s t l a _).1 d⟩
      · rintro ⟨s, t, l, a, b, c, d⟩
        exact ⟨s, t, l, a, (hR s (hsrc s t l a) _).2 b, (hR t (hdst s t l a) _).2 c, (hE s t l a _).2 d⟩
    unfold rep
    rw [e1, e2]
  · intro b a
    have hin : ∀ t s, g.inE t s → g.hasNode t = true ∧ g.hasNode s = true := by
      intro t s e
      cases hd : g.directed with
      | false => exact absurd e (hg.inNil hd t s)
      | true =>
        have := (hg.inSpec hd s t).1 e
        exact ⟨hg.target s t this, outE_hasNode this⟩
    rw [H.inArc, H'.inArc]
    constructor
    · rintro ⟨t, s, x, y, z⟩
      exact ⟨t, s, x, (hR t (hin t s x).1 _).1 y, (hR s (hin t s x).2 _).1 z⟩
    · rintro ⟨t, s, x, y, z⟩
      exact ⟨t, s, x, (hR t (hin t s x).1 _).2 y, (hR s (hin t s x).2 _).2 z⟩

end Verif.GraphMap
