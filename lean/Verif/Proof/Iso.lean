import Verif.Spec.Iso
import Verif.Proof.Components
import Verif.Proof.Counting
import Verif.Proof.GraphOps

/-! What isomorphic graphs have in common. -/

namespace Verif

open Spec

variable {m m' : Nat} {NL EL : Type} {A : AGraph (Id m) NL EL} {B : AGraph (Id m') NL EL} {f : Id m → Id m'}

namespace AIso

/-- Both are graphs: the ends of their edges are nodes. -/
def Closed {m : Nat} (A : AGraph (Id m) NL EL) : Prop :=
  ∀ s t, (A.edge s t).isSome → (A.node s).isSome ∧ (A.node t).isSome

theorem onto (I : A.Iso B f) {y : Id m'} (h : (B.node y).isSome) : ∃ x, (A.node x).isSome ∧ f x = y :=
  I.bij.surjOn h

theorem inj (I : A.Iso B f) {x y : Id m} (hx : (A.node x).isSome) (hy : (A.node y).isSome) (h : f x = f y) :
    x = y := I.bij.injOn hx hy h

theorem mem (I : A.Iso B f) {x : Id m} (hx : (A.node x).isSome) : (B.node (f x)).isSome := I.bij.mapsTo hx

theorem touched_node {m : Nat} {A : AGraph (Id m) NL EL} (hA : Closed A) {n : Id m} (h : A.Touched n) :
    (A.node n).isSome := by
  obtain ⟨t, e | e⟩ := h
  · exact (hA _ _ e).1
  · exact (hA _ _ e).2

theorem touched (I : A.Iso B f) (hA : Closed A) (hB : Closed B) {x : Id m} (hx : (A.node x).isSome) :
    B.Touched (f x) ↔ A.Touched x := by
  constructor
  · rintro ⟨y, e | e⟩
    · obtain ⟨t, ht, rfl⟩ := onto I (hB _ _ e).2
      exact ⟨t, .inl (by rwa [I.edge _ _ hx ht] at e)⟩
    · obtain ⟨t, ht, rfl⟩ := onto I (hB _ _ e).1
      exact ⟨t, .inr (by rwa [I.edge _ _ ht hx] at e)⟩
  · rintro ⟨t, e | e⟩
    · exact ⟨f t, .inl (by rwa [I.edge _ _ hx (hA _ _ e).2])⟩
    · exact ⟨f t, .inr (by rwa [I.edge _ _ (hA _ _ e).1 hx])⟩

theorem connected (I : A.Iso B f) (hA : Closed A) (hB : Closed B) {x y : Id m} (hx : (A.node x).isSome)
    (hy : (A.node y).isSome) : B.Connected (f x) (f y) ↔ A.Connected x y := by
  constructor
  · intro h
    have key : ∀ u v, B.Connected u v → ∀ a b, (A.node a).isSome → (A.node b).isSome → f a = u → f b = v →
        A.Connected a b := by
      intro u v h
      induction h with
      | rel u v e =>
        rintro a b ha hb rfl rfl
        rw [I.edge _ _ ha hb] at e
        exact .rel _ _ e
      | refl u =>
        intro a b ha hb h1 h2
        rw [inj I ha hb (h1.trans h2.symm)]
        exact .refl _
      | symm u v _ ih =>
        intro a b ha hb h1 h2
        exact .symm _ _ (ih b a hb ha h2 h1)
      | trans u v w h1 h2 ih1 ih2 =>
        intro a b ha hb e1 e2
        rcases connected_touched h1 with rfl | ht
        · exact ih2 a b ha hb e1 e2
        · obtain ⟨c, hc, e3⟩ := onto I (touched_node hB ht.2)
          exact .trans _ _ _ (ih1 a c ha hc e1 e3) (ih2 c b hc hb e3 e2)
    exact key _ _ h x y hx hy rfl rfl
  · intro h
    clear hx hy
    induction h with
    | rel u v e =>
      refine .rel _ _ ?_
      rwa [I.edge _ _ (hA _ _ e).1 (hA _ _ e).2]
    | refl u => exact .refl _
    | symm u v _ ih => exact .symm _ _ ih
    | trans u v w _ _ ih1 ih2 => exact .trans _ _ _ ih1 ih2

theorem walk (I : A.Iso B f) (hA : Closed A) (hB : Closed B) {x y : Id m} {n : Nat} (hx : (A.node x).isSome)
    (hy : (A.node y).isSome) : B.Walk (f x) n (f y) ↔ A.Walk x n y := by
  constructor
  · intro h
    have key : ∀ n v, B.Walk (f x) n v → ∀ b, (A.node b).isSome → f b = v → A.Walk x n b := by
      intro n v h
      induction h with
      | here =>
        intro b hb e
        rw [inj I hb hx e]
        exact .here
      | step w e ih =>
        rintro b hb rfl
        obtain ⟨c, hc, rfl⟩ := onto I (hB _ _ e).1
        exact .step (ih c hc rfl) (by rwa [I.edge _ _ hc hb] at e)
    exact key _ _ h y hy rfl
  · intro h
    clear hy
    induction h with
    | here => exact .here
    | step w e ih => exact .step ih (by rwa [I.edge _ _ (hA _ _ e).1 (hA _ _ e).2])

theorem walk_node {m : Nat} {A : AGraph (Id m) NL EL} (hA : Closed A) {x y : Id m} {n : Nat}
    (hx : (A.node x).isSome) (w : A.Walk x n y) : (A.node y).isSome := by
  cases w with
  | here => exact hx
  | step _ e => exact (hA _ _ e).2

theorem reaches (I : A.Iso B f) (hA : Closed A) (hB : Closed B) {x y : Id m} (hx : (A.node x).isSome)
    (hy : (A.node y).isSome) : B.Reaches (f x) (f y) ↔ A.Reaches x y :=
  exists_congr (fun _ => walk I hA hB hx hy)

theorem far (I : A.Iso B f) (hA : Closed A) (hB : Closed B) {x y : Id m} (hx : (A.node x).isSome)
    (hy : (A.node y).isSome) : B.far (f x) (f y) = A.far x y := by
  unfold AGraph.far
  congr 1
  ext c
  exact walk I hA hB hx hy

/-- The number of components with an edge. -/
theorem components (I : A.Iso B f) (hA : Closed A) (hB : Closed B) :
    {C : Set (Id m) | ∃ n, A.Touched n ∧ C = {x | A.Connected n x}}.ncard =
      {C : Set (Id m') | ∃ n, B.Touched n ∧ C = {x | B.Connected n x}}.ncard := by
  have hnode : ∀ n, A.Touched n → ∀ x, A.Connected n x → (A.node x).isSome := by
    intro n hn x h
    rcases connected_touched h with rfl | h
    · exact touched_node hA hn
    · exact touched_node hA h.2
  have himg : ∀ n, A.Touched n → f '' {x | A.Connected n x} = {y | B.Connected (f n) y} := by
    intro n hn
    have hn' := touched_node hA hn
    ext y
    simp only [Set.mem_image, Set.mem_setOf_eq]
    constructor
    · rintro ⟨x, hx, rfl⟩
      exact (connected I hA hB hn' (hnode n hn x hx)).2 hx
    · intro h
      have hy : (B.node y).isSome := by
        rcases connected_touched h with rfl | h
        · exact mem I hn'
        · exact touched_node hB h.2
      obtain ⟨x, hx, rfl⟩ := onto I hy
      exact ⟨x, (connected I hA hB hn' hx).1 h, rfl⟩
  refine Set.ncard_congr (fun C _ => f '' C) ?_ ?_ ?_
  · rintro C ⟨n, hn, rfl⟩
    exact ⟨f n, (touched I hA hB (touched_node hA hn)).2 hn, himg n hn⟩
  · rintro C D ⟨n, hn, rfl⟩ ⟨n', hn', rfl⟩ e
    exact (I.bij.injOn.image_eq_image_iff (fun x hx => hnode n hn x hx) (fun x hx => hnode n' hn' x hx)).1 e
  · rintro D ⟨y, hy, rfl⟩
    obtain ⟨n, hn, rfl⟩ := onto I (touched_node hB hy)
    have ht := (touched I hA hB hn).1 hy
    exact ⟨{x | A.Connected n x}, ⟨n, ht, rfl⟩, himg n ht⟩

/-- Counting pairs of nodes. -/
theorem card_pairs (I : A.Iso B f) (p : Id m → Id m → Prop) (q : Id m' → Id m' → Prop) [DecidableRel p]
    [DecidableRel q] (hp : ∀ s t, p s t → (A.node s).isSome ∧ (A.node t).isSome)
    (hq : ∀ s t, q s t → (B.node s).isSome ∧ (B.node t).isSome)
    (h : ∀ s t, (A.node s).isSome → (A.node t).isSome → (q (f s) (f t) ↔ p s t)) :
    (Finset.univ.filter (fun e : Id m × Id m => p e.1 e.2)).card =
      (Finset.univ.filter (fun e : Id m' × Id m' => q e.1 e.2)).card := by
  apply Finset.card_bij (fun e _ => (f e.1, f e.2))
  · rintro ⟨s, t⟩ he
    simp only [Finset.mem_filter, Finset.mem_univ, true_and] at he ⊢
    exact (h s t (hp _ _ he).1 (hp _ _ he).2).2 he
  · rintro ⟨s, t⟩ he ⟨s', t'⟩ he' e
    simp only [Finset.mem_filter, Finset.mem_univ, true_and] at he he'
    simp only [Prod.mk.injEq] at e
    exact Prod.ext (inj I (hp _ _ he).1 (hp _ _ he').1 e.1) (inj I (hp _ _ he).2 (hp _ _ he').2 e.2)
  · rintro ⟨s, t⟩ he
    simp only [Finset.mem_filter, Finset.mem_univ, true_and] at he
    obtain ⟨x, hx, rfl⟩ := onto I (hq _ _ he).1
    obtain ⟨y, hy, rfl⟩ := onto I (hq _ _ he).2
    exact ⟨(x, y), by simpa using (h x y hx hy).1 he, rfl⟩

/-- Counting nodes. -/
theorem card_nodes (I : A.Iso B f) (p : Id m → Prop) (q : Id m' → Prop) [DecidablePred p]
    [DecidablePred q] (hp : ∀ s, p s → (A.node s).isSome) (hq : ∀ s, q s → (B.node s).isSome)
    (h : ∀ s, (A.node s).isSome → (q (f s) ↔ p s)) :
    (Finset.univ.filter p).card = (Finset.univ.filter q).card := by
  apply Finset.card_bij (fun e _ => f e)
  · intro s he
    simp only [Finset.mem_filter, Finset.mem_univ, true_and] at he ⊢
    exact (h s (hp _ he)).2 he
  · intro s he s' he' e
    simp only [Finset.mem_filter, Finset.mem_univ, true_and] at he he'
    exact inj I (hp _ he) (hp _ he') e
  · intro s he
    simp only [Finset.mem_filter, Finset.mem_univ, true_and] at he
    obtain ⟨x, hx, rfl⟩ := onto I (hq _ he)
    exact ⟨x, by simpa using (h x hx).1 he, rfl⟩

/-- Counting edges as they are listed. -/
theorem card_listed (I : A.Iso B f) (d : Bool) (p : Id m → Id m → Prop) (q : Id m' → Id m' → Prop)
    [DecidableRel p] [DecidableRel q] (hp : ∀ s t, p s t → (A.node s).isSome ∧ (A.node t).isSome)
    (hq : ∀ s t, q s t → (B.node s).isSome ∧ (B.node t).isSome)
    (h : ∀ s t, (A.node s).isSome → (A.node t).isSome → (q (f s) (f t) ↔ p s t))
    (sp : d = false → ∀ s t, p s t → p t s) (sq : d = false → ∀ s t, q s t → q t s) :
    (Finset.univ.filter (fun e : Id m × Id m => p e.1 e.2 ∧ (d = true ∨ e.1 ≤ e.2))).card =
      (Finset.univ.filter (fun e : Id m' × Id m' => q e.1 e.2 ∧ (d = true ∨ e.1 ≤ e.2))).card := by
  have h1 := card_pairs I p q hp hq h
  cases d with
  | true => simpa using h1
  | false =>
    have h2 := GraphMap.undirected_count p (sp rfl)
    have h3 := GraphMap.undirected_count q (sq rfl)
    have h4 := card_nodes I (fun n => p n n) (fun n => q n n) (fun s e => (hp _ _ e).1)
      (fun s e => (hq _ _ e).1) (fun s hs => h s s hs hs)
    simp only [Bool.false_eq_true, false_or]
    omega

end AIso

end Verif
