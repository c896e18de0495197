import Mathlib.Data.Fintype.Card
import Mathlib.Tactic.Common
import Verif.Spec.ConnComp
import Verif.Proof.Collections
import Verif.Proof.GraphMap

/-! The parent map of `ConnComp` is a forest: `rep` sends a node to its root, `h` decreases along parents. -/

namespace Verif.ConnComp

open Verif.Spec

variable {m : Nat}

/-- A parent map with root function and a measure that decreases towards the root. -/
structure Forest (p : List (Id m × Id m)) (rep : Id m → Id m) (h : Id m → Nat) : Prop where
  nodup : (AL.keys p).Nodup
  fresh : ∀ n, AL.get p n = none → rep n = n
  up : ∀ n q, AL.get p n = some q →
    (AL.get p q).isSome ∧ rep q = rep n ∧ (q ≠ n → h q < h n) ∧ (q = n → rep n = n)

theorem Forest.root {p : List (Id m × Id m)} {rep h} (F : Forest p rep h) :
    ∀ (d : Nat) (n : Id m), h n ≤ d → (AL.get p n).isSome → AL.get p (rep n) = some (rep n) := by
  intro d
  induction d with
  | zero =>
    intro n hd hs
    obtain ⟨q, hq⟩ := Option.isSome_iff_exists.1 hs
    obtain ⟨h1, h2, h3, h4⟩ := F.up n q hq
    by_cases e : q = n
    · rw [h4 e]; rw [hq, e]
    · exact absurd (h3 e) (by omega)
  | succ d ih =>
    intro n hd hs
    obtain ⟨q, hq⟩ := Option.isSome_iff_exists.1 hs
    obtain ⟨h1, h2, h3, h4⟩ := F.up n q hq
    by_cases e : q = n
    · rw [h4 e]; rw [hq, e]
    · have := h3 e
      rw [← h2]
      exact ih q (by omega) h1

theorem Forest.rep_root {p : List (Id m × Id m)} {rep h} (F : Forest p rep h) {n : Id m}
    (hs : (AL.get p n).isSome) : AL.get p (rep n) = some (rep n) := F.root (h n) n le_rfl hs

theorem Forest.root_iff {p : List (Id m × Id m)} {rep h} (F : Forest p rep h) {n : Id m}
    (hs : (AL.get p n).isSome) : AL.get p n = some n ↔ rep n = n := by
  constructor
  · intro e; exact (F.up n n e).2.2.2 rfl
  · intro e; have := F.rep_root hs; rwa [e] at this

/-- Root functions are idempotent. -/
theorem Forest.rep_rep {p : List (Id m × Id m)} {rep h} (F : Forest p rep h) (n : Id m) :
    rep (rep n) = rep n := by
  rcases e : AL.get p n with _ | q
  · rw [F.fresh n e, F.fresh n e]
  · have := F.rep_root (n := n) (by simp [e])
    exact (F.up _ _ this).2.2.2 rfl

/-- Keys below `n`. -/
def below (p : List (Id m × Id m)) (h : Id m → Nat) (n : Id m) : Nat :=
  ((AL.keys p).filter (fun x => decide (h x < h n))).length

theorem below_lt {p : List (Id m × Id m)} {h : Id m → Nat} {n q : Id m} (hn : (AL.keys p).Nodup)
    (hq : q ∈ AL.keys p) (hlt : h q < h n) : below p h q < below p h n := by
  unfold below
  rw [← List.toFinset_card_of_nodup (hn.filter _), ← List.toFinset_card_of_nodup (hn.filter _)]
  apply Finset.card_lt_card
  rw [Finset.ssubset_iff_of_subset]
  · refine ⟨q, ?_, ?_⟩ <;> simp [hq, hlt]
  · intro x hx
    simp only [List.mem_toFinset, List.mem_filter, decide_eq_true_eq] at hx ⊢
    exact ⟨hx.1, hx.2.trans hlt⟩

theorem Forest.halve {p : List (Id m × Id m)} {rep h} (F : Forest p rep h) {n q qq : Id m}
    (h1 : AL.get p n = some q) (h2 : AL.get p q = some qq) (hne : q ≠ n) :
    Forest (AL.hinsert p n qq) rep h ∧ h qq < h n ∧ rep qq = rep n ∧
    AL.keys (AL.hinsert p n qq) = AL.keys p ∧
    (∀ x, AL.get (AL.hinsert p n qq) x = some x ↔ AL.get p x = some x) := by
  obtain ⟨a1, a2, a3, a4⟩ := F.up n q h1
  obtain ⟨b1, b2, b3, b4⟩ := F.up q qq h2
  have hlt : h qq < h n := by
    by_cases e : qq = q
    · rw [e]; exact a3 hne
    · exact (b3 e).trans (a3 hne)
  have hk : AL.keys (AL.hinsert p n qq) = AL.keys p := by
    rw [AL.keys_hinsert, if_pos]
    rw [← AL.get_isSome_iff, h1]; rfl
  have hs : ∀ x, (AL.get (AL.hinsert p n qq) x).isSome ↔ (AL.get p x).isSome := by
    intro x; rw [AL.get_isSome_iff, AL.get_isSome_iff, hk]
  have hqn : qq ≠ n := fun e => by rw [e] at hlt; exact lt_irrefl _ hlt
  refine ⟨⟨by rw [hk]; exact F.nodup, ?_, ?_⟩, hlt, b2.trans a2, hk, ?_⟩
  · intro x hx
    rw [AL.get_hinsert] at hx
    split at hx
    · simp at hx
    · exact F.fresh x hx
  · intro x y hx
    rw [AL.get_hinsert] at hx
    split at hx
    · rename_i e
      subst e
      simp only [Option.some.injEq] at hx
      subst hx
      exact ⟨(hs _).2 b1, b2.trans a2, fun _ => hlt, fun e => absurd e hqn⟩
    · obtain ⟨c1, c2, c3, c4⟩ := F.up x y hx
      exact ⟨(hs _).2 c1, c2, c3, c4⟩
  · intro x
    rw [AL.get_hinsert]
    split
    · rename_i e
      subst e
      rw [h1]
      simp only [Option.some.injEq]
      exact ⟨fun e => absurd e hqn, fun e => absurd e hne⟩
    · exact Iff.rfl

theorem rootLoop_ok {rep : Id m → Id m} {h : Id m → Nat} : ∀ (fuel : Nat) (p : List (Id m × Id m)) (n : Id m),
    Forest p rep h → (AL.get p n).isSome → below p h n < fuel →
    ∃ p', rootLoop fuel p n = .ok (p', rep n) ∧ Forest p' rep h ∧ AL.keys p' = AL.keys p ∧
      (∀ x, AL.get p' x = some x ↔ AL.get p x = some x) := by
  intro fuel
  induction fuel with
  | zero => intro p n F hs hlt; omega
  | succ fuel ih =>
    intro p n F hs hlt
    obtain ⟨q, hq⟩ := Option.isSome_iff_exists.1 hs
    rw [rootLoop]
    by_cases e : AL.get p n = some n
    · rw [if_neg (not_not.2 e)]
      rw [(F.root_iff hs).1 e]
      exact ⟨p, rfl, F, rfl, fun _ => Iff.rfl⟩
    · rw [if_pos e]
      have hne : q ≠ n := fun e' => e (by rw [hq, e'])
      obtain ⟨a1, a2, a3, a4⟩ := F.up n q hq
      obtain ⟨qq, hqq⟩ := Option.isSome_iff_exists.1 a1
      obtain ⟨F', hlt', hr, hk, hroots⟩ := F.halve hq hqq hne
      have hqk : qq ∈ AL.keys p := (AL.get_isSome_iff _ _).1 (F.up q qq hqq).1
      obtain ⟨p', g1, g2, g3, g4⟩ := ih (AL.hinsert p n qq) qq F'
        ((AL.get_isSome_iff _ _).2 (by rw [hk]; exact hqk))
        (by
          have := below_lt F.nodup hqk hlt'
          have e2 : below (AL.hinsert p n qq) h qq = below p h qq := by unfold below; rw [hk]
          omega)
      refine ⟨p', ?_, g2, g3.trans hk, fun x => (g4 x).trans (hroots x)⟩
      have i1 : index p n = .ok q := by unfold index; rw [hq]; rfl
      have i2 : index p q = .ok qq := by unfold index; rw [hqq]; rfl
      rw [i1, bind_ok, i2, bind_ok, g1, hr]

theorem rootLoop_missing {fuel : Nat} {p : List (Id m × Id m)} {n : Id m} (h : AL.get p n = none) :
    rootLoop (fuel + 1) p n = .error .nodeMissing := by
  rw [rootLoop, if_pos (by rw [h]; simp)]
  have : index p n = .error .nodeMissing := by unfold index; rw [h]
  rw [this, bind_error]

/-- The state of a `ConnComp` that has processed the edges `E` and answers `rep n` for the root of `n`. -/
structure Inv (E : List (Id m × Id m)) (rep : Id m → Id m) (c : ConnComp m) : Prop where
  forest : ∃ h, Forest c.parent rep h
  keys : ∀ n, (AL.get c.parent n).isSome ↔ Occurs E n
  linked : ∀ a b, rep a = rep b ↔ Linked E a b
  count : c.count = (Finset.univ.filter (fun n => AL.get c.parent n = some n)).card

theorem getRoot_ok {E : List (Id m × Id m)} {rep} {c : ConnComp m} (I : Inv E rep c) {n : Id m}
    (ho : Occurs E n) : ∃ c', c.getRoot n = .ok (c', some (rep n)) ∧ Inv E rep c' ∧
      AL.keys c'.parent = AL.keys c.parent := by
  obtain ⟨h, F⟩ := I.forest
  have hs := (I.keys n).2 ho
  have hb : below c.parent h n < c.parent.length + 1 := by
    unfold below
    have := List.length_filter_le (fun x => decide (h x < h n)) (AL.keys c.parent)
    have e : (AL.keys c.parent).length = c.parent.length := by unfold AL.keys; simp
    omega
  obtain ⟨p', g1, g2, g3, g4⟩ := rootLoop_ok _ c.parent n F hs hb
  have hk : ∀ x, (AL.get p' x).isSome ↔ (AL.get c.parent x).isSome := by
    intro x; rw [AL.get_isSome_iff, AL.get_isSome_iff, g3]
  refine ⟨⟨p', c.count⟩, ?_, ⟨⟨h, g2⟩, fun x => (hk x).trans (I.keys x), I.linked, ?_⟩, g3⟩
  · unfold getRoot
    rw [g1, bind_ok]
    have : AL.get p' (rep n) = some (rep n) := (g4 _).2 (F.rep_root hs)
    simp only [this]
    rfl
  · show c.count = _
    rw [I.count]
    congr 1
    ext x
    simp [g4 x]

theorem getRoot_missing {E : List (Id m × Id m)} {rep} {c : ConnComp m} (I : Inv E rep c) {n : Id m}
    (ho : ¬ Occurs E n) : c.getRoot n = .error .nodeMissing := by
  unfold getRoot
  rw [rootLoop_missing, bind_error]
  have := (I.keys n).not.2 ho
  simpa using this

theorem linked_mono {E E' : List (Id m × Id m)} (h : ∀ e ∈ E, e ∈ E') {a b : Id m} (l : Linked E a b) :
    Linked E' a b := Relation.EqvGen.mono (fun a b hab => h (a, b) hab) _ _ l

theorem linked_trans {E : List (Id m × Id m)} {a b c : Id m} (h : Linked E a b) (h' : Linked E b c) :
    Linked E a c := Relation.EqvGen.trans _ _ _ h h'

theorem linked_symm {E : List (Id m × Id m)} {a b : Id m} (h : Linked E a b) : Linked E b a :=
  Relation.EqvGen.symm _ _ h

theorem linked_refl (E : List (Id m × Id m)) (a : Id m) : Linked E a a := Relation.EqvGen.refl _

theorem linked_edge {E : List (Id m × Id m)} {a b : Id m} (h : (a, b) ∈ E) : Linked E a b :=
  Relation.EqvGen.rel _ _ h

theorem linked_occurs {E : List (Id m × Id m)} {a b : Id m} (h : Linked E a b) :
    a = b ∨ (Occurs E a ∧ Occurs E b) := by
  induction h with
  | rel a b h => exact .inr ⟨⟨_, h, .inl rfl⟩, ⟨_, h, .inr rfl⟩⟩
  | refl a => exact .inl rfl
  | symm a b _ ih =>
    rcases ih with e | ⟨h1, h2⟩
    · exact .inl e.symm
    · exact .inr ⟨h2, h1⟩
  | trans a b c _ _ ih1 ih2 =>
    rcases ih1 with e | ⟨h1, h2⟩
    · rw [e]; exact ih2
    · rcases ih2 with e | ⟨h3, h4⟩
      · rw [← e]; exact .inr ⟨h1, h2⟩
      · exact .inr ⟨h1, h4⟩

theorem linked_ext {E E' : List (Id m × Id m)}
    (h : ∀ a b, ((a, b) ∈ E ∨ (b, a) ∈ E) ↔ ((a, b) ∈ E' ∨ (b, a) ∈ E')) (a b : Id m) :
    Linked E a b ↔ Linked E' a b := by
  have key : ∀ {E E' : List (Id m × Id m)}, (∀ a b, (a, b) ∈ E → ((a, b) ∈ E' ∨ (b, a) ∈ E')) →
      ∀ a b, Linked E a b → Linked E' a b := by
    intro E E' h a b l
    induction l with
    | rel a b hab =>
      rcases h a b hab with g | g
      · exact linked_edge g
      · exact linked_symm (linked_edge g)
    | refl a => exact linked_refl _ _
    | symm a b _ ih => exact linked_symm ih
    | trans a b c _ _ ih1 ih2 => exact linked_trans ih1 ih2
  exact ⟨key (fun a b hab => (h a b).1 (.inl hab)) a b, key (fun a b hab => (h a b).2 (.inl hab)) a b⟩

/-- A registration adds a root; nothing else changes. -/
theorem register_forest {rep : Id m → Id m} {h : Id m → Nat} {c : ConnComp m} (F : Forest c.parent rep h)
    (hc : c.count = (Finset.univ.filter (fun n => AL.get c.parent n = some n)).card) (x : Id m) :
    Forest (c.register x).parent rep h ∧
    (c.register x).count = (Finset.univ.filter (fun n => AL.get (c.register x).parent n = some n)).card ∧
    (∀ n, (AL.get (c.register x).parent n).isSome ↔ (n = x ∨ (AL.get c.parent n).isSome)) := by
  unfold register
  by_cases e : (AL.get c.parent x).isSome
  · rw [if_pos e]
    refine ⟨F, hc, fun n => ⟨.inr, ?_⟩⟩
    rintro (rfl | h)
    · exact e
    · exact h
  · rw [if_neg e]
    have e' : AL.get c.parent x = none := by simpa using e
    have hs : ∀ n, (AL.get (AL.hinsert c.parent x x) n).isSome ↔ (n = x ∨ (AL.get c.parent n).isSome) := by
      intro n
      rw [AL.get_hinsert]
      split
      · rename_i e; simp [e]
      · rename_i e; simp [Ne.symm e]
    refine ⟨⟨AL.keys_hinsert_nodup F.nodup _ _, ?_, ?_⟩, ?_, hs⟩
    · intro n hn
      by_cases en : x = n
      · subst en; exact F.fresh _ e'
      · rw [AL.get_hinsert, if_neg en] at hn
        exact F.fresh n hn
    · intro n q hq
      change AL.get (AL.hinsert c.parent x x) n = some q at hq
      by_cases en : x = n
      · subst en
        rw [AL.get_hinsert, if_pos rfl] at hq
        simp only [Option.some.injEq] at hq
        subst hq
        exact ⟨(hs _).2 (.inl rfl), rfl, fun h => absurd rfl h, fun _ => F.fresh _ e'⟩
      · rw [AL.get_hinsert, if_neg en] at hq
        obtain ⟨a1, a2, a3, a4⟩ := F.up n q hq
        exact ⟨(hs _).2 (.inr a1), a2, a3, a4⟩
    · show c.count + 1 = _
      rw [hc]
      have : (Finset.univ.filter (fun n => AL.get (AL.hinsert c.parent x x) n = some n))
          = insert x (Finset.univ.filter (fun n => AL.get c.parent n = some n)) := by
        ext n
        simp only [Finset.mem_filter, Finset.mem_univ, true_and, Finset.mem_insert, AL.get_hinsert]
        split
        · rename_i e; simp [e]
        · rename_i e; simp [Ne.symm e]
      rw [this, Finset.card_insert_of_notMem]
      simp [e']

theorem occurs_snoc (E : List (Id m × Id m)) (x y n : Id m) :
    Occurs (E ++ [(x, y)]) n ↔ (n = y ∨ n = x ∨ Occurs E n) := by
  unfold Occurs
  constructor
  · rintro ⟨e, he, h⟩
    rw [List.mem_append, List.mem_singleton] at he
    rcases he with he | rfl
    · exact .inr (.inr ⟨e, he, h⟩)
    · rcases h with h | h
      · exact .inr (.inl h)
      · exact .inl h
  · rintro (h | h | ⟨e, he, h⟩)
    · exact ⟨(x, y), by simp, .inr h⟩
    · exact ⟨(x, y), by simp, .inl h⟩
    · exact ⟨e, List.mem_append_left _ he, h⟩

/-- Joining two classes of nodes. -/
theorem linked_join {E : List (Id m × Id m)} {rep : Id m → Id m} (hl : ∀ a b, rep a = rep b ↔ Linked E a b)
    (x y a b : Id m) :
    ((if rep a = rep x then rep y else rep a) = (if rep b = rep x then rep y else rep b)) ↔
      Linked (E ++ [(x, y)]) a b := by
  have up : ∀ {a b}, rep a = rep b → Linked (E ++ [(x, y)]) a b := fun h =>
    linked_mono (fun e he => List.mem_append_left _ he) ((hl _ _).1 h)
  have hxy : Linked (E ++ [(x, y)]) x y := linked_edge (by simp)
  constructor
  · intro h
    split at h <;> split at h
    · rename_i h1 h2; exact up (h1.trans h2.symm)
    · rename_i h1 h2; exact linked_trans (up h1) (linked_trans hxy (up h))
    · rename_i h1 h2; exact linked_trans (up h) (linked_trans (linked_symm hxy) (up h2.symm))
    · exact up h
  · intro h
    induction h with
    | rel a b hab =>
      change (a, b) ∈ _ at hab
      rw [List.mem_append, List.mem_singleton] at hab
      rcases hab with hab | hab
      · have : rep a = rep b := (hl a b).2 (linked_edge hab)
        rw [this]
      · simp only [Prod.mk.injEq] at hab
        obtain ⟨rfl, rfl⟩ := hab
        rw [if_pos rfl]
        split <;> rfl
    | refl a => rfl
    | symm a b _ ih => exact ih.symm
    | trans a b c _ _ ih1 ih2 => exact ih1.trans ih2

/-- Hanging the root `xr` under the root `yr`. -/
theorem Forest.hang {p : List (Id m × Id m)} {rep h} (F : Forest p rep h) {xr yr : Id m}
    (hx : AL.get p xr = some xr) (hy : AL.get p yr = some yr) (hne : xr ≠ yr) :
    Forest (AL.hinsert p xr yr) (fun n => if rep n = xr then yr else rep n)
      (fun n => if rep n = xr then h n + h yr + 1 else h n) ∧
    (Finset.univ.filter (fun n => AL.get p n = some n)).card =
      (Finset.univ.filter (fun n => AL.get (AL.hinsert p xr yr) n = some n)).card + 1 := by
  have hs : ∀ n, (AL.get (AL.hinsert p xr yr) n).isSome ↔ (AL.get p n).isSome := by
    intro n
    rw [AL.get_hinsert]
    split
    · rename_i e; subst e; simp [hx]
    · exact Iff.rfl
  have rx : rep xr = xr := (F.up _ _ hx).2.2.2 rfl
  have ry : rep yr = yr := (F.up _ _ hy).2.2.2 rfl
  refine ⟨⟨AL.keys_hinsert_nodup F.nodup _ _, ?_, ?_⟩, ?_⟩
  · intro n hn
    by_cases e : xr = n
    · rw [AL.get_hinsert, if_pos e] at hn; simp at hn
    · rw [AL.get_hinsert, if_neg e] at hn
      have := F.fresh n hn
      show (if rep n = xr then yr else rep n) = n
      rw [this, if_neg (Ne.symm e)]
  · intro n q hq
    by_cases e : xr = n
    · subst e
      rw [AL.get_hinsert, if_pos rfl] at hq
      simp only [Option.some.injEq] at hq
      subst hq
      refine ⟨(hs _).2 (by simp [hy]), ?_, ?_, fun e => absurd e.symm hne⟩
      · show (if rep yr = xr then yr else rep yr) = (if rep xr = xr then yr else rep xr)
        rw [if_pos rx, ry, if_neg (Ne.symm hne)]
      · intro _
        show (if rep yr = xr then _ else h yr) < (if rep xr = xr then _ else _)
        rw [if_pos rx, ry, if_neg (Ne.symm hne)]
        omega
    · rw [AL.get_hinsert, if_neg e] at hq
      obtain ⟨a1, a2, a3, a4⟩ := F.up n q hq
      refine ⟨(hs _).2 a1, ?_, ?_, ?_⟩
      · show (if rep q = xr then yr else rep q) = (if rep n = xr then yr else rep n)
        rw [a2]
      · intro hne'
        have := a3 hne'
        show (if rep q = xr then h q + h yr + 1 else h q) < (if rep n = xr then h n + h yr + 1 else h n)
        rw [a2]
        split <;> omega
      · intro hqn
        have := a4 hqn
        show (if rep n = xr then yr else rep n) = n
        rw [this, if_neg (Ne.symm e)]
  · have : (Finset.univ.filter (fun n => AL.get p n = some n))
        = insert xr (Finset.univ.filter (fun n => AL.get (AL.hinsert p xr yr) n = some n)) := by
      ext n
      simp only [Finset.mem_filter, Finset.mem_univ, true_and, Finset.mem_insert, AL.get_hinsert]
      by_cases e : xr = n
      · subst e; simp [hx]
      · simp [Ne.symm e, e]
    rw [this, Finset.card_insert_of_notMem]
    simp [AL.get_hinsert, Ne.symm hne]

theorem inv_empty : Inv ([] : List (Id m × Id m)) (fun n => n) ConnComp.empty := by
  refine ⟨⟨fun _ => 0, ⟨by simp [ConnComp.empty, AL.keys], fun _ _ => rfl, ?_⟩⟩, ?_, ?_, ?_⟩
  · intro n q h; simp [ConnComp.empty, AL.get] at h
  · intro n; simp [ConnComp.empty, AL.get, Occurs]
  · intro a b
    constructor
    · rintro rfl; exact linked_refl _ _
    · intro h
      rcases linked_occurs h with e | ⟨⟨_, h, _⟩, _⟩
      · exact e
      · simp at h
  · simp [ConnComp.empty, AL.get]

/-- Before the union: both endpoints are keys, classes are still those of `E`. -/
theorem inv_edge_count {E : List (Id m × Id m)} {rep} {c : ConnComp m} (I : Inv E rep c) (x y : Id m) :
    ∃ c', c.processEdge x y = .ok c' ∧
      Inv (E ++ [(x, y)]) (fun n => if rep n = rep x then rep y else rep n) c' ∧
      AL.keys c'.parent = AL.keys ((c.register x).register y).parent ∧
      c'.count + (if rep x = rep y then 0 else 1) = ((c.register x).register y).count := by
  obtain ⟨h, F⟩ := I.forest
  obtain ⟨F1, n1, s1⟩ := register_forest F I.count x
  obtain ⟨F2, n2, s2⟩ := register_forest F1 n1 y
  set c2 := (c.register x).register y with hc2
  have hk : ∀ n, (AL.get c2.parent n).isSome ↔ Occurs (E ++ [(x, y)]) n := by
    intro n
    rw [s2, s1, I.keys, occurs_snoc]
  have fuel : ∀ (q : List (Id m × Id m)) n, below q h n < q.length + 1 := by
    intro q n
    unfold below
    have := List.length_filter_le (fun x => decide (h x < h n)) (AL.keys q)
    have e : (AL.keys q).length = q.length := by unfold AL.keys; simp
    omega
  have sx : (AL.get c2.parent x).isSome := by rw [hk, occurs_snoc]; exact .inr (.inl rfl)
  have sy : (AL.get c2.parent y).isSome := by rw [hk, occurs_snoc]; exact .inl rfl
  obtain ⟨p1, g1, g2, g3, g4⟩ := rootLoop_ok _ c2.parent x F2 sx (fuel _ _)
  have sy1 : (AL.get p1 y).isSome := by rwa [AL.get_isSome_iff, g3, ← AL.get_isSome_iff]
  obtain ⟨p2, h1, h2, h3, h4⟩ := rootLoop_ok _ p1 y g2 sy1 (fuel _ _)
  have rx0 : AL.get c2.parent (rep x) = some (rep x) := F2.rep_root sx
  have ry0 : AL.get c2.parent (rep y) = some (rep y) := F2.rep_root sy
  have rx1 : AL.get p1 (rep x) = some (rep x) := (g4 _).2 rx0
  have rx2 : AL.get p2 (rep x) = some (rep x) := (h4 _).2 rx1
  have ry2 : AL.get p2 (rep y) = some (rep y) := (h4 _).2 ((g4 _).2 ry0)
  have e1 : c2.getRoot x = .ok (⟨p1, c2.count⟩, some (rep x)) := by
    unfold getRoot
    rw [g1, bind_ok]
    simp only [rx1]
    rfl
  have e2 : (⟨p1, c2.count⟩ : ConnComp m).getRoot y = .ok (⟨p2, c2.count⟩, some (rep y)) := by
    unfold getRoot
    rw [h1, bind_ok]
    simp only [ry2]
    rfl
  have hcnt : c2.count = (Finset.univ.filter (fun n => AL.get p2 n = some n)).card := by
    rw [n2]
    congr 1
    ext n
    simp [h4 n, g4 n]
  have hk2 : ∀ n, (AL.get p2 n).isSome ↔ Occurs (E ++ [(x, y)]) n := by
    intro n
    rw [AL.get_isSome_iff, h3, g3, ← AL.get_isSome_iff]; exact hk n
  have run : c.processEdge x y = (if rep x ≠ rep y then
      if c2.count = 0 then .error .underflow
      else pure ⟨AL.hinsert p2 (rep x) (rep y), c2.count - 1⟩
    else pure ⟨p2, c2.count⟩) := by
    unfold processEdge
    simp only [← hc2]
    rw [e1, bind_ok]
    show (unwrap (some (rep x)) >>= _) = _
    unfold unwrap
    simp only [pure_ok, bind_ok]
    rw [e2]
    rfl
  by_cases e : rep x = rep y
  · rw [if_neg (not_not.2 e)] at run
    refine ⟨_, run, ⟨⟨h, ?_⟩, hk2, linked_join I.linked x y, hcnt⟩, h3.trans g3, by rw [if_pos e]; rfl⟩
    have : (fun n => if rep n = rep x then rep y else rep n) = rep := by
      funext n
      split
      · rename_i h; rw [h, e]
      · rfl
    rw [this]
    exact h2
  · rw [if_pos e] at run
    obtain ⟨F3, n3⟩ := h2.hang rx2 ry2 e
    have hpos : c2.count ≠ 0 := by rw [hcnt, n3]; omega
    rw [if_neg hpos] at run
    refine ⟨_, run, ⟨⟨_, F3⟩, ?_, linked_join I.linked x y, ?_⟩, ?_, ?_⟩
    · intro n
      rw [← hk2]
      show (AL.get (AL.hinsert p2 (rep x) (rep y)) n).isSome ↔ _
      rw [AL.get_hinsert]
      split
      · rename_i e; subst e; simp [rx2]
      · exact Iff.rfl
    · show c2.count - 1 = _
      rw [hcnt, n3]
      rfl
    · show AL.keys (AL.hinsert p2 (rep x) (rep y)) = _
      rw [AL.keys_hinsert, if_pos ((AL.get_isSome_iff _ _).1 (by rw [rx2]; rfl))]
      exact h3.trans g3
    · rw [if_neg e]
      show c2.count - 1 + 1 = c2.count
      omega

theorem inv_edge {E : List (Id m × Id m)} {rep} {c : ConnComp m} (I : Inv E rep c) (x y : Id m) :
    ∃ c', c.processEdge x y = .ok c' ∧
      Inv (E ++ [(x, y)]) (fun n => if rep n = rep x then rep y else rep n) c' ∧
      AL.keys c'.parent = AL.keys ((c.register x).register y).parent := by
  obtain ⟨c', h1, h2, h3, -⟩ := inv_edge_count I x y
  exact ⟨c', h1, h2, h3⟩

theorem isConnected_ok {E : List (Id m × Id m)} {rep} {c : ConnComp m} (I : Inv E rep c) (a b : Id m) :
    ∃ c' r, c.isConnected a b = .ok (c', r) ∧ Inv E rep c' ∧
      (r = true ↔ Occurs E a ∧ Occurs E b ∧ Linked E a b) ∧ AL.keys c'.parent = AL.keys c.parent := by
  unfold isConnected
  by_cases ha : Occurs E a
  · by_cases hb : Occurs E b
    · have ka := (I.keys a).2 ha
      have kb := (I.keys b).2 hb
      rw [ka, kb]
      obtain ⟨c1, g1, I1, k1⟩ := getRoot_ok I ha
      obtain ⟨c2, g2, I2, k2⟩ := getRoot_ok I1 hb
      refine ⟨c2, decide (rep a = rep b), ?_, I2, ?_, k2.trans k1⟩
      · simp only [Bool.not_true, Bool.or_self, Bool.false_eq_true, if_false]
        rw [g1, bind_ok]
        simp only [g2]
        rw [bind_ok]
        simp [pure_ok]
      · rw [decide_eq_true_iff, I.linked]
        exact ⟨fun h => ⟨ha, hb, h⟩, fun h => h.2.2⟩
    · have kb : (AL.get c.parent b).isSome = false := by
        have := (I.keys b).not.2 hb
        simpa using this
      rw [kb]
      exact ⟨c, false, by simp [pure_ok], I, by simp [hb], rfl⟩
  · have ka : (AL.get c.parent a).isSome = false := by
      have := (I.keys a).not.2 ha
      simpa using this
    rw [ka]
    exact ⟨c, false, by simp [pure_ok], I, by simp [ha], rfl⟩

theorem collectRoot_ok {E : List (Id m × Id m)} {rep : Id m → Id m} (r : Id m) :
    ∀ (ns : List (Id m)) (c : ConnComp m), Inv E rep c → (∀ n ∈ ns, Occurs E n) →
    ∃ c', collectRoot (some r) c ns = .ok (c', ns.filter (fun n => decide (rep n = r))) ∧ Inv E rep c' ∧
      AL.keys c'.parent = AL.keys c.parent := by
  intro ns
  induction ns with
  | nil => intro c I _; exact ⟨c, rfl, I, rfl⟩
  | cons n ns ih =>
    intro c I ho
    obtain ⟨c1, g1, I1, k1⟩ := getRoot_ok I (ho n (by simp))
    obtain ⟨c2, g2, I2, k2⟩ := ih c1 I1 (fun x hx => ho x (by simp [hx]))
    refine ⟨c2, ?_, I2, k2.trans k1⟩
    rw [collectRoot, g1, bind_ok]
    simp only [g2]
    rw [bind_ok, List.filter_cons]
    by_cases e : rep n = r <;> simp [e, pure_ok]

theorem getConnectedNodes_none {E : List (Id m × Id m)} {rep} {c : ConnComp m} (I : Inv E rep c) {n : Id m}
    (ho : ¬ Occurs E n) : c.getConnectedNodes n = .ok (c, none) := by
  unfold getConnectedNodes
  rw [if_neg ((I.keys n).not.2 ho)]
  rfl

theorem getConnectedNodes_ok {E : List (Id m × Id m)} {rep} {c : ConnComp m} (I : Inv E rep c) {n : Id m}
    (ho : Occurs E n) : ∃ c', c.getConnectedNodes n =
        .ok (c', some ((AL.keys c.parent).filter (fun x => decide (rep x = rep n)))) ∧ Inv E rep c' ∧
      AL.keys c'.parent = AL.keys c.parent ∧
      ((AL.keys c.parent).filter (fun x => decide (rep x = rep n))).Nodup ∧
      ∀ x, x ∈ (AL.keys c.parent).filter (fun x => decide (rep x = rep n)) ↔ Linked E n x := by
  unfold getConnectedNodes
  rw [if_pos ((I.keys n).2 ho)]
  obtain ⟨c1, g1, I1, hk⟩ := getRoot_ok I ho
  obtain ⟨c2, g2, I2, k2⟩ := collectRoot_ok (rep n) (AL.keys c1.parent) c1 I1 (by
    intro x hx
    exact (I1.keys x).1 ((AL.get_isSome_iff _ _).2 hx))
  obtain ⟨h, F⟩ := I.forest
  refine ⟨c2, ?_, I2, k2.trans hk, F.nodup.filter _, ?_⟩
  · rw [g1, bind_ok]
    simp only [g2]
    rw [bind_ok, hk]
    rfl
  · intro x
    rw [List.mem_filter, decide_eq_true_iff, ← AL.get_isSome_iff, I.keys, I.linked]
    constructor
    · exact fun h => linked_symm h.2
    · intro h
      refine ⟨?_, linked_symm h⟩
      rcases linked_occurs h with e | h
      · rw [← e]; exact ho
      · exact h.2

theorem inv_rehash {E : List (Id m × Id m)} {rep} {c : ConnComp m} (I : Inv E rep c)
    {p : List (Id m × Id m)} (hp : c.parent.Perm p) : Inv E rep ⟨p, c.count⟩ := by
  obtain ⟨h, F⟩ := I.forest
  have hg : ∀ x, AL.get p x = AL.get c.parent x := AL.get_perm F.nodup hp
  refine ⟨⟨h, ⟨(hp.map Prod.fst).nodup_iff.1 F.nodup, ?_, ?_⟩⟩, ?_, I.linked, ?_⟩
  · intro n hn; exact F.fresh n (by rw [← hg]; exact hn)
  · intro n q hq
    change AL.get p n = some q at hq
    rw [hg] at hq
    have := F.up n q hq
    show (AL.get p q).isSome ∧ _
    rw [hg]; exact this
  · intro n
    show (AL.get p n).isSome ↔ _
    rw [hg]; exact I.keys n
  · show c.count = (Finset.univ.filter (fun n => AL.get p n = some n)).card
    simp only [hg]; exact I.count

theorem history_inv {E : List (Id m × Id m)} {c : ConnComp m} (H : History E c) : ∃ rep, Inv E rep c := by
  induction H with
  | empty => exact ⟨_, inv_empty⟩
  | edge _ h ih =>
    obtain ⟨rep, I⟩ := ih
    obtain ⟨c', g, I', _⟩ := inv_edge I _ _
    rw [h] at g
    cases g
    exact ⟨_, I'⟩
  | @root E c n c' r _ h ih =>
    obtain ⟨rep, I⟩ := ih
    by_cases ho : Occurs E n
    · obtain ⟨c', g, I', _⟩ := getRoot_ok I ho
      rw [h] at g
      cases g
      exact ⟨_, I'⟩
    · rw [getRoot_missing I ho] at h; cases h
  | connected _ h ih =>
    obtain ⟨rep, I⟩ := ih
    obtain ⟨c', r, g, I', _, _⟩ := isConnected_ok I _ _
    rw [h] at g
    cases g
    exact ⟨_, I'⟩
  | @nodes E c n c' r _ h ih =>
    obtain ⟨rep, I⟩ := ih
    by_cases ho : Occurs E n
    · obtain ⟨c', g, I', _⟩ := getConnectedNodes_ok I ho
      rw [h] at g
      cases g
      exact ⟨_, I'⟩
    · rw [getConnectedNodes_none I ho] at h; cases h; exact ⟨_, I⟩
  | reset _ _ => exact ⟨_, inv_empty⟩
  | rehash _ hp ih =>
    obtain ⟨rep, I⟩ := ih
    exact ⟨rep, inv_rehash I hp⟩

/-- The count is the number of components. -/
theorem Inv.count_components {E : List (Id m × Id m)} {rep} {c : ConnComp m} (I : Inv E rep c) :
    c.count = (components E).ncard := by
  obtain ⟨h, F⟩ := I.forest
  rw [I.count, ← Set.ncard_coe_finset]
  have : Spec.components E = component E '' ↑(Finset.univ.filter (fun n => AL.get c.parent n = some n)) := by
    ext C
    constructor
    · rintro ⟨n, ho, rfl⟩
      refine ⟨rep n, ?_, ?_⟩
      · simpa using F.rep_root ((I.keys n).2 ho)
      · have hl : Linked E n (rep n) := (I.linked _ _).1 (F.rep_rep n).symm
        ext x
        exact ⟨fun h => linked_trans hl h, fun h => linked_trans (linked_symm hl) h⟩
    · rintro ⟨n, hn, rfl⟩
      refine ⟨n, (I.keys n).1 ?_, rfl⟩
      have : AL.get c.parent n = some n := by simpa using hn
      rw [this]; rfl
  rw [this, Set.InjOn.ncard_image]
  intro a ha b hb hab
  have ha' : AL.get c.parent a = some a := by simpa using ha
  have hb' : AL.get c.parent b = some b := by simpa using hb
  have : Linked E a b := by
    have : b ∈ component E b := linked_refl _ _
    rw [← hab] at this
    exact this
  have e := (I.linked a b).2 this
  rwa [(F.up _ _ ha').2.2.2 rfl, (F.up _ _ hb').2.2.2 rfl] at e

/-- Two states that answer alike. -/
def Alike (c d : ConnComp m) : Prop :=
  ∃ E rep, Inv E rep c ∧ Inv E rep d ∧ AL.keys c.parent = AL.keys d.parent

theorem register_keys (c : ConnComp m) (x : Id m) : AL.keys (c.register x).parent =
    if x ∈ AL.keys c.parent then AL.keys c.parent else AL.keys c.parent ++ [x] := by
  unfold register
  by_cases h : x ∈ AL.keys c.parent
  · rw [if_pos ((AL.get_isSome_iff _ _).2 h), if_pos h]
  · rw [if_neg ((AL.get_isSome_iff _ _).not.2 h), if_neg h]
    show AL.keys (AL.hinsert c.parent x x) = _
    rw [AL.keys_hinsert, if_neg h]

theorem alike_call {c d : ConnComp m} (S : Alike c d) (q : Call m) :
    (∃ x, call c q = .error x ∧ call d q = .error x) ∨
    (∃ c' d' a, call c q = .ok (c', a) ∧ call d q = .ok (d', a) ∧ Alike c' d') := by
  obtain ⟨E, rep, I, J, hk⟩ := S
  cases q with
  | edge x y =>
    obtain ⟨c', g1, I', k1⟩ := inv_edge I x y
    obtain ⟨d', g2, J', k2⟩ := inv_edge J x y
    refine .inr ⟨c', d', .unit, ?_, ?_, _, _, I', J', ?_⟩
    · simp only [call, g1, bind_ok, pure_ok]
    · simp only [call, g2, bind_ok, pure_ok]
    · rw [k1, k2]
      simp only [register_keys, hk]
  | root n =>
    by_cases ho : Occurs E n
    · obtain ⟨c', g1, I', k1⟩ := getRoot_ok I ho
      obtain ⟨d', g2, J', k2⟩ := getRoot_ok J ho
      refine .inr ⟨c', d', .id (some (rep n)), ?_, ?_, _, _, I', J', by rw [k1, k2, hk]⟩
      · simp only [call, g1, bind_ok, pure_ok]
      · simp only [call, g2, bind_ok, pure_ok]
    · refine .inl ⟨.nodeMissing, ?_, ?_⟩
      · simp only [call, getRoot_missing I ho, bind_error]
      · simp only [call, getRoot_missing J ho, bind_error]
  | connected a b =>
    obtain ⟨c', r1, g1, I', s1, k1⟩ := isConnected_ok I a b
    obtain ⟨d', r2, g2, J', s2, k2⟩ := isConnected_ok J a b
    have e : r1 = r2 := Bool.eq_iff_iff.2 (s1.trans s2.symm)
    subst e
    refine .inr ⟨c', d', .bool r1, ?_, ?_, _, _, I', J', by rw [k1, k2, hk]⟩
    · simp only [call, g1, bind_ok, pure_ok]
    · simp only [call, g2, bind_ok, pure_ok]
  | nodes n =>
    by_cases ho : Occurs E n
    · obtain ⟨c', g1, I', k1, _, _⟩ := getConnectedNodes_ok I ho
      obtain ⟨d', g2, J', k2, _, _⟩ := getConnectedNodes_ok J ho
      rw [hk] at g1
      refine .inr ⟨c', d', .list (some ((AL.keys d.parent).filter (fun x => decide (rep x = rep n)))),
        ?_, ?_, _, _, I', J', by rw [k1, k2, hk]⟩
      · simp only [call, g1, bind_ok, pure_ok]
      · simp only [call, g2, bind_ok, pure_ok]
    · refine .inr ⟨c, d, .list none, ?_, ?_, _, _, I, J, hk⟩
      · simp only [call, getConnectedNodes_none I ho, bind_ok, pure_ok]
      · simp only [call, getConnectedNodes_none J ho, bind_ok, pure_ok]
  | count =>
    refine .inr ⟨c, d, .nat c.count, rfl, ?_, _, _, I, J, hk⟩
    have : d.count = c.count := by rw [I.count_components, J.count_components]
    simp only [call, getCount, this, pure_ok]
  | reset => exact .inr ⟨c.reset, d.reset, .unit, rfl, rfl, _, _, inv_empty, inv_empty, rfl⟩

theorem alike_script : ∀ (qs : List (Call m)) {c d : ConnComp m}, Alike c d → script c qs = script d qs := by
  intro qs
  induction qs with
  | nil => intros; rfl
  | cons q qs ih =>
    intro c d S
    rcases alike_call S q with ⟨x, h1, h2⟩ | ⟨c', d', a, h1, h2, S'⟩
    · simp only [script, h1, h2, bind_error]
    · simp only [script, h1, h2, bind_ok, ih S']

end Verif.ConnComp
