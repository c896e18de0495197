import Verif.Proof.Gen
import Verif.Spec.Uniform
import Verif.Props.GraphHistory
import Mathlib.Algebra.BigOperators.Fin
import Mathlib.Data.Fintype.BigOperators
import Mathlib.Algebra.Order.BigOperators.Group.Finset
import Mathlib.Data.Fin.Tuple.Basic
import Mathlib.Tactic.Ring

/-! How many draws lead to a given random graph. -/

namespace Verif.Gen

open Spec

/-! ### Reservoir sampling without a stream -/

/-- One step: the element replaces the entry at `j`, if there is one. -/
def place {X : Type} (res : List X) (j : Nat) (x : X) : List X := if j < res.length then res.set j x else res

/-- The loop on numbers `w 0`, `w 1`, … -/
def placeAll {X : Type} (c : Nat) : Nat → List X → List X → (Nat → Nat) → List X
  | _, [], res, _ => res
  | i, x :: xs, res, w => placeAll c (i + 1) xs (place res (w 0 % (i + 1 + c)) x) (fun j => w (j + 1))

theorem sampleLoop_eq {X : Type} (c : Nat) : ∀ (xs : List X) (i : Nat) (res : List X) (r : Rng),
    sampleLoop c i xs res r = .ok (placeAll c i xs res (fun j => (r j).word), fun j => r (j + xs.length)) := by
  intro xs
  induction xs with
  | nil => intro i res r; rfl
  | cons x xs ih =>
    intro i res r
    unfold sampleLoop Rng.range
    rw [if_neg (by omega), pure_ok, bind_ok, ih]
    rfl

theorem placeAll_snoc {X : Type} (c : Nat) (x : X) : ∀ (xs : List X) (i : Nat) (res : List X) (w : Nat → Nat),
    placeAll c i (xs ++ [x]) res w =
      place (placeAll c i xs res w) (w xs.length % (i + xs.length + 1 + c)) x := by
  intro xs
  induction xs with
  | nil => intro i res w; rfl
  | cons y ys ih =>
    intro i res w
    show placeAll c (i + 1) (ys ++ [x]) _ _ = _
    rw [ih]
    show place _ (w (ys.length + 1) % (i + 1 + ys.length + 1 + c)) x =
      place _ (w (ys.length + 1) % (i + (ys.length + 1) + 1 + c)) x
    rw [show i + 1 + ys.length + 1 + c = i + (ys.length + 1) + 1 + c by omega]
    rfl

theorem placeAll_ok {X : Type} (c : Nat) (xs res : List X) (i : Nat) (w : Nat → Nat) (h : (res ++ xs).Nodup) :
    (placeAll c i xs res w).length = res.length ∧ (placeAll c i xs res w).Nodup ∧
      ∀ x ∈ placeAll c i xs res w, x ∈ res ++ xs := by
  obtain ⟨out, r', h1, h2⟩ := sampleLoop_ok c xs res i (fun j => ⟨w j, 0, le_refl _, by decide⟩) h
  rw [sampleLoop_eq] at h1
  have := (Prod.mk.inj (Except.ok.inj h1)).1
  subst this
  exact h2

theorem placeAll_congr {X : Type} (c : Nat) : ∀ (xs : List X) (i : Nat) (res : List X) (w w' : Nat → Nat),
    (∀ j < xs.length, w j = w' j) → placeAll c i xs res w = placeAll c i xs res w' := by
  intro xs
  induction xs with
  | nil => intro i res w w' _; rfl
  | cons x xs ih =>
    intro i res w w' h
    unfold placeAll
    rw [h 0 (by simp)]
    exact ih _ _ _ _ (fun j hj => h (j + 1) (by simpa using hj))

/-- Numbers as a function on all of `Nat`. -/
def spread {q : Nat} {b : Fin q → Nat} (w : (i : Fin q) → Fin (b i)) (j : Nat) : Nat :=
  if h : j < q then w ⟨j, h⟩ else 0

/-! ### One step, counted -/

variable {X : Type} [DecidableEq X]

theorem set_toFinset {res : List X} (hn : res.Nodup) {x : X} (hx : x ∉ res) (i : Nat) (hi : i < res.length) :
    (res.set i x).toFinset = insert x (res.toFinset.erase res[i]) := by
  ext y
  simp only [List.mem_toFinset, Finset.mem_insert, Finset.mem_erase]
  constructor
  · intro h
    obtain ⟨j, hj, rfl⟩ := List.getElem_of_mem h
    rw [List.length_set] at hj
    rw [List.getElem_set]
    split
    · exact .inl rfl
    · rename_i hij
      exact .inr ⟨fun e => hij ((List.Nodup.getElem_inj_iff hn).1 e).symm, List.getElem_mem _⟩
  · rintro (rfl | ⟨h1, h2⟩)
    · exact List.mem_set hi _
    · obtain ⟨j, hj, rfl⟩ := List.getElem_of_mem h2
      have : i ≠ j := fun e => h1 (by subst e; rfl)
      exact List.mem_iff_getElem.2 ⟨j, by rwa [List.length_set], by rw [List.getElem_set_ne this]⟩

theorem count_replaced {res : List X} (hn : res.Nodup) {x : X} (hx : x ∉ res) {T : Finset X}
    (hT : T.card = res.length) (hxT : x ∈ T) :
    (∑ i : Fin res.length, if (res.set i x).toFinset = T then 1 else 0) =
      if T.erase x ⊆ res.toFinset then 1 else 0 := by
  have key : ∀ i : Fin res.length, (res.set i x).toFinset = T ↔ res.toFinset.erase res[i] = T.erase x := by
    intro i
    rw [set_toFinset hn hx i i.2]
    have hx' : x ∉ res.toFinset.erase res[i.val] := fun h => hx (List.mem_toFinset.1 (Finset.mem_of_mem_erase h))
    constructor
    · intro h
      rw [← h, Finset.erase_insert hx']
      rfl
    · intro h
      have h : res.toFinset.erase res[i.val] = T.erase x := h
      rw [h, Finset.insert_erase hxT]
  simp only [key]
  split
  · rename_i hs
    have hc : (res.toFinset \ T.erase x).card = 1 := by
      rw [Finset.card_sdiff_of_subset hs, Finset.card_erase_of_mem hxT, List.toFinset_card_of_nodup hn, hT]
      have : 0 < T.card := Finset.card_pos.2 ⟨x, hxT⟩
      omega
    obtain ⟨y, hy⟩ := Finset.card_eq_one.1 hc
    have hym : y ∈ res.toFinset \ T.erase x := by rw [hy]; simp
    rw [Finset.mem_sdiff, List.mem_toFinset] at hym
    obtain ⟨j, hj, e⟩ := List.getElem_of_mem hym.1
    have hj0 : res.toFinset.erase res[j] = T.erase x := by
      rw [e]
      ext z
      rw [Finset.mem_erase]
      constructor
      · rintro ⟨h1, h2⟩
        by_contra h3
        have : z ∈ res.toFinset \ T.erase x := Finset.mem_sdiff.2 ⟨h2, h3⟩
        rw [hy, Finset.mem_singleton] at this
        exact h1 this
      · intro h
        exact ⟨fun e => hym.2 (e ▸ h), hs h⟩
    rw [Finset.sum_eq_single (⟨j, hj⟩ : Fin res.length)]
    · exact if_pos hj0
    · intro i _ hi
      refine if_neg (fun h => hi ?_)
      have h : res.toFinset.erase res[i.val] = T.erase x := h
      have h1 : res[i.val] ∉ T.erase x := by rw [← h]; exact Finset.notMem_erase _ _
      have h2 : res[i.val] ∈ res.toFinset \ T.erase x :=
        Finset.mem_sdiff.2 ⟨List.mem_toFinset.2 (List.getElem_mem _), h1⟩
      rw [hy, Finset.mem_singleton, ← e] at h2
      exact Fin.ext ((List.Nodup.getElem_inj_iff hn).1 h2)
    · intro h
      exact absurd (Finset.mem_univ _) h
  · rename_i hs
    refine Finset.sum_eq_zero (fun i _ => if_neg (fun h => hs ?_))
    rw [← h]
    exact Finset.erase_subset _ _

theorem count_place {res : List X} (hn : res.Nodup) {x : X} (hx : x ∉ res) {T : Finset X} {c q : Nat}
    (hc : res.length = c) (hT : T.card = c) :
    (∑ j : Fin (c + (q + 1)), if (place res j x).toFinset = T then 1 else 0) =
      if x ∈ T then (if T.erase x ⊆ res.toFinset then 1 else 0)
      else (if res.toFinset = T then q + 1 else 0) := by
  subst hc
  rw [Fin.sum_univ_add]
  have e1 : ∀ i : Fin res.length, place res (Fin.castAdd (q + 1) i).val x = res.set i x := fun i => by
    unfold place
    exact if_pos i.2
  have e2 : ∀ i : Fin (q + 1), place res (Fin.natAdd res.length i).val x = res := fun i => by
    unfold place
    exact if_neg (by rw [Fin.val_natAdd]; omega)
  simp only [e1, e2]
  by_cases hxT : x ∈ T
  · rw [if_pos hxT, count_replaced hn hx hT hxT]
    have : res.toFinset ≠ T := fun e => hx (List.mem_toFinset.1 (by rw [e]; exact hxT))
    simp [this]
  · rw [if_neg hxT]
    have : ∀ i : Fin res.length, (res.set i x).toFinset ≠ T := fun i e =>
      hxT (by rw [← e]; exact List.mem_toFinset.2 (List.mem_set i.2 _))
    simp only [this, if_false, Finset.sum_const_zero, zero_add]
    split <;> simp

/-! ### All steps -/

theorem count_placeAll {c : Nat} {res : List X} (hc : res.length = c) : ∀ (q : Nat) (xs : List X),
    xs.length = q → (res ++ xs).Nodup → ∀ T : Finset X, (∀ x ∈ T, x ∈ res ++ xs) → T.card = c →
    (Finset.univ.filter (fun w : (i : Fin q) → Fin (c + i + 1) =>
      (placeAll c 0 xs res (spread w)).toFinset = T)).card = q.factorial := by
  intro q
  induction q with
  | zero =>
    intro xs hq hn T hs hT
    rw [List.length_eq_zero_iff] at hq
    subst hq
    rw [List.append_nil] at hn hs
    have : res.toFinset = T := by
      symm
      refine Finset.eq_of_subset_of_card_le (fun x hx => List.mem_toFinset.2 (hs x hx)) ?_
      rw [List.toFinset_card_of_nodup hn, hc, hT]
    simp [placeAll, this]
  | succ q ih =>
    intro zs hq hn T hs hT
    obtain ⟨xs, x, rfl⟩ : ∃ xs x, zs = xs ++ [x] := by
      rcases List.eq_nil_or_concat zs with h | ⟨a, b, h⟩
      · simp [h] at hq
      · exact ⟨a, b, by simpa using h⟩
    have hq : xs.length = q := by simpa using hq
    rw [← List.append_assoc] at hn hs
    obtain ⟨hn1, -, hn2⟩ := List.nodup_append.1 hn
    have hx : x ∉ res ++ xs := fun h => hn2 x h x (by simp) rfl
    -- split off the last number
    have hsplit : ∀ (w : (i : Fin q) → Fin (c + i + 1)) (j : Fin (c + q + 1)),
        placeAll c 0 (xs ++ [x]) res
          (spread (Fin.snoc (α := fun i : Fin (q + 1) => Fin (c + i + 1)) w j)) =
          place (placeAll c 0 xs res (spread w)) j x := by
      intro w j
      rw [placeAll_snoc]
      congr 1
      · refine placeAll_congr _ _ _ _ _ _ (fun i hi => ?_)
        unfold spread
        rw [dif_pos (by omega), dif_pos (by omega)]
        have := Fin.snoc_castSucc (α := fun i : Fin (q + 1) => Fin (c + i + 1)) j w ⟨i, by omega⟩
        exact congrArg Fin.val this
      · unfold spread
        rw [dif_pos (by omega)]
        have e : (⟨xs.length, by omega⟩ : Fin (q + 1)) = Fin.last q := Fin.ext hq
        rw [e, Fin.snoc_last, hq, Nat.mod_eq_of_lt]
        have := j.2
        omega
    rw [Finset.card_filter,
      ← (Fin.snocEquiv (fun i : Fin (q + 1) => Fin (c + i + 1))).sum_comp, Fintype.sum_prod_type_right]
    have hinner : ∀ w : (i : Fin q) → Fin (c + i + 1),
        (∑ j : Fin (c + q + 1), if (placeAll c 0 (xs ++ [x]) res (spread
          (Fin.snocEquiv (fun i : Fin (q + 1) => Fin (c + i + 1)) (j, w)))).toFinset = T then 1 else 0) =
        if x ∈ T then (if T.erase x ⊆ (placeAll c 0 xs res (spread w)).toFinset then 1 else 0)
          else (if (placeAll c 0 xs res (spread w)).toFinset = T then q + 1 else 0) := by
      intro w
      obtain ⟨a1, a2, a3⟩ := placeAll_ok c xs res 0 (spread w) hn1
      rw [← count_place a2 (fun h => hx (a3 x h)) (a1.trans hc) hT]
      refine Finset.sum_congr rfl (fun j _ => ?_)
      rw [← hsplit w j]
      rfl
    refine (Finset.sum_congr rfl (fun w _ => hinner w)).trans ?_
    by_cases hxT : x ∈ T
    · simp only [if_pos hxT]
      rw [← Finset.card_filter]
      have hc0 : 0 < c := by rw [← hT]; exact Finset.card_pos.2 ⟨x, hxT⟩
      have hT' : ∀ y ∈ T.erase x, y ∈ res ++ xs := by
        intro y hy
        rw [Finset.mem_erase] at hy
        rcases List.mem_append.1 (hs y hy.2) with h | h
        · exact h
        · exact absurd (by simpa using h) hy.1
      have hT'c : (T.erase x).card = c - 1 := by rw [Finset.card_erase_of_mem hxT, hT]
      have hL : (res ++ xs).toFinset.card = c + q := by
        rw [List.toFinset_card_of_nodup hn1, List.length_append, hc, hq]
      rw [Finset.card_eq_sum_card_fiberwise (f := fun w => (placeAll c 0 xs res (spread w)).toFinset)
        (t := ((res ++ xs).toFinset \ T.erase x).image (fun y => insert y (T.erase x)))]
      · have hfib : ∀ S ∈ ((res ++ xs).toFinset \ T.erase x).image (fun y => insert y (T.erase x)),
            ((Finset.univ.filter (fun w : (i : Fin q) → Fin (c + i + 1) =>
              T.erase x ⊆ (placeAll c 0 xs res (spread w)).toFinset)).filter
              (fun w => (placeAll c 0 xs res (spread w)).toFinset = S)).card = q.factorial := by
          intro S hS
          obtain ⟨y, hy, rfl⟩ := Finset.mem_image.1 hS
          rw [Finset.mem_sdiff, List.mem_toFinset] at hy
          rw [← ih xs hq hn1 (insert y (T.erase x))]
          · congr 1
            ext w
            simp only [Finset.mem_filter, Finset.mem_univ, true_and]
            exact ⟨fun h => h.2, fun h => ⟨by rw [h]; exact Finset.subset_insert _ _, h⟩⟩
          · intro z hz
            rcases Finset.mem_insert.1 hz with rfl | h
            · exact hy.1
            · exact hT' z h
          · rw [Finset.card_insert_of_notMem hy.2, hT'c]
            omega
        rw [Finset.sum_congr rfl hfib, Finset.sum_const, smul_eq_mul, Finset.card_image_of_injOn,
          Finset.card_sdiff_of_subset (fun y hy => List.mem_toFinset.2 (hT' y hy)), hL, hT'c,
          show c + q - (c - 1) = q + 1 by omega, Nat.factorial_succ]
        intro y hy z hz e
        rw [Finset.mem_coe, Finset.mem_sdiff] at hy hz
        have e : insert y (T.erase x) = insert z (T.erase x) := e
        have : y ∈ insert z (T.erase x) := by rw [← e]; exact Finset.mem_insert_self _ _
        rcases Finset.mem_insert.1 this with h | h
        · exact h
        · exact absurd h hy.2
      · intro w hw
        rw [Finset.mem_coe, Finset.mem_filter] at hw
        obtain ⟨a1, a2, a3⟩ := placeAll_ok c xs res 0 (spread w) hn1
        have hcard : ((placeAll c 0 xs res (spread w)).toFinset \ T.erase x).card = 1 := by
          rw [Finset.card_sdiff_of_subset hw.2, List.toFinset_card_of_nodup a2, a1, hc, hT'c]
          omega
        obtain ⟨y, hy⟩ := Finset.card_eq_one.1 hcard
        have hym : y ∈ (placeAll c 0 xs res (spread w)).toFinset \ T.erase x := by rw [hy]; simp
        rw [Finset.mem_sdiff, List.mem_toFinset] at hym
        refine Finset.mem_coe.2 (Finset.mem_image.2 ⟨y, Finset.mem_sdiff.2 ⟨List.mem_toFinset.2 (a3 y hym.1), hym.2⟩, ?_⟩)
        show insert y (T.erase x) = (placeAll c 0 xs res (spread w)).toFinset
        rw [Finset.insert_eq, ← hy, Finset.sdiff_union_of_subset hw.2]
    · simp only [if_neg hxT]
      rw [← Finset.sum_filter, Finset.sum_const, smul_eq_mul, ih xs hq hn1 T _ hT, Nat.factorial_succ, mul_comm]
      intro y hy
      rcases List.mem_append.1 (hs y hy) with h | h
      · exact h
      · exact absurd (by simpa using h) (fun e : y = x => hxT (e ▸ hy))

/-! ### Where the draws go -/

section Where

variable {m k : Nat} {NL EL : Type} [DecidableEq NL] [DecidableEq EL] {d : Bool} {N : SetMap NL} {L : SetMap EL}
  {ns : List (Id m)} {es : List (Id m × Id m)}

/-- How many draws a label takes. -/
def cost {X : Type} (s : SetMap X) : Nat := if s.len = 0 then 0 else 1

/-- The label drawn at position `i`. -/
def itemAt {X : Type} (s : SetMap X) (r : Rng) (i : Nat) : Option X :=
  if s.len = 0 then none else s.getItem ((r i).word % s.len)

/-- The stream after `c` draws. -/
def skip (r : Rng) (c : Nat) : Rng := fun i => r (i + c)

theorem skip_skip (r : Rng) (a b : Nat) : skip (skip r a) b = skip r (a + b) := by
  funext i
  unfold skip
  congr 1
  omega

omit [DecidableEq X] in
theorem itemAt_skip (s : SetMap X) (r : Rng) (i c : Nat) :
    itemAt s (skip r (c * cost s)) i = itemAt s r (i + c) := by
  unfold itemAt cost skip
  by_cases h : s.len = 0
  · rw [if_pos h, if_pos h]
  · rw [if_neg h, if_neg h, if_neg h, Nat.mul_one]

omit [DecidableEq X] in
theorem randomItem_eq (r : Rng) (s : SetMap X) :
    randomItem r s = .ok (itemAt s r 0, skip r (cost s)) := by
  unfold randomItem itemAt cost Rng.range
  by_cases h : s.len = 0
  · simp only [if_pos h]; rfl
  · simp only [if_neg h]; rfl

theorem addNodes_exec : ∀ (is : List Nat) (ns : List (Id m)) (g : GraphMap m k NL EL) (r : Rng),
    Holding d N L ns es g → ∃ g', is.foldlM addRandomNode (g, r) = .ok (g', skip r (is.length * cost N)) ∧
      Holding d N L (ns ++ is.map Id.new) es g' ∧
      g.exec (is.mapIdx (fun j i => Op.addNode (Id.new i) (itemAt N r j))) = .ok g' := by
  intro is
  induction is with
  | nil => intro ns g r H; exact ⟨g, by simp [skip]; rfl, by simpa using H, rfl⟩
  | cons i is ih =>
    intro ns g r H
    obtain ⟨g1, r1, h1, H1⟩ := addRandomNode_ok H r i
    have h0 := h1
    unfold addRandomNode at h1
    rw [randomItem_eq, bind_ok] at h1
    obtain ⟨q, e1, e2⟩ := bind_eq_ok h1
    have hg1 := (Prod.mk.inj (Except.ok.inj e2)).1
    have hr1 := (Prod.mk.inj (Except.ok.inj e2)).2
    obtain ⟨g', h2, H2, h3⟩ := ih _ g1 r1 H1
    refine ⟨g', ?_, by simpa using H2, ?_⟩
    · rw [List.foldlM_cons, h0, bind_ok, h2, ← hr1]
      show Except.ok (g', skip (skip r (cost g.nodeLabels)) _) = _
      rw [skip_skip, H.nl, List.length_cons, Nat.add_mul, Nat.one_mul, Nat.add_comm]
    · rw [List.mapIdx_cons]
      unfold GraphMap.exec at h3 ⊢
      rw [List.foldlM_cons]
      have : g.apply (.addNode (Id.new i) (itemAt N r 0)) = .ok g1 := by
        show (do let r ← g.addNode _ _; pure r.1) = _
        rw [← H.nl, e1, bind_ok, ← hg1]
        rfl
      rw [this, bind_ok, ← h3, ← hr1]
      congr 2
      funext j i
      show Op.addNode _ (itemAt N r (j + 1)) = Op.addNode _ (itemAt N (skip r (cost g.nodeLabels)) j)
      rw [H.nl, ← itemAt_skip N r j 1, Nat.one_mul]

theorem addEdges_exec : ∀ (ps : List (Nat × Nat)) (es : List (Id m × Id m)) (g : GraphMap m k NL EL) (r : Rng),
    Holding d N L ns es g → (∀ p ∈ ps, Id.new p.1 ∈ ns ∧ Id.new p.2 ∈ ns) →
    ∃ g', ps.foldlM addRandomEdge (g, r) = .ok (g', skip r (ps.length * cost L)) ∧
      Holding d N L ns (es ++ ps.map (fun p => (Id.new p.1, Id.new p.2))) g' ∧
      g.exec (ps.mapIdx (fun j p => Op.addEdge (Id.new p.1) (Id.new p.2) (itemAt L r j))) = .ok g' := by
  intro ps
  induction ps with
  | nil => intro es g r H _; exact ⟨g, by simp [skip]; rfl, by simpa using H, rfl⟩
  | cons p ps ih =>
    intro es g r H hp
    obtain ⟨g1, r1, h1, H1⟩ := addRandomEdge_ok H r p (hp p (by simp)).1 (hp p (by simp)).2
    have h0 := h1
    unfold addRandomEdge at h1
    rw [randomItem_eq, bind_ok] at h1
    obtain ⟨q, e1, e2⟩ := bind_eq_ok h1
    have hg1 := (Prod.mk.inj (Except.ok.inj e2)).1
    have hr1 := (Prod.mk.inj (Except.ok.inj e2)).2
    obtain ⟨g', h2, H2, h3⟩ := ih _ g1 r1 H1 (fun q hq => hp q (by simp [hq]))
    refine ⟨g', ?_, by simpa using H2, ?_⟩
    · rw [List.foldlM_cons, h0, bind_ok, h2, ← hr1]
      show Except.ok (g', skip (skip r (cost g.edgeLabels)) _) = _
      rw [skip_skip, H.el, List.length_cons, Nat.add_mul, Nat.one_mul, Nat.add_comm]
    · rw [List.mapIdx_cons]
      unfold GraphMap.exec at h3 ⊢
      rw [List.foldlM_cons]
      have : g.apply (.addEdge (Id.new p.1) (Id.new p.2) (itemAt L r 0)) = .ok g1 := by
        show (do let r ← g.addEdge _ _ _; pure r.1) = _
        rw [← H.el, e1, bind_ok, ← hg1]
        rfl
      rw [this, bind_ok, ← h3, ← hr1]
      congr 2
      funext j i
      show Op.addEdge _ _ (itemAt L r (j + 1)) = Op.addEdge _ _ (itemAt L (skip r (cost g.edgeLabels)) j)
      rw [H.el, ← itemAt_skip L r j 1, Nat.one_mul]

theorem emptyGraph_exec (d : Bool) (n : Nat) (nl : List NL) (el : List EL) (r : Rng) :
    ∃ g : GraphMap m k NL EL, emptyGraph d n nl el r = .ok (g, skip r (n * cost (SetMap.fromVec nl))) ∧
      Holding d (SetMap.fromVec nl) (SetMap.fromVec el) ((List.range n).map Id.new) [] g ∧
      (GraphMap.withLabelMap d (SetMap.fromVec nl) (SetMap.fromVec el)).exec
        ((List.range n).mapIdx (fun j i => Op.addNode (Id.new i) (itemAt (SetMap.fromVec nl) r j))) = .ok g := by
  obtain ⟨g, h1, h2, h3⟩ := addNodes_exec (List.range n) [] _ r (holding_start (m := m) (k := k) d nl el)
  rw [List.length_range] at h1
  exact ⟨g, h1, by simpa using h2, h3⟩

/-- The pairs chosen by tosses: `b j` says whether draw `j` is below `p`; `c` draws go to a label. -/
def tosses (c : Nat) : List (Nat × Nat) → (Nat → Bool) → List (Nat × Nat)
  | [], _ => []
  | e :: es, b => if b 0 then e :: tosses c es (fun j => b (j + 1 + c)) else tosses c es (fun j => b (j + 1))

theorem tosses_sublist (c : Nat) : ∀ (ps : List (Nat × Nat)) (b : Nat → Bool), (tosses c ps b).Sublist ps := by
  intro ps
  induction ps with
  | nil => intro b; exact List.Sublist.refl _
  | cons e es ih =>
    intro b
    unfold tosses
    split
    · exact (ih _).cons_cons _
    · exact (ih _).cons _

theorem toss_eq (p : F32) : ∀ (ps : List (Nat × Nat)) (es : List (Id m × Id m)) (g : GraphMap m k NL EL) (r : Rng),
    Holding d N L ns es g → (∀ p ∈ ps, Id.new p.1 ∈ ns ∧ Id.new p.2 ∈ ns) →
    ∃ g' r', ps.foldlM (tossEdge p) (g, r) = .ok (g', r') ∧
      Holding d N L ns (es ++ (tosses (cost L) ps (fun j => (F32.fin (r j).unit).lt p)).map
        (fun p => (Id.new p.1, Id.new p.2))) g' := by
  intro ps
  induction ps with
  | nil => intro es g r H _; exact ⟨g, r, rfl, by simpa [tosses] using H⟩
  | cons q ps ih =>
    intro es g r H hp
    have hps : ∀ p ∈ ps, Id.new p.1 ∈ ns ∧ Id.new p.2 ∈ ns := fun q hq => hp q (by simp [hq])
    by_cases hb : (F32.fin (r 0).unit).lt p = true
    · obtain ⟨g1, r1, h1, H1⟩ := addRandomEdge_ok H r.rest q (hp q (by simp)).1 (hp q (by simp)).2
      have hr1 : r1 = skip r (1 + cost L) := by
        have h1 := h1
        unfold addRandomEdge at h1
        rw [randomItem_eq, bind_ok] at h1
        obtain ⟨q, e1, e2⟩ := bind_eq_ok h1
        rw [← (Prod.mk.inj (Except.ok.inj e2)).2, ← H.el]
        exact skip_skip r 1 _
      obtain ⟨g', r', h2, H2⟩ := ih _ g1 r1 H1 hps
      refine ⟨g', r', ?_, ?_⟩
      · rw [List.foldlM_cons]
        have : tossEdge p (g, r) q = .ok (g1, r1) := by
          unfold tossEdge
          rw [if_pos hb, h1]
        rw [this, bind_ok, h2]
      · unfold tosses
        rw [if_pos hb]
        rw [hr1] at H2
        simp only [List.map_cons]
        rw [List.append_assoc] at H2
        have e : (fun j => (F32.fin (skip r (1 + cost L) j).unit).lt p) =
            fun j => (F32.fin (r (j + 1 + cost L)).unit).lt p := by
          funext j
          unfold skip
          rw [Nat.add_assoc]
        rw [e] at H2
        exact H2
    · obtain ⟨g', r', h2, H2⟩ := ih _ g r.rest H hps
      refine ⟨g', r', ?_, ?_⟩
      · rw [List.foldlM_cons]
        have : tossEdge p (g, r) q = .ok (g, r.rest) := by
          unfold tossEdge
          rw [if_neg hb]
          rfl
        rw [this, bind_ok, h2]
      · unfold tosses
        rw [if_neg hb]
        exact H2

end Where

/-! ### Tosses, counted -/

section Toss

variable {A : Type} [Fintype A]

/-- The outcomes of the first `l` draws, followed by `b`. -/
def before {l : Nat} (w : Fin l → Bool) (b : Nat → Bool) (j : Nat) : Bool := if h : j < l then w ⟨j, h⟩ else b j

theorem before_cons {l : Nat} (x : A) (w : Fin l → A) (f : A → Bool) (b : Nat → Bool) (j : Nat) :
    before (fun i => f (Fin.cons (α := fun _ : Fin (l + 1) => A) x w i)) b (j + 1) =
      before (fun i => f (w i)) (fun j => b (j + 1)) j := by
  unfold before
  by_cases h : j < l
  · rw [dif_pos (by omega), dif_pos h]
    congr 1
  · rw [dif_neg (by omega), dif_neg h]

theorem card_split (l : Nat) (P : (Fin (l + 1) → A) → Prop) [DecidablePred P] :
    (Finset.univ.filter P).card =
      ∑ x : A, (Finset.univ.filter (fun w : Fin l → A => P (Fin.cons (α := fun _ : Fin (l + 1) => A) x w))).card := by
  rw [Finset.card_filter, ← (Fin.consEquiv (fun _ : Fin (l + 1) => A)).sum_comp, Fintype.sum_prod_type]
  refine Finset.sum_congr rfl (fun x _ => ?_)
  rw [Finset.card_filter]
  rfl

/-- Draws that are not looked at. -/
theorem card_skip (f : A → Bool) (Q : (Nat → Bool) → Prop) [DecidablePred Q] : ∀ (c l : Nat) (b : Nat → Bool),
    (Finset.univ.filter (fun w : Fin (l + c) → A => Q (fun j => before (fun i => f (w i)) b (j + c)))).card =
      Fintype.card A ^ c *
        (Finset.univ.filter (fun w : Fin l → A => Q (before (fun i => f (w i)) (fun j => b (j + c))))).card := by
  intro c
  induction c with
  | zero => intro l b; simp
  | succ c ih =>
    intro l b
    rw [card_split (l + c)]
    have : ∀ x : A, (Finset.univ.filter (fun w : Fin (l + c) → A => Q (fun j =>
        before (fun i => f (Fin.cons (α := fun _ : Fin (l + c + 1) => A) x w i)) b (j + (c + 1))))).card =
        Fintype.card A ^ c * (Finset.univ.filter (fun w : Fin l → A =>
          Q (before (fun i => f (w i)) (fun j => b (j + (c + 1)))))).card := by
      intro x
      have := ih l (fun j => b (j + 1))
      refine Eq.trans ?_ this
      congr 1
      refine Finset.filter_congr (fun w _ => ?_)
      have : (fun j => before (fun i => f (Fin.cons (α := fun _ : Fin (l + c + 1) => A) x w i)) b (j + (c + 1))) =
          fun j => before (fun i => f (w i)) (fun j => b (j + 1)) (j + c) :=
        funext (fun j => before_cons x w f b (j + c))
      rw [this]
    refine (Finset.sum_congr rfl (fun x _ => this x)).trans ?_
    rw [Finset.sum_const, Finset.card_univ, smul_eq_mul, pow_succ]
    ring

theorem count_tosses (f : A → Bool) (P : Nat × Nat → Bool) (c : Nat) : ∀ (ps : List (Nat × Nat)), ps.Nodup →
    ∀ (l : Nat) (b : Nat → Bool),
    (Finset.univ.filter (fun w : Fin (l + (1 + c) * ps.length) → A =>
      tosses c ps (before (fun i => f (w i)) b) = ps.filter P)).card =
      (Finset.univ.filter (fun a => f a = true)).card ^ (ps.filter P).length *
        (Finset.univ.filter (fun a => f a = false)).card ^ (ps.filter (fun e => !P e)).length *
        Fintype.card A ^ (l + c * ps.length) := by
  intro ps
  induction ps with
  | nil =>
    intro _ l b
    simp [tosses]
  | cons e es ih =>
    intro hn l b
    obtain ⟨he, hn⟩ := List.nodup_cons.1 hn
    have hlen : l + (1 + c) * (e :: es).length = (l + (1 + c) * es.length + c) + 1 := by
      rw [List.length_cons, Nat.mul_add]
      omega
    rw [hlen, card_split]
    have h1 : ∀ x, f x = true → (Finset.univ.filter (fun w : Fin (l + (1 + c) * es.length + c) → A =>
        tosses c (e :: es) (before (fun i => f (Fin.cons
          (α := fun _ : Fin (l + (1 + c) * es.length + c + 1) => A) x w i)) b) = (e :: es).filter P)).card =
        if P e = true then Fintype.card A ^ c * (Finset.univ.filter (fun w : Fin (l + (1 + c) * es.length) → A =>
          tosses c es (before (fun i => f (w i)) (fun j => b (j + c + 1))) = es.filter P)).card else 0 := by
      intro x hx
      have hb0 : ∀ w : Fin (l + (1 + c) * es.length + c) → A, before (fun i => f (Fin.cons
          (α := fun _ : Fin (l + (1 + c) * es.length + c + 1) => A) x w i)) b 0 = true := by
        intro w
        unfold before
        rw [dif_pos (by omega)]
        exact hx
      have ht : ∀ w : Fin (l + (1 + c) * es.length + c) → A, tosses c (e :: es) (before (fun i => f (Fin.cons
          (α := fun _ : Fin (l + (1 + c) * es.length + c + 1) => A) x w i)) b) =
          e :: tosses c es (fun j => before (fun i => f (w i)) (fun j => b (j + 1)) (j + c)) := by
        intro w
        show (if _ then _ else _) = _
        rw [if_pos (hb0 w)]
        congr 2
        funext j
        rw [show j + 1 + c = (j + c) + 1 by omega]
        exact before_cons x w f b (j + c)
      simp only [ht]
      by_cases hP : P e = true
      · rw [if_pos hP, List.filter_cons_of_pos hP]
        simp only [List.cons.injEq, true_and]
        exact card_skip f (fun s => tosses c es s = es.filter P) c (l + (1 + c) * es.length) (fun j => b (j + 1))
      · rw [if_neg hP, List.filter_cons_of_neg hP, Finset.card_eq_zero, Finset.filter_eq_empty_iff]
        intro w _ h
        have : e ∈ es.filter P := by rw [← h]; simp
        exact he (List.mem_filter.1 this).1
    have h0 : ∀ x, f x = false → (Finset.univ.filter (fun w : Fin (l + (1 + c) * es.length + c) → A =>
        tosses c (e :: es) (before (fun i => f (Fin.cons
          (α := fun _ : Fin (l + (1 + c) * es.length + c + 1) => A) x w i)) b) = (e :: es).filter P)).card =
        if P e = true then 0 else (Finset.univ.filter (fun w : Fin (l + c + (1 + c) * es.length) → A =>
          tosses c es (before (fun i => f (w i)) (fun j => b (j + 1))) = es.filter P)).card := by
      intro x hx
      have hb0 : ∀ w : Fin (l + (1 + c) * es.length + c) → A, before (fun i => f (Fin.cons
          (α := fun _ : Fin (l + (1 + c) * es.length + c + 1) => A) x w i)) b 0 = false := by
        intro w
        unfold before
        rw [dif_pos (by omega)]
        exact hx
      have ht : ∀ w : Fin (l + (1 + c) * es.length + c) → A, tosses c (e :: es) (before (fun i => f (Fin.cons
          (α := fun _ : Fin (l + (1 + c) * es.length + c + 1) => A) x w i)) b) =
          tosses c es (before (fun i => f (w i)) (fun j => b (j + 1))) := by
        intro w
        show (if _ then _ else _) = _
        rw [if_neg (by rw [hb0 w]; decide)]
        congr 1
        funext j
        exact before_cons x w f b j
      simp only [ht]
      by_cases hP : P e = true
      · rw [if_pos hP, List.filter_cons_of_pos hP, Finset.card_eq_zero, Finset.filter_eq_empty_iff]
        intro w _ h
        have : e ∈ tosses c es (before (fun i => f (w i)) (fun j => b (j + 1))) := by rw [h]; simp
        exact he ((tosses_sublist _ _ _).subset this)
      · rw [if_neg hP, List.filter_cons_of_neg hP, show l + (1 + c) * es.length + c = l + c + (1 + c) * es.length by omega]
    rw [← Finset.sum_filter_add_sum_filter_not Finset.univ (fun x => f x = true)]
    rw [Finset.sum_congr rfl (fun x hx => h1 x (Finset.mem_filter.1 hx).2),
      Finset.sum_congr rfl (fun x hx => h0 x (by simpa using (Finset.mem_filter.1 hx).2)),
      Finset.sum_const, Finset.sum_const, smul_eq_mul, smul_eq_mul]
    have hf : (Finset.univ.filter (fun a => ¬ f a = true)) = Finset.univ.filter (fun a => f a = false) :=
      Finset.filter_congr (fun a _ => by simp)
    rw [hf]
    by_cases hP : P e = true
    · rw [if_pos hP, if_pos hP, ih hn, List.filter_cons_of_pos hP,
        List.filter_cons_of_neg (by simpa using hP), List.length_cons, List.length_cons, pow_succ,
        show l + c * (es.length + 1) = c + (l + c * es.length) by rw [Nat.mul_add]; omega, pow_add _ c]
      ring
    · rw [if_neg hP, if_neg hP, ih hn, List.filter_cons_of_neg hP,
        List.filter_cons_of_pos (by simpa using hP), List.length_cons, List.length_cons, pow_succ,
        show l + c * (es.length + 1) = l + c + c * es.length by rw [Nat.mul_add]; omega]
      ring

end Toss

end Verif.Gen
