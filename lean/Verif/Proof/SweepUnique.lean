import Verif.Proof.TraversalSpec

/-! A sweep is determined by its start and the edges. -/

namespace Verif.Spec.AGraph

open Traversal

variable {m : Nat} {NL EL NL' EL' : Type} {A : AGraph (Id m) NL EL} {B : AGraph (Id m) NL' EL'}

/-- Two lists of the same length that differ have a first difference. -/
theorem first_difference {X : Type} : ∀ {l l' : List X}, l.length = l'.length → l ≠ l' →
    ∃ V x r x' r', l = V ++ x :: r ∧ l' = V ++ x' :: r' ∧ x ≠ x'
  | [], [], _, h => absurd rfl h
  | a :: l, b :: l', h, hne => by
    by_cases hab : a = b
    · subst hab
      obtain ⟨V, x, r, x', r', h1, h2, h3⟩ :=
        first_difference (l := l) (l' := l') (by simpa using h) (fun e => hne (by rw [e]))
      exact ⟨a :: V, x, r, x', r', by rw [h1]; rfl, by rw [h2]; rfl, h3⟩
    · exact ⟨[], a, l, b, l', rfl, rfl, hab⟩

/-- An order that says which of two nodes discovered so far comes next determines a segment. -/
theorem segment_unique {P : List (Id m) → Prop} (hso : ∀ l, P l → A.SearchOrder l)
    (hpick : ∀ (V : List (Id m)) x r j (hj : j < (V ++ x :: r).length), P (V ++ x :: r) → V ≠ [] →
      V.length < j → A.firstSeen V (V ++ x :: r)[j] < V.length → A.firstSeen V x < V.length →
      ∀ x', x' = (V ++ x :: r)[j] → ∀ r' j' (hj' : j' < (V ++ x' :: r').length), P (V ++ x' :: r') →
      V.length < j' → x = (V ++ x' :: r')[j'] → False)
    {s : Id m} {a b : List (Id m)} (ha : (s :: a).Nodup) (hb : (s :: b).Nodup)
    (hab : ∀ n, n ∈ s :: a ↔ n ∈ s :: b) (pa : P (s :: a)) (pb : P (s :: b)) : s :: a = s :: b := by
  have hperm := (List.perm_ext_iff_of_nodup ha hb).2 hab
  by_contra hne
  obtain ⟨V, x, r, x', r', h1, h2, h3⟩ := first_difference hperm.length_eq hne
  have hV : V ≠ [] := by
    rintro rfl
    simp only [List.nil_append, List.cons.injEq] at h1 h2
    exact h3 (h1.1.symm.trans h2.1)
  rw [h1] at ha hab pa
  rw [h2] at hb hab pb
  have find : ∀ {y z : Id m} {r : List (Id m)}, y ≠ z → y ∉ V → y ∈ V ++ z :: r →
      ∃ j, ∃ hj : j < (V ++ z :: r).length, V.length < j ∧ y = (V ++ z :: r)[j] := by
    intro y z r hyz hyV hy
    obtain ⟨j, hj, e⟩ := List.mem_iff_getElem.1 hy
    refine ⟨j, hj, ?_, e.symm⟩
    by_contra hc
    rcases Nat.lt_or_eq_of_le (Nat.le_of_not_lt hc) with hc | hc
    · rw [List.getElem_append_left hc] at e
      exact hyV (e ▸ List.getElem_mem hc)
    · subst hc
      simp at e
      exact hyz e.symm
  have notin : ∀ {z : Id m} {r : List (Id m)}, (V ++ z :: r).Nodup → z ∉ V := by
    intro z r h hz
    rw [List.nodup_append] at h
    exact h.2.2 z hz z List.mem_cons_self rfl
  have seen : ∀ {z : Id m} {r : List (Id m)}, P (V ++ z :: r) → A.firstSeen V z < V.length := by
    intro z r h
    have hp := hso _ h V.length (by simp) (List.length_pos_iff.2 hV)
    have hz : (V ++ z :: r)[V.length]'(by simp) = z := by simp
    rw [hz] at hp
    by_contra hc
    unfold firstSeen at hp hc
    rw [List.findIdx_append, if_neg hc] at hp
    omega
  obtain ⟨j, hj, hj1, hj2⟩ := find (y := x') (z := x) (r := r) (Ne.symm h3) (notin hb)
    ((hab x').2 (by simp))
  obtain ⟨j', hj', hj1', hj2'⟩ := find (y := x) (z := x') (r := r') h3 (notin ha) ((hab x).1 (by simp))
  exact hpick V x r j hj pa hV hj1 (by rw [← hj2]; exact seen pb) (seen pa) x' hj2 r' j' hj' pb hj1' hj2'

theorem firstIn_unique {s : Id m} {a b : List (Id m)} (ha : (s :: a).Nodup) (hb : (s :: b).Nodup)
    (hab : ∀ n, n ∈ s :: a ↔ n ∈ s :: b) (pa : A.FirstIn (s :: a)) (pb : A.FirstIn (s :: b)) :
    s :: a = s :: b := by
  refine segment_unique (A := A) (P := A.FirstIn) (fun l h => h.1) ?_ ha hb hab pa pb
  intro V x r j hj p hV hVj hsj hsx x' hx' r' j' hj' p' hVj' hx
  have hpos := List.length_pos_iff.2 hV
  have k1 := p.2 V.length j (by simp) hj hpos hVj
  have k2 := p'.2 V.length j' (by simp) hj' hpos hVj'
  rw [← hx'] at k1 hsj
  rw [← hx] at k2
  have e1 : (V ++ x :: r)[V.length]'(by simp) = x := by simp
  have e2 : (V ++ x' :: r')[V.length]'(by simp) = x' := by simp
  rw [e1, key_append hsx, key_append hsj] at k1
  rw [e2, key_append hsx, key_append hsj] at k2
  exact absurd k1 (not_lt_of_gt k2)

theorem lastIn_unique {s : Id m} {a b : List (Id m)} (ha : (s :: a).Nodup) (hb : (s :: b).Nodup)
    (hab : ∀ n, n ∈ s :: a ↔ n ∈ s :: b) (pa : A.LastIn (s :: a)) (pb : A.LastIn (s :: b)) :
    s :: a = s :: b := by
  refine segment_unique (A := A) (P := A.LastIn) (fun l h => h.1) ?_ ha hb hab pa pb
  intro V x r j hj p hV hVj hsj hsx x' hx' r' j' hj' p' hVj' hx
  have k1 := p.2 V.length j (by simp) hj hVj
  have k2 := p'.2 V.length j' (by simp) hj' hVj'
  rw [← hx'] at k1 hsj
  rw [← hx] at k2
  have e1 : (V ++ x :: r)[V.length]'(by simp) = x := by simp
  have e2 : (V ++ x' :: r')[V.length]'(by simp) = x' := by simp
  rw [e1, first_append hsj, key_append hsx, key_append hsj] at k1
  rw [e2, first_append hsx, key_append hsx, key_append hsj] at k2
  exact absurd (k1 hsj) (not_lt_of_gt (k2 hsx))

/-- A sweep is determined if its segments are. -/
theorem sweep_unique {P : List (Id m) → Prop}
    (hP : ∀ {s : Id m} {a b : List (Id m)}, (s :: a).Nodup → (s :: b).Nodup →
      (∀ n, n ∈ s :: a ↔ n ∈ s :: b) → P (s :: a) → P (s :: b) → s :: a = s :: b)
    {s : Id m} {l l' : List (Id m)} (h : A.Sweep s P l) (h' : A.Sweep s P l') : l = l' := by
  obtain ⟨hn, hm, segs, rfl, ⟨rest, hh⟩, hs⟩ := h
  obtain ⟨hn', hm', segs', rfl, ⟨rest', hh'⟩, hs'⟩ := h'
  have nod : ∀ {segs : List (List (Id m))} (_ : segs.flatten.Nodup) i (hi : i < segs.length), segs[i].Nodup :=
    fun h i hi => (List.nodup_flatten.1 h).1 _ (List.getElem_mem hi)
  have node : ∀ {segs : List (List (Id m))} (_ : ∀ n, n ∈ segs.flatten ↔ (A.node n).isSome) i
      (hi : i < segs.length) n, n ∈ segs[i] → (A.node n).isSome := by
    intro segs h i hi n hn
    exact (h n).1 (List.mem_flatten.2 ⟨_, List.getElem_mem hi, hn⟩)
  have key : ∀ i, i ≤ segs.length → i ≤ segs'.length → segs.take i = segs'.take i := by
    intro i
    induction i with
    | zero => intro _ _; rfl
    | succ i ih =>
      intro hi hi'
      have e := ih (by omega) (by omega)
      obtain ⟨a, ra, a1, a2, a3, a4⟩ := hs i (by omega)
      obtain ⟨b, rb, b1, b2, b3, b4⟩ := hs' i (by omega)
      have hstart : a = b := by
        rcases Nat.eq_zero_or_pos i with rfl | hpos
        · have : segs[0]? = some (s :: rest) := by rw [← List.head?_eq_getElem?]; exact hh
          rw [List.getElem?_eq_getElem (by omega), a1] at this
          have h2 : segs'[0]? = some (s :: rest') := by rw [← List.head?_eq_getElem?]; exact hh'
          rw [List.getElem?_eq_getElem (by omega), b1] at h2
          injection this with this
          injection h2 with h2
          injection this with this
          injection h2 with h2
          rw [this, h2]
        · have hma : a ∈ segs[i] := by rw [a1]; exact List.mem_cons_self
          have hmb : b ∈ segs'[i] := by rw [b1]; exact List.mem_cons_self
          refine le_antisymm (a4 hpos b (node hm' i _ b hmb) ?_) (b4 hpos a (node hm i _ a hma) ?_)
          · rw [e]; exact ((b3 b).1 hmb).2
          · rw [← e]; exact ((a3 a).1 hma).2
      subst hstart
      have heq : segs[i] = segs'[i] := by
        have n1 := nod hn i (by omega)
        have n2 := nod hn' i (by omega)
        have h1 : ∀ n, n ∈ segs[i] ↔ n ∈ segs'[i] := by intro n; rw [a3 n, b3 n, e]
        rw [a1] at n1 h1 a2 ⊢
        rw [b1] at n2 h1 b2 ⊢
        exact hP n1 n2 h1 a2 b2
      rw [List.take_add_one, List.take_add_one, e, List.getElem?_eq_getElem (by omega),
        List.getElem?_eq_getElem (by omega), heq]
  have short : ∀ {segs segs' : List (List (Id m))} (_ : segs.length < segs'.length)
      (_ : segs.take segs.length = segs'.take segs.length)
      (_ : ∀ n, n ∈ segs.flatten ↔ (A.node n).isSome) (_ : ∀ n, n ∈ segs'.flatten ↔ (A.node n).isSome)
      (_ : ∀ i (hi : i < segs'.length), ∃ s rest, segs'[i] = s :: rest ∧ P segs'[i] ∧
        (∀ n, n ∈ segs'[i] ↔ A.Reaches s n ∧ n ∉ (segs'.take i).flatten) ∧
        (0 < i → ∀ n, (A.node n).isSome → n ∉ (segs'.take i).flatten → s ≤ n)), False := by
    intro segs segs' hlt e h1 h2 h3
    obtain ⟨b, rb, b1, -, b3, -⟩ := h3 segs.length hlt
    have hb : b ∈ segs'[segs.length] := by rw [b1]; exact List.mem_cons_self
    have := ((b3 b).1 hb).2
    rw [← e, List.take_length, h1 b] at this
    exact this (node h2 _ hlt b hb)
  have hlen : segs.length = segs'.length := by
    rcases Nat.lt_trichotomy segs.length segs'.length with h | h | h
    · exact (short h (key _ (le_refl _) h.le) hm hm' hs').elim
    · exact h
    · exact (short h (key _ h.le (le_refl _)).symm hm' hm hs).elim
  have := key segs.length (le_refl _) hlen.le
  rw [List.take_length, hlen, List.take_length] at this
  rw [this]

/-! ### Only the nodes and edges matter -/

theorem Alike.symm (h : A.Alike B) : B.Alike A := ⟨fun n => (h.1 n).symm, fun s t => (h.2 s t).symm⟩

theorem Alike.walk (h : A.Alike B) {s t : Id m} {n : Nat} (w : A.Walk s n t) : B.Walk s n t := by
  induction w with
  | here => exact .here
  | step _ he ih => exact ih.step (by rw [← h.2]; exact he)

theorem Alike.reaches (h : A.Alike B) (s t : Id m) : A.Reaches s t ↔ B.Reaches s t :=
  ⟨fun ⟨n, w⟩ => ⟨n, h.walk w⟩, fun ⟨n, w⟩ => ⟨n, h.symm.walk w⟩⟩

theorem Alike.firstSeen (h : A.Alike B) (l : List (Id m)) (x : Id m) : A.firstSeen l x = B.firstSeen l x := by
  unfold AGraph.firstSeen
  congr 1
  funext u
  exact h.2 u x

theorem Alike.firstIn (h : A.Alike B) : A.FirstIn = B.FirstIn := by
  funext l
  unfold FirstIn SearchOrder seenKey
  simp only [h.firstSeen]

theorem Alike.lastIn (h : A.Alike B) : A.LastIn = B.LastIn := by
  funext l
  unfold LastIn SearchOrder seenKey
  simp only [h.firstSeen]

theorem Alike.sweep (h : A.Alike B) {s : Id m} {P : List (Id m) → Prop} {l : List (Id m)}
    (hs : A.Sweep s P l) : B.Sweep s P l := by
  obtain ⟨h1, h2, segs, h3, h4, h5⟩ := hs
  refine ⟨h1, fun n => (h2 n).trans (by rw [h.1]), segs, h3, h4, fun i hi => ?_⟩
  obtain ⟨a, r, a1, a2, a3, a4⟩ := h5 i hi
  exact ⟨a, r, a1, a2, fun n => (a3 n).trans (by rw [h.reaches]), fun hp n hn => a4 hp n (by rw [h.1]; exact hn)⟩

end Verif.Spec.AGraph
