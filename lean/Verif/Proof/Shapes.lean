import Verif.Proof.SweepUnique
import Verif.Spec.Shapes

/-! The sweeps of graphs of simple shapes: complete, without edges, paths. -/

namespace Verif.Spec.AGraph

open Traversal

variable {m : Nat} {NL EL : Type} {A : AGraph (Id m) NL EL} {s : Id m} {l : List (Id m)}

theorem firstSeen_eq {x : Id m} {p : Nat} (hp : p < l.length) (h : (A.edge l[p] x).isSome)
    (hlt : ∀ j (hj : j < l.length), j < p → A.edge l[j] x = none) : A.firstSeen l x = p := by
  have h1 := firstSeen_le hp h
  by_contra hc
  have h2 : A.firstSeen l x < p := by omega
  have h3 := firstSeen_edge (A := A) (l := l) (x := x) (by omega)
  rw [hlt _ _ h2] at h3
  cases h3

/-- If every node is reached from the start, there is one segment. -/
theorem Sweep.single {P : List (Id m) → Prop} (h : A.Sweep s P l)
    (hr : ∀ n, (A.node n).isSome → A.Reaches s n) : ∃ r, l = s :: r ∧ P l := by
  obtain ⟨r, l2, h1, h2, h3⟩ := h.first
  have : l2 = [] := by
    rw [List.eq_nil_iff_forall_not_mem]
    intro n hn
    have hnd := h.1
    rw [h1, List.nodup_append] at hnd
    exact hnd.2.2 n ((h3 n).2 (hr n ((h.2.1 n).1 (by rw [h1]; exact List.mem_append_right _ hn)))) n hn rfl
  subst this
  rw [List.append_nil] at h1
  exact ⟨r, h1, by rw [h1]; exact h2⟩

theorem complete_reaches (hc : A.Complete)
    (hs : (A.node s).isSome) (n : Id m) (hn : (A.node n).isSome) : A.Reaches s n := by
  by_cases h : s = n
  · exact ⟨0, h ▸ .here⟩
  · exact ⟨1, .step .here ((hc s n).2 ⟨hs, hn, h⟩)⟩

theorem complete_first {r : List (Id m)}
    (hc : A.Complete)
    (hnd : (s :: r).Nodup) (hm : ∀ n, n ∈ s :: r ↔ (A.node n).isSome) {i : Nat} (hi : i < (s :: r).length)
    (h0 : 0 < i) : A.firstSeen (s :: r) (s :: r)[i] = 0 := by
  refine firstSeen_eq (by simp) ?_ (fun j hj h => absurd h (Nat.not_lt_zero _))
  rw [List.getElem_cons_zero, hc]
  refine ⟨(hm _).1 List.mem_cons_self, (hm _).1 (List.getElem_mem hi), fun e => ?_⟩
  have := (List.Nodup.getElem_inj_iff hnd (hi := by simp) (hj := hi) (i := 0)).1 e
  omega

theorem complete_bfs (hc : A.Complete)
    (h : A.Sweep s A.FirstIn l) : ∃ r, l = s :: r ∧ r.Pairwise (· < ·) := by
  have hs : (A.node s).isSome := by
    obtain ⟨r, l2, h1, -⟩ := h.first
    exact (h.2.1 s).1 (by rw [h1]; simp)
  obtain ⟨r, rfl, -, h2⟩ := h.single (complete_reaches hc hs)
  refine ⟨r, rfl, List.pairwise_iff_getElem.2 fun i j hi hj hij => ?_⟩
  have k := h2 (i + 1) (j + 1) (by simpa using hi) (by simpa using hj) (by omega) (by omega)
  rw [key_lt, complete_first hc h.1 h.2.1 _ (by omega), complete_first hc h.1 h.2.1 _ (by omega)] at k
  simpa using k

theorem complete_dfs (hc : A.Complete)
    (h : A.Sweep s A.LastIn l) : ∃ r, l = s :: r ∧ r.Pairwise (fun a b => b < a) := by
  have hs : (A.node s).isSome := by
    obtain ⟨r, l2, h1, -⟩ := h.first
    exact (h.2.1 s).1 (by rw [h1]; simp)
  obtain ⟨r, rfl, -, h2⟩ := h.single (complete_reaches hc hs)
  refine ⟨r, rfl, List.pairwise_iff_getElem.2 fun i j hi hj hij => ?_⟩
  have k := h2 (i + 1) (j + 1) (by simpa using hi) (by simpa using hj) (by omega)
    (by rw [complete_first hc h.1 h.2.1 _ (by omega)]; omega)
  rw [key_lt, complete_first hc h.1 h.2.1 _ (by omega), complete_first hc h.1 h.2.1 _ (by omega)] at k
  simpa using k

theorem edgeless_reaches (hc : ∀ a b, A.edge a b = none) {n : Id m} (h : A.Reaches s n) : n = s := by
  obtain ⟨c, w⟩ := h
  cases w with
  | here => rfl
  | step _ e => rw [hc] at e; cases e

theorem edgeless_sweep {P : List (Id m) → Prop} (hc : ∀ a b, A.edge a b = none) (h : A.Sweep s P l) :
    ∃ r, l = s :: r ∧ r.Pairwise (· < ·) := by
  obtain ⟨hnd, hm, segs, rfl, ⟨rest, hh⟩, hs⟩ := h
  have one : ∀ i (hi : i < segs.length), ∃ x, segs[i] = [x] ∧
      (0 < i → ∀ n, (A.node n).isSome → n ∉ (segs.take i).flatten → x ≤ n) := by
    intro i hi
    obtain ⟨x, r, e1, -, e3, e4⟩ := hs i hi
    refine ⟨x, ?_, e4⟩
    cases r with
    | nil => exact e1
    | cons y r =>
      exfalso
      have hy := ((e3 y).1 (by rw [e1]; simp)).1
      have := edgeless_reaches hc hy
      subst this
      have := (List.nodup_flatten.1 hnd).1 _ (List.getElem_mem hi)
      rw [e1] at this
      simp at this
  have hseg : segs = segs.flatten.map (fun x => [x]) := by
    have : ∀ (L : List (List (Id m))), (∀ i (hi : i < L.length), ∃ x, L[i] = [x]) →
        L = L.flatten.map (fun x => [x]) := by
      intro L
      induction L with
      | nil => intro _; rfl
      | cons a L ih =>
        intro hL
        obtain ⟨x, hx⟩ := hL 0 (by simp)
        simp only [List.getElem_cons_zero] at hx
        subst hx
        have := ih (fun i hi => let ⟨y, hy⟩ := hL (i + 1) (Nat.succ_lt_succ hi); ⟨y, hy⟩)
        simp only [List.flatten_cons, List.cons_append, List.nil_append, List.map_cons]
        exact congrArg _ this
    exact this segs fun i hi => let ⟨x, hx, _⟩ := one i hi; ⟨x, hx⟩
  generalize hl : segs.flatten = l at *
  subst hseg
  cases l with
  | nil => cases hh
  | cons a r =>
    simp only [List.map_cons, List.head?_cons, Option.some.injEq, List.cons.injEq] at hh
    obtain ⟨rfl, -⟩ := hh
    refine ⟨r, rfl, List.pairwise_iff_getElem.2 fun i j hi hj hij => ?_⟩
    obtain ⟨x, hx, hle⟩ := one (i + 1) (by simpa using hi)
    simp only [List.getElem_map, List.getElem_cons_succ, List.cons.injEq, and_true] at hx
    subst hx
    refine lt_of_le_of_ne (hle (by omega) _ ((hm _).1 (List.mem_cons_of_mem _ (List.getElem_mem hj))) ?_) ?_
    · rw [← List.map_take, List.mem_flatten]
      rintro ⟨t, ht, hj2⟩
      rw [List.mem_map] at ht
      obtain ⟨y, hy, rfl⟩ := ht
      rw [List.mem_singleton] at hj2
      subst hj2
      obtain ⟨p, hp, e⟩ := List.mem_iff_getElem.1 hy
      rw [List.length_take] at hp
      rw [List.getElem_take] at e
      have := (List.Nodup.getElem_inj_iff hnd (i := p) (j := j + 1) (hi := by omega) (hj := by simpa using hj)).1
        (by simpa using e)
      omega
    · intro e
      have := (List.Nodup.getElem_inj_iff (List.nodup_cons.1 hnd).2 (hi := hi) (hj := hj)).1 e
      omega

theorem arrows_up {N : Nat} (hN : N ≤ m) (h : A.Arrows N) : ∀ (d : Nat) (n : Id m), n.val = s.val + d → n.val ≤ N →
    A.Walk s d n
  | 0, n, e, _ => by
    have : n = s := Fin.ext (by omega)
    exact this ▸ .here
  | d + 1, n, e, hn => by
    have w := arrows_up hN h d ⟨s.val + d, by omega⟩ rfl (by show s.val + d ≤ N; omega)
    exact .step w ((h _ _).2 ⟨by show n.val = s.val + d + 1; omega, hn⟩)

theorem arrows_reaches {N : Nat} (hN : N ≤ m) (h : A.Arrows N) (hs : s.val ≤ N) (n : Id m) :
    A.Reaches s n ↔ s.val ≤ n.val ∧ n.val ≤ N := by
  constructor
  · rintro ⟨c, w⟩
    induction w with
    | here => exact ⟨Nat.le_refl _, hs⟩
    | step _ e ih =>
      have := (h _ _).1 e
      omega
  · rintro ⟨h1, h2⟩
    exact ⟨n.val - s.val, arrows_up hN h _ n (by omega) h2⟩

theorem links_up {N : Nat} (hN : N ≤ m) (h : A.Links N) : ∀ (d : Nat) (n : Id m), n.val = s.val + d → n.val ≤ N →
    A.Walk s d n
  | 0, n, e, _ => by
    have : n = s := Fin.ext (by omega)
    exact this ▸ .here
  | d + 1, n, e, hn => by
    have w := links_up hN h d ⟨s.val + d, by omega⟩ rfl (by show s.val + d ≤ N; omega)
    exact .step w ((h _ _).2 ⟨.inl (by show n.val = s.val + d + 1; omega), by show s.val + d ≤ N; omega, hn⟩)

theorem links_down {N : Nat} (hN : N ≤ m) (h : A.Links N) (hs : s.val ≤ N) :
    ∀ (d : Nat) (n : Id m), n.val + d = s.val → A.Walk s d n
  | 0, n, e => by
    have : n = s := Fin.ext (by omega)
    exact this ▸ .here
  | d + 1, n, e => by
    have w := links_down hN h hs d ⟨n.val + 1, by omega⟩ (by show n.val + 1 + d = s.val; omega)
    exact .step w ((h _ _).2 ⟨.inr rfl, by show n.val + 1 ≤ N; omega, by omega⟩)

theorem links_walk {N : Nat} (hN : N ≤ m) (h : A.Links N) (hs : s.val ≤ N) (n : Id m) (hn : n.val ≤ N) :
    A.Walk s (apart s n) n := by
  rcases Nat.le_total s.val n.val with hle | hle
  · exact links_up hN h _ n (by unfold apart; omega) hn
  · exact links_down hN h hs _ n (by unfold apart; omega)

theorem links_least {N : Nat} (h : A.Links N) {c : Nat} {n : Id m} (w : A.Walk s c n) : apart s n ≤ c := by
  induction w with
  | here => simp [apart]
  | step _ e ih =>
    have := (h _ _).1 e
    unfold apart at *
    omega

theorem links_reaches {N : Nat} (hN : N ≤ m) (h : A.Links N) (hs : s.val ≤ N) (n : Id m) :
    A.Reaches s n ↔ n.val ≤ N := by
  constructor
  · rintro ⟨c, w⟩
    cases w with
    | here => exact hs
    | step _ e => exact ((h _ _).1 e).2.2
  · exact fun hn => ⟨_, links_walk hN h hs n hn⟩

/-- The first `c` values of a sequence, as ids. -/
def ids (m : Nat) (f : Nat → Nat) (c : Nat) : List (Id m) := (List.range c).map (fun i => Fin.ofNat (m + 1) (f i))

@[simp] theorem ids_length {f : Nat → Nat} {c : Nat} : (ids m f c).length = c := by simp [ids]

theorem ids_get {f : Nat → Nat} {c i : Nat} (hi : i < (ids m f c).length) (hf : f i ≤ m) :
    ((ids m f c)[i]).val = f i := by
  simp [ids, Nat.mod_eq_of_lt (Nat.lt_succ_of_le hf)]

theorem ids_vals {f : Nat → Nat} {c : Nat} (hf : ∀ i < c, f i ≤ m) :
    (ids m f c).map Fin.val = (List.range c).map f := by
  refine List.ext_getElem (by simp) fun i h1 h2 => ?_
  simp only [List.length_map, ids_length] at h1
  rw [List.getElem_map, ids_get (by simpa using h1) (hf i h1)]
  simp

theorem mem_ids {f : Nat → Nat} {c : Nat} (hf : ∀ i < c, f i ≤ m) (n : Id m) :
    n ∈ ids m f c ↔ ∃ i < c, f i = n.val := by
  rw [List.mem_iff_getElem]
  constructor
  · rintro ⟨i, hi, rfl⟩
    rw [ids_length] at hi
    exact ⟨i, hi, (ids_get (by simpa using hi) (hf i hi)).symm⟩
  · rintro ⟨i, hi, e⟩
    exact ⟨i, by simpa using hi, Fin.ext (by rw [ids_get (by simpa using hi) (hf i hi), e])⟩

theorem ids_nodup {f : Nat → Nat} {c : Nat} (hf : ∀ i < c, f i ≤ m)
    (hi : ∀ i j, i < c → j < c → f i = f j → i = j) : (ids m f c).Nodup := by
  rw [List.nodup_iff_injective_get]
  intro a b h
  have ha : a.val < c := by simpa using a.isLt
  have hb : b.val < c := by simpa using b.isLt
  have := congrArg Fin.val h
  simp only [List.get_eq_getElem] at this
  rw [ids_get a.isLt (hf _ ha), ids_get b.isLt (hf _ hb)] at this
  exact Fin.ext (hi _ _ ha hb this)

/-- Along arrows a list that goes up is both first in and last in. -/
theorem arrows_order {N b c : Nat} (hN : N ≤ m) (hc : b + c ≤ N + 1) (h : A.Arrows N) :
    A.FirstIn (ids m (b + ·) c) ∧ A.LastIn (ids m (b + ·) c) := by
  have get : ∀ i (hi : i < (ids m (b + ·) c).length), ((ids m (b + ·) c)[i]).val = b + i := by
    intro i hi
    have : i < c := by simpa using hi
    exact ids_get hi (by omega)
  have seen : ∀ i (hi : i < (ids m (b + ·) c).length), 0 < i →
      A.firstSeen (ids m (b + ·) c) (ids m (b + ·) c)[i] = i - 1 := by
    intro i hi h0
    have hic : i < c := by simpa using hi
    refine firstSeen_eq (by omega) ((h _ _).2 ?_) fun j hj hlt => ?_
    · rw [get, get]; omega
    · rw [← Option.not_isSome_iff_eq_none, h, get, get]; omega
  have so : A.SearchOrder (ids m (b + ·) c) := fun i hi h0 => by rw [seen i hi h0]; omega
  refine ⟨⟨so, fun i j hi hj h0 hij => ?_⟩, ⟨so, fun i j hi hj hij hs => ?_⟩⟩
  · rw [key_lt, seen i hi h0, seen j hj (by omega)]
    left; omega
  · rw [seen j hj (by omega)] at hs
    omega

theorem arrows_sweep {N : Nat} (hN : N ≤ m) (hn : A.UpTo N) (h : A.Arrows N) (hs : s.val ≤ N)
    {P : List (Id m) → Prop} (hP : ∀ b c, b + c ≤ N + 1 → P (ids m (b + ·) c)) :
    A.Sweep s P (ids m (s.val + ·) (N + 1 - s.val) ++ ids m (0 + ·) s.val) := by
  have i1 : ∀ i < N + 1 - s.val, s.val + i ≤ m := by intro i hi; omega
  have i2 : ∀ i < s.val, 0 + i ≤ m := by intro i hi; omega
  have m1 : ∀ n, n ∈ ids m (s.val + ·) (N + 1 - s.val) ↔ s.val ≤ n.val ∧ n.val ≤ N := by
    intro n
    rw [mem_ids i1]
    constructor
    · rintro ⟨i, hi, e⟩; omega
    · rintro ⟨h1, h2⟩; exact ⟨n.val - s.val, by omega, by omega⟩
  have m2 : ∀ n, n ∈ ids m (0 + ·) s.val ↔ n.val < s.val := by
    intro n
    rw [mem_ids i2]
    constructor
    · rintro ⟨i, hi, e⟩; omega
    · intro h1; exact ⟨n.val, by omega, by omega⟩
  have top : ∃ r, ids m (s.val + ·) (N + 1 - s.val) = s :: r := by
    have hl : 0 < (ids m (s.val + ·) (N + 1 - s.val)).length := by simp; omega
    cases e : ids m (s.val + ·) (N + 1 - s.val) with
    | nil => rw [e] at hl; cases hl
    | cons x r =>
      have := ids_get hl (by omega)
      simp only [e, List.getElem_cons_zero] at this
      exact ⟨r, by rw [show x = s from Fin.ext (by omega)]⟩
  refine ⟨?_, ?_, ?_⟩
  · rw [List.nodup_append]
    refine ⟨ids_nodup i1 (by intros; omega), ids_nodup i2 (by intros; omega), fun a ha b hb e => ?_⟩
    subst e
    rw [m1] at ha
    rw [m2] at hb
    omega
  · intro n
    rw [List.mem_append, m1, m2, hn]
    omega
  · by_cases h0 : s.val = 0
    · refine ⟨[ids m (s.val + ·) (N + 1 - s.val)], ?_, ?_, ?_⟩
      · rw [h0]; simp [ids]
      · obtain ⟨r, e⟩ := top
        exact ⟨r, by rw [e]; rfl⟩
      · intro i hi
        have : i = 0 := by simpa using hi
        subst this
        obtain ⟨r, e⟩ := top
        refine ⟨s, r, e, hP _ _ (by omega), fun n => ?_, by simp⟩
        simp only [List.getElem_cons_zero, List.take_zero, List.flatten_nil, List.not_mem_nil,
          not_false_eq_true, and_true]
        rw [m1, arrows_reaches hN h hs]
    · refine ⟨[ids m (s.val + ·) (N + 1 - s.val), ids m (0 + ·) s.val], by simp, ?_, ?_⟩
      · obtain ⟨r, e⟩ := top
        exact ⟨r, by rw [e]; rfl⟩
      · intro i hi
        have : i = 0 ∨ i = 1 := by
          simp at hi; omega
        rcases this with rfl | rfl
        · obtain ⟨r, e⟩ := top
          refine ⟨s, r, e, hP _ _ (by omega), fun n => ?_, by simp⟩
          simp only [List.getElem_cons_zero, List.take_zero, List.flatten_nil, List.not_mem_nil,
            not_false_eq_true, and_true]
          rw [m1, arrows_reaches hN h hs]
        · have top2 : ∃ r, ids m (0 + ·) s.val = (0 : Id m) :: r := by
            have hl : 0 < (ids m (0 + ·) s.val).length := by rw [ids_length]; omega
            cases e : ids m (0 + ·) s.val with
            | nil => rw [e] at hl; cases hl
            | cons x r =>
              have := ids_get hl (by omega)
              simp only [e, List.getElem_cons_zero] at this
              exact ⟨r, by rw [show x = 0 from Fin.ext (by simpa using this)]⟩
          obtain ⟨r, e⟩ := top2
          refine ⟨0, r, e, hP 0 s.val (by omega), fun n => ?_, fun _ n _ _ => Fin.zero_le n⟩
          simp only [List.getElem_cons_succ, List.getElem_cons_zero, List.take_succ_cons, List.take_zero,
            List.flatten_cons, List.flatten_nil, List.append_nil]
          rw [m1, m2, arrows_reaches hN h (by simp)]
          simp only [Fin.val_zero]
          omega

/-- Along links, the list that goes up and then from the start down is last in. -/
theorem links_dfs {N : Nat} (hN : N ≤ m) (h : A.Links N) (hn : A.UpTo N) (hs : s.val ≤ N) :
    A.Sweep s A.LastIn (ids m (fun i => if s.val + i ≤ N then s.val + i else N - i) (N + 1)) := by
  generalize hf : (fun i => if s.val + i ≤ N then s.val + i else N - i) = f
  have fv : ∀ i, f i = if s.val + i ≤ N then s.val + i else N - i := fun i => by rw [← hf]
  have fm : ∀ i < N + 1, f i ≤ m := by
    intro i hi; rw [fv]; split <;> omega
  have inj : ∀ i j, i < N + 1 → j < N + 1 → f i = f j → i = j := by
    intro i j hi hj e
    rw [fv, fv] at e
    split at e <;> split at e <;> omega
  have mem : ∀ n, n ∈ ids m f (N + 1) ↔ n.val ≤ N := by
    intro n
    rw [mem_ids fm]
    constructor
    · rintro ⟨i, hi, e⟩
      rw [fv] at e
      split at e <;> omega
    · intro hle
      by_cases hc : s.val ≤ n.val
      · exact ⟨n.val - s.val, by omega, by rw [fv, if_pos (by omega)]; omega⟩
      · exact ⟨N - n.val, by omega, by rw [fv, if_neg (by omega)]; omega⟩
  have get : ∀ i (hi : i < (ids m f (N + 1)).length), ((ids m f (N + 1))[i]).val = f i := by
    intro i hi
    exact ids_get hi (fm i (by simpa using hi))
  have seen : ∀ i (hi : i < (ids m f (N + 1)).length), 0 < i →
      A.firstSeen (ids m f (N + 1)) (ids m f (N + 1))[i] = if s.val + i = N + 1 then 0 else i - 1 := by
    intro i hi h0
    have hiN : i < N + 1 := by simpa using hi
    refine firstSeen_eq (by simp; split <;> omega) ((h _ _).2 ?_) fun j hj hlt => ?_
    · rw [get, get, fv, fv]
      split <;> split <;> split <;> omega
    · rw [← Option.not_isSome_iff_eq_none, h, get, get, fv, fv]
      split at hlt <;> split <;> split <;> omega
  have so : A.SearchOrder (ids m f (N + 1)) := fun i hi h0 => by rw [seen i hi h0]; split <;> omega
  have last : A.LastIn (ids m f (N + 1)) := by
    refine ⟨so, fun i j hi hj hij hs => ?_⟩
    rw [seen j hj (by omega)] at hs
    rw [key_lt, seen i hi (by split at hs <;> omega), seen j hj (by omega)]
    rw [Fin.lt_def, get, get, fv, fv]
    split_ifs at * <;> omega
  refine ⟨ids_nodup fm inj, fun n => by rw [mem, hn], [ids m f (N + 1)], by simp, ?_, ?_⟩
  all_goals
    have top : ∃ r, ids m f (N + 1) = s :: r := by
      have hl : 0 < (ids m f (N + 1)).length := by simp
      cases e : ids m f (N + 1) with
      | nil => rw [e] at hl; cases hl
      | cons x r =>
        have := get 0 hl
        simp only [e, List.getElem_cons_zero] at this
        rw [fv, if_pos (by omega)] at this
        exact ⟨r, by rw [show x = s from Fin.ext (by omega)]⟩
    obtain ⟨r, e⟩ := top
  · exact ⟨r, by rw [e]; rfl⟩
  · intro i hi
    have : i = 0 := by simpa using hi
    subst this
    refine ⟨s, r, e, last, fun n => ?_, by simp⟩
    simp only [List.getElem_cons_zero, List.take_zero, List.flatten_nil, List.not_mem_nil,
      not_false_eq_true, and_true]
    rw [mem, links_reaches hN h hs]

/-- Along links a list that is first in goes by distance, and for each distance down before up. -/
theorem links_bfs {N : Nat} (hN : N ≤ m) (h : A.Links N) (hn : A.UpTo N) (hs : s.val ≤ N)
    (hl : A.Sweep s A.FirstIn l) :
    l.Pairwise (fun a b => apart s a < apart s b ∨ (apart s a = apart s b ∧ a < b)) := by
  obtain ⟨r, e, hf⟩ := hl.single fun n hn' => (links_reaches hN h hs n).2 ((hn n).1 hn')
  have hm : ∀ n, n ∈ l ↔ n.val ≤ N := fun n => by rw [hl.2.1, hn]
  obtain ⟨d, d1, d2, d3⟩ := hf.levels hl.1 (s := s) (by rw [e]; rfl)
    (fun n => by rw [hm, links_reaches hN h hs])
  have hd : ∀ i (hi : i < l.length), d i = apart s l[i] := by
    intro i hi
    refine Nat.le_antisymm (d3 i hi _ (links_walk hN h hs _ ((hm _).1 (List.getElem_mem hi)))) (links_least h (d2 i hi))
  have mono : ∀ i j (hi : i < l.length) (hj : j < l.length), apart s l[i] < apart s l[j] → i < j := by
    intro i j hi hj hlt
    by_contra hc
    have := d1 j i (by omega) hi
    rw [hd i hi, hd j hj] at this
    omega
  have h00 : ∀ i (hi : i < l.length), l[i].val = s.val → i = 0 := by
    intro i hi he
    have h0 : 0 < l.length := by omega
    have : l[0] = s := by simp [e]
    exact (List.Nodup.getElem_inj_iff hl.1 (hi := hi) (hj := h0)).1 (by rw [this]; exact Fin.ext he)
  have seen : ∀ i (hi : i < l.length), l[i].val ≠ s.val → ∃ p, ∃ hp : p < l.length,
      A.firstSeen l l[i] = p ∧ (s.val < l[i].val → l[p].val + 1 = l[i].val) ∧
      (l[i].val < s.val → l[p].val = l[i].val + 1) := by
    intro i hi hne
    have hiN := (hm _).1 (List.getElem_mem hi)
    have key : ∃ x : Id m, x.val ≤ N ∧ (s.val < l[i].val → x.val + 1 = l[i].val) ∧
        (l[i].val < s.val → x.val = l[i].val + 1) := by
      rcases Nat.lt_or_gt_of_ne hne with hlt | hlt
      · exact ⟨⟨l[i].val + 1, by omega⟩, by show l[i].val + 1 ≤ N; omega, fun h => by omega, fun _ => rfl⟩
      · exact ⟨⟨l[i].val - 1, by omega⟩, by show l[i].val - 1 ≤ N; omega,
          fun _ => by show l[i].val - 1 + 1 = l[i].val; omega, fun h => by omega⟩
    obtain ⟨x, x1, x2, x3⟩ := key
    obtain ⟨p, hp, rfl⟩ := List.mem_iff_getElem.1 ((hm x).2 x1)
    refine ⟨p, hp, firstSeen_eq hp ((h _ _).2 ⟨by omega, x1, hiN⟩) fun j hj hlt => ?_, x2, x3⟩
    rw [← Option.not_isSome_iff_eq_none, h]
    rintro ⟨h1, h2, h3⟩
    have hne' : l[j].val ≠ l[p].val := by
      intro e2
      have := (List.Nodup.getElem_inj_iff hl.1 (hi := hj) (hj := hp)).1 (Fin.ext e2)
      omega
    have := mono p j hp hj (by unfold apart; omega)
    omega
  -- at each distance the lower id comes first
  have down : ∀ (t : Nat) i j (hi : i < l.length) (hj : j < l.length), 0 < t → l[i].val = s.val + t →
      l[j].val + t = s.val → j < i := by
    intro t
    induction t with
    | zero => intro i j hi hj h0; omega
    | succ t ih =>
      intro i j hi hj _ e1 e2
      by_contra hc
      have hne : i ≠ j := by rintro rfl; omega
      have h0 : 0 < i := by
        rcases Nat.eq_zero_or_pos i with rfl | h0
        · exfalso
          have : l[0] = s := by simp [e]
          rw [this] at e1; omega
        · exact h0
      have k := hf.2 i j hi hj h0 (by omega)
      obtain ⟨p, hp, p1, p2, -⟩ := seen i hi (by omega)
      obtain ⟨q, hq, q1, -, q2⟩ := seen j hj (by omega)
      rw [key_lt, p1, q1, Fin.lt_def] at k
      have p2 := p2 (by omega)
      have q2 := q2 (by omega)
      rcases Nat.eq_zero_or_pos t with rfl | ht
      · have a := h00 p hp (by omega)
        have b := h00 q hq (by omega)
        omega
      · have := ih p q hp hq ht (by omega) (by omega)
        omega
  refine List.pairwise_iff_getElem.2 fun i j hi hj hij => ?_
  have hle : apart s l[i] ≤ apart s l[j] := by
    rw [← hd i hi, ← hd j hj]
    exact d1 i j (by omega) hj
  rcases Nat.lt_or_eq_of_le hle with hlt | heq
  · exact .inl hlt
  · refine .inr ⟨heq, ?_⟩
    rw [Fin.lt_def]
    by_contra hc
    have hne : l[i].val ≠ l[j].val := by
      intro e2
      have := (List.Nodup.getElem_inj_iff hl.1 (hi := hi) (hj := hj)).1 (Fin.ext e2)
      omega
    have := down (l[i].val - s.val) i j hi hj (by unfold apart at heq; omega) (by unfold apart at heq; omega)
      (by unfold apart at heq; omega)
    omega

end Verif.Spec.AGraph
