import Verif.Proof.TraversalSpec
import Verif.Proof.ConnCompGraph
import Verif.Spec.Components

/-! Searches of undirected graphs and connected components. -/

namespace Verif

open Spec

variable {m k : Nat} {NL EL : Type} {A : AGraph (Id m) NL EL}

theorem walk_trans {a b c : Id m} {i j : Nat} (w : A.Walk a i b) (v : A.Walk b j c) : A.Walk a (i + j) c := by
  induction v with
  | here => exact w
  | step _ e ih => exact ih.step e

theorem reaches_symm (hs : ∀ s t, A.edge s t = A.edge t s) {a b : Id m} (h : A.Reaches a b) :
    A.Reaches b a := by
  obtain ⟨n, w⟩ := h
  induction w with
  | here => exact ⟨0, .here⟩
  | @step n u t _ e ih =>
    obtain ⟨i, v⟩ := ih
    exact ⟨1 + i, walk_trans (AGraph.Walk.step .here (by rw [hs]; exact e)) v⟩

/-- In an undirected graph what can be reached is what is connected. -/
theorem reaches_connected (hs : ∀ s t, A.edge s t = A.edge t s) (a b : Id m) :
    A.Reaches a b ↔ A.Connected a b := by
  constructor
  · rintro ⟨n, w⟩
    induction w with
    | here => exact .refl _
    | step _ e ih => exact .trans _ _ _ ih (.rel _ _ e)
  · intro h
    induction h with
    | rel a b e => exact ⟨1, AGraph.Walk.step .here e⟩
    | refl a => exact ⟨0, .here⟩
    | symm a b _ ih => exact reaches_symm hs ih
    | trans a b c _ _ ih1 ih2 =>
      obtain ⟨i, v⟩ := ih1
      obtain ⟨j, w⟩ := ih2
      exact ⟨_, walk_trans v w⟩

theorem mem_take_flatten {α : Type} {segs : List (List α)} {i : Nat} {x : α} :
    x ∈ (segs.take i).flatten ↔ ∃ j, ∃ hj : j < segs.length, j < i ∧ x ∈ segs[j] := by
  rw [List.mem_flatten]
  constructor
  · rintro ⟨s, hs, hx⟩
    obtain ⟨j, hj, rfl⟩ := List.mem_iff_getElem.1 hs
    rw [List.length_take] at hj
    refine ⟨j, by omega, by omega, ?_⟩
    rwa [List.getElem_take] at hx
  · rintro ⟨j, hj, hji, hx⟩
    exact ⟨segs[j], List.mem_iff_getElem.2 ⟨j, by rw [List.length_take]; omega, by rw [List.getElem_take]⟩, hx⟩

theorem sweep_components (hs : ∀ s t, A.edge s t = A.edge t s)
    (hends : ∀ s t, (A.edge s t).isSome → (A.node s).isSome ∧ (A.node t).isSome) {start : Id m}
    {P : List (Id m) → Prop} {l : List (Id m)} (h : A.Sweep start P l) :
    ∃ segs, segs.flatten = l ∧ A.ByComponents start segs := by
  obtain ⟨hnd, hmem, segs, hfl, hhead, hseg⟩ := h
  have hnode : ∀ i (hi : i < segs.length), ∀ x ∈ segs[i], (A.node x).isSome := by
    intro i hi x hx
    rw [← hmem, ← hfl]
    exact List.mem_flatten.2 ⟨_, List.getElem_mem hi, hx⟩
  have hwhole : ∀ i (hi : i < segs.length), ∃ r rest, segs[i] = r :: rest ∧
      (∀ x, x ∈ segs[i] ↔ A.Connected r x) ∧ (∀ x ∈ segs[i], x ∉ (segs.take i).flatten) ∧
      (0 < i → ∀ n, (A.node n).isSome → n ∉ (segs.take i).flatten → r ≤ n) := by
    intro i hi
    obtain ⟨r, rest, e, -, hm, hmin⟩ := hseg i hi
    refine ⟨r, rest, e, fun x => ?_, fun x hx => ((hm x).1 hx).2, hmin⟩
    rw [hm, reaches_connected hs]
    refine ⟨fun h => h.1, fun hc => ⟨hc, fun hx => ?_⟩⟩
    have hr : r ∈ segs[i] := by rw [e]; exact List.mem_cons_self
    refine ((hm r).1 hr).2 ?_
    obtain ⟨j, hj, hji, hxj⟩ := mem_take_flatten.1 hx
    obtain ⟨q, rest', e', -, hm', -⟩ := hseg j hj
    have hq : A.Reaches q r := by
      rw [reaches_connected hs]
      exact .trans _ _ _ ((reaches_connected hs _ _).1 ((hm' x).1 hxj).1) (.symm _ _ hc)
    by_cases hin : r ∈ (segs.take j).flatten
    · obtain ⟨j', hj', hlt, hx'⟩ := mem_take_flatten.1 hin
      exact mem_take_flatten.2 ⟨j', hj', by omega, hx'⟩
    · exact mem_take_flatten.2 ⟨j, hj, hji, (hm' r).2 ⟨hq, hin⟩⟩
  refine ⟨segs, hfl, hhead, ?_, ?_, ?_⟩
  · intro seg hseg
    obtain ⟨i, hi, rfl⟩ := List.mem_iff_getElem.1 hseg
    obtain ⟨r, rest, e, h1, -⟩ := hwhole i hi
    exact ⟨r, rest, e, h1⟩
  · intro seg hseg r hr x hx
    obtain ⟨i, hi, rfl⟩ := List.mem_iff_getElem.1 hseg
    rw [List.length_tail] at hi
    rw [List.getElem_tail] at hr hx
    obtain ⟨r', rest, e, -, h2, h3⟩ := hwhole (i + 1) (by omega)
    rw [e] at hr
    cases hr
    exact h3 (by omega) x (hnode _ _ x hx) (h2 x hx)
  · rw [List.pairwise_iff_getElem]
    intro i j hi hj hij x y hx hy
    rw [List.length_tail] at hi hj
    rw [List.getElem_tail] at hx hy
    obtain ⟨r, rest, e, -, -, h3⟩ := hwhole (i + 1) (by omega)
    obtain ⟨q, rest', e', -, h2, -⟩ := hwhole (j + 1) (by omega)
    rw [e] at hx
    rw [e'] at hy
    cases hx
    cases hy
    have hq : y ∈ segs[j + 1] := by rw [e']; exact List.mem_cons_self
    have hn := h2 y hq
    have hle : x ≤ y := by
      refine h3 (by omega) y (hnode _ _ y hq) (fun hc => hn ?_)
      obtain ⟨j', hj', hlt, hx'⟩ := mem_take_flatten.1 hc
      exact mem_take_flatten.2 ⟨j', hj', by omega, hx'⟩
    refine lt_of_le_of_ne hle (fun heq => hn ?_)
    refine mem_take_flatten.2 ⟨i + 1, by omega, by omega, ?_⟩
    rw [e, ← heq]
    exact List.mem_cons_self

theorem connected_touched {a b : Id m} (h : A.Connected a b) : a = b ∨ (A.Touched a ∧ A.Touched b) := by
  induction h with
  | rel a b e => exact .inr ⟨⟨b, .inl e⟩, ⟨a, .inr e⟩⟩
  | refl a => exact .inl rfl
  | symm a b _ ih => exact ih.imp Eq.symm And.symm
  | trans a b c _ _ ih1 ih2 =>
    rcases ih1 with rfl | h1
    · exact ih2
    · rcases ih2 with rfl | h2
      · exact .inr h1
      · exact .inr ⟨h1.1, h2.2⟩

open Classical in
/-- The number of components with an edge and of nodes without edge is the number of segments. -/
theorem components_count {start : Id m} {segs : List (List (Id m))} (hnd : segs.flatten.Nodup)
    (hmem : ∀ n, n ∈ segs.flatten ↔ (A.node n).isSome)
    (hends : ∀ s t, (A.edge s t).isSome → (A.node s).isSome ∧ (A.node t).isSome)
    (h : A.ByComponents start segs) :
    {C : Set (Id m) | ∃ n, A.Touched n ∧ C = {x | A.Connected n x}}.ncard +
      (segs.flatten.filter (fun n => decide (¬ A.Touched n))).length = segs.length := by
  have htouch : ∀ n, A.Touched n → (A.node n).isSome := by
    rintro n ⟨t, e | e⟩
    · exact (hends _ _ e).1
    · exact (hends _ _ e).2
  have hct : ∀ a b, A.Connected a b → a = b ∨ (A.Touched a ∧ A.Touched b) := fun _ _ => connected_touched
  have hsegnd : ∀ seg ∈ segs, seg.Nodup := (List.nodup_flatten.1 hnd).1
  have hdisj := (List.nodup_flatten.1 hnd).2
  let T : List (Id m) → Bool := fun seg => decide (∃ x ∈ seg, A.Touched x)
  have e1 : {C : Set (Id m) | ∃ n, A.Touched n ∧ C = {x | A.Connected n x}} =
      (((segs.filter T).map (fun seg => {x | x ∈ seg})).toFinset : Finset (Set (Id m))) := by
    ext C
    simp only [Set.mem_setOf_eq, List.coe_toFinset, List.mem_map, List.mem_filter, decide_eq_true_eq, T]
    constructor
    · rintro ⟨n, hn, rfl⟩
      obtain ⟨seg, hseg, hns⟩ := List.mem_flatten.1 ((hmem n).2 (htouch n hn))
      refine ⟨seg, ⟨hseg, n, hns, hn⟩, ?_⟩
      obtain ⟨r, rest, -, hw⟩ := h.whole seg hseg
      ext x
      simp only [Set.mem_setOf_eq]
      rw [hw]
      have hrn := (hw n).1 hns
      exact ⟨fun h => .trans _ _ _ (.symm _ _ hrn) h, fun h => .trans _ _ _ hrn h⟩
    · rintro ⟨seg, ⟨hseg, n, hns, hn⟩, rfl⟩
      refine ⟨n, hn, ?_⟩
      obtain ⟨r, rest, -, hw⟩ := h.whole seg hseg
      ext x
      simp only [Set.mem_setOf_eq]
      rw [hw]
      have hrn := (hw n).1 hns
      exact ⟨fun h => .trans _ _ _ (.symm _ _ hrn) h, fun h => .trans _ _ _ hrn h⟩
  have hnd1 : ((segs.filter T).map (fun seg => ({x | x ∈ seg} : Set (Id m)))).Nodup := by
    have hp := (hdisj.sublist (List.filter_sublist (p := T)))
    rw [List.Nodup, List.pairwise_map]
    refine hp.imp_of_mem (fun {a b} ha hb hab he => ?_)
    obtain ⟨ha', hta⟩ := List.mem_filter.1 ha
    obtain ⟨x, hx, -⟩ := of_decide_eq_true hta
    have : x ∈ ({x | x ∈ a} : Set (Id m)) := hx
    rw [he] at this
    exact hab hx this
  rw [e1, Set.ncard_coe_finset, List.toFinset_card_of_nodup hnd1, List.length_map]
  have e2 : (segs.flatten.filter (fun n => decide (¬ A.Touched n))).length =
      (segs.filter (fun seg => !T seg)).length := by
    clear e1 hnd1 hdisj hmem
    have : ∀ L : List (List (Id m)), (∀ seg ∈ L, seg ∈ segs) →
        (L.flatten.filter (fun n => decide (¬ A.Touched n))).length = (L.filter (fun seg => !T seg)).length := by
      intro L
      induction L with
      | nil => intro _; rfl
      | cons seg L ih =>
        intro hL
        rw [List.flatten_cons, List.filter_append, List.length_append, ih (fun s hs => hL s (by simp [hs]))]
        have hseg := hL seg (by simp)
        obtain ⟨r, rest, er, hw⟩ := h.whole seg hseg
        by_cases ht : ∃ x ∈ seg, A.Touched x
        · rw [List.filter_cons_of_neg (by simp only [T]; simpa using ht)]
          have : seg.filter (fun n => decide (¬ A.Touched n)) = [] := by
            rw [List.filter_eq_nil_iff]
            intro y hy
            obtain ⟨x, hx, htx⟩ := ht
            have := hct x y (.trans _ _ _ (.symm _ _ ((hw x).1 hx)) ((hw y).1 hy))
            have hy' : A.Touched y := by
              rcases this with rfl | h
              · exact htx
              · exact h.2
            simpa using hy'
          rw [this]; simp
        · rw [List.filter_cons_of_pos (by simp only [T]; simpa using ht)]
          have hr1 : rest = [] := by
            rcases rest with _ | ⟨y, ys⟩
            · rfl
            · exfalso
              have hy : y ∈ seg := by rw [er]; simp
              rcases hct r y ((hw y).1 hy) with e | e
              · have := hsegnd seg hseg
                rw [er, e] at this
                simp at this
              · exact ht ⟨y, hy, e.2⟩
          have hnr : ¬ A.Touched r := fun hr => ht ⟨r, by rw [er]; simp, hr⟩
          rw [er, hr1]
          simp [hnr]
          omega
    exact this segs (fun _ h => h)
  rw [e2]
  have := List.length_eq_length_filter_add (l := segs) T
  omega

end Verif
