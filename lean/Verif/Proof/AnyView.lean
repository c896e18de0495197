import Verif.Spec.AnyView
import Verif.Proof.TraversalParts

/-! Searches of anything. -/

namespace Verif

open Spec

variable {m k : Nat} {NL EL : Type}

namespace Traversal

/-- The bits are off at the ids in `D` and at those waiting. -/
structure Marks (M : Id m) (D : List (Id m)) (st : Traversal m) : Prop where
  len : st.undiscovered.length = M.val + 1
  nodup : (D ++ st.work).Nodup
  bits : ∀ x : Id m, x ∈ D ++ st.work ↔ x ≤ M ∧ st.undiscovered.contains x.val = false

theorem contains_beyond {b : BitSet} {i : Nat} (h : b.length ≤ i) : b.contains i = false := by
  unfold BitSet.contains
  rw [List.getD_eq_getElem?_getD, List.getElem?_eq_none h]; rfl

theorem Marks.discover {M : Id m} {D : List (Id m)} {st : Traversal m} (h : Marks M D st) (n : Id m) :
    ∃ st' new, st.discover n = .ok st' ∧ Marks M D st' ∧ st'.work = st.work ++ new ∧ (∀ x ∈ new, x = n ∧ n ≤ M) ∧
      (n ≤ M → n ∈ D ++ st'.work) := by
  unfold Traversal.discover
  cases hc : st.undiscovered.contains n.val with
  | false =>
    refine ⟨st, [], by simp [pure_ok], h, by simp, by simp, fun hn => ?_⟩
    exact (h.bits n).2 ⟨hn, hc⟩
  | true =>
    have hlt : n.val < st.undiscovered.length := by
      by_contra hcon
      rw [contains_beyond (by omega)] at hc; cases hc
    have hM : n ≤ M := by rw [h.len] at hlt; exact Fin.le_def.2 (by omega)
    have hnew : n ∉ D ++ st.work := fun hm => by rw [((h.bits n).1 hm).2] at hc; cases hc
    refine ⟨⟨st.work ++ [n], st.undiscovered.set n.val false⟩, [n], ?_, ⟨?_, ?_, ?_⟩, rfl,
      by simp [hM], by simp⟩
    · rw [if_pos rfl, BitSet.put_ok hlt, bind_ok]; rfl
    · simp [h.len]
    · simp only [← List.append_assoc]
      rw [List.nodup_append]
      refine ⟨h.nodup, by simp, ?_⟩
      intro a ha b hb
      rw [List.mem_singleton] at hb
      subst hb
      rintro rfl; exact hnew ha
    · intro x
      simp only [← List.append_assoc]
      rw [List.mem_append, List.mem_singleton, h.bits, BitSet.contains_set hlt]
      by_cases e : x = n
      · subst e; simp [hM]
      · have e1 : n.val ≠ x.val := fun h => e (Fin.ext h.symm)
        simp [e, e1]

theorem Marks.fold {M : Id m} {D : List (Id m)} : ∀ (l : List (Id m)) {st : Traversal m}, Marks M D st →
    ∃ st' new, l.foldlM Traversal.discover st = .ok st' ∧ Marks M D st' ∧ st'.work = st.work ++ new ∧
      (∀ x ∈ new, x ∈ l ∧ x ≤ M) ∧ (∀ x ∈ l, x ≤ M → x ∈ D ++ st'.work) := by
  intro l
  induction l with
  | nil => intro st h; exact ⟨st, [], rfl, h, by simp, by simp, by simp⟩
  | cons a l ih =>
    intro st h
    obtain ⟨s1, n1, h1, h2, h3, h4, h5⟩ := h.discover a
    obtain ⟨s2, n2, i1, i2, i3, i4, i5⟩ := ih h2
    refine ⟨s2, n1 ++ n2, ?_, i2, by rw [i3, h3, List.append_assoc], ?_, ?_⟩
    · rw [List.foldlM_cons, h1, bind_ok, i1]
    · intro x hx
      rcases List.mem_append.1 hx with hx | hx
      · obtain ⟨rfl, hM⟩ := h4 x hx
        exact ⟨List.mem_cons_self .., hM⟩
      · exact ⟨List.mem_cons_of_mem _ (i4 x hx).1, (i4 x hx).2⟩
    · intro x hx hM
      rcases List.mem_cons.1 hx with rfl | hx
      · have := h5 hM
        rw [i3, ← List.append_assoc]
        exact List.mem_append_left _ this
      · exact i5 x hx hM

/-- The state between two calls, `D` visited so far. -/
structure Half (g : GView m k NL EL) (M : Id m) (D : List (Id m)) (st : Traversal m) : Prop
    extends Marks M D st where
  met : ∀ x ∈ D ++ st.work, Met g M x
  fine : ∀ x ∈ D, ∃ l, g.neighbors x = .ok l ∧ ∀ y ∈ l, y ≤ M → y ∈ D ++ st.work

variable {g : GView m k NL EL}

/-- One call with an entry waiting. -/
theorem Half.waiting {pop : List (Id m) → Option (Id m × List (Id m))} (hp : Pops pop) {M : Id m}
    {D : List (Id m)} {st : Traversal m} (h : Half g M D st) (hne : st.work ≠ []) :
    (∃ x p, Met g M x ∧ g.neighbors x = .error p ∧ nextWith pop g st = .error p) ∨
    ∃ x st', nextWith pop g st = .ok (some x, st') ∧ Half g M (D ++ [x]) st' := by
  obtain ⟨x, rest, hpop, hperm⟩ := hp.cons st.work hne
  have hr : st.refill g = .ok st := by
    unfold refill
    rw [if_neg (by simpa using hne)]; rfl
  have hx : x ∈ D ++ st.work := List.mem_append_right _ (hperm.mem_iff.2 (List.mem_cons_self ..))
  cases hl : g.neighbors x with
  | error p =>
    refine .inl ⟨x, p, h.met x hx, hl, ?_⟩
    unfold nextWith
    rw [hr, bind_ok, hpop]
    simp only
    unfold expand
    rw [hl, bind_error, bind_error]
  | ok l =>
    right
    have hperm' : (D ++ st.work).Perm (D ++ [x] ++ rest) := by
      rw [List.append_assoc]; exact List.Perm.append_left D hperm
    have hmk : Marks M (D ++ [x]) ⟨rest, st.undiscovered⟩ :=
      ⟨h.len, hperm'.nodup_iff.1 h.nodup, fun y => by rw [← h.bits y, hperm'.mem_iff]⟩
    obtain ⟨st', new, e1, e2, e3, e4, e5⟩ := hmk.fold l
    have e3 : st'.work = rest ++ new := e3
    refine ⟨x, st', ?_, e2, ?_, ?_⟩
    · unfold nextWith
      rw [hr, bind_ok, hpop]
      simp only
      unfold expand
      rw [hl, bind_ok, e1, bind_ok]; rfl
    · intro y hy
      rw [e3, ← List.append_assoc] at hy
      rcases List.mem_append.1 hy with hy | hy
      · exact h.met y (hperm'.mem_iff.2 hy)
      · exact .next (h.met x hx) hl (e4 y hy).1 (e4 y hy).2
    · intro y hy
      rcases List.mem_append.1 hy with hy | hy
      · obtain ⟨ly, f1, f2⟩ := h.fine y hy
        refine ⟨ly, f1, fun z hz hzM => ?_⟩
        rw [e3, ← List.append_assoc]
        exact List.mem_append_left _ (hperm'.mem_iff.1 (f2 z hz hzM))
      · rw [List.mem_singleton] at hy
        subst hy
        exact ⟨l, hl, e5⟩

theorem Half.refill {M : Id m} {D : List (Id m)} {st : Traversal m} (h : Half g M D st) (hw : st.work = []) :
    (st.refill g = .ok st ∧ ∀ n, n ≤ M → g.hasNode n = true → n ∈ D) ∨
    ∃ st', st.refill g = .ok st' ∧ Half g M D st' ∧ st'.work ≠ [] := by
  cases hf : st.undiscovered.ones.find? (fun i => g.hasNode (Id.new i)) with
  | none =>
    left
    refine ⟨?_, ?_⟩
    · unfold Traversal.refill nextUnvisited
      rw [if_pos (by simp [hw]), hf]; rfl
    · intro n hn hnode
      by_contra hnD
      have hc : st.undiscovered.contains n.val = true := by
        by_contra hc
        refine hnD ?_
        have := (h.bits n).2 ⟨hn, by simpa using hc⟩
        simpa [hw] using this
      have := (List.find?_eq_none.1 hf) n.val (BitSet.mem_ones.2 hc)
      have e : (Id.new n.val : Id m) = n := by
        apply Fin.ext; simp [Id.new, Nat.mod_eq_of_lt n.isLt]
      rw [e, hnode] at this
      exact this rfl
  | some i =>
    right
    have hm := List.mem_of_find?_eq_some hf
    have hi := BitSet.mem_ones.1 hm
    have hnode := List.find?_some hf
    have hlt : i < st.undiscovered.length := by
      rw [BitSet.ones, List.mem_filter, List.mem_range] at hm
      exact hm.1
    have hlen := h.len
    have hMlt := M.isLt
    have hv : (Id.new i : Id m).val = i := by
      simp [Id.new, Nat.mod_eq_of_lt (show i < m + 1 by omega)]
    generalize hn : (Id.new i : Id m) = n at hv hnode
    have hlt' : n.val < st.undiscovered.length := by rw [hv]; exact hlt
    have hM : n ≤ M := Fin.le_def.2 (by omega)
    have hr : st.refill g = .ok ⟨[n], st.undiscovered.set n.val false⟩ := by
      unfold Traversal.refill nextUnvisited
      rw [if_pos (by simp [hw]), hf]
      simp only [Option.map_some, hn]
      rw [BitSet.put_ok hlt', bind_ok, hw]; rfl
    have hnD : n ∉ D := by
      intro hD
      have := ((h.bits n).1 (List.mem_append_left _ hD)).2
      rw [hv, hi] at this; cases this
    refine ⟨_, hr, ⟨⟨by simp [hlen], ?_, ?_⟩, ?_, ?_⟩, by simp⟩
    · have := h.nodup
      rw [hw, List.append_nil] at this
      simp only
      rw [List.nodup_append]
      refine ⟨this, by simp, ?_⟩
      intro a ha b hb
      rw [List.mem_singleton] at hb
      subst hb
      rintro rfl; exact hnD ha
    · intro x
      have hb := h.bits x
      rw [hw, List.append_nil] at hb
      simp only
      rw [List.mem_append, List.mem_singleton, hb, BitSet.contains_set hlt']
      by_cases e : x = n
      · subst e; simp [hM]
      · have e1 : n.val ≠ x.val := fun h => e (Fin.ext h.symm)
        simp [e, e1]
    · intro x hx
      rcases List.mem_append.1 hx with hx | hx
      · exact h.met x (List.mem_append_left _ hx)
      · rw [List.mem_singleton] at hx
        subst hx; exact .node hM hnode
    · intro x hx
      obtain ⟨l, f1, f2⟩ := h.fine x hx
      refine ⟨l, f1, fun y hy hyM => ?_⟩
      have := f2 y hy hyM
      rw [hw, List.append_nil] at this
      exact List.mem_append_left _ this

/-- One call. -/
theorem Half.step {pop : List (Id m) → Option (Id m × List (Id m))} (hp : Pops pop) {M : Id m}
    {D : List (Id m)} {st : Traversal m} (h : Half g M D st) :
    (∃ x p, Met g M x ∧ g.neighbors x = .error p ∧ nextWith pop g st = .error p) ∨
    (nextWith pop g st = .ok (none, st) ∧ st.work = [] ∧ ∀ n, n ≤ M → g.hasNode n = true → n ∈ D) ∨
    ∃ x st', nextWith pop g st = .ok (some x, st') ∧ Half g M (D ++ [x]) st' := by
  by_cases hw : st.work = []
  · rcases h.refill hw with ⟨hr, hall⟩ | ⟨st', hr, h', hne⟩
    · right; left
      refine ⟨?_, hw, hall⟩
      unfold nextWith
      rw [hr, bind_ok, hw, hp.nil]; rfl
    · have hsame : nextWith pop g st = nextWith pop g st' := by
        unfold nextWith
        have : st'.refill g = .ok st' := by
          unfold Traversal.refill; rw [if_neg (by simpa using hne)]; rfl
        rw [hr, bind_ok, this, bind_ok]
      rw [hsame]
      rcases h'.waiting hp hne with e | e
      · exact .inl e
      · exact .inr (.inr e)
  · rcases h.waiting hp hw with e | e
    · exact .inl e
    · exact .inr (.inr e)

/-- All calls. -/
theorem Half.drain {pop : List (Id m) → Option (Id m × List (Id m))} (hp : Pops pop) {M : Id m} :
    ∀ (f : Nat) (D : List (Id m)) (st : Traversal m), Half g M D st → M.val + 1 < f + D.length →
      (∃ x p, Met g M x ∧ g.neighbors x = .error p ∧ drain (nextWith pop g) f st = .error p) ∨
      ∃ l st', drain (nextWith pop g) f st = .ok (l, st') ∧ Half g M (D ++ l) st' ∧ st'.work = [] ∧
        ∀ n, n ≤ M → g.hasNode n = true → n ∈ D ++ l := by
  intro f
  induction f with
  | zero =>
    intro D st h hf
    exfalso
    have hnd : D.Nodup := (List.nodup_append.1 h.nodup).1
    have hsub : ∀ x ∈ D, x.val ∈ List.range (M.val + 1) := by
      intro x hx
      have := ((h.bits x).1 (List.mem_append_left _ hx)).1
      exact List.mem_range.2 (Nat.lt_succ_of_le (Fin.le_def.1 this))
    have hle : (D.map (·.val)).length ≤ (List.range (M.val + 1)).length :=
      (List.Nodup.subperm (hnd.map (fun a b e => Fin.ext e)) (by
        intro i hi
        obtain ⟨x, hx, rfl⟩ := List.mem_map.1 hi
        exact hsub x hx)).length_le
    simp only [List.length_map, List.length_range] at hle
    omega
  | succ f ih =>
    intro D st h hf
    unfold Verif.drain
    rcases h.step hp with ⟨x, p, h1, h2, h3⟩ | ⟨h1, h2, h3⟩ | ⟨x, st', h1, h2⟩
    · exact .inl ⟨x, p, h1, h2, by rw [h3]; rfl⟩
    · right
      refine ⟨[], st, by rw [h1]; rfl, by simpa using h, h2, by simpa using h3⟩
    · rcases ih (D ++ [x]) st' h2 (by simp; omega) with ⟨y, p, i1, i2, i3⟩ | ⟨l, st2, i1, i2, i3, i4⟩
      · exact .inl ⟨y, p, i1, i2, by rw [h1, bind_ok]; simp only; rw [i3]; rfl⟩
      · right
        refine ⟨x :: l, st2, by rw [h1, bind_ok]; simp only; rw [i1]; rfl, by simpa using i2, i3, by simpa using i4⟩

/-- A search that has just begun. -/
theorem half_new {M s : Id m} {start : Option (Id m)} (hM : g.maxSeenId = .ok (some M))
    (hst : startNode g start = .ok s) (hs : g.hasNode s = true) (hle : s ≤ M) :
    ∃ st, new g start = .ok st ∧ Half g M [] st := by
  have hlt : s.val < (BitSet.full (M.val + 1)).length := by
    have := Fin.le_def.1 hle
    simp [BitSet.full]; omega
  refine ⟨⟨[s], (BitSet.full (M.val + 1)).set s.val false⟩, ?_, ⟨⟨by simp [BitSet.full], by simp, ?_⟩, ?_, by simp⟩⟩
  · unfold new withCapacity moveTo
    rw [hM, bind_ok]
    simp only [unwrap, bind_ok, pure_ok]
    rw [hst, bind_ok, BitSet.put_ok hlt, bind_ok]
  · intro x
    simp only [List.nil_append, List.mem_singleton]
    rw [BitSet.contains_set hlt, BitSet.contains_full]
    by_cases e : x = s
    · subst e; simp [hle]
    · have e1 : s.val ≠ x.val := fun h => e (Fin.ext h.symm)
      simp only [e, e1, if_false, decide_eq_false_iff_not, false_iff, not_and, not_not]
      intro h
      have := Fin.le_def.1 h
      omega
  · intro x hx
    simp only [List.nil_append, List.mem_singleton] at hx
    subst hx
    exact .node hle hs

/-- A search that ends has come by all that is met, once each. -/
theorem Half.all {M : Id m} {l : List (Id m)} {st : Traversal m} (h : Half g M l st) (hw : st.work = [])
    (hn : ∀ n, n ≤ M → g.hasNode n = true → n ∈ l) : l.Nodup ∧ ∀ x, x ∈ l ↔ Met g M x := by
  have h1 := h.nodup
  have h2 := h.met
  have h3 := h.fine
  rw [hw, List.append_nil] at h1 h2 h3
  refine ⟨h1, fun x => ⟨h2 x, fun hx => ?_⟩⟩
  induction hx with
  | node hM hx => exact hn _ hM hx
  | next _ hl hm hM ih =>
    obtain ⟨l', e1, e2⟩ := h3 _ ih
    rw [hl] at e1; cases e1
    exact e2 _ hm hM

end Traversal

end Verif
