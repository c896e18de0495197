import Verif.Model.LabelMap
import Mathlib.Data.List.Nodup
import Mathlib.Tactic.Common

/-! Helper lemmas about `SetMap` and `VecMap`. -/

namespace Verif

variable {L : Type} [DecidableEq L]

theorem bind_ok {α β : Type} (a : α) (f : α → Res β) : (Except.ok a >>= f) = f a := rfl

theorem bind_error {α β : Type} (e : Panic) (f : α → Res β) :
    ((Except.error e : Res α) >>= f) = Except.error e := rfl

theorem bind_eq_ok {α β : Type} {x : Res α} {f : α → Res β} {b : β} (h : (x >>= f) = .ok b) :
    ∃ a, x = .ok a ∧ f a = .ok b := by
  cases x with
  | error e => exact absurd h (by simp [bind, Except.bind])
  | ok a => exact ⟨a, rfl, h⟩

theorem pure_ok {α : Type} (a : α) : (pure a : Res α) = .ok a := rfl

namespace SetMap

theorem idxOf?_of_mem {l : List L} {x : L} (h : x ∈ l) : l.idxOf? x = some (l.idxOf x) := by
  induction l with
  | nil => simp at h
  | cons a l ih =>
    by_cases hax : a = x
    · subst hax; simp [List.idxOf?_cons]
    · have : x ∈ l := by
        rcases List.mem_cons.1 h with h | h
        · exact absurd h.symm hax
        · exact h
      simp [List.idxOf?_cons, hax, ih this]

theorem addItem_mem {s : SetMap L} {x : L} (h : x ∈ s.labels) :
    s.addItem x = .ok (s, s.labels.idxOf x) := by
  simp [addItem, contains, h, findIndex, idxOf?_of_mem h, unwrap, bind_ok, pure_ok]

theorem addItem_not_mem {s : SetMap L} {x : L} (h : x ∉ s.labels) :
    s.addItem x = .ok (⟨s.labels ++ [x]⟩, s.labels.length) := by
  simp [addItem, contains, h, insert, len, pure_ok]

theorem addItem_fst (s : SetMap L) (x : L) :
    ∃ i, s.addItem x = .ok (s.insert x, i) ∧ (s.insert x).labels[i]? = some x := by
  by_cases h : x ∈ s.labels
  · refine ⟨s.labels.idxOf x, by rw [addItem_mem h]; simp [insert, h], ?_⟩
    have := List.idxOf_lt_length_of_mem h
    simp [insert, h, List.getElem?_eq_getElem this]
  · refine ⟨s.labels.length, by rw [addItem_not_mem h]; simp [insert, h], ?_⟩
    simp [insert, h]

theorem insert_nodup {s : SetMap L} (hs : s.labels.Nodup) (x : L) : (s.insert x).labels.Nodup := by
  unfold insert
  split
  · exact hs
  · rename_i h
    simp only [List.nodup_append, hs, List.nodup_cons, List.not_mem_nil, not_false_eq_true,
      List.nodup_nil, and_self, List.mem_cons, or_false, true_and]
    rintro a ha b rfl
    exact fun h' => h (h' ▸ ha)

theorem mem_insert {s : SetMap L} {x y : L} : y ∈ (s.insert x).labels ↔ y ∈ s.labels ∨ y = x := by
  unfold insert
  split
  · constructor
    · exact Or.inl
    · rintro (h | rfl) <;> assumption
  · simp

theorem insert_prefix (s : SetMap L) (x : L) : s.labels <+: (s.insert x).labels := by
  unfold insert
  split
  · exact List.prefix_refl _
  · exact List.prefix_append _ _

/-- The invariant of a `SetMap`. -/
def WF (s : SetMap L) : Prop := s.labels.Nodup

theorem foldl_insert_nodup (v : List L) {s : SetMap L} (hs : s.labels.Nodup) :
    (v.foldl insert s).labels.Nodup := by
  induction v generalizing s with
  | nil => exact hs
  | cons a v ih => exact ih (insert_nodup hs a)

theorem fromVec_nodup (v : List L) : (fromVec v).labels.Nodup :=
  foldl_insert_nodup v (by simp [empty])

theorem mem_foldl_insert (v : List L) (s : SetMap L) (x : L) :
    x ∈ (v.foldl insert s).labels ↔ x ∈ s.labels ∨ x ∈ v := by
  induction v generalizing s with
  | nil => simp
  | cons a v ih => simp [ih, mem_insert, or_assoc]

theorem mem_fromVec (v : List L) (x : L) : x ∈ (fromVec v).labels ↔ x ∈ v := by
  simp [fromVec, mem_foldl_insert, empty]

theorem foldl_insert_of_nodup (v : List L) (s : SetMap L) (h : (s.labels ++ v).Nodup) :
    (v.foldl insert s).labels = s.labels ++ v := by
  induction v generalizing s with
  | nil => simp
  | cons a v ih =>
    have ha : a ∉ s.labels := by
      intro h'
      rw [List.nodup_append] at h
      exact h.2.2 a h' a (by simp) rfl
    have : insert s a = ⟨s.labels ++ [a]⟩ := by simp [insert, ha]
    rw [List.foldl_cons, this, ih]
    · simp
    · simpa using h

theorem fromVec_of_nodup {v : List L} (h : v.Nodup) : fromVec v = ⟨v⟩ := by
  have := foldl_insert_of_nodup v empty (by simpa [empty] using h)
  cases hs : fromVec v with
  | mk l =>
    simp only [fromVec, empty] at *
    rw [hs] at this
    simpa using this

theorem fromIter_eq (v : List L) : fromIter v = .ok (fromVec v) := by
  unfold fromIter fromVec
  generalize (empty : SetMap L) = s
  induction v generalizing s with
  | nil => rfl
  | cons a v ih =>
    obtain ⟨i, hi, -⟩ := addItem_fst s a
    simp only [List.foldlM_cons, hi, bind_ok, pure_ok, List.foldl_cons]
    exact ih _

/-- A call never panics and preserves the invariant. -/
theorem step_ok (s : SetMap L) (op : MapOp L) :
    ∃ s' a, s.step op = .ok (s', a) ∧ (s.labels.Nodup → s'.labels.Nodup) := by
  cases op with
  | add x =>
    obtain ⟨i, hi, -⟩ := addItem_fst s x
    exact ⟨s.insert x, .index i, by simp only [step, hi, bind_ok, pure_ok],
      fun h => insert_nodup h x⟩
  | pop => exact ⟨_, _, rfl, fun h => h.sublist (List.dropLast_sublist _)⟩
  | clear => exact ⟨_, _, rfl, fun _ => by simp [clear]⟩

theorem run_cons_ok {s : SetMap L} {op ops s' a} (h : s.step op = .ok (s', a)) :
    run s (op :: ops) = (run s' ops).map (fun r => (r.1, a :: r.2)) := by
  simp only [run, h, bind_ok]
  cases run s' ops <;> rfl

theorem run_ok (s : SetMap L) (ops : List (MapOp L)) :
    ∃ s' a, s.run ops = .ok (s', a) ∧ (s.labels.Nodup → s'.labels.Nodup) := by
  induction ops generalizing s with
  | nil => exact ⟨s, [], rfl, id⟩
  | cons op ops ih =>
    obtain ⟨s1, a1, h1, n1⟩ := step_ok s op
    obtain ⟨s2, a2, h2, n2⟩ := ih s1
    exact ⟨s2, a1 :: a2, by rw [run_cons_ok h1, h2]; rfl, n2 ∘ n1⟩

theorem findIndex_iff {s : SetMap L} (hs : s.labels.Nodup) (x : L) (i : Nat) :
    s.findIndex x = some i ↔ s.getItem i = some x := by
  unfold findIndex getItem
  constructor
  · intro h
    have hm : x ∈ s.labels := by
      by_contra hn
      rw [List.idxOf?_eq_none_iff.2 hn] at h
      cases h
    rw [idxOf?_of_mem hm] at h
    cases h
    have := List.idxOf_lt_length_of_mem hm
    simp [List.getElem?_eq_getElem this]
  · intro h
    obtain ⟨hi, rfl⟩ := List.getElem?_eq_some_iff.1 h
    rw [idxOf?_of_mem (List.getElem_mem hi), hs.idxOf_getElem]

theorem step_getItem {s s' : SetMap L} {op : MapOp L} {a i} (h : s.step op = .ok (s', a))
    (hi : i < s.len) (hi' : i < s'.len) : s'.getItem i = s.getItem i := by
  cases op with
  | add x =>
    obtain ⟨j, hj, -⟩ := addItem_fst s x
    simp only [step, hj, bind_ok, pure_ok] at h
    cases h
    have := insert_prefix s x
    obtain ⟨t, ht⟩ := this
    unfold getItem
    rw [← ht, List.getElem?_append_left hi]
  | pop =>
    cases h
    simp only [popItem, getItem, len, List.length_dropLast] at *
    rw [List.getElem?_dropLast]
    simp [hi']
  | clear => cases h; simp [clear, len] at hi'

end SetMap

namespace VecMap

theorem findLoop_eq (x : L) (l : List L) (i : Nat) :
    findLoop x l i = (l.idxOf? x).map (· + i) := by
  induction l generalizing i with
  | nil => rfl
  | cons a l ih =>
    by_cases h : a = x
    · simp [findLoop, h, List.idxOf?_cons]
    · simp only [findLoop, h, if_false, ih, List.idxOf?_cons, beq_iff_eq, Option.map_map]
      congr 1
      funext j; simp; omega

theorem findIndex_eq (s : VecMap L) (x : L) : s.findIndex x = s.labels.idxOf? x := by
  simp [findIndex, findLoop_eq]

theorem step_sim (v : VecMap L) (s : SetMap L) (h : v.labels = s.labels) (op : MapOp L) :
    ∃ v' s' a, v.step op = .ok (v', a) ∧ s.step op = .ok (s', a) ∧ v'.labels = s'.labels := by
  cases op with
  | add x =>
    by_cases hm : x ∈ s.labels
    · have h1 : v.addItem x = .ok (v, s.labels.idxOf x) := by
        simp [addItem, findIndex_eq, h, SetMap.idxOf?_of_mem hm, pure_ok]
      exact ⟨v, s, .index (s.labels.idxOf x), by simp [step, h1, bind_ok, pure_ok],
        by simp [SetMap.step, SetMap.addItem_mem hm, bind_ok, pure_ok], h⟩
    · have h1 : v.addItem x = .ok (⟨s.labels ++ [x]⟩, s.labels.length) := by
        simp [addItem, findIndex_eq, h, List.idxOf?_eq_none_iff.2 hm, pure_ok, len]
      exact ⟨⟨s.labels ++ [x]⟩, ⟨s.labels ++ [x]⟩, .index s.labels.length, by simp [step, h1, bind_ok, pure_ok],
        by simp [SetMap.step, SetMap.addItem_not_mem hm, bind_ok, pure_ok], rfl⟩
  | pop => exact ⟨_, s.popItem.1, _, rfl,
      by simp [SetMap.step, SetMap.popItem, popItem, h, pure_ok],
      by simp [popItem, h, SetMap.popItem]⟩
  | clear => exact ⟨_, _, _, rfl, rfl, rfl⟩

theorem run_sim (v : VecMap L) (s : SetMap L) (h : v.labels = s.labels) (ops : List (MapOp L)) :
    ∃ v' s' a, v.run ops = .ok (v', a) ∧ s.run ops = .ok (s', a) ∧ v'.labels = s'.labels := by
  induction ops generalizing v s with
  | nil => exact ⟨v, s, [], rfl, rfl, h⟩
  | cons op ops ih =>
    obtain ⟨v1, s1, a1, h1, h2, h3⟩ := step_sim v s h op
    obtain ⟨v2, s2, a2, g1, g2, g3⟩ := ih v1 s1 h3
    refine ⟨v2, s2, a1 :: a2, ?_, ?_, g3⟩
    · simp [run, h1, g1, bind_ok, pure_ok]
    · simp [SetMap.run, h2, g2, bind_ok, pure_ok]

end VecMap

end Verif
