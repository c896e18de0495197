import Verif.Proof.LabelMap
import Mathlib.Data.List.Infix
import Mathlib.Data.List.Induction

/-! Property theorems C01–C04: the label maps. -/

namespace Verif.Props

variable {L : Type} [DecidableEq L]

/-- **C01.** A `SetMap` built from any vector and put through any history of `add_item`, `pop_item`
and `clear` never panics, holds no item twice, and `find_index`/`get_item` are mutually inverse on
the indices below `len`; `items()` lists the items in index order. -/
theorem c01_setmap_bijection (v : List L) (ops : List (MapOp L)) :
    ∃ s ans, (SetMap.fromVec v).run ops = .ok (s, ans) ∧
      s.items.Nodup ∧
      (∀ x i, s.findIndex x = some i ↔ s.getItem i = some x) ∧
      (∀ x, s.contains x = true ↔ ∃ i, s.findIndex x = some i) ∧
      (∀ i, (∃ x, s.getItem i = some x) ↔ i < s.len) ∧
      (∀ i, s.items[i]? = s.getItem i) := by
  obtain ⟨s, a, h, hn⟩ := SetMap.run_ok (SetMap.fromVec v) ops
  have hn := hn (SetMap.fromVec_nodup v)
  refine ⟨s, a, h, hn, SetMap.findIndex_iff hn, ?_, ?_, fun i => rfl⟩
  · intro x
    simp only [SetMap.contains, decide_eq_true_eq]
    constructor
    · intro hx
      exact ⟨_, SetMap.idxOf?_of_mem hx⟩
    · rintro ⟨i, hi⟩
      have := (SetMap.findIndex_iff hn x i).1 hi
      exact List.mem_of_getElem? this
  · intro i
    unfold SetMap.getItem SetMap.len
    constructor
    · rintro ⟨x, hx⟩
      exact (List.getElem?_eq_some_iff.1 hx).1
    · intro hi
      exact ⟨_, List.getElem?_eq_getElem hi⟩

example : (SetMap.fromVec ["a", "b", "a"]).run [.add "c", .pop, .add "d", .add "b"] =
    .ok (⟨["a", "b", "d"]⟩, [.index 2, .popped (some "c"), .index 2, .index 1]) := by rfl

/-- **C02.** Adding returns an index of the item; a present item changes nothing, a new one is
appended at index `len`. -/
theorem c02_add_item (s : SetMap L) (x : L) :
    ∃ s' i, s.addItem x = .ok (s', i) ∧ s'.getItem i = some x ∧
      (x ∈ s.items → s' = s ∧ s.findIndex x = some i) ∧
      (x ∉ s.items → i = s.len ∧ s'.items = s.items ++ [x]) := by
  obtain ⟨i, hi, hx⟩ := SetMap.addItem_fst s x
  refine ⟨_, i, hi, hx, ?_, ?_⟩
  · intro hm
    rw [SetMap.items] at hm
    refine ⟨by simp [SetMap.insert, hm], ?_⟩
    unfold SetMap.addItem at hi
    rw [if_pos (by simpa [SetMap.contains] using hm)] at hi
    obtain ⟨j, h1, h2⟩ := bind_eq_ok hi
    have h2 : j = i := (Prod.mk.inj (Except.ok.inj h2)).2
    cases hf : s.findIndex x with
    | none => rw [hf] at h1; cases h1
    | some j' => rw [hf] at h1; cases h1; rw [h2]
  · intro hm
    rw [SetMap.items] at hm
    rw [SetMap.addItem_not_mem hm] at hi
    have hi := (Prod.mk.inj (Except.ok.inj hi)).2
    exact ⟨hi.symm, by simp [SetMap.items, SetMap.insert, hm]⟩

omit [DecidableEq L] in
/-- **C02.** The last item is the one that is popped, nothing else changes; `clear` empties. -/
theorem c02_pop_clear (s : SetMap L) :
    (∀ x, s.popItem.2 = some x ↔ s.popItem.1.items ++ [x] = s.items) ∧
    (s.popItem.2 = none ↔ s.items = []) ∧ (s.items = [] → s.popItem.1.items = []) ∧
    s.clear.items = [] := by
  obtain ⟨l⟩ := s
  refine ⟨fun x => ?_, ?_, ?_, rfl⟩
  · simp only [SetMap.popItem, SetMap.items]
    constructor
    · intro h
      have hne : l ≠ [] := by rintro rfl; simp at h
      rw [List.getLast?_eq_some_getLast hne] at h
      cases h
      exact List.dropLast_append_getLast hne
    · intro h
      rw [← h]; simp
  · simp [SetMap.popItem, SetMap.items]
  · simp only [SetMap.popItem, SetMap.items]; rintro rfl; rfl

/-- **C02.** An index keeps denoting the same item through every later history that never shrinks the
map to or below that index. -/
theorem c02_index_stable (s s' : SetMap L) (ops : List (MapOp L)) (ans) (i : Nat)
    (h : s.run ops = .ok (s', ans))
    (hlive : ∀ pre s₁ a₁, pre <+: ops → s.run pre = .ok (s₁, a₁) → i < s₁.len) :
    s'.getItem i = s.getItem i := by
  induction ops generalizing s ans with
  | nil => cases h; rfl
  | cons op ops ih =>
    obtain ⟨s1, a1, h1, -⟩ := SetMap.step_ok s op
    obtain ⟨s2, a2, h2, -⟩ := SetMap.run_ok s1 ops
    have e : s.run (op :: ops) = .ok (s2, a1 :: a2) := by rw [SetMap.run_cons_ok h1, h2]; rfl
    rw [e] at h
    cases h
    have l0 : i < s.len := hlive [] s [] (List.nil_prefix) rfl
    have l1 : i < s1.len := hlive [op] s1 [a1] (by simp) (by rw [SetMap.run_cons_ok h1]; rfl)
    rw [ih s1 a2 h2, SetMap.step_getItem h1 l0 l1]
    intro pre s₁ a₁ hp hr
    exact hlive (op :: pre) s₁ (a1 :: a₁) (by simpa using hp)
      (by rw [SetMap.run_cons_ok h1, hr]; rfl)

example : ∀ pre s₁ a₁, pre <+: [MapOp.add "c", .pop, .add "d"] →
    (SetMap.fromVec ["a", "b"]).run pre = .ok (s₁, a₁) → 1 < s₁.len := by
  intro pre s₁ a₁ hp hr
  have : pre ∈ [MapOp.add "c", .pop, .add "d"].inits := (List.mem_inits _ _).2 hp
  simp only [List.inits, List.map, List.mem_cons, List.not_mem_nil, or_false] at this
  rcases this with rfl | rfl | rfl | rfl <;> cases hr <;> decide

/-- **C03.** Starting empty, the same calls give the same answers on `VecMap` and `SetMap`, and
afterwards every query agrees. -/
theorem c03_vecmap_setmap_agree (ops : List (MapOp L)) :
    ∃ v s ans, (VecMap.empty (L := L)).run ops = .ok (v, ans) ∧
      (SetMap.empty (L := L)).run ops = .ok (s, ans) ∧
      v.items = s.items ∧ v.len = s.len ∧ (∀ i, v.getItem i = s.getItem i) ∧
      (∀ x, v.findIndex x = s.findIndex x) ∧ (∀ x, v.contains x = s.contains x) := by
  obtain ⟨v, s, a, h1, h2, h3⟩ := VecMap.run_sim (VecMap.empty (L := L)) SetMap.empty rfl ops
  refine ⟨v, s, a, h1, h2, h3, ?_, ?_, ?_, ?_⟩
  · simp [VecMap.len, SetMap.len, h3]
  · simp [VecMap.getItem, SetMap.getItem, h3]
  · simp [VecMap.findIndex_eq, SetMap.findIndex, h3]
  · intro x
    simp only [VecMap.contains, VecMap.findIndex_eq, SetMap.contains, h3]
    by_cases hx : x ∈ s.labels
    · simp [SetMap.idxOf?_of_mem hx, hx]
    · simp [List.idxOf?_eq_none_iff.2 hx, hx]

/-- **C03.** Converting a `SetMap` to a `VecMap` keeps every index, and converting back a `VecMap`
without repeats does too. -/
theorem c03_conversions (s : SetMap L) (v : VecMap L) :
    (VecMap.ofSetMap s).items = s.items ∧
    (v.items.Nodup → (SetMap.ofVecMap v).items = v.items) := by
  refine ⟨rfl, fun h => ?_⟩
  simp [SetMap.ofVecMap, SetMap.fromVec_of_nodup h, SetMap.items]

/-- **C03.** The exception: a `VecMap` made from a raw vector with repeats loses indices. The item at
index 2 of the `VecMap` sits at index 1 of the `SetMap`. -/
theorem c03_duplicates_shift : ∃ v : VecMap String,
    (SetMap.ofVecMap v).items ≠ v.items ∧
    v.getItem 2 = some "b" ∧ (SetMap.ofVecMap v).findIndex "b" = some 1 := by
  refine ⟨VecMap.withData ["a", "a", "b"], ?_, rfl, ?_⟩ <;> decide

/-- **C04.** `from_vec`, `collect()` and `setmap!` build the same map: the distinct items in order of
first occurrence. -/
theorem c04_bulk_construction (v : List L) :
    SetMap.fromIter v = .ok (SetMap.fromVec v) ∧
    (SetMap.fromVec v).items.Nodup ∧ (∀ x, x ∈ (SetMap.fromVec v).items ↔ x ∈ v) ∧
    (∀ x ∈ v, ∀ y ∈ v, (SetMap.fromVec v).items.idxOf x < (SetMap.fromVec v).items.idxOf y ↔
      v.idxOf x < v.idxOf y) := by
  refine ⟨SetMap.fromIter_eq v, SetMap.fromVec_nodup v, SetMap.mem_fromVec v, ?_⟩
  induction v using List.reverseRecOn with
  | nil => simp
  | append_singleton v a ih =>
    have e : SetMap.fromVec (v ++ [a]) = (SetMap.fromVec v).insert a := by simp [SetMap.fromVec]
    rw [e]
    intro x hx y hy
    have hmem := SetMap.mem_fromVec v
    by_cases ha : a ∈ v
    · have hi : (SetMap.fromVec v).insert a = SetMap.fromVec v := by
        simp [SetMap.insert, hmem, ha]
      have hx' : x ∈ v := by
        rcases List.mem_append.1 hx with h | h
        · exact h
        · simp at h; exact h ▸ ha
      have hy' : y ∈ v := by
        rcases List.mem_append.1 hy with h | h
        · exact h
        · simp at h; exact h ▸ ha
      rw [hi, List.idxOf_append_of_mem hx', List.idxOf_append_of_mem hy']
      exact ih x hx' y hy'
    · have hi : ((SetMap.fromVec v).insert a).items = (SetMap.fromVec v).items ++ [a] := by
        simp [SetMap.insert, hmem, ha, SetMap.items]
      have key : ∀ (l : List L) (z : L), (z ∈ l → (l ++ [a]).idxOf z = l.idxOf z) ∧
          (a ∉ l → (l ++ [a]).idxOf a = l.length) := by
        intro l z
        exact ⟨fun h => List.idxOf_append_of_mem h,
          fun h => by simp [List.idxOf_append_of_notMem h]⟩
      have ha' : a ∉ (SetMap.fromVec v).items := by rw [SetMap.items, hmem]; exact ha
      rw [hi]
      have mem' : ∀ z, z ∈ v → z ∈ (SetMap.fromVec v).items := fun z h => (hmem z).2 h
      rcases List.mem_append.1 hx with hx | hx <;> rcases List.mem_append.1 hy with hy | hy <;>
        clear * - hx hy ih key ha' mem' ha
      · rw [(key _ x).1 (mem' x hx), (key _ y).1 (mem' y hy), (key v x).1 hx, (key v y).1 hy]
        exact ih x hx y hy
      · simp only [List.mem_singleton] at hy; subst hy
        rw [(key _ x).1 (mem' x hx), (key _ x).2 ha', (key v x).1 hx, (key v x).2 ha]
        have := List.idxOf_lt_length_of_mem (mem' x hx)
        have := List.idxOf_lt_length_of_mem hx
        omega
      · simp only [List.mem_singleton] at hx; subst hx
        rw [(key _ y).1 (mem' y hy), (key _ y).2 ha', (key v y).1 hy, (key v y).2 ha]
        have := List.idxOf_lt_length_of_mem (mem' y hy)
        have := List.idxOf_lt_length_of_mem hy
        omega
      · simp only [List.mem_singleton] at hx hy; subst hx; subst hy; omega

/-- **C04.** `collect()` and `vecmap!` build a `VecMap` with the same items at the same indices. -/
theorem c04_vec_map (v : List L) :
    ∃ t, VecMap.fromIter v = .ok t ∧ t.items = (SetMap.fromVec v).items := by
  suffices h : ∀ (v : List L) (t : VecMap L) (s : SetMap L), t.labels = s.labels →
      ∃ t', v.foldlM (fun t x => do let r ← t.addItem x; pure r.1) t = (.ok t' : Res (VecMap L)) ∧
        t'.labels = (v.foldl SetMap.insert s).labels from
    h v VecMap.empty SetMap.empty rfl
  intro v
  induction v with
  | nil => intro t s h; exact ⟨t, rfl, h⟩
  | cons a v ih =>
    intro t s h
    obtain ⟨t1, s1, r, h1, h2, h3⟩ := VecMap.step_sim t s h (.add a)
    obtain ⟨i, hi, -⟩ := SetMap.addItem_fst s a
    have hs : s1 = s.insert a := by
      simp only [SetMap.step, hi, bind_ok, pure_ok] at h2
      cases h2; rfl
    have ht : ∃ j, t.addItem a = .ok (t1, j) := by
      unfold VecMap.step at h1
      obtain ⟨q, hq, h1⟩ := bind_eq_ok h1
      cases h1
      exact ⟨q.2, hq⟩
    obtain ⟨j, hj⟩ := ht
    obtain ⟨t', g1, g2⟩ := ih t1 s1 h3
    refine ⟨t', ?_, ?_⟩
    · rw [List.foldlM_cons, hj]
      exact g1
    · rw [List.foldl_cons, ← hs]; exact g2

example : (SetMap.fromVec ["x", "y", "x", "z", "y"]).items = ["x", "y", "z"] := by decide

end Verif.Props
