import Verif.Model.MapEq
import Verif.Props.LabelMaps
import Verif.Proof.Serde
import Mathlib.Data.List.Perm.Subperm

/-! Property theorems about comparing and hashing label maps (C103). -/

namespace Verif.Props

variable {L : Type} [DecidableEq L]

/-- **C103**: two label maps without repeats are `==` exactly when they have the same labels; the order, and
with it every id, is left out. -/
theorem c103_same_iff {a b : SetMap L} (ha : a.items.Nodup) (hb : b.items.Nodup) :
    a.same b = true ↔ ∀ x, x ∈ a.items ↔ x ∈ b.items := by
  obtain ⟨a⟩ := a
  obtain ⟨b⟩ := b
  simp only [SetMap.items] at *
  have hp : (∀ x, x ∈ a ↔ x ∈ b) ↔ a.Perm b := (List.perm_ext_iff_of_nodup ha hb).symm
  rw [hp]
  unfold SetMap.same SetMap.contains
  simp only [Bool.and_eq_true, List.all_eq_true, decide_eq_true_eq]
  simp only [SetMap.len, SetMap.items]
  constructor
  · rintro ⟨h1, -, h2⟩
    exact (ha.subperm h2).perm_of_length_le h1.ge
  · intro h
    exact ⟨h.length_eq, h.length_eq.le, fun x hx => h.mem_iff.1 hx⟩

/-- All maps that calls of the library lead to are such maps, so there `==` is an equivalence. -/
theorem c103_histories {v v' : List L} {ops ops' : List (MapOp L)} {a b : SetMap L} {r r'}
    (ha : (SetMap.fromVec v).run ops = .ok (a, r)) (hb : (SetMap.fromVec v').run ops' = .ok (b, r')) :
    (a.same b = true ↔ ∀ x, x ∈ a.items ↔ x ∈ b.items) ∧ a.same a = true ∧ a.same b = b.same a := by
  have na : a.items.Nodup := by
    obtain ⟨s, ans, h, h1, -⟩ := c01_setmap_bijection v ops
    rw [ha] at h
    cases h
    exact h1
  have nb : b.items.Nodup := by
    obtain ⟨s, ans, h, h1, -⟩ := c01_setmap_bijection v' ops'
    rw [hb] at h
    cases h
    exact h1
  refine ⟨c103_same_iff na nb, (c103_same_iff na na).2 fun _ => Iff.rfl, ?_⟩
  rw [Bool.eq_iff_iff, c103_same_iff na nb, c103_same_iff nb na]
  exact ⟨fun h x => (h x).symm, fun h x => (h x).symm⟩

/-- Ids are respected exactly when also the order is the same. -/
theorem c103_ids {a b : SetMap L} (ha : a.items.Nodup) (hb : b.items.Nodup) :
    (∀ x, a.findIndex x = b.findIndex x) ↔ a = b := by
  constructor
  · intro h
    obtain ⟨a⟩ := a
    obtain ⟨b⟩ := b
    simp only [SetMap.items, SetMap.findIndex] at *
    congr 1
    apply List.ext_getElem?
    intro i
    have key : ∀ (l : List L), l.Nodup → ∀ x, l[i]? = some x ↔ l.idxOf? x = some i := by
      intro l hl x
      constructor
      · intro hx
        obtain ⟨hi, rfl⟩ := List.getElem?_eq_some_iff.1 hx
        rw [List.idxOf?_eq_some_iff]
        refine ⟨hi, rfl, fun j hj => ?_⟩
        intro hc
        exact absurd ((List.Nodup.getElem_inj_iff hl).1 hc) (by omega)
      · intro hx
        rw [List.idxOf?_eq_some_iff] at hx
        obtain ⟨hi, h1, -⟩ := hx
        rw [List.getElem?_eq_some_iff]
        exact ⟨hi, h1⟩
    apply Option.ext
    intro x
    rw [key a ha, key b hb, h x]
  · rintro rfl x
    rfl

omit [DecidableEq L] in
/-- Hashing is not: when different labels feed different bytes of the same number, maps feed the same only
if their items are the same in the same order. -/
theorem c103_fed_iff {word : L → List Byte} {n : Nat} (hn : 0 < n) (hw : ∀ x, (word x).length = n)
    (hi : ∀ x y, word x = word y → x = y) (a b : SetMap L) : a.fed word = b.fed word ↔ a = b := by
  constructor
  · obtain ⟨a⟩ := a
    obtain ⟨b⟩ := b
    intro h
    simp only [SetMap.fed, SetMap.items] at h
    congr 1
    induction a generalizing b with
    | nil =>
      cases b with
      | nil => rfl
      | cons y b =>
        have := congrArg List.length h
        simp [hw] at this
        omega
    | cons x a ih =>
      cases b with
      | nil =>
        have := congrArg List.length h
        simp [hw] at this
        omega
      | cons y b =>
        rw [List.flatMap_cons, List.flatMap_cons] at h
        obtain ⟨h1, h2⟩ := List.append_inj h (by rw [hw, hw])
        rw [hi _ _ h1, ih b h2]
  · rintro rfl
    rfl

/-- So the contract between `==` and `Hash` is broken: for any two labels the map filled in one order and
the map filled in the other order are `==`, give the labels different ids, and feed different bytes, which a
hash table may put in different places. -/
theorem c103_contract_broken {word : L → List Byte} {n : Nat} (hn : 0 < n) (hw : ∀ x, (word x).length = n)
    (hi : ∀ x y, word x = word y → x = y) {x y : L} (hxy : x ≠ y) :
    (SetMap.fromVec [x, y]).same (SetMap.fromVec [y, x]) = true ∧
    (SetMap.fromVec [x, y]).findIndex x ≠ (SetMap.fromVec [y, x]).findIndex x ∧
    (SetMap.fromVec [x, y]).fed word ≠ (SetMap.fromVec [y, x]).fed word := by
  have hyx : y ≠ x := Ne.symm hxy
  have e : ∀ p q : L, p ≠ q → SetMap.fromVec [p, q] = ⟨[p, q]⟩ := by
    intro p q h
    simp [SetMap.fromVec, SetMap.insert, SetMap.empty, Ne.symm h]
  rw [e x y hxy, e y x hyx]
  refine ⟨?_, ?_, ?_⟩
  · simp [SetMap.same, SetMap.len, SetMap.items, SetMap.contains]
  · simp [SetMap.findIndex, List.idxOf?_cons, hyx]
  · rw [Ne, c103_fed_iff hn hw hi]
    intro h
    injection h with h
    injection h with h
    exact hxy h

/-- With repeats, which only a map built elsewhere could have, `==` would not be symmetric. -/
theorem c103_repeats : (⟨[1, 1]⟩ : SetMap Nat).same ⟨[1, 2]⟩ = true ∧
    (⟨[1, 2]⟩ : SetMap Nat).same ⟨[1, 1]⟩ = false := by decide

/-- `VecMap` keeps the contract: `==` is equality of the items in order, so equal maps give equal ids and
feed the same. -/
theorem c103_vec_map (a b : VecMap L) :
    (a.same b = true ↔ a = b) ∧
    (a.same b = true → (∀ x, a.findIndex x = b.findIndex x) ∧ ∀ word, a.fed word = b.fed word) := by
  have h : a.same b = true ↔ a = b := by
    obtain ⟨a⟩ := a
    obtain ⟨b⟩ := b
    unfold VecMap.same
    simp only [Bool.and_eq_true, decide_eq_true_eq, VecMap.mk.injEq]
    simp only [VecMap.len, VecMap.items]
    induction a generalizing b with
    | nil => cases b <;> simp
    | cons x a ih =>
      cases b with
      | nil => simp
      | cons y b =>
        have := ih b
        simp only [List.length_cons, Nat.add_right_cancel_iff, List.zip_cons_cons, List.all_cons,
          Bool.and_eq_true, decide_eq_true_eq, List.cons.injEq]
        tauto
  exact ⟨h, fun hs => by rw [h.1 hs]; exact ⟨fun _ => rfl, fun _ => rfl⟩⟩

omit [DecidableEq L] in
/-- And it tells lists of different lengths apart also where the labels feed nothing. -/
theorem c103_vec_map_length {a b : VecMap L} {word : L → List Byte} (h : a.fed word = b.fed word)
    (ha : a.len < 2 ^ 64) (hb : b.len < 2 ^ 64) : a.len = b.len := by
  unfold VecMap.fed at h
  have h1 := (List.append_inj h (by rw [length_le, length_le])).1
  have := congrArg ofLe h1
  rwa [ofLe_le, ofLe_le, Nat.mod_eq_of_lt (by omega), Nat.mod_eq_of_lt (by omega)] at this

example : (SetMap.fromVec ["a", "b"]).same (SetMap.fromVec ["b", "a", "b"]) = true ∧
    (SetMap.fromVec ["a", "b"]).same (SetMap.fromVec ["a", "c"]) = false ∧
    ∃ r, (SetMap.fromVec ["a", "b"]).run [.pop, .add "c"] = .ok r ∧ r.1.same (SetMap.fromVec ["c", "a"]) := by
  refine ⟨by decide, by decide, _, rfl, by decide⟩

example : 0 < 1 ∧ (∀ x : Byte, [x].length = 1) ∧ ∀ x y : Byte, [x] = [y] → x = y :=
  ⟨by decide, fun _ => rfl, fun x y h => by injection h⟩

end Verif.Props
