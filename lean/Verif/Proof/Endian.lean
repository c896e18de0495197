import Verif.Model.Endian
import Verif.Spec.Endian
import Verif.Proof.Mmap
import Mathlib.Tactic.Ring
import Mathlib.Algebra.BigOperators.Intervals

/-! Numbers with their bytes turned around. -/

namespace Verif

open Spec

variable {m k : Nat} {w v : Nat}

theorem ofLe_app : ∀ a b : List Byte, ofLe (a ++ b) = ofLe a + 256 ^ a.length * ofLe b
  | [], b => by simp [ofLe]
  | x :: a, b => by
    simp only [List.cons_append, ofLe, ofLe_app a b, List.length_cons, Nat.pow_succ]
    ring

theorem turned_succ (w n : Nat) : turned (w + 1) n = turned w (n / 256) + 256 ^ w * (n % 256) := by
  unfold turned
  rw [Finset.sum_range_succ']
  congr 1
  · refine Finset.sum_congr rfl (fun i _ => ?_)
    rw [Nat.div_div_eq_div_mul, Nat.pow_succ, Nat.mul_comm (256 ^ i) 256, show w + 1 - 1 - (i + 1) = w - 1 - i by omega]
  · simp [Nat.mul_comm]

theorem ofLe_reverse_le : ∀ w n, ofLe (le w n).reverse = turned w n
  | 0, n => by simp [le, ofLe, turned]
  | w + 1, n => by
    rw [turned_succ, le, List.reverse_cons, ofLe_app, List.length_reverse, length_le, ofLe_reverse_le w]
    simp [ofLe]

theorem turned_lt (w n : Nat) : turned w n < 256 ^ w := by
  rw [← ofLe_reverse_le]
  have := Verif.ofLe_lt (le w n).reverse
  rwa [List.length_reverse, length_le] at this

theorem le_turned (w n : Nat) : le w (turned w n) = (le w n).reverse := by
  rw [← ofLe_reverse_le]
  have := Verif.le_ofLe (le w n).reverse
  rwa [List.length_reverse, length_le] at this

theorem turned_turned {n : Nat} (h : n < 256 ^ w) : turned w (turned w n) = n := by
  rw [← ofLe_reverse_le, le_turned, List.reverse_reverse, Verif.ofLe_le, Nat.mod_eq_of_lt h]

theorem ofLe_reverse (bs : List Byte) : ofLe bs.reverse = turned bs.length (ofLe bs) := by
  rw [← ofLe_reverse_le, Verif.le_ofLe]

theorem turnedId_val (hwm : m + 1 = 256 ^ w) (i : Id m) : (turnedId w i).val = turned w i.val := by
  have := turned_lt w i.val
  exact Nat.mod_eq_of_lt (by omega)

theorem turnedId_turnedId (hwm : m + 1 = 256 ^ w) (i : Id m) : turnedId w (turnedId w i) = i := by
  refine Fin.ext ?_
  rw [turnedId_val hwm, turnedId_val hwm, turned_turned (by have := i.isLt; omega)]

theorem typedBytes_turned (l : List Nat) : typedBytesOn true w l = typedBytes w (l.map (turned w)) := by
  unfold typedBytesOn typedBytes
  rw [List.flatMap_map]
  refine List.flatMap_congr (fun n _ => ?_)
  rw [le_turned]; rfl

theorem typedBytes_turnedIds (hwm : m + 1 = 256 ^ w) (l : List (Id m)) :
    typedBytesOn true w (l.map (·.val)) = typedBytes w ((l.map (turnedId w)).map (·.val)) := by
  rw [typedBytes_turned, List.map_map, List.map_map]
  congr 1
  exact List.map_congr_left fun i _ => (turnedId_val hwm i).symm

/-- What mapping a file gives: as many elements as are whole. -/
theorem new_shape {path : String} {x : World} {t : TypedMap} (h : TypedMap.new w path x = .ok t) :
    t.width = w ∧ t.len * w ≤ t.data.length := by
  unfold TypedMap.new at h
  split at h
  · cases h
  · split at h
    · cases h
    · unfold TypedMap.withMmap at h
      split at h
      · cases h
      · cases h
        exact ⟨rfl, Nat.div_mul_le_self _ _⟩

theorem readOn_turned {t : TypedMap} (ht : t.width = w ∧ t.len * w ≤ t.data.length) :
    t.readOn true t.full = (t.read t.full).map (turned w) := by
  unfold TypedMap.readOn TypedMap.read
  rw [List.map_map]
  refine List.map_congr_left (fun i hi => ?_)
  have hi : i < t.len := List.mem_range.1 hi
  show ofLe _ = turned w (ofLe _)
  rw [ofLe_reverse]
  congr 1
  rw [List.length_take, List.length_drop, ht.1]
  simp only [TypedMap.full]
  have : (i + 1) * w ≤ t.len * w := Nat.mul_le_mul_right _ hi
  rw [Nat.add_mul] at this
  omega

theorem read_lt {t : TypedMap} (ht : t.width = w) : ∀ n ∈ t.read t.full, n < 256 ^ w := by
  intro n hn
  obtain ⟨i, -, rfl⟩ := List.mem_map.1 hn
  refine lt_of_lt_of_le (Verif.ofLe_lt _) (Nat.pow_le_pow_right (by decide) ?_)
  rw [List.length_take, ht]; omega

theorem idsOn_turned (hwm : m + 1 = 256 ^ w) {t : TypedMap} (ht : t.width = w ∧ t.len * w ≤ t.data.length) :
    (t.idsOn true : List (Id m)) = t.ids.map (turnedId w) := by
  unfold TypedMap.idsOn TypedMap.ids
  rw [readOn_turned ht, List.map_map, List.map_map]
  refine List.map_congr_left (fun n hn => ?_)
  have := read_lt ht.1 n hn
  show Id.new (turned w n) = Id.new (turned w (n % (m + 1)))
  rw [hwm, Nat.mod_eq_of_lt this]

theorem mapIfPresent_turned (hvk : k + 1 = 256 ^ v) {path : String} {x : World} {o : Option TypedMap}
    (h : mapIfPresent v path x = .ok o) :
    (o.map (TypedMap.idsOn true) : Option (List (Id k))) = (o.map TypedMap.ids).map (List.map (turnedId v)) := by
  unfold mapIfPresent at h
  split at h
  · obtain ⟨t, h1, h⟩ := bind_eq_ok h
    cases h
    simp only [Option.map_some]
    rw [idsOn_turned hvk (new_shape h1)]
  · cases h; rfl

theorem openMmap_turned (hwm : m + 1 = 256 ^ w) (hvk : k + 1 = 256 ^ v) (pre : String) (x : World) :
    (EdgeVec.openMmapOn true w v pre x : Res (EdgeVec m k)) = (EdgeVec.openMmap w v pre x).map (turnedVec w v) := by
  unfold EdgeVec.openMmapOn EdgeVec.openMmap
  cases h1 : TypedMap.new 8 (pre ++ ".offsets") x with
  | error p => rfl
  | ok o =>
    cases h2 : TypedMap.new w (pre ++ ".edges") x with
    | error p => rfl
    | ok e =>
      cases h3 : mapIfPresent v (pre ++ ".labels") x with
      | error p => rfl
      | ok l =>
        show Except.ok _ = Except.ok _
        rw [readOn_turned (new_shape h1), idsOn_turned hwm (new_shape h2), mapIfPresent_turned hvk h3]
        rfl

theorem dumpVec_turned (hwm : m + 1 = 256 ^ w) (hvk : k + 1 = 256 ^ v) (ev : EdgeVec m k) (pre : String) (x : World) :
    ev.dumpMmapOn true w v pre x = (turnedVec w v ev).dumpMmap w v pre x := by
  have hl : (turnedVec w v ev).getLabels = ev.getLabels.map (turnedId v) := by
    unfold EdgeVec.getLabels turnedVec
    cases ev.labels <;> rfl
  unfold EdgeVec.dumpMmapOn EdgeVec.dumpMmap
  rw [hl]
  simp only [List.map_eq_nil_iff, typedBytes_turnedIds hwm, typedBytes_turnedIds hvk, typedBytes_turned]
  rfl

end Verif
