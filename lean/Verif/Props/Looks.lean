import Verif.Model.Looks
import Verif.Props.RawCsr
import Mathlib.Data.Nat.Log

/-! C180: how many entries lookups in frozen graphs compare. -/

namespace Verif.Props

open Spec EdgeVec

variable {m k : Nat} {NL EL : Type}

theorem looks_loop (l : List (Id m)) (x : Id m) : ∀ fuel base size, size < fuel → 1 ≤ size → base + size ≤ l.length →
    ∃ b p, searchLooks l x fuel base size = .ok (b, p) ∧ searchLoop l x fuel base size = .ok b ∧
      p.length = Nat.clog 2 size ∧ (∀ i ∈ p, base ≤ i ∧ i < base + size) ∧ base ≤ b ∧ b < base + size := by
  intro fuel
  induction fuel with
  | zero => intro base size h; omega
  | succ fuel ih =>
    intro base size h1 h2 h3
    unfold searchLooks searchLoop
    by_cases hs : size > 1
    · rw [if_pos hs, if_pos hs]
      have hmid : base + size / 2 < l.length := by omega
      simp only
      rw [index_lt hmid, bind_ok, bind_ok]
      have hclog : Nat.clog 2 size = Nat.clog 2 (size - size / 2) + 1 := by
        rw [Nat.clog_of_two_le (by omega) (by omega)]
        congr 2
        omega
      have go : ∀ c, base ≤ c → c + (size - size / 2) ≤ base + size →
          ∃ b p, (do
            let r ← searchLooks l x fuel c (size - size / 2)
            pure (r.1, (base + size / 2) :: r.2) : Res (Nat × List Nat)) = .ok (b, p) ∧
            searchLoop l x fuel c (size - size / 2) = .ok b ∧ p.length = Nat.clog 2 size ∧
            (∀ i ∈ p, base ≤ i ∧ i < base + size) ∧ base ≤ b ∧ b < base + size := by
        intro c hc1 hc2
        obtain ⟨b, p, e1, e2, e3, e4, e5, e6⟩ := ih c (size - size / 2) (by omega) (by omega) (by omega)
        refine ⟨b, (base + size / 2) :: p, by rw [e1]; rfl, e2, by simp [e3, hclog], ?_, by omega, by omega⟩
        intro i hi
        rcases List.mem_cons.1 hi with rfl | hi
        · omega
        · have := e4 i hi; omega
      split
      · exact go base (by omega) (by omega)
      · exact go (base + size / 2) (by omega) (by omega)
    · rw [if_neg hs, if_neg hs]
      exact ⟨base, [], rfl, rfl, by rw [Nat.clog_of_right_le_one (by omega)]; rfl, by simp, by omega, by omega⟩

/-- The number of entries a search of `n` entries compares. -/
def compared (n : Nat) : Nat := if n = 0 then 0 else Nat.clog 2 n + 1

/-- **C180.** A binary search of any `n` entries, sorted or not, for anything, compares `⌈log₂ n⌉ + 1` of them, and none
if there are none: never fewer, never more, wherever the entry is. They are within the row. -/
theorem c180_search (l : List (Id m)) (x : Id m) : ∃ r p, binarySearchLooks l x = .ok (r, p) ∧
    binarySearch l x = .ok r ∧ p.length = compared l.length ∧ ∀ i ∈ p, i < l.length := by
  unfold binarySearchLooks binarySearch compared
  by_cases h0 : l.length = 0
  · rw [if_pos h0, if_pos h0, if_pos h0]
    exact ⟨_, _, rfl, rfl, rfl, by simp⟩
  · rw [if_neg h0, if_neg h0, if_neg h0]
    obtain ⟨b, p, e1, e2, e3, e4, e5, e6⟩ := looks_loop l x (l.length + 1) 0 l.length (by omega) (by omega) (by omega)
    rw [e1, e2, bind_ok, bind_ok]
    simp only
    rw [index_lt (show b < l.length by omega), bind_ok, bind_ok]
    refine ⟨_, _, rfl, rfl, by simp [e3], ?_⟩
    intro i hi
    rcases List.mem_append.1 hi with hi | hi
    · have := e4 i hi; omega
    · simp at hi; omega

/-- **C180.** `has_edge` of a frozen graph with its comparisons counted is `has_edge`. It compares nothing if one of the
two is no node of the adjacency, else as many entries as a search of the row does. -/
theorem c180_has_edge (g : StaticGraph m k NL EL) (s t : Id m) :
    (∀ b, g.hasEdge s t = .ok b ↔ ∃ p, g.hasEdgeLooks s t = .ok (b, p)) ∧
    (∀ q, g.hasEdge s t = .error q ↔ g.hasEdgeLooks s t = .error q) ∧
    ∀ b p, g.hasEdgeLooks s t = .ok (b, p) → p.length =
      if s.val + 1 < g.edgeVec.offsets.length ∧ t.val + 1 < g.edgeVec.offsets.length
      then compared (rowOf g.edgeVec s.val).length else 0 := by
  unfold StaticGraph.hasEdge EdgeVec.hasEdge StaticGraph.hasEdgeLooks findEdgeIndex findEdgeIndexLooks searchRow
  generalize g.edgeVec = ev
  simp only [hasNode_raw]
  by_cases h0 : ev.offsets.length = 0
  · simp [h0, bind_error]
  · simp only [h0, if_false, bind_ok]
    by_cases hs : s.val < ev.offsets.length - 1
    · by_cases ht : t.val < ev.offsets.length - 1
      · have hs' : s.val + 1 < ev.offsets.length := by omega
        have ht' : t.val + 1 < ev.offsets.length := by omega
        simp only [hs, ht, decide_true, Bool.and_self, Bool.not_true, Bool.false_eq_true, if_false, hs', ht', and_self,
          if_true]
        rcases hnb : ev.neighbors s with q | nb
        · simp [bind_error]
        · simp only [bind_ok]
          obtain ⟨r, p, e1, e2, e3, -⟩ := c180_search nb t
          obtain ⟨-, hrow⟩ := ((c156_neighbors ev s).1 nb).1 hnb
          rw [e1, e2, bind_ok, bind_ok]
          cases r with
          | missing i => simp [bind_ok, pure_ok, e3, ← hrow]
          | found i =>
            simp only
            rw [index_lt (show s.val < ev.offsets.length by omega)]
            simp [bind_ok, pure_ok, e3, ← hrow]
      · have ht' : ¬ t.val + 1 < ev.offsets.length := by omega
        simp [hs, ht, ht', pure_ok, bind_ok]
    · have hs' : ¬ s.val + 1 < ev.offsets.length := by omega
      simp [hs, hs', pure_ok, bind_ok]

/-- **C180.** The same for mapped graphs, which search the row of any node they have. -/
theorem c180_mapped_has_edge (g : MmapGraph m k NL EL) (s t : Id m) :
    (∀ b, g.hasEdge s t = .ok b ↔ ∃ p, g.hasEdgeLooks s t = .ok (b, p)) ∧
    (∀ q, g.hasEdge s t = .error q ↔ g.hasEdgeLooks s t = .error q) ∧
    ∀ b p, g.hasEdgeLooks s t = .ok (b, p) → p.length = compared (rowOf g.edges s.val).length := by
  unfold MmapGraph.hasEdge MmapGraph.hasEdgeLooks MmapGraph.neighbors
  generalize g.edges = ev
  rcases hnb : ev.neighbors s with q | nb
  · simp [bind_error]
  · simp only [bind_ok]
    obtain ⟨r, p, e1, e2, e3, -⟩ := c180_search nb t
    obtain ⟨-, hrow⟩ := ((c156_neighbors ev s).1 nb).1 hnb
    rw [e1, e2, bind_ok, bind_ok]
    cases r with
    | missing i => simp [pure_ok, e3, ← hrow]
    | found i => simp [pure_ok, e3, ← hrow]

/-- **C180.** Rows without repeats are no longer than there are ids, so that no lookup compares more than `⌈log₂⌉` of the
number of ids, plus one: nine entries for ids of one byte, 17 for two, 33 for four, 65 for eight. -/
theorem c180_most {g : StaticGraph m k NL EL} {s t : Id m} {b : Bool} {p : List Nat}
    (h : g.hasEdgeLooks s t = .ok (b, p)) (hr : (rowOf g.edgeVec s.val).Nodup) :
    p.length ≤ Nat.clog 2 (m + 1) + 1 ∧ Nat.clog 2 (255 + 1) + 1 = 9 ∧ Nat.clog 2 (65535 + 1) + 1 = 17 ∧
      Nat.clog 2 (4294967295 + 1) + 1 = 33 ∧ Nat.clog 2 (18446744073709551615 + 1) + 1 = 65 := by
  refine ⟨?_, ?_⟩
  · rw [(c180_has_edge g s t).2.2 b p h]
    split
    · unfold compared
      split
      · omega
      · have hl : (rowOf g.edgeVec s.val).length ≤ m + 1 := by
          have := List.Nodup.length_le_card hr
          simpa using this
        have := Nat.clog_mono_right 2 hl
        omega
    · omega
  · have e : ∀ n, Nat.clog 2 (2 ^ n) = n := fun n => Nat.clog_pow 2 n (by omega)
    exact ⟨by rw [show 255 + 1 = 2 ^ 8 by rfl, e], by rw [show 65535 + 1 = 2 ^ 16 by rfl, e],
      by rw [show 4294967295 + 1 = 2 ^ 32 by rfl, e], by rw [show 18446744073709551615 + 1 = 2 ^ 64 by rfl, e]⟩

/-- **C180.** Twice as long a row costs one comparison more. -/
theorem c180_doubled (n : Nat) (h : n ≠ 0) : compared (2 * n) = compared n + 1 := by
  unfold compared
  rw [if_neg h, if_neg (by omega), Nat.clog_of_two_le (by omega) (by omega)]
  rw [show (2 * n + 2 - 1) / 2 = n by omega]

/-- A row of five entries: four comparisons, whatever is looked for. -/
example : (⟨true, 9, 5, ⟨[0, 5, 5, 5, 5, 5, 5, 5, 5, 5], [1, 2, 4, 7, 8], none⟩, none, none, ⟨[]⟩, ⟨[]⟩⟩ :
      StaticGraph 9 3 String String).hasEdgeLooks 0 4 = .ok (true, [2, 3, 3, 2]) ∧
    (⟨true, 9, 5, ⟨[0, 5, 5, 5, 5, 5, 5, 5, 5, 5], [1, 2, 4, 7, 8], none⟩, none, none, ⟨[]⟩, ⟨[]⟩⟩ :
      StaticGraph 9 3 String String).hasEdgeLooks 0 0 = .ok (false, [2, 1, 1, 0]) := by
  constructor <;> decide +kernel

end Verif.Props
