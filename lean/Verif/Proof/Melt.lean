import Verif.Proof.RawCsr
import Verif.Proof.Static
import Verif.Proof.Freeze
import Verif.Props.RawCsr
import Verif.Spec.Melt

/-! Rows and arrays; graphs whose freezing gives given arrays. -/

namespace Verif

open Spec

variable {m k : Nat} {NL EL : Type}

namespace EdgeVec

variable {ev : EdgeVec m k}

theorem encodes_rowOf {rows : List (List (Id m × Id k))} {lab : Bool} (h : Encodes ev rows lab) {n : Nat}
    (hn : n < rows.length) : Spec.rowOf ev n = rows[n].map Prod.fst := by
  unfold Spec.rowOf
  have h1 : ev.offsets.getD n 0 = (rows.take n).flatten.length := by
    rw [List.getD_eq_getElem?_getD, h.offsets, offsetsOf_get rows (by omega)]; rfl
  have h2 : ev.offsets.getD (n + 1) 0 = (rows.take n).flatten.length + rows[n].length := by
    rw [List.getD_eq_getElem?_getD, h.offsets, offsetsOf_get rows (i := n + 1) (by omega), take_succ_flatten rows hn]
    rfl
  rw [h1, h2, h.edges, flatten_split rows hn, List.map_append, List.map_append]
  have := take_drop_mid ((rows.take n).flatten.map Prod.fst) (rows[n].map Prod.fst)
    ((rows.drop (n + 1)).flatten.map Prod.fst)
  rwa [List.length_map, List.length_map] at this

theorem rowOf_beyond {n : Nat} (h : ev.offsets.length ≤ n + 1) : Spec.rowOf ev n = [] := by
  unfold Spec.rowOf
  have : ev.offsets.getD (n + 1) 0 = 0 := by
    rw [List.getD_eq_getElem?_getD, List.getElem?_eq_none (by omega)]; rfl
  rw [this]; simp

theorem packed_of_encodes {rows : List (List (Id m × Id k))} {lab : Bool} (h : Encodes ev rows lab)
    (hc : Closed rows) : Packed ev rows.length := by
  refine ⟨by rw [h.offsets, offsetsOf_length], ?_, ?_, ?_, ?_, ?_⟩
  · rw [h.offsets, offsetsOf_get rows (Nat.zero_le _)]; rfl
  · rw [h.offsets, offsetsOf_get rows (le_refl _), List.take_length, h.edges, List.length_map]
  · rw [h.offsets]
    unfold offsetsOf
    rw [List.pairwise_map]
    refine List.Pairwise.imp (fun {a b} (hab : a < b) => ?_) List.pairwise_lt_range
    have : rows.take a <+: rows.take b := List.take_prefix_take_left (by omega)
    exact (List.Sublist.flatten this.sublist).length_le
  · intro n hn
    rw [encodes_rowOf h hn]
    exact h.sorted _ (List.getElem_mem hn)
  · intro t ht
    rw [h.edges, List.mem_map] at ht
    obtain ⟨p, hp, rfl⟩ := ht
    rw [List.mem_flatten] at hp
    obtain ⟨r, hr, hp⟩ := hp
    exact hc r hr p hp

/-- Entries with their labels. -/
def paired (ev : EdgeVec m k) : List (Id m × Id k) :=
  ev.edges.zip (ev.labels.getD (List.replicate ev.edges.length Id.maxValue))

/-- Row `n` with its labels. -/
def cutRow (ev : EdgeVec m k) (n : Nat) : List (Id m × Id k) :=
  (ev.paired.take (ev.offsets.getD (n + 1) 0)).drop (ev.offsets.getD n 0)

/-- As many labels as entries. -/
def Full (ev : EdgeVec m k) : Prop := ∀ ls, ev.labels = some ls → ls.length = ev.edges.length

theorem paired_fst (h : ev.Full) : ev.paired.map Prod.fst = ev.edges := by
  unfold paired
  rw [List.map_fst_zip]
  cases hl : ev.labels with
  | none => simp
  | some ls => simp [h ls hl]

theorem paired_snd {ls : List (Id k)} (h : ev.labels = some ls) (hl : ls.length = ev.edges.length) :
    ev.paired.map Prod.snd = ls := by
  unfold paired
  rw [List.map_snd_zip] <;> simp [h, hl]

theorem cut_fst (h : ev.Full) (n : Nat) : (ev.cutRow n).map Prod.fst = Spec.rowOf ev n := by
  unfold cutRow Spec.rowOf
  rw [List.map_drop, List.map_take, paired_fst h]

theorem packed_mono {c : Nat} (h : Packed ev c) {i j : Nat} (hij : i ≤ j) (hj : j ≤ c) :
    ev.offsets.getD i 0 ≤ ev.offsets.getD j 0 := by
  have h1 := h.rows
  rcases Nat.lt_or_eq_of_le hij with hlt | rfl
  · have := List.pairwise_iff_getElem.1 h.rising i j (by omega) (by omega) hlt
    rw [List.getD_eq_getElem?_getD, List.getD_eq_getElem?_getD, List.getElem?_eq_getElem (by omega),
      List.getElem?_eq_getElem (by omega)]
    exact this
  · exact le_refl _

theorem packed_first {c : Nat} (h : Packed ev c) : ev.offsets.getD 0 0 = 0 := by
  rw [List.getD_eq_getElem?_getD, h.first]; rfl

theorem packed_last {c : Nat} (h : Packed ev c) : ev.offsets.getD c 0 = ev.edges.length := by
  rw [List.getD_eq_getElem?_getD, h.last]; rfl

theorem cut_flatten {c : Nat} (h : Packed ev c) : ∀ i, i ≤ c →
    ((List.range i).map ev.cutRow).flatten = ev.paired.take (ev.offsets.getD i 0) := by
  intro i
  induction i with
  | zero => intro _; rw [packed_first h]; simp
  | succ i ih =>
    intro hi
    rw [List.range_succ, List.map_append, List.flatten_append, ih (by omega)]
    simp only [List.map_cons, List.map_nil, List.flatten_cons, List.flatten_nil, List.append_nil]
    unfold cutRow
    have hle := packed_mono h (i := i) (j := i + 1) (by omega) hi
    conv_rhs => rw [← List.take_append_drop (ev.offsets.getD i 0) (ev.paired.take (ev.offsets.getD (i + 1) 0)),
      List.take_take, Nat.min_eq_left hle]

theorem cut_encodes {c : Nat} (h : Packed ev c) (hf : ev.Full) :
    Encodes ev ((List.range c).map ev.cutRow) ev.labels.isSome := by
  have hlen : ev.paired.length = ev.edges.length := by rw [← paired_fst hf, List.length_map]
  have hall : ((List.range c).map ev.cutRow).flatten = ev.paired := by
    rw [cut_flatten h c (le_refl _), packed_last h, ← hlen, List.take_length]
  refine ⟨?_, by rw [hall, paired_fst hf], ?_, ?_⟩
  · apply List.ext_getElem?
    intro i
    by_cases hi : i ≤ c
    · rw [offsetsOf_get _ (by simpa using hi), ← List.map_take, List.take_range, Nat.min_eq_left hi,
        cut_flatten h i hi, List.length_take, hlen]
      have hle := packed_mono h hi (le_refl _)
      rw [packed_last h] at hle
      rw [Nat.min_eq_left hle, List.getD_eq_getElem?_getD, List.getElem?_eq_getElem (by rw [h.rows]; omega)]
      rfl
    · rw [List.getElem?_eq_none (by rw [h.rows]; omega), List.getElem?_eq_none]
      rw [offsetsOf_length]; simp; omega
  · cases hl : ev.labels with
    | none => rfl
    | some ls => simp only [Option.isSome_some, if_true]; rw [hall, paired_snd hl (hf ls hl)]
  · intro r hr
    rw [List.mem_map] at hr
    obtain ⟨n, hn, rfl⟩ := hr
    rw [cut_fst hf]
    exact h.sorted n (by simpa using hn)

theorem cut_plain (hl : ev.labels = none) (n : Nat) :
    ev.cutRow n = (Spec.rowOf ev n).map (fun x => (x, Id.maxValue)) := by
  have hf : ev.Full := by intro ls h; rw [hl] at h; cases h
  rw [← cut_fst hf, List.map_map]
  conv_lhs => rw [← List.map_id (ev.cutRow n)]
  apply List.map_congr_left
  rintro ⟨a, b⟩ hp
  have : (a, b) ∈ ev.paired := List.mem_of_mem_take (List.mem_of_mem_drop hp)
  unfold paired at this
  rw [hl] at this
  have := (List.of_mem_zip this).2
  rw [Option.getD_none] at this
  rw [List.eq_of_mem_replicate this]
  rfl

end EdgeVec

theorem encodes_ext {ev ev' : EdgeVec m k} {rows : List (List (Id m × Id k))} {lab : Bool}
    (h : Encodes ev rows lab) (h' : Encodes ev' rows lab) : ev = ev' := by
  obtain ⟨o, e, l⟩ := ev
  obtain ⟨o', e', l'⟩ := ev'
  obtain ⟨a1, a2, a3, -⟩ := h
  obtain ⟨b1, b2, b3, -⟩ := h'
  simp only at a1 a2 a3 b1 b2 b3
  rw [a1, a2, a3, b1, b2, b3]

namespace GraphMap

/-- The pairs the frozen graph lists are as many as the edges of the graph. -/
theorem frozen_pairs {g : GraphMap m k NL EL} (hg : g.NWF) {M : Id m} {r : StaticGraph m k NL EL}
    (hM : ∀ n, g.hasNode n = true → n ≤ M) (hlt : M.val < m) (hr : FrozenAs g M r) :
    (rowPairs r.edgeVec r.directed).length = g.edgeNum := by
  obtain ⟨es, h1, h2, h3⟩ := frozen_edgeIndices hM hlt hr
  have hlen : r.edgeVec.offsets.length = M.val + 2 := by rw [hr.out.offsets, offsetsOf_length, rows_length]
  have hsort : ∀ n, (Spec.rowOf r.edgeVec n).Pairwise (· < ·) := by
    intro n
    by_cases hn : n < M.val + 1
    · rw [EdgeVec.encodes_rowOf hr.out (by simpa using hn)]
      exact hr.out.sorted _ (List.getElem_mem _)
    · rw [EdgeVec.rowOf_beyond (by omega)]; exact .nil
  obtain ⟨c1, -, c3⟩ := Props.c156_edges r.edgeVec (by intro h; rw [h] at hlen; simp at hlen) (by omega)
    r.directed (.inr hsort) _ (le_refl _)
  have h1' : r.edgeVec.edgeIndices r.directed = .ok es := h1
  rw [c3, c1] at h1'
  rw [← h1'.2, ← edgeIndices_length hg]
  apply List.Perm.length_eq
  rw [List.perm_ext_iff_of_nodup h2 (edgeIndices_nodup hg)]
  rintro ⟨s, t⟩
  rw [h3, mem_edgeIndices hg]

/-- A record that is frozen into row `n` of the arrays. -/
def meltNode (r : StaticGraph m k NL EL) (n : Nat) : NodeMap m k where
  id := Id.new n
  label := (r.labels.bind (fun ls => ls[n]?)).bind staticLabel
  neighbors := (r.edgeVec.cutRow n).map (fun p => (p.1, staticLabel p.2))
  inNeighbors := match r.inEdgeVec with
    | some iv => Spec.rowOf iv n
    | none => []

/-- A graph with the nodes `ids` that is frozen into the arrays. -/
def melt (r : StaticGraph m k NL EL) (c : Nat) (ids : List Nat) : GraphMap m k NL EL :=
  ⟨r.directed, ids.map (fun n => (Id.new n, meltNode r n)), r.numEdges, r.nodeLabels, r.edgeLabels,
    some (Id.new (c - 1))⟩

theorem staticLabel_getD (l : Id k) : (staticLabel l).getD Id.maxValue = l := by
  unfold staticLabel
  split
  · rename_i h; rw [h]; rfl
  · rfl

section

variable {r : StaticGraph m k NL EL} {c : Nat} {ids : List Nat}

theorem melt_keys (hn : ids.Nodup) (hc : ∀ n ∈ ids, n ≤ m) : (AL.keys (melt r c ids).nodeMap).Nodup := by
  unfold AL.keys melt
  simp only [List.map_map]
  rw [List.nodup_map_iff_inj_on hn]
  intro a ha b hb hab
  have := congrArg Fin.val (show (Id.new a : Id m) = Id.new b from hab)
  rwa [EdgeIter.Id_new_val (hc a ha), EdgeIter.Id_new_val (hc b hb)] at this

theorem melt_node (hn : ids.Nodup) (hc : ∀ n ∈ ids, n ≤ m) (n : Id m) :
    (melt r c ids).getNode n = if n.val ∈ ids then some (meltNode r n.val) else none := by
  show AL.get (melt r c ids).nodeMap n = _
  split
  · rename_i h
    apply AL.get_eq_of_mem (melt_keys hn hc)
    unfold melt
    rw [List.mem_map]
    exact ⟨n.val, h, by rw [Id_new_self]⟩
  · rename_i h
    rw [AL.get_eq_none_iff]
    unfold AL.keys melt
    simp only [List.map_map, List.mem_map, Function.comp_apply, not_exists, not_and]
    rintro x hx rfl
    rw [EdgeIter.Id_new_val (hc x hx)] at h
    exact h hx

end

end GraphMap

end Verif
