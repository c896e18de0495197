import Verif.Spec.Ids
import Mathlib.Order.Monotone.Basic

/-! Collections and node records under an increasing change of the ids. -/

namespace Verif.Proof.Ids

open Spec

section Lists

variable {K K' V V' : Type} [LinearOrder K] [LinearOrder K'] {f : K → K'} {F : V → V'}

theorem get_ids (hf : StrictMono f) (l : List (K × V)) (x : K) :
    AL.get (l.map (fun p => (f p.1, F p.2))) (f x) = (AL.get l x).map F := by
  induction l with
  | nil => rfl
  | cons p l ih =>
    obtain ⟨a, v⟩ := p
    simp only [List.map_cons, AL.get, ih]
    by_cases h : a = x
    · rw [if_pos h, if_pos (by rw [h])]; rfl
    · rw [if_neg h, if_neg (fun e => h (hf.injective e))]

theorem set_ids (hf : StrictMono f) (l : List (K × V)) (x : K) (v : V) :
    AL.set (l.map (fun p => (f p.1, F p.2))) (f x) (F v) = (AL.set l x v).map (fun p => (f p.1, F p.2)) := by
  simp only [AL.set, List.map_map]
  refine List.map_congr_left (fun p _ => ?_)
  simp only [Function.comp_apply]
  by_cases h : p.1 = x
  · rw [if_pos h, if_pos (by rw [h])]
  · rw [if_neg h, if_neg (fun e => h (hf.injective e))]

theorem erase_ids (hf : StrictMono f) (l : List (K × V)) (x : K) :
    AL.erase (l.map (fun p => (f p.1, F p.2))) (f x) = (AL.erase l x).map (fun p => (f p.1, F p.2)) := by
  simp only [AL.erase, List.filter_map]
  congr 1
  refine List.filter_congr (fun p _ => ?_)
  simp [hf.injective.eq_iff]

theorem hinsert_ids (hf : StrictMono f) (l : List (K × V)) (x : K) (v : V) :
    AL.hinsert (l.map (fun p => (f p.1, F p.2))) (f x) (F v) =
      (AL.hinsert l x v).map (fun p => (f p.1, F p.2)) := by
  unfold AL.hinsert
  rw [get_ids hf, set_ids hf, Option.isSome_map]
  split_ifs
  · rfl
  · simp

theorem binsert_ids (hf : StrictMono f) (l : List (K × V)) (x : K) (v : V) :
    AL.binsert (l.map (fun p => (f p.1, F p.2))) (f x) (F v) =
      (AL.binsert l x v).map (fun p => (f p.1, F p.2)) := by
  induction l with
  | nil => rfl
  | cons p l ih =>
    obtain ⟨a, w⟩ := p
    simp only [List.map_cons, AL.binsert, hf.lt_iff_lt, hf.injective.eq_iff, ih]
    split_ifs <;> rfl

theorem sinsert_ids (hf : StrictMono f) (l : List K) (x : K) :
    BSet.sinsert (l.map f) (f x) = (BSet.sinsert l x).map f := by
  induction l with
  | nil => rfl
  | cons a l ih =>
    simp only [List.map_cons, BSet.sinsert, hf.lt_iff_lt, hf.injective.eq_iff, ih]
    split_ifs <;> rfl

theorem serase_ids (hf : StrictMono f) (l : List K) (x : K) :
    BSet.erase (l.map f) (f x) = (BSet.erase l x).map f := by
  simp only [BSet.erase, List.filter_map]
  congr 1
  refine List.filter_congr (fun p _ => ?_)
  simp [hf.injective.eq_iff]

theorem contains_ids (hf : StrictMono f) (l : List K) (x : K) : BSet.contains (l.map f) (f x) = BSet.contains l x := by
  simp [BSet.contains, hf.injective.eq_iff]

theorem get_off {K K' V V' : Type} [DecidableEq K'] {f : K → K'} {F : V → V'} (l : List (K × V)) {y : K'}
    (h : ∀ x, f x ≠ y) : AL.get (l.map (fun p => (f p.1, F p.2))) y = none := by
  induction l with
  | nil => rfl
  | cons p l ih => simp only [List.map_cons, AL.get, if_neg (h p.1), ih]

end Lists

variable {m m' k : Nat} {NL EL : Type} {f : Id m → Id m'}

theorem hasNeighbor_ids (hf : StrictMono f) (nd : NodeMap m k) (x : Id m) :
    (nodeIds f nd).hasNeighbor (f x) = nd.hasNeighbor x := by
  have h := get_ids (F := id) hf nd.neighbors x
  simp only [id_eq, Option.map_id] at h
  simp only [NodeMap.hasNeighbor, nodeIds, h]

theorem getNeighbor_ids (hf : StrictMono f) (nd : NodeMap m k) (x : Id m) :
    (nodeIds f nd).getNeighbor (f x) = nd.getNeighbor x := by
  have h := get_ids (F := id) hf nd.neighbors x
  simp only [id_eq, Option.map_id] at h
  simp only [NodeMap.getNeighbor, nodeIds, h]

theorem addInEdge_ids (hf : StrictMono f) (nd : NodeMap m k) (x : Id m) :
    (nodeIds f nd).addInEdge (f x) = nodeIds f (nd.addInEdge x) := by
  unfold NodeMap.addInEdge NodeMap.hasInNeighbor
  have h : BSet.contains (nodeIds f nd).inNeighbors (f x) = BSet.contains nd.inNeighbors x :=
    contains_ids hf nd.inNeighbors x
  rw [h]
  split_ifs
  · rfl
  · simp only [nodeIds, sinsert_ids hf]

theorem addEdge_ids (hf : StrictMono f) (nd : NodeMap m k) (x : Id m) (l : Option (Id k)) :
    (nodeIds f nd).addEdge (f x) l = (nodeIds f (nd.addEdge x l).1, (nd.addEdge x l).2) := by
  unfold NodeMap.addEdge
  rw [hasNeighbor_ids hf]
  have h := binsert_ids (F := id) hf nd.neighbors x l
  simp only [id_eq] at h
  simp only [nodeIds, h]

theorem removeInEdge_ids (hf : StrictMono f) (nd : NodeMap m k) (x : Id m) :
    (nodeIds f nd).removeInEdge (f x) = nodeIds f (nd.removeInEdge x) := by
  simp only [NodeMap.removeInEdge, nodeIds, serase_ids hf]

theorem removeEdge_ids (hf : StrictMono f) (nd : NodeMap m k) (x : Id m) :
    (nodeIds f nd).removeEdge (f x) = (nodeIds f (nd.removeEdge x).1, (nd.removeEdge x).2.map (edgeIds f)) := by
  unfold NodeMap.removeEdge
  have h := get_ids (F := id) hf nd.neighbors x
  simp only [id_eq, Option.map_id] at h
  have h2 := erase_ids (F := id) hf nd.neighbors x
  simp only [id_eq] at h2
  have h' : AL.get (nodeIds f nd).neighbors (f x) = AL.get nd.neighbors x := h
  rw [h']
  cases AL.get nd.neighbors x with
  | none => rfl
  | some l => simp only [nodeIds, h2, Option.map_some, edgeIds]

theorem nonLess_ids (hf : StrictMono f) (nd : NodeMap m k) :
    (nodeIds f nd).nonLess = nd.nonLess.map (fun p => (f p.1, p.2)) := by
  simp only [NodeMap.nonLess, nodeIds, List.filter_map]
  congr 1
  refine List.filter_congr (fun p _ => ?_)
  simp [hf.le_iff_le]

end Verif.Proof.Ids
