import Verif.Model.Collections
import Mathlib.Data.List.Nodup
import Mathlib.Data.List.Perm.Basic
import Mathlib.Data.List.Pairwise
import Mathlib.Tactic.Common

/-! Helper lemmas about the list models of the standard collections. -/

namespace Verif

namespace AL

variable {K V : Type} [DecidableEq K]

theorem get_cons (a : K) (v : V) (l : List (K × V)) (k : K) :
    get ((a, v) :: l) k = if a = k then some v else get l k := rfl

theorem get_isSome_iff (l : List (K × V)) (k : K) : (get l k).isSome ↔ k ∈ keys l := by
  induction l with
  | nil => simp [get, keys]
  | cons p l ih =>
    obtain ⟨a, v⟩ := p
    by_cases h : a = k
    · simp [get_cons, h, keys]
    · simp only [get_cons, h, if_false, ih, keys, List.map_cons, List.mem_cons]
      constructor
      · exact Or.inr
      · rintro (h' | h')
        · exact absurd h'.symm h
        · exact h'

theorem get_eq_none_iff (l : List (K × V)) (k : K) : get l k = none ↔ k ∉ keys l := by
  rw [← get_isSome_iff]; simp

theorem get_mem {l : List (K × V)} {k : K} {v : V} (h : get l k = some v) : (k, v) ∈ l := by
  induction l with
  | nil => simp [get] at h
  | cons p l ih =>
    obtain ⟨a, w⟩ := p
    rw [get_cons] at h
    split at h
    · rename_i hk; cases h; subst hk; simp
    · exact List.mem_cons_of_mem _ (ih h)

theorem get_eq_of_mem {l : List (K × V)} (hn : (keys l).Nodup) {k : K} {v : V} (h : (k, v) ∈ l) :
    get l k = some v := by
  induction l with
  | nil => simp at h
  | cons p l ih =>
    obtain ⟨a, w⟩ := p
    simp only [keys, List.map_cons, List.nodup_cons] at hn
    rcases List.mem_cons.1 h with h | h
    · cases h; simp [get_cons]
    · have hk : a ≠ k := by
        rintro rfl
        exact hn.1 (List.mem_map.2 ⟨_, h, rfl⟩)
      simp [get_cons, hk, ih hn.2 h]

theorem mem_iff_get {l : List (K × V)} (hn : (keys l).Nodup) {k : K} {v : V} :
    (k, v) ∈ l ↔ get l k = some v := ⟨get_eq_of_mem hn, get_mem⟩

theorem get_perm {l l' : List (K × V)} (hn : (keys l).Nodup) (hp : l.Perm l') (k : K) :
    get l' k = get l k := by
  have hn' : (keys l').Nodup := (hp.map Prod.fst).nodup_iff.1 hn
  apply Option.ext
  intro v
  show get l' k = some v ↔ get l k = some v
  rw [← mem_iff_get hn', ← mem_iff_get hn, hp.mem_iff]

theorem get_erase (l : List (K × V)) (k k' : K) :
    get (erase l k) k' = if k = k' then none else get l k' := by
  induction l with
  | nil => simp [erase, get]
  | cons p l ih =>
    obtain ⟨a, v⟩ := p
    unfold erase at *
    by_cases h : a = k
    · subst h
      simp only [List.filter_cons, not_true, decide_false, Bool.false_eq_true, if_false, ih, get_cons]
      split <;> simp_all
    · simp only [List.filter_cons, h, not_false_eq_true, decide_true, if_true, get_cons, ih]
      split
      · rename_i h2; subst h2; simp [Ne.symm h]
      · rfl

theorem keys_erase (l : List (K × V)) (k : K) : keys (erase l k) = (keys l).filter (fun a => ¬ a = k) := by
  unfold keys erase
  rw [List.filter_map]
  rfl

theorem keys_set (l : List (K × V)) (k : K) (v : V) : keys (set l k v) = keys l := by
  unfold keys set
  rw [List.map_map]
  apply List.map_congr_left
  intro p _
  simp only [Function.comp]
  split <;> rfl

theorem get_set (l : List (K × V)) (k : K) (v : V) (k' : K) :
    get (set l k v) k' = if k = k' then (get l k).map (fun _ => v) else get l k' := by
  induction l with
  | nil => simp [set, get]
  | cons p l ih =>
    obtain ⟨a, w⟩ := p
    unfold set at *
    by_cases h : a = k
    · subst h
      simp only [List.map_cons, if_true, get_cons, ih]
      split <;> simp
    · simp only [List.map_cons, h, if_false, get_cons, ih]
      by_cases h2 : a = k'
      · subst h2; simp [Ne.symm h]
      · simp [h2]

theorem get_append_single (l : List (K × V)) (k : K) (v : V) (k' : K) (h : get l k = none) :
    get (l ++ [(k, v)]) k' = if k = k' then some v else get l k' := by
  induction l with
  | nil => simp [get]
  | cons p l ih =>
    obtain ⟨a, w⟩ := p
    rw [get_cons] at h
    split at h
    · cases h
    · rename_i ha
      simp only [List.cons_append, get_cons, ih h]
      by_cases h2 : a = k'
      · subst h2; simp [Ne.symm ha]
      · simp [h2]

theorem get_hinsert (l : List (K × V)) (k : K) (v : V) (k' : K) :
    get (hinsert l k v) k' = if k = k' then some v else get l k' := by
  unfold hinsert
  split
  · rename_i h
    rw [get_set]
    obtain ⟨w, hw⟩ := Option.isSome_iff_exists.1 h
    simp [hw]
  · rename_i h
    exact get_append_single l k v k' (by simpa using h)

theorem keys_hinsert (l : List (K × V)) (k : K) (v : V) :
    keys (hinsert l k v) = if k ∈ keys l then keys l else keys l ++ [k] := by
  unfold hinsert
  by_cases h : k ∈ keys l
  · simp [(get_isSome_iff l k).2 h, keys_set, h]
  · have : ¬ (get l k).isSome := fun h' => h ((get_isSome_iff l k).1 h')
    rw [if_neg this, if_neg h]
    simp [keys]

theorem keys_hinsert_nodup {l : List (K × V)} (hn : (keys l).Nodup) (k : K) (v : V) :
    (keys (hinsert l k v)).Nodup := by
  rw [keys_hinsert]
  split
  · exact hn
  · rename_i h
    rw [List.nodup_append]
    refine ⟨hn, by simp, ?_⟩
    rintro a ha b hb rfl
    simp at hb; exact h (hb ▸ ha)

end AL

namespace AL

variable {K V : Type} [LinearOrder K]

theorem get_binsert (l : List (K × V)) (k : K) (v : V) (k' : K) :
    get (binsert l k v) k' = if k = k' then some v else get l k' := by
  induction l with
  | nil => simp [binsert, get]
  | cons p l ih =>
    obtain ⟨a, w⟩ := p
    unfold binsert
    split
    · simp [get_cons]
    · split
      · rename_i h; subst h
        simp only [get_cons]
        split <;> rfl
      · rename_i h1 h2
        simp only [get_cons, ih]
        by_cases h3 : a = k'
        · subst h3; simp [h2]
        · simp [h3]

theorem mem_keys_binsert (l : List (K × V)) (k : K) (v : V) (x : K) :
    x ∈ keys (binsert l k v) ↔ x = k ∨ x ∈ keys l := by
  rw [← get_isSome_iff, get_binsert, ← get_isSome_iff]
  by_cases h : k = x
  · simp [h]
  · simp [h, Ne.symm h]

theorem sorted_binsert {l : List (K × V)} (hs : (keys l).Pairwise (· < ·)) (k : K) (v : V) :
    (keys (binsert l k v)).Pairwise (· < ·) := by
  induction l with
  | nil => simp [binsert, keys]
  | cons p l ih =>
    obtain ⟨a, w⟩ := p
    simp only [keys, List.map_cons, List.pairwise_cons] at hs
    unfold binsert
    split
    · rename_i h
      simp only [keys, List.map_cons, List.pairwise_cons, List.mem_cons]
      refine ⟨?_, hs.1, hs.2⟩
      rintro b (rfl | hb)
      · exact h
      · exact lt_trans h (hs.1 b hb)
    · split
      · rename_i h; subst h
        simp only [keys, List.map_cons, List.pairwise_cons]
        exact hs
      · rename_i h1 h2
        show List.Pairwise _ (a :: keys (binsert l k v))
        rw [List.pairwise_cons]
        refine ⟨?_, ih hs.2⟩
        intro b hb
        rcases (mem_keys_binsert l k v b).1 hb with rfl | hb
        · exact lt_of_le_of_ne (not_lt.1 h1) (Ne.symm h2)
        · exact hs.1 b hb

theorem sorted_erase {l : List (K × V)} (hs : (keys l).Pairwise (· < ·)) (k : K) :
    (keys (erase l k)).Pairwise (· < ·) := by
  rw [keys_erase]; exact hs.filter _

end AL

namespace BSet

variable {K : Type} [LinearOrder K]

theorem mem_sinsert (l : List K) (k x : K) : x ∈ sinsert l k ↔ x = k ∨ x ∈ l := by
  induction l with
  | nil => simp [sinsert]
  | cons a l ih =>
    unfold sinsert
    split
    · simp
    · split
      · rename_i h; subst h; simp
      · simp only [List.mem_cons, ih]; tauto

theorem sorted_sinsert {l : List K} (hs : l.Pairwise (· < ·)) (k : K) :
    (sinsert l k).Pairwise (· < ·) := by
  induction l with
  | nil => simp [sinsert]
  | cons a l ih =>
    rw [List.pairwise_cons] at hs
    unfold sinsert
    split
    · rename_i h
      simp only [List.pairwise_cons, List.mem_cons]
      refine ⟨?_, hs.1, hs.2⟩
      rintro b (rfl | hb)
      · exact h
      · exact lt_trans h (hs.1 b hb)
    · split
      · rw [List.pairwise_cons]; exact hs
      · rename_i h1 h2
        rw [List.pairwise_cons]
        refine ⟨?_, ih hs.2⟩
        intro b hb
        rcases (mem_sinsert l k b).1 hb with rfl | hb
        · exact lt_of_le_of_ne (not_lt.1 h1) (Ne.symm h2)
        · exact hs.1 b hb

theorem mem_erase (l : List K) (k x : K) : x ∈ erase l k ↔ x ∈ l ∧ x ≠ k := by
  simp [erase]

theorem sorted_erase {l : List K} (hs : l.Pairwise (· < ·)) (k : K) :
    (erase l k).Pairwise (· < ·) := hs.filter _

end BSet

/-- A strictly sorted list has no repeats. -/
theorem sorted_nodup {K : Type} [LinearOrder K] {l : List K} (h : l.Pairwise (· < ·)) : l.Nodup :=
  h.imp (fun h => ne_of_lt h)

/-- A strictly sorted list is determined by its members. -/
theorem sorted_ext {K : Type} [LinearOrder K] {l l' : List K} (h : l.Pairwise (· < ·))
    (h' : l'.Pairwise (· < ·)) (hm : ∀ x, x ∈ l ↔ x ∈ l') : l = l' := by
  have hp : l.Perm l' := (List.perm_ext_iff_of_nodup (sorted_nodup h) (sorted_nodup h')).2 hm
  exact hp.eq_of_pairwise (fun a b _ _ h1 h2 => absurd (lt_trans h1 h2) (lt_irrefl _)) h h'

end Verif
