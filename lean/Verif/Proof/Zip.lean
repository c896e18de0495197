import Verif.Model.Mmap
import Verif.Proof.Csr

/-! The edge iterator zipped with the label slice. -/

namespace Verif

open Spec

variable {m k : Nat}

namespace EdgeIter

variable {ev : EdgeVec m k}

theorem skip_mono {f : Nat} : ∀ {it it' : EdgeIter} {F : Nat}, skipEmpty ev f it = .ok it' → f ≤ F →
    skipEmpty ev F it = .ok it' := by
  induction f with
  | zero => intro it it' F h; cases h
  | succ f ih =>
    intro it it' F h hF
    obtain ⟨F, rfl⟩ : ∃ G, F = G + 1 := ⟨F - 1, by omega⟩
    unfold skipEmpty at h ⊢
    obtain ⟨b, h1, h⟩ := bind_eq_ok h
    rw [h1, bind_ok]
    cases b with
    | false => exact h
    | true =>
      simp only [if_true] at h ⊢
      obtain ⟨d, h2, h⟩ := bind_eq_ok h
      rw [h2, bind_ok]
      by_cases hd : it.currIdx ≥ d
      · rw [if_pos hd] at h ⊢; exact ih h (by omega)
      · rw [if_neg hd] at h ⊢; exact h

theorem next_mono {d : Bool} {f : Nat} : ∀ {it : EdgeIter} {r : Option ((Id m × Id m) × EdgeIter)} {F : Nat},
    next ev d f it = .ok r → f ≤ F → next ev d F it = .ok r := by
  induction f with
  | zero => intro it r F h; cases h
  | succ f ih =>
    intro it r F h hF
    obtain ⟨F, rfl⟩ : ∃ G, F = G + 1 := ⟨F - 1, by omega⟩
    unfold next at h ⊢
    obtain ⟨it1, h1, h⟩ := bind_eq_ok h
    rw [skip_mono h1 hF, bind_ok]
    obtain ⟨b, h2, h⟩ := bind_eq_ok h
    rw [h2, bind_ok]
    cases b with
    | false => exact h
    | true =>
      simp only [if_true] at h ⊢
      obtain ⟨nb, h3, h⟩ := bind_eq_ok h
      rw [h3, bind_ok]
      obtain ⟨o, h4, h⟩ := bind_eq_ok h
      rw [h4, bind_ok]
      cases o with
      | some i => exact h
      | none => exact ih h (by omega)

/-- If the iterator ends, zipping it is zipping what it yields. -/
theorem zip_of_collect {X : Type} {d : Bool} {f : Nat} : ∀ {it : EdgeIter} {es : List (Id m × Id m)} {F : Nat},
    collect ev d f it = .ok es → f ≤ F → ∀ ls : List X, zip ev d F ls it = .ok (es.zip ls) := by
  induction f with
  | zero => intro it es F h; cases h
  | succ f ih =>
    intro it es F h hF ls
    unfold collect at h
    obtain ⟨r, h1, h⟩ := bind_eq_ok h
    have hn := next_mono h1 hF
    cases ls with
    | nil => unfold zip; rw [hn, bind_ok, List.zip_nil_right]; rfl
    | cons x xs =>
      unfold zip
      rw [hn, bind_ok]
      cases r with
      | none => cases h; rfl
      | some p =>
        obtain ⟨l, h2, h⟩ := bind_eq_ok h
        cases h
        simp only
        rw [ih h2 (by omega) xs, bind_ok]; rfl

end EdgeIter

theorem labelled_of {ev : EdgeVec m k} {d : Bool} {es : List (Id m × Id m)} (h : ev.edgeIndices d = .ok es) :
    ev.labelled d = .ok (es.zip ev.getLabels) := EdgeIter.zip_of_collect h (by omega) _

variable {NL EL : Type}

theorem StaticGraph.edges_of {g : StaticGraph m k NL EL} {es : List (Id m × Id m)} (h : g.edgeIndices = .ok es) :
    g.edges = .ok (if g.edgeVec.getLabels = [] then es.map (fun e => ⟨e.1, e.2, none⟩)
      else (es.zip g.edgeVec.getLabels).map (fun p => ⟨p.1.1, p.1.2, staticLabel p.2⟩)) := by
  unfold edges
  rw [h, labelled_of h]
  split <;> rfl

theorem MmapGraph.edgeList_of {g : MmapGraph m k NL EL} {es : List (Id m × Id m)} (h : g.edgeIndices = .ok es) :
    g.edgeList = .ok (if g.edges.getLabels = [] then es.map (fun e => ⟨e.1, e.2, none⟩)
      else (es.zip g.edges.getLabels).map (fun p => ⟨p.1.1, p.1.2, staticLabel p.2⟩)) := by
  unfold edgeList
  rw [h, labelled_of h]
  split <;> rfl

end Verif
