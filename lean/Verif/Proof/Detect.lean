import Verif.Model.Detect
import Verif.Proof.Loops
import Verif.Proof.ConnCompGraph

/-! A loop that writes to something which outlives a panic, as turns over the edges the iterator yields. -/

namespace Verif

open Spec EdgeIter

variable {m k : Nat} {S : Type}

/-- The turns over a list of edges. -/
def writes (body : S → Edge m k → S × Option Panic) : S → List (Edge m k) → S × Option Panic
  | s, [] => (s, none)
  | s, e :: es =>
    match body s e with
    | (s, some p) => (s, some p)
    | (s, none) => writes body s es

/-- The edges that go with the pairs. -/
def dressed (ls : Option (List (Id k))) (l : List (Id m × Id m)) : List (Edge m k) :=
  match ls with
  | none => l.map (fun e => ⟨e.1, e.2, none⟩)
  | some ls => (l.zip ls).map (fun p => ⟨p.1.1, p.1.2, staticLabel p.2⟩)

/-- Whether the labels run out before the pairs do. -/
def short (ls : Option (List (Id k))) (l : List (Id m × Id m)) : Prop :=
  ∃ x, ls = some x ∧ x.length < l.length

instance (ls : Option (List (Id k))) (l : List (Id m × Id m)) : Decidable (short ls l) :=
  match ls with
  | none => .isFalse (by rintro ⟨x, h, -⟩; cases h)
  | some x => if h : x.length < l.length then .isTrue ⟨x, rfl, h⟩
    else .isFalse (by rintro ⟨y, h1, h2⟩; cases h1; exact h h2)

theorem each_trace (ev : EdgeVec m k) (d : Bool) (body : S → Edge m k → S × Option Panic) : ∀ F ls s it,
    each ev d body F ls s it =
      match writes body s (dressed ls (trace ev d F it).1) with
      | (s, some p) => (s, some p)
      | (s, none) => (s, if short ls (trace ev d F it).1 then none else (trace ev d F it).2) := by
  intro F
  induction F with
  | zero =>
    intro ls s it
    unfold each trace
    cases ls <;> simp [dressed, writes, short]
  | succ F ih =>
    intro ls s it
    unfold each trace
    cases next ev d (F + 1) it with
    | error p => cases ls <;> simp [dressed, writes, short]
    | ok o =>
      cases o with
      | none => cases ls <;> simp [dressed, writes, short]
      | some q =>
        obtain ⟨e, it'⟩ := q
        cases ls with
        | none =>
          simp only [dressed, List.map_cons, writes]
          rcases body s ⟨e.1, e.2, none⟩ with ⟨s', _ | p⟩
          · simp only [ih]
            simp [dressed, short]
          · rfl
        | some ls =>
          cases ls with
          | nil => simp [dressed, writes, short]
          | cons x xs =>
            simp only [dressed, List.zip_cons_cons, List.map_cons, writes]
            rcases body s ⟨e.1, e.2, staticLabel x⟩ with ⟨s', _ | p⟩
            · simp only [ih]
              simp [dressed, short]
            · rfl

theorem writes_detect : ∀ (es : List (Edge m k)) (E : List (Id m × Id m)) (c : ConnComp m), History E c →
    ∃ c', writes ConnComp.detectTurn c es = (c', none) ∧
      es.foldlM (fun c e => c.processEdge e.src e.dst) c = .ok c' ∧
      History (E ++ es.map (fun e => (e.src, e.dst))) c' := by
  intro es
  induction es with
  | nil => intro E c H; exact ⟨c, rfl, rfl, by simpa using H⟩
  | cons e es ih =>
    intro E c H
    obtain ⟨c1, h1, -⟩ := ConnComp.fold_history [e] E c H
    have h1 : c.processEdge e.src e.dst = .ok c1 := by
      simpa [List.foldlM_cons, List.foldlM_nil] using h1
    obtain ⟨c', a1, a2, a3⟩ := ih _ _ (.edge H h1)
    refine ⟨c', ?_, ?_, by simpa using a3⟩
    · unfold writes ConnComp.detectTurn
      rw [h1]
      exact a1
    · rw [List.foldlM_cons, h1, bind_ok]; exact a2

end Verif
