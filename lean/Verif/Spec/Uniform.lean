import Verif.Model.Gen

/-! Streams of draws some of which vary, the rest fixed. -/

namespace Verif.Spec

/-- The stream `r` with the `q` words from position `off` on replaced by `w`. -/
def withWords (r : Rng) (off : Nat) {q : Nat} {b : Fin q → Nat} (w : (i : Fin q) → Fin (b i)) : Rng :=
  fun i => if h : off ≤ i ∧ i - off < q then { r i with word := w ⟨i - off, h.2⟩ } else r i

/-- The stream `r` with its first `q` draws replaced. -/
def withDraws (r : Rng) {q : Nat} (w : Fin q → Draw) : Rng :=
  fun i => if h : i < q then w ⟨i, h⟩ else r i

end Verif.Spec
