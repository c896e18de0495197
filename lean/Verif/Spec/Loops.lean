import Verif.Model.Loops
import Verif.Spec.RawCsr

/-! What a loop over the edges of an adjacency from any file should do. -/

namespace Verif.Spec

variable {m k : Nat} {S R : Type}

/-- The turns of a loop over a list. -/
def turns (body : S → Id m × Id m → Res (Turn S R)) : S → List (Id m × Id m) → Res (Turn S R)
  | s, [] => pure (.on s)
  | s, e :: es => do
    match ← body s e with
    | .on s => turns body s es
    | .leave r => pure (.leave r)

/-- The edges listed for the first `j` rows. -/
def pairsBefore (ev : EdgeVec m k) (directed : Bool) (j : Nat) : List (Id m × Id m) :=
  (List.range j).flatMap (fun n =>
    ((rowOf ev n).filter (fun t => directed || decide (n ≤ t.val))).map (fun t => (Id.new n, t)))

/-- The rows before `j` can be passed, row `j` can not or is not there. -/
def Reaches (ev : EdgeVec m k) (j : Nat) : Prop :=
  j + 1 ≤ ev.offsets.length ∧ (∀ n, n < j → Passable ev n) ∧ (j + 1 = ev.offsets.length ∨ ¬ Passable ev j)

/-- The panic at a row that can not be passed. -/
def rowPanic (ev : EdgeVec m k) (j : Nat) : Panic :=
  if ev.offsets.getD (j + 1) 0 < ev.offsets.getD j 0 then .underflow else .indexOutOfBounds

end Verif.Spec
