import Verif.Spec.Loops

/-! What an enumeration makes of rows that need not be sorted. -/

namespace Verif.Spec

variable {m k : Nat}

/-- Where a binary search of the row of node `n` for `n` ends. -/
def landing (nb : List (Id m)) (n : Nat) : Nat :=
  match binarySearch nb (Id.new n) with
  | .ok (.found i) => i
  | .ok (.missing i) => i
  | .error _ => 0

/-- The entries of the row of node `n` that are listed: all if the graph is directed or none is less than `n`; else
those before the first such entry and those from the landing of the search on. -/
def shown (directed : Bool) (n : Nat) (nb : List (Id m)) : List (Id m) :=
  if directed = true ∨ ∀ t ∈ nb, n ≤ t.val then nb
  else nb.takeWhile (fun t => decide (n ≤ t.val)) ++ nb.drop (landing nb n)

/-- No entry less than `n` comes after the landing of the search. -/
def Settles (directed : Bool) (n : Nat) (nb : List (Id m)) : Prop :=
  directed = true ∨ (∀ t ∈ nb, n ≤ t.val) ∨ ∀ t ∈ nb.drop (landing nb n + 1), n ≤ t.val

/-- The pairs listed for the first `j` rows. -/
def shownBefore (ev : EdgeVec m k) (directed : Bool) (j : Nat) : List (Id m × Id m) :=
  (List.range j).flatMap (fun n => (shown directed n (rowOf ev n)).map (fun t => (Id.new n, t)))

/-- The rows before `j` are gone through; row `j` is not there, or can not be passed, or does not settle. -/
def GetsTo (ev : EdgeVec m k) (directed : Bool) (j : Nat) : Prop :=
  j + 1 ≤ ev.offsets.length ∧ (∀ n, n < j → Passable ev n ∧ Settles directed n (rowOf ev n)) ∧
    (j + 1 = ev.offsets.length ∨ ¬ Passable ev j ∨ ¬ Settles directed j (rowOf ev j))

end Verif.Spec
