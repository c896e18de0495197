import Verif.Model.Static

/-! Adjacencies as a file may give them: nothing is known of the offsets. -/

namespace Verif.Spec

variable {m k : Nat}

/-- The two offsets of row `n` are there. -/
def Bounds (ev : EdgeVec m k) (n a b : Nat) : Prop := ev.offsets[n]? = some a ∧ ev.offsets[n + 1]? = some b

/-- Row `n` is there and lies within the edges. -/
def RowThere (ev : EdgeVec m k) (n : Nat) : Prop := ∃ a b, Bounds ev n a b ∧ a ≤ b ∧ b ≤ ev.edges.length

/-- Row `n` is there and lies within the edges or is empty. -/
def Passable (ev : EdgeVec m k) (n : Nat) : Prop :=
  ∃ a b, Bounds ev n a b ∧ a ≤ b ∧ (a = b ∨ b ≤ ev.edges.length)

/-- The entries of row `n`, as far as they are there. -/
def rowOf (ev : EdgeVec m k) (n : Nat) : List (Id m) :=
  (ev.edges.take (ev.offsets.getD (n + 1) 0)).drop (ev.offsets.getD n 0)

/-- The edges an enumeration should list: row by row; undirected only those with `start <= target`. -/
def rowPairs (ev : EdgeVec m k) (directed : Bool) : List (Id m × Id m) :=
  (List.range (ev.offsets.length - 1)).flatMap (fun n =>
    ((rowOf ev n).filter (fun t => directed || decide (n ≤ t.val))).map (fun t => (Id.new n, t)))

end Verif.Spec
