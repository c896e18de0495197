import Verif.Spec.Ldbc
import Verif.Model.GraphMap

/-! What loading LDBC data amounts to when ids wrap around. -/

namespace Verif.Spec

open Ldbc

variable {m k : Nat}

/-- The node for a key: the keys in the order in which they are first mentioned take `0, 1, .., m`; all further
keys take `0`. -/
def seat (ks : List Text) (key : Text) : Id m :=
  if ks.idxOf key ≤ m then Id.new (ks.idxOf key) else Id.new 0

/-- A key that was not mentioned before is entered with its kind as label. -/
def enter (ks : List Text) (key kind : Text) : List (Op m k Text Text) :=
  if key ∈ ks then [] else [.addNode (seat (mention ks key) key) (some kind)]

/-- The calls for one record, when `ks` were mentioned before. -/
def callsOf (ks : List Text) : Event → List (Op m k Text Text)
  | .node key l => [.addNode (seat (mention ks key) key) (some l)]
  | .edge s kindS t kindT l =>
    enter ks s kindS ++ enter (mention ks s) t kindT ++
      [.addEdge (seat (mention (mention ks s) t) s) (seat (mention (mention ks s) t) t) (some l)]

/-- The calls for all records. -/
def calls : List Text → List Event → List (Op m k Text Text)
  | _, [] => []
  | ks, e :: es => callsOf ks e ++ calls (e.keys.foldl mention ks) es

end Verif.Spec
