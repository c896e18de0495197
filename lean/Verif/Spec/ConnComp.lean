import Mathlib.Data.Set.Card
import Mathlib.Logic.Relation
import Verif.Model.ConnComp
import Verif.Spec.View

/-! Connectivity of a list of edges, and the histories of a `ConnComp`. -/

namespace Verif.Spec

variable {m k : Nat}

/-- `n` is an endpoint of one of the edges. -/
def Occurs (E : List (Id m × Id m)) (n : Id m) : Prop := ∃ e ∈ E, n = e.1 ∨ n = e.2

/-- Linked by a path of edges walked in either direction. -/
def Linked (E : List (Id m × Id m)) : Id m → Id m → Prop :=
  Relation.EqvGen (fun a b => (a, b) ∈ E)

/-- The connected component of a node. -/
def component (E : List (Id m × Id m)) (n : Id m) : Set (Id m) := {x | Linked E n x}

/-- The connected components of the nodes that occur in an edge. -/
def components (E : List (Id m × Id m)) : Set (Set (Id m)) :=
  {C | ∃ n, Occurs E n ∧ C = component E n}

/-- Some edge of the graph starts or ends at `n`. -/
def AGraph.Touched {NL EL : Type} (A : AGraph (Id m) NL EL) (n : Id m) : Prop :=
  ∃ t, (A.edge n t).isSome ∨ (A.edge t n).isSome

/-- Linked by a path of edges of the graph walked in either direction. -/
def AGraph.Connected {NL EL : Type} (A : AGraph (Id m) NL EL) : Id m → Id m → Prop :=
  Relation.EqvGen (fun s t => (A.edge s t).isSome)

/-- `History E c`: some sequence of calls leads from the empty `ConnComp` to the state `c`, and `E` are
the edges processed since the last reset, in order. Queries are calls too, since they write to the parent
map; the hash map may be laid out anew at any time. -/
inductive History : List (Id m × Id m) → ConnComp m → Prop where
  | empty : History [] ConnComp.empty
  | edge {E c x y c'} : History E c → c.processEdge x y = .ok c' → History (E ++ [(x, y)]) c'
  | root {E c n c' r} : History E c → c.getRoot n = .ok (c', r) → History E c'
  | connected {E c a b c' r} : History E c → c.isConnected a b = .ok (c', r) → History E c'
  | nodes {E c n c' r} : History E c → c.getConnectedNodes n = .ok (c', r) → History E c'
  | reset {E c} : History E c → History [] c.reset
  | rehash {E c p} : History E c → c.parent.Perm p → History E ⟨p, c.count⟩

/-- The calls a program can make on a `ConnComp`, apart from `parent` and `get_parent`, which show the path
compression. -/
inductive Call (m : Nat) where
  | edge (x y : Id m)
  | root (n : Id m)
  | connected (a b : Id m)
  | nodes (n : Id m)
  | count
  | reset

/-- What a call returns. -/
inductive Answer (m : Nat) where
  | unit
  | id (r : Option (Id m))
  | bool (b : Bool)
  | list (l : Option (List (Id m)))
  | nat (n : Nat)
deriving DecidableEq

/-- One call. -/
def call (c : ConnComp m) : Call m → Res (ConnComp m × Answer m)
  | .edge x y => do let c ← c.processEdge x y; pure (c, .unit)
  | .root n => do let r ← c.getRoot n; pure (r.1, .id r.2)
  | .connected a b => do let r ← c.isConnected a b; pure (r.1, .bool r.2)
  | .nodes n => do let r ← c.getConnectedNodes n; pure (r.1, .list r.2)
  | .count => pure (c, .nat c.getCount)
  | .reset => pure (c.reset, .unit)

/-- The answers to a sequence of calls, or the panic that ends it. -/
def script (c : ConnComp m) : List (Call m) → Res (List (Answer m))
  | [] => pure []
  | q :: qs => do
    let r ← call c q
    let rest ← script r.1 qs
    pure (r.2 :: rest)

end Verif.Spec
