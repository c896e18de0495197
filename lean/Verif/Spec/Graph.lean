import Verif.Model.GraphMap
import Mathlib.Data.Fintype.Prod
import Mathlib.Data.Fintype.Basic

/-!
Specification of a labelled graph as a pair of partial maps, independent of the representation.
Only the type `Op` of public calls is shared with the model.
-/

namespace Verif.Spec

/-- A labelled graph: `node n = none` — absent, `some l` — present with optional label `l`;
`edge s t` likewise. -/
structure AGraph (I NL EL : Type) where
  node : I → Option (Option NL)
  edge : I → I → Option (Option EL)

namespace AGraph

variable {I NL EL : Type} [DecidableEq I]

/-- The graph without nodes. -/
def empty : AGraph I NL EL := ⟨fun _ => none, fun _ _ => none⟩

/-- Insert a node or overwrite its label. -/
def addNode (g : AGraph I NL EL) (n : I) (l : Option NL) : AGraph I NL EL :=
  { g with node := fun x => if x = n then some l else g.node x }

/-- Delete a node with all incident edges. -/
def removeNode (g : AGraph I NL EL) (n : I) : AGraph I NL EL where
  node := fun x => if x = n then none else g.node x
  edge := fun s t => if s = n ∨ t = n then none else g.edge s t

/-- Is `(a, b)` the edge `(s, t)`? Undirected edges have no orientation. -/
def same (directed : Bool) (s t a b : I) : Prop :=
  (a = s ∧ b = t) ∨ (directed = false ∧ a = t ∧ b = s)

instance (directed : Bool) (s t a b : I) : Decidable (same directed s t a b) :=
  inferInstanceAs (Decidable (_ ∨ _))

/-- Insert an edge or overwrite its label; missing endpoints appear unlabelled. -/
def addEdge (directed : Bool) (g : AGraph I NL EL) (s t : I) (l : Option EL) : AGraph I NL EL where
  node := fun x => if (x = s ∨ x = t) ∧ g.node x = none then some none else g.node x
  edge := fun a b => if same directed s t a b then some l else g.edge a b

/-- Delete an edge. -/
def removeEdge (directed : Bool) (g : AGraph I NL EL) (s t : I) : AGraph I NL EL :=
  { g with edge := fun a b => if same directed s t a b then none else g.edge a b }

/-- Overwrite the label of a present node. -/
def updateNodeLabel (g : AGraph I NL EL) (n : I) (l : Option NL) : AGraph I NL EL :=
  if (g.node n).isSome then g.addNode n l else g

/-- Overwrite the label of a present edge. -/
def updateEdgeLabel (directed : Bool) (g : AGraph I NL EL) (s t : I) (l : Option EL) :
    AGraph I NL EL :=
  if (g.edge s t).isSome then
    { g with edge := fun a b => if same directed s t a b then some l else g.edge a b }
  else g

/-- The number of edges, an undirected edge counted once. -/
def edgeNumber {I NL EL : Type} [LinearOrder I] [Fintype I] (directed : Bool)
    (g : AGraph I NL EL) : Nat :=
  (Finset.univ.filter (fun p : I × I =>
    (g.edge p.1 p.2).isSome ∧ (directed = true ∨ p.1 ≤ p.2))).card

end AGraph

/-- What a call does to the abstract graph. Calls that write raw label ids leave the structure alone;
their effect on labels is not described here. -/
def step {m k : Nat} {NL EL : Type} (directed : Bool) (g : AGraph (Id m) NL EL) :
    Op m k NL EL → AGraph (Id m) NL EL
  | .addNode n l => g.addNode n l
  | .removeNode n => g.removeNode n
  | .addEdge s t l => g.addEdge directed s t l
  | .removeEdge s t => g.removeEdge directed s t
  | .updateNodeLabel n l => g.updateNodeLabel n l
  | .updateEdgeLabel s t l => g.updateEdgeLabel directed s t l
  | .addNodeLabel _ | .addEdgeLabel _ | .refineEdgeCount => g
  | .setNodeLabelId _ _ | .setEdgeLabelId _ _ _ | .mapNodeLabelIds _ | .mapEdgeLabelIds _ => g

/-- The abstract graph after a history. -/
def run {m k : Nat} {NL EL : Type} (directed : Bool) (ops : List (Op m k NL EL)) :
    AGraph (Id m) NL EL :=
  ops.foldl (step directed) AGraph.empty

/-- The call goes through labels, never through raw label ids. -/
def labelOnly {m k : Nat} {NL EL : Type} : Op m k NL EL → Bool
  | .setNodeLabelId _ _ | .setEdgeLabelId _ _ _ | .mapNodeLabelIds _ | .mapEdgeLabelIds _ => false
  | _ => true

end Verif.Spec
