import Verif.Model.View

/-! Comparing two graphs of which nothing is known. -/

namespace Verif.Spec

variable {m k k' : Nat} {NL EL : Type}

/-- The two graphs give the same label for node `n`, which the second one has. -/
def NodeSame (g : GView m k NL EL) (h : GView m k' NL EL) (n : Id m) : Prop :=
  h.hasNode n = true ∧ ∃ l, g.getNodeLabel n = .ok l ∧ h.getNodeLabel n = .ok l

/-- The second graph does not have node `n`, or with another label. -/
def NodeOther (g : GView m k NL EL) (h : GView m k' NL EL) (n : Id m) : Prop :=
  h.hasNode n = false ∨ ∃ l l', g.getNodeLabel n = .ok l ∧ h.getNodeLabel n = .ok l' ∧ l ≠ l'

/-- Asking one of the graphs for the label of node `n`, the first one first, panics. -/
def NodeStops (g : GView m k NL EL) (h : GView m k' NL EL) (n : Id m) (p : Panic) : Prop :=
  h.hasNode n = true ∧
    (g.getNodeLabel n = .error p ∨ (∃ l, g.getNodeLabel n = .ok l) ∧ h.getNodeLabel n = .error p)

/-- The same for the edge from `e.1` to `e.2`. -/
def EdgeSame (g : GView m k NL EL) (h : GView m k' NL EL) (e : Id m × Id m) : Prop :=
  h.hasEdge e.1 e.2 = .ok true ∧ ∃ l, g.getEdgeLabel e.1 e.2 = .ok l ∧ h.getEdgeLabel e.1 e.2 = .ok l

/-- The second graph does not have the edge, or with another label. -/
def EdgeOther (g : GView m k NL EL) (h : GView m k' NL EL) (e : Id m × Id m) : Prop :=
  h.hasEdge e.1 e.2 = .ok false ∨
    ∃ l l', h.hasEdge e.1 e.2 = .ok true ∧ g.getEdgeLabel e.1 e.2 = .ok l ∧ h.getEdgeLabel e.1 e.2 = .ok l' ∧ l ≠ l'

/-- One of the three questions about the edge panics, the earlier ones being answered. -/
def EdgeStops (g : GView m k NL EL) (h : GView m k' NL EL) (e : Id m × Id m) (p : Panic) : Prop :=
  h.hasEdge e.1 e.2 = .error p ∨ h.hasEdge e.1 e.2 = .ok true ∧
    (g.getEdgeLabel e.1 e.2 = .error p ∨
      (∃ l, g.getEdgeLabel e.1 e.2 = .ok l) ∧ h.getEdgeLabel e.1 e.2 = .error p)

/-- Some item of the list has the second property, those before it the first one. -/
def FirstIs {X : Type} (P Q : X → Prop) (l : List X) : Prop :=
  ∃ a x b, l = a ++ x :: b ∧ (∀ y ∈ a, P y) ∧ Q x

/-- All nodes and edges the first graph lists are the same in the second one. -/
def AllSame (g : GView m k NL EL) (h : GView m k' NL EL) : Prop :=
  (∀ n ∈ g.nodeIndices, NodeSame g h n) ∧ ∀ e ∈ g.edgeIndices, EdgeSame g h e

/-- The first item, nodes before edges, that is not the same is another one in the second graph. -/
def SomeOther (g : GView m k NL EL) (h : GView m k' NL EL) : Prop :=
  FirstIs (NodeSame g h) (NodeOther g h) g.nodeIndices ∨
    (∀ n ∈ g.nodeIndices, NodeSame g h n) ∧ FirstIs (EdgeSame g h) (EdgeOther g h) g.edgeIndices

/-- The first item that is not the same panics. -/
def SomeStops (g : GView m k NL EL) (h : GView m k' NL EL) (p : Panic) : Prop :=
  FirstIs (NodeSame g h) (NodeStops g h · p) g.nodeIndices ∨
    (∀ n ∈ g.nodeIndices, NodeSame g h n) ∧ FirstIs (EdgeSame g h) (EdgeStops g h · p) g.edgeIndices

/-- The numbers `equal` looks at first. -/
def SameSizes (g : GView m k NL EL) (h : GView m k' NL EL) : Prop :=
  g.directed = h.directed ∧ g.nodeCount = h.nodeCount ∧ g.edgeCount = h.edgeCount

end Verif.Spec
