import Verif.Spec.AnySets
import Verif.Spec.ConnComp

/-! What `ConnSubgraph` asks a graph of which nothing is known, and in which order its parts come. -/

namespace Verif.Spec

open GraphMap

variable {m k : Nat} {NL EL : Type}

open Classical in
/-- The members of a list that are not related to an earlier one. -/
noncomputable def heads {X : Type} (R : X → X → Prop) : List X → List X
  | [] => []
  | x :: l => x :: (heads R l).filter (fun y => ¬ R x y)

/-- The pairs `edges` lists. -/
def joinedBy (g : GView m k NL EL) : List (Id m × Id m) := g.edges.map (fun e => (e.src, e.dst))

open Classical in
/-- For every listed node the node and the `add_node` made for it; or the panic, if none of the listed edges has the
node or its label cannot be had. -/
noncomputable def partNodes (g : GView m k NL EL) : List (Res (Id m × Op m k NL EL)) :=
  g.nodeIndices.map (fun n => if Occurs (joinedBy g) n then (g.getNodeLabel n).map (fun l => (n, Op.addNode n l))
    else .error .nodeMissing)

/-- For every listed edge its start and the `add_edge` made for it; or the panic, if its label cannot be had. -/
def partEdges (g : GView m k NL EL) : List (Res (Id m × Op m k NL EL)) :=
  g.edges.map (fun e => (g.getEdgeLabel e.src e.dst).map (fun l => (e.src, Op.addEdge e.src e.dst l)))

/-- All of it. -/
noncomputable def partCalls (g : GView m k NL EL) : List (Res (Id m × Op m k NL EL)) := partNodes g ++ partEdges g

end Verif.Spec
