import Verif.Model.Mmap
import Mathlib.Data.Fintype.Prod
import Mathlib.Data.Finset.Card

/-! How much of a graph there is to write. -/

namespace Verif.GraphMap

variable {m k : Nat} {NL EL : Type}

/-- How many pairs of nodes, in order, have an edge. An undirected edge with two ends counts twice. -/
def arcs (g : GraphMap m k NL EL) : Nat :=
  (Finset.univ.filter (fun q : Id m × Id m => g.hasEdge q.1 q.2 = true)).card

/-- Whether an edge has a label id. -/
def edgeMarked (g : GraphMap m k NL EL) (s t : Id m) : Bool :=
  match g.getEdge s t with
  | .ok (some e) => e.label.isSome
  | _ => false

/-- How many of them have a label id. -/
def labelledArcs (g : GraphMap m k NL EL) : Nat :=
  (Finset.univ.filter (fun q : Id m × Id m => g.edgeMarked q.1 q.2 = true)).card

/-- How many nodes have a label id. -/
def labelledNodes (g : GraphMap m k NL EL) : Nat :=
  (Finset.univ.filter (fun n : Id m => ((g.getNode n).bind (·.label)).isSome = true)).card

end Verif.GraphMap

namespace Verif

/-- The bytes all labels of a table take. -/
def labelBytes {X : Type} (c : Codec X) (s : SetMap X) : Nat := (s.items.map (fun x => (c.bytes x).length)).sum

variable {m k : Nat} {NL EL : Type}

/-- The room dumping an adjacency takes: one unit for each file and one for each of its bytes. -/
def EdgeVec.dumpRoom (w v : Nat) (ev : EdgeVec m k) : Nat :=
  2 + 8 * ev.offsets.length + w * ev.edges.length +
    if ev.getLabels = [] then 0 else 1 + v * ev.getLabels.length

/-- The room dumping a frozen graph takes. -/
def StaticGraph.dumpRoom (w v : Nat) (nl : Codec NL) (el : Codec EL) (g : StaticGraph m k NL EL) : Nat :=
  g.edgeVec.dumpRoom w v + (g.inEdgeVec.map (·.dumpRoom w v)).getD 0 +
    (g.labels.map fun ls => 1 + v * ls.length).getD 0 +
    (33 + labelBytes nl g.nodeLabels + labelBytes el g.edgeLabels)

end Verif
