import Verif.Spec.Graph

/-! What every call does to labels, written over label identifiers and two growing tables of distinct
labels. Unlike `Spec.step` it covers the calls that write identifiers and tables longer than the
identifier type can number. -/

namespace Verif.Spec

variable {m k : Nat} {NL EL X : Type}

/-- A table of distinct labels after a label was named: new labels go to the end. -/
def named [DecidableEq X] (U : List X) : Option X → List X
  | none => U
  | some x => if x ∈ U then U else U ++ [x]

/-- The identifier of a label: its place in the table, cut to the range of the identifier type. -/
def idIn [DecidableEq X] (U : List X) (x : X) : Id k := Fin.ofNat (k + 1) (U.idxOf x)

/-- A graph whose labels are identifiers, and the tables of node and edge labels. -/
structure Tabled (m k : Nat) (NL EL : Type) where
  graph : AGraph (Id m) (Id k) (Id k)
  nodes : List NL
  edges : List EL

namespace Tabled

/-- The label of a node that a table look-up of its identifier gives. -/
def nodeLabel (T : Tabled m k NL EL) (n : Id m) : Option NL :=
  (T.graph.node n).join.bind (fun i => T.nodes[i.val]?)

/-- The label of an edge that a table look-up of its identifier gives. -/
def edgeLabel (T : Tabled m k NL EL) (s t : Id m) : Option EL :=
  (T.graph.edge s t).join.bind (fun i => T.edges[i.val]?)

variable [DecidableEq NL] [DecidableEq EL]

/-- What a call does. Writing the label of one edge handle changes that orientation only; writing
through `edges_mut` changes, in an undirected graph, the orientation with the smaller id first. -/
def step (directed : Bool) (T : Tabled m k NL EL) : Op m k NL EL → Tabled m k NL EL
  | .addNode n l =>
    let U := named T.nodes l
    { T with graph := T.graph.addNode n (l.map (idIn U)), nodes := U }
  | .updateNodeLabel n l =>
    if (T.graph.node n).isSome then
      let U := named T.nodes l
      { T with graph := T.graph.addNode n (l.map (idIn U)), nodes := U }
    else T
  | .addEdge s t l =>
    let V := named T.edges l
    { T with graph := T.graph.addEdge directed s t (l.map (idIn V)), edges := V }
  | .updateEdgeLabel s t l =>
    if (T.graph.edge s t).isSome then
      let V := named T.edges l
      { T with graph := T.graph.updateEdgeLabel directed s t (l.map (idIn V)), edges := V }
    else T
  | .removeNode n => { T with graph := T.graph.removeNode n }
  | .removeEdge s t => { T with graph := T.graph.removeEdge directed s t }
  | .addNodeLabel l => { T with nodes := named T.nodes l }
  | .addEdgeLabel l => { T with edges := named T.edges l }
  | .refineEdgeCount => T
  | .setNodeLabelId n l => { T with graph := T.graph.updateNodeLabel n l }
  | .setEdgeLabelId s t l => { T with graph := T.graph.updateEdgeLabel true s t l }
  | .mapNodeLabelIds f =>
    { T with graph := { T.graph with node := fun n => (T.graph.node n).map (f n) } }
  | .mapEdgeLabelIds f =>
    { T with graph := { T.graph with edge := fun s t =>
        if directed = true ∨ s ≤ t then (T.graph.edge s t).map (f s t) else T.graph.edge s t } }

/-- The graph and tables after a history that began with the given tables. -/
def run (directed : Bool) (U : List NL) (V : List EL) (ops : List (Op m k NL EL)) : Tabled m k NL EL :=
  ops.foldl (step directed) ⟨AGraph.empty, U, V⟩

end Tabled

end Verif.Spec
