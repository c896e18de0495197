import Verif.Model.Programs
import Verif.Model.Loops
import Verif.Model.Reorder

/-!
The lines `stats` prints, those before a panic too: `/repo/examples/stats.rs`.
-/

namespace Verif.Programs

variable {m k : Nat}

/-- `get_node_label_counter` and `get_edge_label_counter` (generic/graph.rs:227-239) as `stats` calls them on a frozen
graph (stats.rs:44-45); the edges are enumerated along with the questions about their labels. -/
def countersSteps (g : Plain m k) : Res (List (Id m × Nat) × List (Id m × Nat)) := do
  let ls ← g.nodeIndices.mapM g.calls.getNodeLabel
  match ← g.edgeVec.forEdges (R := Empty) g.directed (fun (s : List (Id m)) e => do
    let l ← g.calls.getEdgeLabel e.1 e.2
    pure (.on (s ++ l.toList))) [] with
  | .on s => pure (counterOf (ls.filterMap id), counterOf s)
  | .leave r => r.elim

/-- `max_degree` (stats.rs:40). -/
def maxDegree (g : Plain m k) : Res Nat := do
  let ds ← g.nodeIndices.mapM g.degree
  unwrap ds.max?

/-- A line for a label (stats.rs:50, 57). -/
def labelLine (x : Id m × Nat) : String := s!"- {x.1.val} : {x.2}"

/-- What `stats` prints about a graph once it is loaded (stats.rs:40-60), and how that ends. `mcN` and `mcE` are the
orders in which `most_common` gives the two counters. -/
def graphLines (mcN mcE : List (Id m × Nat) → List (Id m × Nat)) (g : Plain m k) : List String × Res Unit :=
  match maxDegree g with
  | .error p => ([], .error p)
  | .ok d =>
    match countersSteps g with
    | .error p => ([s!"Max degree: {d}"], .error p)
    | .ok (a, b) => ([s!"Max degree: {d}", "Node labels:"] ++ (mcN a).map labelLine ++ ["", "Edge labels:"] ++
        (mcE b).map labelLine ++ ["------------------------------"], .ok ())

/-- What `stats` prints in all (stats.rs:29-68). `mc i` are the orders of `most_common` when `i` files are left;
`seconds` is the time it took, as printed. -/
def statsOutput (wd v : Nat) (w : World) (mc : Nat → Bool → List (Id m × Nat) → List (Id m × Nat)) (seconds : String) :
    List String → List String × Res Unit
  | [] => ([s!"Finished in {seconds} seconds."], .ok ())
  | path :: rest =>
    let head := ["------------------------------", s!"Loading {path}"]
    match (load wd v false path w : Res (Plain m k)) with
    | .error p => (head, .error p)
    | .ok g =>
      match graphLines (mc rest.length false) (mc rest.length true) g with
      | (l, .error p) => (head ++ l, .error p)
      | (l, .ok _) =>
        let r := statsOutput wd v w mc seconds rest
        (head ++ l ++ r.1, r.2)

end Verif.Programs
