import Verif.Model.Caught
import Verif.Model.Release

/-!
What a caught panic leaves behind in a `TypedGraphMap` in a release build
(`/repo/src/graph_impl/graph_map/graph.rs`): as in `Model/Caught.lean`, but the edge counter wraps instead of
panicking, as in `Model/Release.lean`.
-/

namespace Verif

namespace GraphMap

variable {m k : Nat} {NL EL : Type}

/-- `remove_node` (graph_map/graph.rs:299-324) without overflow checks. -/
def removeNodeCaughtRelease (g : GraphMap m k NL EL) (id : Id m) :
    GraphMap m k NL EL × Res (Option (NodeMap m k)) :=
  match AL.get g.nodeMap id with
  | some node =>
    match unlinkCaught { g with nodeMap := AL.erase g.nodeMap id } node id with
    | (g, .ok ()) =>
      ({ g with numEdges := wrapSub g.numEdges (wrapAdd node.degree node.inDegree) }, .ok (some node))
    | (g, .error p) => (g, .error p)
  | none => (g, .ok none)

/-- `remove_edge` (graph_map/graph.rs:372-395) without overflow checks. -/
def removeEdgeCaughtRelease (g : GraphMap m k NL EL) (s t : Id m) :
    GraphMap m k NL EL × Res (Option (Edge m k)) :=
  if !g.hasEdge s t then (g, .ok none)
  else
    match AL.get g.nodeMap s with
    | none => (g, .error .unwrapNone)
    | some nd =>
      let g := { g with nodeMap := AL.set g.nodeMap s (nd.removeEdge t).1 }
      match AL.get g.nodeMap t with
      | none => (g, .error .unwrapNone)
      | some nt =>
        let nt := if g.directed then nt.removeInEdge s else (nt.removeEdge s).1
        let g := { g with nodeMap := AL.set g.nodeMap t nt }
        ({ g with numEdges := wrapSub g.numEdges 1 }, .ok (nd.removeEdge t).2)

variable [DecidableEq NL] [DecidableEq EL]

/-- One call within `catch_unwind` in a release build. -/
def applyCaughtRelease (g : GraphMap m k NL EL) : Op m k NL EL → GraphMap m k NL EL × Res Unit
  | .removeNode n =>
    ((g.removeNodeCaughtRelease n).1, (g.removeNodeCaughtRelease n).2.map (fun _ => ()))
  | .removeEdge s t =>
    ((g.removeEdgeCaughtRelease s t).1, (g.removeEdgeCaughtRelease s t).2.map (fun _ => ()))
  | op =>
    match g.applyRelease op with
    | .ok g' => (g', .ok ())
    | .error p => (g, .error p)

/-- The graphs a program in a release build can reach from `start` by a history of calls (latest last) if it
catches the panics. -/
inductive CaughtRelease (start : GraphMap m k NL EL) : List (Op m k NL EL) → GraphMap m k NL EL → Prop
  | nil : CaughtRelease start [] start
  | step {ops g} (op) : CaughtRelease start ops g →
      CaughtRelease start (ops ++ [op]) (g.applyCaughtRelease op).1
  | rehash {ops g nm} : CaughtRelease start ops g → g.nodeMap.Perm nm →
      CaughtRelease start ops { g with nodeMap := nm }

end GraphMap

end Verif
