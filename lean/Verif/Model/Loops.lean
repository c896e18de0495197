import Verif.Model.Calls

/-!
Loops over the edges of frozen and mapped graphs, turn by turn.

Iterators are lazy: a loop that leaves early never asks for the later edges. `StaticGraph.view` runs the enumeration to
its end first, which makes no difference if it does end; here it is run along with the loop.
-/

namespace Verif

/-- How a turn of a loop ends: it goes on with a new state, or leaves. -/
inductive Turn (S R : Type) where
  | on (s : S)
  | leave (r : R)
  deriving DecidableEq, Repr

variable {m k k' : Nat} {NL EL S R : Type}

/-- `for e in g.edge_indices() { .. }` with the iterator of static_edge_iter.rs:47-92 at some point of its course. The
body may panic or leave the loop. `fuel` bounds the turns, and the turns within each `next`. -/
def EdgeIter.loop (ev : EdgeVec m k) (directed : Bool) (body : S → Id m × Id m → Res (Turn S R)) :
    Nat → S → EdgeIter → Res (Turn S R)
  | 0, _, _ => .error .diverge
  | fuel + 1, s, it => do
    match ← next ev directed (fuel + 1) it with
    | none => pure (.on s)
    | some (e, it) =>
      match ← body s e with
      | .on s => loop ev directed body fuel s it
      | .leave r => pure (.leave r)

/-- The loop from the start, with as much fuel as `EdgeVec.edgeIndices`. -/
def EdgeVec.forEdges (ev : EdgeVec m k) (directed : Bool) (body : S → Id m × Id m → Res (Turn S R)) (s : S) :
    Res (Turn S R) :=
  EdgeIter.loop ev directed body (ev.offsets.length + ev.edges.length + 1) s ⟨0, 0⟩

variable [DecidableEq NL] [DecidableEq EL]

/-- The second loop of `equal` (generic/graph.rs:284-288) over the edges of an adjacency. -/
def EdgeVec.sameEdges (ev : EdgeVec m k) (g : GView m k NL EL) (h : GView m k' NL EL) (fuel : Nat) : Res Bool := do
  match ← EdgeIter.loop ev g.directed (fun (_ : Unit) e => do
    if ← g.edgeAgrees h e then pure (.on ()) else pure (.leave false)) fuel () ⟨0, 0⟩ with
  | .on _ => pure true
  | .leave b => pure b

/-- `equal` (generic/graph.rs:267-291) with a graph `g` over the adjacency `ev` on the left. -/
def EdgeVec.equalBy (ev : EdgeVec m k) (g : GView m k NL EL) (h : GView m k' NL EL) (fuel : Nat) : Res Bool :=
  if g.directed != h.directed || g.nodeCount != h.nodeCount || g.edgeCount != h.edgeCount then pure false
  else do
    if ← GView.allM (g.nodeAgrees h) g.nodeIndices then ev.sameEdges g h fuel else pure false

/-- `equal` with a `TypedStaticGraph` on the left. -/
def StaticGraph.equalSteps (g : StaticGraph m k NL EL) (h : GView m k' NL EL) : Res Bool :=
  g.edgeVec.equalBy g.calls h (g.edgeVec.offsets.length + g.edgeVec.edges.length + 1)

/-- `equal` with a `StaticGraphMmap` on the left. -/
def MmapGraph.equalSteps (g : MmapGraph m k NL EL) (h : GView m k' NL EL) : Res Bool :=
  g.edges.equalBy g.calls h (g.edges.offsets.length + g.edges.edges.length + 1)

end Verif
