import Verif.Model.ConnComp
import Verif.Model.Loops

/-!
Loops over `edges()` of frozen and mapped graphs that write to something which outlives a panic.

If an iterator panics and the caller catches it, what the loop has written so far is still there.
-/

namespace Verif

variable {m k : Nat} {NL EL S : Type}

/-- `for e in g.edges() { .. }` (static_graph/graph.rs:543-555, graph_mmap.rs:240-254) with the iterator of
static_edge_iter.rs:47-92 at some point of its course, zipped with the labels that are left (`none` if the graph has no
edge labels, and nothing is zipped). `zip` asks for an edge first, then for a label. The body may panic; what it has
written by then is kept. `fuel` bounds the turns, and the turns within each `next`. -/
def EdgeIter.each (ev : EdgeVec m k) (directed : Bool) (body : S → Edge m k → S × Option Panic) :
    Nat → Option (List (Id k)) → S → EdgeIter → S × Option Panic
  | 0, _, s, _ => (s, some .diverge)
  | fuel + 1, ls, s, it =>
    match next ev directed (fuel + 1) it with
    | .error p => (s, some p)
    | .ok none => (s, none)
    | .ok (some (e, it)) =>
      match ls with
      | none =>
        match body s ⟨e.1, e.2, none⟩ with
        | (s, some p) => (s, some p)
        | (s, none) => each ev directed body fuel none s it
      | some [] => (s, none)
      | some (x :: xs) =>
        match body s ⟨e.1, e.2, staticLabel x⟩ with
        | (s, some p) => (s, some p)
        | (s, none) => each ev directed body fuel (some xs) s it

/-- The loop from the start. -/
def EdgeVec.eachEdge (ev : EdgeVec m k) (directed : Bool) (body : S → Edge m k → S × Option Panic) (s : S) :
    S × Option Panic :=
  EdgeIter.each ev directed body (ev.offsets.length + ev.edges.length + 1)
    (if ev.getLabels = [] then none else some ev.getLabels) s ⟨0, 0⟩

/-- A turn of `run_detection` (conn_comp.rs:100-102). If `process_new_edge` panicked it could leave more behind than
this; C181 shows that it does not panic. -/
def ConnComp.detectTurn (c : ConnComp m) (e : Edge m k) : ConnComp m × Option Panic :=
  match c.processEdge e.src e.dst with
  | .ok c => (c, none)
  | .error p => (c, some p)

/-- `run_detection` (conn_comp.rs:96-103) of a `TypedStaticGraph`: what is left in the `ConnComp`, and the panic. -/
def StaticGraph.detect (g : StaticGraph m k NL EL) (c : ConnComp m) : ConnComp m × Option Panic :=
  g.edgeVec.eachEdge g.directed ConnComp.detectTurn c

/-- The same of a `StaticGraphMmap`. -/
def MmapGraph.detect (g : MmapGraph m k NL EL) (c : ConnComp m) : ConnComp m × Option Panic :=
  g.edges.eachEdge g.isDirected ConnComp.detectTurn c

end Verif
