import Verif.Model.IterState
import Verif.Model.SearchState

/-!
The iterator behind `edges()` of labelled frozen and mapped graphs with its state after every call:
`/repo/src/graph_impl/static_graph/graph.rs`, `/repo/src/graph_impl/static_graph/mmap/graph_mmap.rs`.
-/

namespace Verif.EdgeIter

variable {m k : Nat} {X : Type}

/-- `next` of `edge_indices().zip(labels.iter())` (graph.rs:551, graph_mmap.rs:250): `core::iter::Zip` asks the edges
first and the labels second, and keeps no mark of its end; a pair for which there is no label is lost. -/
def zipKeep (ev : EdgeVec m k) (directed : Bool) (fuel : Nat) (s : List X × EdgeIter) :
    Res (Option ((Id m × Id m) × X)) × (List X × EdgeIter) :=
  match nextKeep ev directed fuel s.2 with
  | (.error p, it) => (.error p, (s.1, it))
  | (.ok none, it) => (.ok none, (s.1, it))
  | (.ok (some e), it) =>
    match s.1 with
    | [] => (.ok none, ([], it))
    | x :: xs => (.ok (some (e, x)), (xs, it))

/-- `edges()` (graph.rs:543-555, graph_mmap.rs:242-254) asked so many times, panics being caught. -/
def edgesAnswers (ev : EdgeVec m k) (directed : Bool) (fuel n : Nat) : List (Res (Option (Edge m k))) :=
  if ev.getLabels.isEmpty then
    (answers ev directed fuel n ⟨0, 0⟩).map (fun r => r.map (fun o => o.map (fun e => ⟨e.1, e.2, none⟩)))
  else
    (replies (zipKeep ev directed fuel) n (ev.getLabels, ⟨0, 0⟩)).map
      (fun r => r.map (fun o => o.map (fun e => ⟨e.1.1, e.1.2, staticLabel e.2⟩)))

end Verif.EdgeIter
