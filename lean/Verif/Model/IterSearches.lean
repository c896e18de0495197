import Verif.Model.Static

/-!
The iterator over the edges of frozen and mapped graphs with the binary searches it makes:
`/repo/src/graph_impl/static_graph/static_edge_iter.rs`.
-/

namespace Verif.EdgeIter

variable {m k : Nat}

/-- `pick` (static_edge_iter.rs:66-84), and the node in whose row a search was made, if one was. -/
def pickLog (nb : List (Id m)) (directed : Bool) (node idx : Nat) : Res (Option Nat × List Nat) :=
  if directed then pure (some idx, [])
  else do
    let y ← index nb idx
    if y < Id.new node then
      match ← binarySearch nb (Id.new node) with
      | .found i => pure (some i, [node])
      | .missing i => pure (if i < nb.length then some i else none, [node])
    else pure (some idx, [])

/-- `next` (static_edge_iter.rs:47-92), and the nodes in whose rows searches were made. -/
def nextLog (ev : EdgeVec m k) (directed : Bool) : Nat → EdgeIter →
    Res (Option ((Id m × Id m) × EdgeIter) × List Nat)
  | 0, _ => .error .diverge
  | fuel + 1, it => do
    let it ← skipEmpty ev (fuel + 1) it
    if ← ev.hasNode (Id.new it.currNode) then
      let nb ← ev.neighbors (Id.new it.currNode)
      match ← pickLog nb directed it.currNode it.currIdx with
      | (some i, a) => do
        let r ← yieldAt nb it.currNode i
        pure (r, a)
      | (none, a) => do
        let r ← nextLog ev directed fuel ⟨it.currNode + 1, 0⟩
        pure (r.1, a ++ r.2)
    else pure (none, [])

/-- `collect`, and the nodes in whose rows searches were made. -/
def collectLog (ev : EdgeVec m k) (directed : Bool) : Nat → EdgeIter → Res (List (Id m × Id m) × List Nat)
  | 0, _ => .error .diverge
  | fuel + 1, it => do
    match ← nextLog ev directed (fuel + 1) it with
    | (none, a) => pure ([], a)
    | (some (e, it), a) => do
      let r ← collectLog ev directed fuel it
      pure (e :: r.1, a ++ r.2)

end Verif.EdgeIter
