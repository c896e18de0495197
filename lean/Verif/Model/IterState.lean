import Verif.Model.Static

/-!
The iterator over the edges of frozen and mapped graphs with its state after every call, also after a `None` and
after a panic that was caught: `/repo/src/graph_impl/static_graph/static_edge_iter.rs`.
-/

namespace Verif.EdgeIter

variable {m k : Nat}

/-- The inner `while` of `next` (static_edge_iter.rs:52-57); the fields are written turn by turn. -/
def skipKeep (ev : EdgeVec m k) : Nat → EdgeIter → Option Panic × EdgeIter
  | 0, it => (some .diverge, it)
  | fuel + 1, it =>
    match ev.hasNode (Id.new it.currNode) with
    | .error p => (some p, it)
    | .ok false => (none, it)
    | .ok true =>
      match ev.degree (Id.new it.currNode) with
      | .error p => (some p, it)
      | .ok d => if it.currIdx ≥ d then skipKeep ev fuel ⟨it.currNode + 1, 0⟩ else (none, it)

/-- `next` (static_edge_iter.rs:47-92): the result, or the panic, and the fields afterwards. -/
def nextKeep (ev : EdgeVec m k) (directed : Bool) : Nat → EdgeIter → Res (Option (Id m × Id m)) × EdgeIter
  | 0, it => (.error .diverge, it)
  | fuel + 1, it =>
    match skipKeep ev (fuel + 1) it with
    | (some p, it) => (.error p, it)
    | (none, it) =>
      match ev.hasNode (Id.new it.currNode) with
      | .error p => (.error p, it)
      | .ok false => (.ok none, it)
      | .ok true =>
        match ev.neighbors (Id.new it.currNode) with
        | .error p => (.error p, it)
        | .ok nb =>
          match pick nb directed it.currNode it.currIdx with
          | .error p => (.error p, it)
          | .ok none => nextKeep ev directed fuel ⟨it.currNode + 1, 0⟩
          | .ok (some i) =>
            match index nb i with
            | .error p => (.error p, ⟨it.currNode, i⟩)
            | .ok t => (.ok (some (Id.new it.currNode, t)), ⟨it.currNode, i + 1⟩)

/-- What so many calls of `next` answer, each after the one before, panics being caught. -/
def answers (ev : EdgeVec m k) (directed : Bool) (fuel : Nat) : Nat → EdgeIter → List (Res (Option (Id m × Id m)))
  | 0, _ => []
  | n + 1, it =>
    let r := nextKeep ev directed fuel it
    r.1 :: answers ev directed fuel n r.2

end Verif.EdgeIter
