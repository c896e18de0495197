import Verif.Model.ConnComp

/-!
The `RefCell` inside `ConnComp` (`/repo/src/algorithm/conn_comp.rs`): `parent()` hands a guard out, and the
queries borrow the map for writing while the caller may still keep such guards.

`readers` is the number of guards the caller keeps. The guards the queries take themselves end with the
statement they occur in, so they are not counted. `process_new_edge` and `reset` need `&mut self` and cannot
be called while a guard is alive.
-/

namespace Verif.ConnComp

variable {m : Nat}

/-- `mut_parent` (conn_comp.rs:199-201): `borrow_mut` panics while somebody reads. -/
def mutParent (readers : Nat) (p : List (Id m × Id m)) : Res (List (Id m × Id m)) :=
  if readers = 0 then pure p else .error .explicit

/-- The loop of `get_root` (conn_comp.rs:141-147). -/
def rootLoopWhile (readers : Nat) : Nat → List (Id m × Id m) → Id m → Res (List (Id m × Id m) × Id m)
  | 0, _, _ => .error .diverge
  | fuel + 1, p, n =>
    if AL.get p n ≠ some n then do
      let q ← index p n
      let qq ← index p q
      let p ← mutParent readers p
      rootLoopWhile readers fuel (AL.hinsert p n qq) qq
    else pure (p, n)

/-- `get_root` (conn_comp.rs:140-154). -/
def getRootWhile (readers : Nat) (c : ConnComp m) (n : Id m) : Res (ConnComp m × Option (Id m)) := do
  let r ← rootLoopWhile readers (c.parent.length + 1) c.parent n
  pure (⟨r.1, c.count⟩, if (AL.get r.1 r.2).isSome then some r.2 else none)

/-- `is_connected` (conn_comp.rs:157-163). -/
def isConnectedWhile (readers : Nat) (c : ConnComp m) (a b : Id m) : Res (ConnComp m × Bool) :=
  if !(AL.get c.parent a).isSome || !(AL.get c.parent b).isSome then pure (c, false)
  else do
    let ra ← c.getRootWhile readers a
    let rb ← ra.1.getRootWhile readers b
    pure (rb.1, decide (ra.2 = rb.2))

/-- The second loop of `get_connected_nodes` (conn_comp.rs:187-191). -/
def collectRootWhile (readers : Nat) (root : Option (Id m)) :
    ConnComp m → List (Id m) → Res (ConnComp m × List (Id m))
  | c, [] => pure (c, [])
  | c, n :: ns => do
    let r ← c.getRootWhile readers n
    let rest ← collectRootWhile readers root r.1 ns
    pure (rest.1, if r.2 = root then n :: rest.2 else rest.2)

/-- `get_connected_nodes` (conn_comp.rs:177-196). -/
def getConnectedNodesWhile (readers : Nat) (c : ConnComp m) (n : Id m) :
    Res (ConnComp m × Option (List (Id m))) :=
  if (AL.get c.parent n).isSome then do
    let r ← c.getRootWhile readers n
    let l ← collectRootWhile readers r.2 r.1 (AL.keys r.1.parent)
    pure (l.1, some l.2)
  else pure (c, none)

end Verif.ConnComp
