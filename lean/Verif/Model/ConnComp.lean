import Verif.Model.Traversal

/-!
`ConnComp` (`/repo/src/algorithm/conn_comp.rs`) and `ConnSubgraph`
(`/repo/src/algorithm/conn_subgraphs.rs`).

The `RefCell` around the parent map lets queries write to it: every query returns the new state. No call
overlaps two borrows, so the `RefCell` never panics and is not modelled.
-/

namespace Verif

/-- `ConnComp` (conn_comp.rs:59-64). -/
structure ConnComp (m : Nat) where
  parent : List (Id m × Id m)
  count : Nat
deriving DecidableEq

namespace ConnComp

variable {m k : Nat} {NL EL : Type}

/-- `empty`, `with_capacity` (conn_comp.rs:78-88). -/
def empty : ConnComp m := ⟨[], 0⟩

/-- `get_parent` (conn_comp.rs:131-137). -/
def getParent (c : ConnComp m) (n : Id m) : Option (Id m) := AL.get c.parent n

/-- `self.parent()[&n]`: panics for an unknown key. -/
def index (p : List (Id m × Id m)) (n : Id m) : Res (Id m) :=
  match AL.get p n with
  | some q => pure q
  | none => .error .nodeMissing

/-- The loop of `get_root` (conn_comp.rs:141-147) with path halving; `diverge` if it does not end within
`fuel` turns. -/
def rootLoop : Nat → List (Id m × Id m) → Id m → Res (List (Id m × Id m) × Id m)
  | 0, _, _ => .error .diverge
  | fuel + 1, p, n =>
    if AL.get p n ≠ some n then do
      let q ← index p n
      let qq ← index p q
      rootLoop fuel (AL.hinsert p n qq) qq
    else pure (p, n)

/-- `get_root` (conn_comp.rs:140-154). The fuel is one more than the number of keys; that it suffices is
part of C37. -/
def getRoot (c : ConnComp m) (n : Id m) : Res (ConnComp m × Option (Id m)) := do
  let r ← rootLoop (c.parent.length + 1) c.parent n
  pure (⟨r.1, c.count⟩, if (AL.get r.1 r.2).isSome then some r.2 else none)

/-- Registering an endpoint (conn_comp.rs:111-114, 116-119). -/
def register (c : ConnComp m) (x : Id m) : ConnComp m :=
  if (AL.get c.parent x).isSome then c else ⟨AL.hinsert c.parent x x, c.count + 1⟩

/-- `process_new_edge` (conn_comp.rs:107-128). -/
def processEdge (c : ConnComp m) (x y : Id m) : Res (ConnComp m) := do
  let c := (c.register x).register y
  let rx ← c.getRoot x
  let xr ← unwrap rx.2
  let ry ← rx.1.getRoot y
  let yr ← unwrap ry.2
  if xr ≠ yr then
    if ry.1.count = 0 then .error .underflow
    else pure ⟨AL.hinsert ry.1.parent xr yr, ry.1.count - 1⟩
  else pure ry.1

/-- `run_detection` (conn_comp.rs:96-103). -/
def runDetection (c : ConnComp m) (g : GView m k NL EL) : Res (ConnComp m) :=
  g.edges.foldlM (fun c e => c.processEdge e.src e.dst) c

/-- `new` (conn_comp.rs:69-75). -/
def new (g : GView m k NL EL) : Res (ConnComp m) := empty.runDetection g

/-- `is_connected` (conn_comp.rs:157-163). -/
def isConnected (c : ConnComp m) (a b : Id m) : Res (ConnComp m × Bool) :=
  if !(AL.get c.parent a).isSome || !(AL.get c.parent b).isSome then pure (c, false)
  else do
    let ra ← c.getRoot a
    let rb ← ra.1.getRoot b
    pure (rb.1, decide (ra.2 = rb.2))

/-- `reset` (conn_comp.rs:166-169). -/
def reset (_ : ConnComp m) : ConnComp m := ⟨[], 0⟩

/-- `get_count` (conn_comp.rs:172-174). -/
def getCount (c : ConnComp m) : Nat := c.count

/-- The second loop of `get_connected_nodes` (conn_comp.rs:187-191). -/
def collectRoot (root : Option (Id m)) : ConnComp m → List (Id m) → Res (ConnComp m × List (Id m))
  | c, [] => pure (c, [])
  | c, n :: ns => do
    let r ← c.getRoot n
    let rest ← collectRoot root r.1 ns
    pure (rest.1, if r.2 = root then n :: rest.2 else rest.2)

/-- `get_connected_nodes` (conn_comp.rs:177-196). -/
def getConnectedNodes (c : ConnComp m) (n : Id m) : Res (ConnComp m × Option (List (Id m))) :=
  if (AL.get c.parent n).isSome then do
    let r ← c.getRoot n
    let l ← collectRoot r.2 r.1 (AL.keys r.1.parent)
    pure (l.1, some l.2)
  else pure (c, none)

end ConnComp

/-- `ConnSubgraph` (conn_subgraphs.rs:54-67). -/
structure ConnSubgraph (m k : Nat) (NL EL : Type) where
  subgraphs : List (GraphMap m k NL EL)
  roots : List (Id m)
  cc : ConnComp m

namespace ConnSubgraph

variable {m k : Nat} {NL EL : Type}

/-- `empty` (conn_subgraphs.rs:83-89). -/
def empty (g : GView m k NL EL) : Res (ConnSubgraph m k NL EL) := do
  let cc ← ConnComp.new g
  pure ⟨[], [], cc⟩

/-- `root_to_subgraph` (conn_subgraphs.rs:99-106): the first index with that root. -/
def rootToSubgraph (s : ConnSubgraph m k NL EL) (r : Id m) : Option Nat := s.roots.idxOf? r

variable [DecidableEq NL] [DecidableEq EL]

/-- Apply a mutation to the subgraph of `root`, which is appended when new (conn_subgraphs.rs:120-137,
150-167). -/
def onSubgraph (directed : Bool) (s : ConnSubgraph m k NL EL) (root : Id m)
    (f : GraphMap m k NL EL → Res (GraphMap m k NL EL)) : Res (ConnSubgraph m k NL EL) :=
  match s.rootToSubgraph root with
  | some i => do
    let sub ← match s.subgraphs[i]? with
      | some sub => pure sub
      | none => .error .indexOutOfBounds
    let sub ← f sub
    pure { s with subgraphs := s.subgraphs.set i sub }
  | none => do
    let sub ← f (GraphMap.new directed)
    pure { s with subgraphs := s.subgraphs ++ [sub], roots := s.roots ++ [root] }

/-- One turn of `process_nodes` (conn_subgraphs.rs:114-139). -/
def processNode (g : GView m k NL EL) (s : ConnSubgraph m k NL EL) (n : Id m) :
    Res (ConnSubgraph m k NL EL) := do
  let r ← s.cc.getRoot n
  let root ← unwrap r.2
  let l ← g.getNodeLabel n
  onSubgraph g.directed { s with cc := r.1 } root (fun sub => do
    let q ← sub.addNode n l
    pure q.1)

/-- One turn of `process_edges` (conn_subgraphs.rs:142-169). -/
def processEdge (g : GView m k NL EL) (s : ConnSubgraph m k NL EL) (e : Edge m k) :
    Res (ConnSubgraph m k NL EL) := do
  let r ← s.cc.getRoot e.src
  let root ← unwrap r.2
  let l ← g.getEdgeLabel e.src e.dst
  onSubgraph g.directed { s with cc := r.1 } root (fun sub => do
    let q ← sub.addEdge e.src e.dst l
    pure q.1)

/-- `run_subgraph_enumeration` (conn_subgraphs.rs:93-96). -/
def runEnumeration (g : GView m k NL EL) (s : ConnSubgraph m k NL EL) :
    Res (ConnSubgraph m k NL EL) := do
  let s ← g.nodeIndices.foldlM (processNode g) s
  g.edges.foldlM (processEdge g) s

/-- `new` (conn_subgraphs.rs:74-79). -/
def new (g : GView m k NL EL) : Res (ConnSubgraph m k NL EL) := do
  let s ← empty g
  s.runEnumeration g

end ConnSubgraph

end Verif
