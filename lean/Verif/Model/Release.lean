import Verif.Model.Mmap
import Verif.Model.Ldbc
import Verif.Model.Reach

/-!
Release builds.

The other modules model a build with overflow checks (`cargo build`, `cargo test`). `/repo/Cargo.toml` sets no
profile, so in `cargo build --release` integer arithmetic wraps instead. This file models the functions whose
arithmetic can wrap, as they behave there, with a 64-bit `usize`; everything else is the same in both builds.
-/

namespace Verif

/-- The number of values of a 64-bit `usize`. -/
def word : Nat := 2 ^ 64

/-- `a + b` on `usize` without overflow checks. -/
def wrapAdd (a b : Nat) : Nat := (a + b) % word

/-- `a - b` on `usize` without overflow checks. -/
def wrapSub (a b : Nat) : Nat := (a + (word - b % word)) % word

/-- `IdType::increment` (dtype.rs:71, 92-94, 118-120) without overflow checks. -/
def Id.incrementRelease {m : Nat} (i : Id m) : Id m := Id.new (i.val + 1)

namespace GraphMap

variable {m k : Nat} {NL EL : Type}

/-- `remove_node` (graph_map/graph.rs:299-324) without overflow checks. -/
def removeNodeRelease (g : GraphMap m k NL EL) (id : Id m) :
    Res (GraphMap m k NL EL × Option (NodeMap m k)) :=
  match AL.get g.nodeMap id with
  | some node => do
    let g := { g with nodeMap := AL.erase g.nodeMap id }
    let g ← g.unlink node id
    pure ({ g with numEdges := wrapSub g.numEdges (wrapAdd node.degree node.inDegree) }, some node)
  | none => pure (g, none)

/-- `remove_edge` (graph_map/graph.rs:372-395) without overflow checks. -/
def removeEdgeRelease (g : GraphMap m k NL EL) (s t : Id m) :
    Res (GraphMap m k NL EL × Option (Edge m k)) :=
  if !g.hasEdge s t then pure (g, none)
  else do
    let nd ← unwrap (AL.get g.nodeMap s)
    let edge := (nd.removeEdge t).2
    let g ← g.withNode s (fun nd => (nd.removeEdge t).1)
    let g ← g.removeEdgeTarget s t
    pure ({ g with numEdges := wrapSub g.numEdges 1 }, edge)

/-- `refine_edge_count` (graph_map/graph.rs:243-246): `count()` adds ones without overflow checks. -/
def refineEdgeCountRelease (g : GraphMap m k NL EL) : GraphMap m k NL EL :=
  { g with numEdges := g.edgeIndices.length % word }

variable [DecidableEq NL] [DecidableEq EL]

/-- `add_edge` (graph_map/graph.rs:331-359) without overflow checks. -/
def addEdgeRelease (g : GraphMap m k NL EL) (s t : Id m) (label : Option EL) :
    Res (GraphMap m k NL EL × Bool) := do
  let g ← g.ensureNode s
  let g ← g.ensureNode t
  let r ← intern g.edgeLabels label
  let g := { g with edgeLabels := r.1 }
  let nd ← unwrap (AL.get g.nodeMap s)
  let result := (nd.addEdge t r.2).2
  let g ← g.withNode s (fun nd => (nd.addEdge t r.2).1)
  let g ← g.addEdgeTarget s t r.2
  pure ({ g with numEdges := wrapAdd g.numEdges 1 }, result)

/-- `update_edge_label` (graph_map/graph.rs:584-592) without overflow checks. -/
def updateEdgeLabelRelease (g : GraphMap m k NL EL) (s t : Id m) (label : Option EL) :
    Res (GraphMap m k NL EL × Bool) :=
  if !g.hasEdge s t then pure (g, false)
  else do
    let r ← g.addEdgeRelease s t label
    pure (r.1, true)

/-- One call in a release build, forgetting the returned value. -/
def applyRelease (g : GraphMap m k NL EL) : Op m k NL EL → Res (GraphMap m k NL EL)
  | .removeNode n => do let r ← g.removeNodeRelease n; pure r.1
  | .addEdge s t l => do let r ← g.addEdgeRelease s t l; pure r.1
  | .removeEdge s t => do let r ← g.removeEdgeRelease s t; pure r.1
  | .updateEdgeLabel s t l => do let r ← g.updateEdgeLabelRelease s t l; pure r.1
  | .refineEdgeCount => pure g.refineEdgeCountRelease
  | op => g.apply op

/-- A program in a release build that performs the calls one after another. -/
def execRelease (g : GraphMap m k NL EL) (ops : List (Op m k NL EL)) : Res (GraphMap m k NL EL) :=
  ops.foldlM (fun g op => g.applyRelease op) g

end GraphMap

namespace EdgeVec

variable {m k : Nat}

/-- `num_nodes` (edge_vec.rs:47-49) without overflow checks. -/
def numNodesRelease (ev : EdgeVec m k) : Nat := wrapSub ev.offsets.length 1

/-- `has_node` (edge_vec.rs:75-77) without overflow checks. -/
def hasNodeRelease (ev : EdgeVec m k) (n : Id m) : Bool := decide (n.val < ev.numNodesRelease)

/-- `neighbors` (edge_vec.rs:57-63) without overflow checks; `assert!` and slice bounds are still checked. -/
def neighborsRelease (ev : EdgeVec m k) (n : Id m) : Res (List (Id m)) :=
  if ev.hasNodeRelease n then ev.row n else .error .explicit

/-- `degree` (edge_vec.rs:66-72) without overflow checks. -/
def degreeRelease (ev : EdgeVec m k) (n : Id m) : Res Nat :=
  if ev.hasNodeRelease n then do
    let start ← index ev.offsets n.val
    let stop ← index ev.offsets (n.val + 1)
    pure (wrapSub stop start)
  else .error .explicit

/-- `find_edge_index` (edge_vec.rs:80-91) without overflow checks. -/
def findEdgeIndexRelease (ev : EdgeVec m k) (s t : Id m) : Res (Option Nat) :=
  if !(ev.hasNodeRelease s && ev.hasNodeRelease t) then pure none
  else do
    let nb ← ev.neighborsRelease s
    match ← binarySearch nb t with
    | .missing _ => pure none
    | .found i => do
      let o ← index ev.offsets s.val
      pure (some (wrapAdd o i))

/-- `has_edge` (edge_vec.rs:109-111) without overflow checks. -/
def hasEdgeRelease (ev : EdgeVec m k) (s t : Id m) : Res Bool := do
  let r ← ev.findEdgeIndexRelease s t
  pure r.isSome

end EdgeVec

/-- `max_seen_id` (static_graph/graph.rs:575-577, graph_mmap.rs:272-274) without overflow checks. -/
def StaticGraph.maxSeenIdRelease {m k : Nat} {NL EL : Type} (g : StaticGraph m k NL EL) : Option (Id m) :=
  some (Id.new (wrapSub g.numNodes 1))

/-- The loop of `into_static` (graph_map/graph.rs:869-915) without overflow checks. -/
def Freeze.loopRelease {m k : Nat} : Nat → Id m → Id m → Freeze m k → Res (Freeze m k)
  | 0, _, _, _ => .error .diverge
  | fuel + 1, nid, maxNid, st =>
    if nid ≤ maxNid then loopRelease fuel nid.incrementRelease maxNid (st.turn nid)
    else pure st

/-- `into_static` (graph_map/graph.rs:835-945) without overflow checks, given up after `fuel` turns of its
loop. -/
def GraphMap.intoStaticRelease {m k : Nat} {NL EL : Type} (fuel : Nat) (g : GraphMap m k NL EL) :
    Res (StaticGraph m k NL EL) := do
  let maxNid ← unwrap g.nodeIndices.max?
  let st ← Freeze.loopRelease fuel (Id.new 0) maxNid g.freezeInit
  let ev ← EdgeVec.fromRaw st.offsets st.edges st.edgeLabels
  StaticGraph.fromRaw g.directed g.nodeCount g.edgeCount ev
    (st.ins.map (fun i => EdgeVec.new i.2.1 i.2.2)) st.nodeLabels g.nodeLabels g.edgeLabels

/-- `&map[i..]` (io/mmap.rs:76-88) without overflow checks. -/
def TypedMap.rangeFromRelease (t : TypedMap) (i : Nat) : Window :=
  ⟨i * t.width % word, wrapSub t.len i⟩

namespace Ldbc

variable {m k : Nat}

/-- The id for the next node (ldbc/node.rs:62-67, ldbc/relation.rs:76-80) without overflow checks. -/
def nextIdRelease (g : GraphMap m k Text Text) : Id m :=
  match g.maxSeenId with
  | some i => i.incrementRelease
  | none => Id.new 0

/-- `Node::add_node` (ldbc/node.rs:54-71) without overflow checks. -/
def Node.addNodeRelease (n : Node) (r : Record) (s : State m k) : Res (State m k) := do
  let f ← field r n.idIndex
  let key := ascii n.name ++ f
  let p := (match AL.get s.ids key with
    | some i => (i, s.ids)
    | none => (nextIdRelease s.graph, AL.hinsert s.ids key (nextIdRelease s.graph)))
  let l ← field r n.labelIndex
  let q ← s.graph.addNode p.1 (some l)
  pure ⟨q.1, p.2⟩

/-- `entry(key).or_insert_with(..)` of ldbc/relation.rs:75-84 and 86-95 without overflow checks. -/
def entryRelease (key : Text) (kind : String) (s : State m k) : Res (State m k × Id m) :=
  match AL.get s.ids key with
  | some i => pure (s, i)
  | none => do
    let i := nextIdRelease s.graph
    let q ← s.graph.addNode i (some (ascii kind))
    pure (⟨q.1, AL.hinsert s.ids key i⟩, i)

/-- `Relation::add_edge` (ldbc/relation.rs:66-98) without overflow checks. -/
def Relation.addEdgeRelease (r : Relation) (rec : Record) (s : State m k) : Res (State m k) := do
  let a ← field rec r.startIndex
  let b ← field rec r.targetIndex
  let p ← entryRelease (ascii r.startLabel ++ a) r.startLabel s
  let q ← entryRelease (ascii r.targetLabel ++ b) r.targetLabel p.1
  let e ← q.1.graph.addEdgeRelease p.2 q.2 (some (ascii r.edgeLabel))
  pure { q.1 with graph := e.1 }

/-- `Scheme::from_path` (scheme.rs:193-253) without overflow checks. -/
def Scheme.fromPathRelease (digit : Char → Bool) (utf8 : Text → Bool) (s : Scheme) (directed : Bool)
    (dir : Option (List File)) : Res (Option (GraphMap m k Text Text)) :=
  match dir with
  | none => .error .explicit
  | some files => do
    let s1 ← loop (fun (n : Node) =>
      loop (fun (f : File) st =>
        if n.isMatch digit f.name then feed n.addNodeRelease (records utf8 s.delimiter f.bytes) st
        else pure (some st)) files) s.nodes (⟨GraphMap.new directed, []⟩ : State m k)
    match s1 with
    | none => pure none
    | some s1 => do
      let s2 ← loop (fun (r : Relation) =>
        loop (fun (f : File) st =>
          if r.isMatch digit f.name then feed r.addEdgeRelease (records utf8 s.delimiter f.bytes) st
          else pure (some st)) files) s.relations s1
      pure (s2.map (·.graph))

end Ldbc

end Verif
