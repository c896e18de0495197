import Verif.Model.View
import Mathlib.Data.List.Sort

/-!
`reorder_id`, `reorder_id_with`, `reorder_label_map` and `ReorderResult`
(`/repo/src/graph_impl/graph_map/graph.rs:683-833, 948-998`).

The function `reorder_id_with` accepts any map and asks it for `find_index` and `items` only. Its model takes
`SetMap`s; `reorderIdWithVec` passes the entries of a `VecMap`, repeats included, on to it, since both maps answer
these two questions from their list of entries alike (`Props.c134_answers`).
-/

namespace Verif

/-- `Id::new(map.find_index(&i).unwrap())`, or `i` itself without a map
(graph_map/graph.rs:756-760, 762-766, 772-784, 794). -/
def newId {m : Nat} (map : Option (SetMap (Id m))) (i : Id m) : Res (Id m) :=
  match map with
  | some s => do
    let j ← unwrap (s.findIndex i)
    pure (Id.new j)
  | none => pure i

/-- The same under an `Option` (762-766, 778-784). -/
def newLabel {k : Nat} (map : Option (SetMap (Id k))) : Option (Id k) → Res (Option (Id k))
  | some l => do
    let j ← newId map l
    pure (some j)
  | none => pure none

/-- One turn of the loop of `reorder_label_map` (graph_map/graph.rs:956-959). -/
def takeLabel {k : Nat} {X : Type} [DecidableEq X] (st : List (Option X) × SetMap X) (i : Id k) :
    Res (List (Option X) × SetMap X) := do
  let x ← index' st.1 i.val
  let l ← unwrap x
  let r ← st.2.addItem l
  pure (st.1.set i.val none, r.1)
where
  /-- Indexing a vector. -/
  index' (l : List (Option X)) (i : Nat) : Res (Option X) :=
    match l[i]? with
    | some x => pure x
    | none => .error .indexOutOfBounds

/-- `reorder_label_map` (graph_map/graph.rs:948-962). -/
def reorderLabelMap {k : Nat} {X : Type} [DecidableEq X] (newMap : SetMap (Id k)) (old : SetMap X) :
    Res (SetMap X) := do
  let r ← newMap.items.foldlM takeLabel (old.items.map some, SetMap.empty)
  pure r.2

namespace GraphMap

variable {m k : Nat} {NL EL : Type}

/-- One neighbour (graph_map/graph.rs:771-787). -/
def reorderArc (idm : Option (SetMap (Id m))) (elm : Option (SetMap (Id k)))
    (p : Id m × Option (Id k)) : Res (Id m × Option (Id k)) := do
  let n ← newId idm p.1
  let l ← newLabel elm p.2
  pure (n, l)

/-- `collect()` into a `BTreeMap` (788). -/
def collectMap (l : List (Id m × Option (Id k))) : List (Id m × Option (Id k)) :=
  l.foldl (fun acc p => AL.binsert acc p.1 p.2) []

/-- `collect()` into a `BTreeSet` (795). -/
def collectSet (l : List (Id m)) : List (Id m) := l.foldl BSet.sinsert []

/-- The new neighbours (graph_map/graph.rs:768-791). -/
def reorderNeighbors (idm : Option (SetMap (Id m))) (elm : Option (SetMap (Id k)))
    (l : List (Id m × Option (Id k))) : Res (List (Id m × Option (Id k))) :=
  if idm.isSome || elm.isSome then do
    let l ← l.mapM (reorderArc idm elm)
    pure (collectMap l)
  else pure l

/-- The new in-neighbours (graph_map/graph.rs:793-800). -/
def reorderIn (idm : Option (SetMap (Id m))) (l : List (Id m)) : Res (List (Id m)) :=
  if idm.isSome then do
    let l ← l.mapM (newId idm)
    pure (collectSet l)
  else pure l

/-- The body of the loop over the nodes (graph_map/graph.rs:755-807). -/
def reorderNode (idm : Option (SetMap (Id m))) (nlm elm : Option (SetMap (Id k)))
    (nd : NodeMap m k) : Res (NodeMap m k) := do
  let id ← newId idm nd.id
  let label ← newLabel nlm nd.label
  let nb ← reorderNeighbors idm elm nd.neighbors
  let inn ← reorderIn idm nd.inNeighbors
  pure ⟨id, label, nb, inn⟩

/-- The new label map (graph_map/graph.rs:814-824). -/
def newLabelMap {X : Type} [DecidableEq X] (map : Option (SetMap (Id k))) (old : SetMap X) :
    Res (SetMap X) :=
  match map with
  | some s => reorderLabelMap s old
  | none => pure old

variable [DecidableEq NL] [DecidableEq EL]

/-- `reorder_id_with` (graph_map/graph.rs:739-833). -/
def reorderIdWith (g : GraphMap m k NL EL) (idm : Option (SetMap (Id m)))
    (nlm elm : Option (SetMap (Id k))) : Res (GraphMap m k NL EL) :=
  if idm.isNone && nlm.isNone && elm.isNone then pure g
  else do
    let nodes ← (AL.values g.nodeMap).mapM (reorderNode idm nlm elm)
    let nm := nodes.foldl (fun nm nd => AL.hinsert nm nd.id nd) []
    let nl ← newLabelMap nlm g.nodeLabels
    let el ← newLabelMap elm g.edgeLabels
    pure ⟨g.directed, nm, g.numEdges, nl, el, (AL.keys nm).max?⟩

/-- `reorder_id_with` (graph_map/graph.rs:739-833) given `VecMap`s. -/
def reorderIdWithVec (g : GraphMap m k NL EL) (idm : Option (VecMap (Id m)))
    (nlm elm : Option (VecMap (Id k))) : Res (GraphMap m k NL EL) :=
  g.reorderIdWith (idm.map (fun v => ⟨v.items⟩)) (nlm.map (fun v => ⟨v.items⟩))
    (elm.map (fun v => ⟨v.items⟩))

/-- `ReorderResult` (graph_map/graph.rs:964-968). `take_graph` (973-976) moves `graph` out. -/
structure _root_.Verif.ReorderResult (m k : Nat) (NL EL : Type) where
  nodeIdMap : Option (SetMap (Id m))
  graph : Option (GraphMap m k NL EL)
  deriving DecidableEq, Repr

omit [DecidableEq NL] [DecidableEq EL] in
/-- The node order of `reorder_id` (graph_map/graph.rs:692-699): ids sorted (stably) by degree plus
in-degree. -/
def idsByDegree (g : GraphMap m k NL EL) : List (Id m) :=
  (((AL.values g.nodeMap).map (fun nd => (nd.id, nd.degree + nd.inDegree))).insertionSort
    (fun a b => a.2 ≤ b.2)).map Prod.fst

/-- What `Counter::most_common` may return for a counter: its entries by decreasing count, ties in any
order (counter crate; the entries come out of a hash map). -/
def _root_.Verif.IsMostCommon {X : Type} (c r : List (X × Nat)) : Prop :=
  r.Perm c ∧ r.Pairwise (fun a b => b.2 ≤ a.2)

/-- The label order of `reorder_id` (graph_map/graph.rs:706-712, 720-726) for a result `mc` of
`most_common`. -/
def labelOrder (mc : List (Id k × Nat)) : List (Id k) :=
  (mc.reverse.dropWhile (fun p => p.2 == 0)).map Prod.fst

/-- `if flag { Some(items.collect()) } else { None }` (graph_map/graph.rs:690-730). -/
def mapIf {X : Type} [DecidableEq X] (flag : Bool) (l : List X) : Res (Option (SetMap X)) :=
  if flag then do
    let s ← SetMap.fromIter l
    pure (some s)
  else pure none

/-- `reorder_id` (graph_map/graph.rs:686-737). `mcN` and `mcE` are what `most_common` returns for the
node and edge label id counters. -/
def reorderId (g : GraphMap m k NL EL) (rn rnl rel : Bool) (mcN mcE : List (Id k × Nat)) :
    Res (ReorderResult m k NL EL) := do
  let idm ← mapIf rn g.idsByDegree
  let nlm ← mapIf rnl (labelOrder mcN)
  let elm ← mapIf rel (labelOrder mcE)
  let h ← g.reorderIdWith idm nlm elm
  pure ⟨idm, some h⟩

end GraphMap

namespace ReorderResult

variable {m k : Nat} {NL EL : Type}

/-- `get_node_id_map` (graph_map/graph.rs:978-981). -/
def getNodeIdMap (r : ReorderResult m k NL EL) : Option (SetMap (Id m)) := r.nodeIdMap

/-- `get_original_node_id` (graph_map/graph.rs:983-989). -/
def getOriginalNodeId (r : ReorderResult m k NL EL) (id : Id m) : Res (Id m) :=
  match r.getNodeIdMap with
  | some map => unwrap (map.getItem id.val)
  | none => pure id

/-- `find_new_node_id` (graph_map/graph.rs:991-997). -/
def findNewNodeId (r : ReorderResult m k NL EL) (id : Id m) : Res (Id m) :=
  match r.getNodeIdMap with
  | some map => do
    let j ← unwrap (map.findIndex id)
    pure (Id.new j)
  | none => pure id

end ReorderResult

end Verif
