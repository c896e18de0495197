import Verif.Model.CsvFiles
import Verif.Model.Reorder
import Verif.Model.Static
import Verif.Model.Gen
import Verif.Model.Mmap
import Verif.Model.Ldbc

/-!
The programs in `/repo/examples/`, put together from the library functions modelled elsewhere.

A program gets the disk and returns the disk; `.error` is a panic, with the disk as it is then. Progress
bars, timing and other printing are left out. `m`, `k` and the widths `w`, `v` stand for `DefaultId`. Text
labels (`String`) are lists of bytes. Paths are plain texts: joining the output directory with a file name
is done by the caller (`naming`).
-/

namespace Verif.Programs

/-- `String` labels in a `bincode` file: the length and the bytes. -/
def text : Codec (List Byte) := .vec (.ident 1)

/-- `.unwrap()` or `.expect(..)` of a `Result`. -/
def orPanic {X : Type} : Option X → Res X
  | some x => pure x
  | none => .error .explicit

/-- The end of most programs: `graph.export(path).unwrap()`, the graph or a panic being given. -/
def exported {X : Type} (c : Codec X) (path : String) (w : World) : Res X → Res Unit × World
  | .error e => (.error e, w)
  | .ok x =>
    let r := w.export c x path
    (if r.1 then .ok () else .error .explicit, r.2)

/-! ### csv_to_static -/

/-- The flags `csv_to_static` declares, by name and by what the user types (csv_to_static.rs:57-81). -/
def csvFlags : List (String × String) :=
  [("has_headers", "--headers"), ("is_flexible", "--flexible"), ("is_directed", "--directed"),
    ("reorder_node_id", "--reorder_nodes"), ("reorded_label_id", "--reorder_labels")]

/-- `ArgMatches::is_present` (clap): whether the user gave an argument declared by this name. -/
def isPresent (declared : List (String × String)) (given : List String) (name : String) : Bool :=
  declared.any (fun a => decide (a.1 = name) && given.contains a.2)

/-- What the user gives to `csv_to_static` (csv_to_static.rs:34-81). -/
structure CsvArgs where
  nodeFile : Option String
  edgeFile : String
  outFile : Option String
  separator : Option String
  flags : List String

variable {m k : Nat}

/-- The graph `csv_to_static` builds (csv_to_static.rs:84-125); both branches are the same but for the
direction. `mcN`, `mcE` are what `most_common` returns inside `reorder_id`. -/
def csvToStaticGraph (a : CsvArgs) (mcN mcE : List (Id k × Nat)) (w : World) :
    Res (StaticGraph m k (List Byte) (List Byte)) := do
  let on := isPresent csvFlags a.flags
  let labelFlag := on "reorder_label_id"
  let q ← Csv.readFrom (.decimal m) .text .text a.nodeFile a.edgeFile a.separator (on "has_headers")
    (on "is_flexible") w (GraphMap.new (on "is_directed"))
  let g ← (if q.1 then pure q.2 else .error .explicit)
  let r ← g.reorderId (on "reorder_node_id") labelFlag labelFlag mcN mcE
  let h ← unwrap r.graph
  h.intoStatic

/-- `csv_to_static` (csv_to_static.rs:33-143). -/
def csvToStatic (m wd v : Nat) (a : CsvArgs) (mcN mcE : List (Id k × Nat)) (w : World) :
    Res Unit × World :=
  exported (Codec.staticGraph (m := m) (k := k) wd v text text
      (isPresent csvFlags a.flags "is_directed")) (a.outFile.getD "graph.static") w
    (csvToStaticGraph a mcN mcE w)

/-! ### static_to_mmap, stats, remove_labels, vary_labels: programs on frozen graphs -/

/-- Labels of type `DefaultId`. -/
abbrev Plain (m k : Nat) := StaticGraph m k (Id m) (Id m)

/-- `UnStaticGraph::<DefaultId>::import(path).unwrap()` (stats.rs:38, remove_labels.rs:35,
vary_labels.rs:40, static_to_mmap.rs:49-55). -/
def load (wd v : Nat) (directed : Bool) (path : String) (w : World) : Res (Plain m k) :=
  orPanic (w.import (Codec.staticGraph (m := m) (k := k) wd v (.ident wd) (.ident wd) directed) path)

/-- `remove_labels` (remove_labels.rs:29-40). -/
def removeLabels (m k wd v : Nat) (inFile outFile : String) (w : World) : Res Unit × World :=
  exported (Codec.staticGraph (m := m) (k := k) wd v (.ident wd) (.ident wd) false) outFile w (do
    let g ← load wd v false inFile w
    pure g.removeLabels)

/-- The loop over the labels in `vary_labels` (vary_labels.rs:52-59). -/
def redraw {k : Nat} : List (Id k) → Rng → Res (List (Id k))
  | [], _ => pure []
  | l :: ls, r => do
    let q ← r.range 15
    let ls ← redraw ls q.2
    pure ((if q.1 > 10 then Id.new q.1 else l) :: ls)

/-- What `vary_labels` does to the graph (vary_labels.rs:42-59). -/
def variedLabels (g : Plain m k) (r : Rng) : Res (Plain m k) := do
  let g := g.removeEdgeLabels
  let nl ← ((List.range 4).map (fun i => (Id.new (11 + i) : Id m))).foldlM
    (fun s i => do
      let q ← s.addItem i
      pure q.1) g.nodeLabels
  let ls ← unwrap g.labels
  let ls ← redraw ls r
  pure { g with nodeLabels := nl, labels := some ls }

/-- `vary_labels` (vary_labels.rs:32-62). -/
def varyLabels (m k wd v : Nat) (inFile outFile : String) (r : Rng) (w : World) : Res Unit × World :=
  exported (Codec.staticGraph (m := m) (k := k) wd v (.ident wd) (.ident wd) false) outFile w (do
    let g ← load wd v false inFile w
    variedLabels g r)

/-- What `stats` prints for a graph (stats.rs:38-58): the largest degree and the numbers of nodes and edges
by label. The order of the lines is that of `most_common`, left open here. -/
def stats (g : Plain m k) : Res (Nat × List (Id m × Nat) × List (Id m × Nat)) := do
  let v ← g.view
  let ds ← v.nodeIndices.mapM v.degree
  let d ← unwrap ds.max?
  let a ← v.nodeLabelCounter
  let b ← v.edgeLabelCounter
  pure (d, a, b)

/-- `stats` on the files it is given (stats.rs:30-60): what it prints for each and how it ends. Lines printed for
a file before a panic are left out. -/
def statsFiles (wd v : Nat) (w : World) :
    List String → List (Nat × List (Id m × Nat) × List (Id m × Nat)) × Res Unit
  | [] => ([], .ok ())
  | path :: rest =>
    match (do
      let g : Plain m k ← load wd v false path w
      stats g) with
    | .error e => ([], .error e)
    | .ok x => (x :: (statsFiles wd v w rest).1, (statsFiles wd v w rest).2)

/-! ### vary_density -/

variable {NL EL : Type} [DecidableEq NL] [DecidableEq EL]

/-- The inner `loop` of `vary_density` (vary_density.rs:72-79): pairs are drawn until one is free. `fuel`
bounds the turns. -/
def drawEdge (nodes : Id m) : Nat → GraphMap m k NL EL → Rng → Res (GraphMap m k NL EL × Rng)
  | 0, _, _ => .error .diverge
  | fuel + 1, g, r => do
    let s ← r.range nodes.val
    let t ← s.2.range nodes.val
    if s.1 ≠ t.1 && !g.hasEdge (Id.new s.1) (Id.new t.1) then do
      let q ← g.addEdge (Id.new s.1) (Id.new t.1) none
      pure (q.1, t.2)
    else drawEdge nodes fuel g t.2

/-- The `for _ in 0..i` loop (vary_density.rs:70-80). -/
def drawEdges (nodes : Id m) (fuel : Nat) : Nat → GraphMap m k NL EL → Rng →
    Res (GraphMap m k NL EL × Rng)
  | 0, g, r => pure (g, r)
  | i + 1, g, r => do
    let q ← drawEdge nodes fuel g r
    drawEdges nodes fuel i q.1 q.2

/-- One turn of the loop over the degrees, up to the export (vary_density.rs:58-80). `n` and `e` are the
numbers of nodes and edges of the graph that was loaded. -/
def densify (n e fuel d : Nat) (g : GraphMap m k NL EL) (r : Rng) : Res (GraphMap m k NL EL × Rng) :=
  let target := d * n / 2
  if target ≤ e then .error .explicit
  else drawEdges (Id.new n) fuel (target - e) g r

/-- The checks before the loop (vary_density.rs:52-56): a division by the number of nodes and an assertion
on the largest id. -/
def densityChecks (g : GraphMap m k NL EL) : Res Unit :=
  if g.nodeCount = 0 then .error .explicit
  else do
    let M ← unwrap g.maxSeenId
    if M.val = g.nodeCount - 1 then pure () else .error .explicit

/-- The loop over the degrees (vary_density.rs:58-103): the graphs that are exported, in order, with the
degrees they belong to; and whether the loop came to its end. -/
def densities (n e fuel : Nat) : List Nat → GraphMap m k NL EL → Rng →
    List (Nat × GraphMap m k NL EL) × Res Unit
  | [], _, _ => ([], .ok ())
  | d :: ds, g, r =>
    match densify n e fuel d g r with
    | .error p => ([], .error p)
    | .ok q =>
      let rest := densities n e fuel ds q.1 q.2
      ((d, q.1) :: rest.1, rest.2)

/-- The name of an output file (vary_density.rs:89-95), without the directory. -/
def densityFile (file : String) (d : Nat) (g : GraphMap m k NL EL) : String :=
  file ++ "_" ++ toString g.nodeCount ++ "_" ++ toString g.edgeCount ++ "_" ++ toString d ++ ".graphmap"

/-- The exports: `.unwrap()` stops at the first that fails (vary_density.rs:102). -/
def exportAll (c : Codec (GraphMap m k NL EL)) (name : Nat → GraphMap m k NL EL → String) :
    List (Nat × GraphMap m k NL EL) → World → Res Unit × World
  | [], w => (.ok (), w)
  | p :: ps, w =>
    let r := w.export c p.2 (name p.1 p.2)
    if r.1 then exportAll c name ps r.2 else (.error .explicit, r.2)

/-- `vary_density` (vary_density.rs:35-110). The edge labels are of the same type as the node labels. The
exports are made one by one as the graphs are ready, so a panic in a later turn comes after the earlier
exports. -/
def varyDensity (m k wd v : Nat) (inFile : String) (naming : String → String) (degrees : List Nat)
    (fuel : Nat) (r : Rng) (w : World) : Res Unit × World :=
  let c := Codec.graphMap (m := m) (k := k) wd v text text false
  match (do
    let g ← orPanic (w.import c inFile)
    densityChecks g
    pure g : Res (GraphMap m k (List Byte) (List Byte))) with
  | .error p => (.error p, w)
  | .ok g =>
    let l := densities g.nodeCount g.edgeCount fuel degrees g r
    let x := exportAll c (fun d g => naming (densityFile inFile d g)) l.1 w
    match x.1 with
    | .error p => (.error p, x.2)
    | .ok _ => (l.2, x.2)

/-! ### static_to_csv, ldbc_to_graphmap, static_to_mmap -/

/-- `static_to_csv` (static_to_csv.rs:32-59), after the output directory has been made. -/
def staticToCsv (m k wd v : Nat) (inFile nodePath edgePath : String) (w : World) : Res Unit × World :=
  match (do
    let g ← orPanic (w.import (Codec.graphMap (m := m) (k := k) wd v text text false) inFile)
    Csv.writeTo (.decimal m) .text .text g.view nodePath edgePath w) with
  | .error p => (.error p, w)
  | .ok r => (if r.1 then .ok () else .error .explicit, r.2)

/-- Where `ldbc_to_graphmap` puts the graph (ldbc_to_graphmap.rs:48-56), `dirName` being the last component
of the input directory. -/
def ldbcPath (outDir dirName : String) (nodes edges : Nat) : String :=
  outDir ++ "/" ++ dirName ++ "_" ++ toString nodes ++ "_" ++ toString edges ++ ".graphmap"

/-- `ldbc_to_graphmap` (ldbc_to_graphmap.rs:30-67). -/
def ldbcToGraphMap (m k wd v : Nat) (digit : Char → Bool) (utf8 : List Byte → Bool) (outDir dirName : String)
    (dir : Option (List Ldbc.File)) (w : World) : Res Unit × World :=
  match (Ldbc.readFromPath digit utf8 false dir : Res (GraphMap m k (List Byte) (List Byte))) with
  | .error p => (.error p, w)
  | .ok g => exported (Codec.graphMap wd v text text false) (ldbcPath outDir dirName g.nodeCount g.edgeCount) w
      (.ok g)

/-- `static_to_mmap` (static_to_mmap.rs:28-56). -/
def staticToMmap (m k wd v : Nat) (directed : Bool) (graph output : String) (w : World) : Res Unit × World :=
  match (load wd v directed graph w : Res (Plain m k)) with
  | .error p => (.error p, w)
  | .ok g =>
    let r := g.dumpMmap wd v (.ident wd) (.ident wd) output w
    (if r.1 then .ok () else .error .explicit, r.2)

end Verif.Programs
