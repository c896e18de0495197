import Verif.Model.CsvFiles
import Verif.Model.Calls

/-!
`CSVWriter::write` (`/repo/src/io/csv/writer.rs:99-133`) turn by turn, over a frozen or mapped graph whose rows
need not be sound: what the two files are left with when a call panics.
-/

namespace Verif

variable {m k : Nat} {NL EL : Type}

/-- How a loop is left before its end: by a panic, or by an `Err` of the writer. -/
inductive Stop
  | panic (p : Panic)
  | failed
  deriving DecidableEq, Repr

namespace Csv

/-- A `csv::Writer` that writes the column names before its first record. -/
structure OutFile where
  out : CsvOut
  started : Bool
  deriving DecidableEq, Repr

/-- `wtr.serialize(..)?` of one record. -/
def OutFile.put (sep : Byte) (header : List (List Byte)) (f : OutFile) (r : List (List Byte)) :
    OutFile × Option Stop :=
  let x := f.out.pushAll ((if f.started then [] else writeRecord sep header) ++ writeRecord sep r)
  (⟨x.2, true⟩, if x.1 then none else some .failed)

/-- One turn of a loop (writer.rs:111-113 and 124-130): the label is asked for, and the record with it is
written. -/
def writeTurn {X : Type} (sep : Byte) (header : List (List Byte)) (rec : X → Res (List (List Byte)))
    (f : OutFile) (x : X) : OutFile × Option Stop :=
  match rec x with
  | .error p => (f, some (.panic p))
  | .ok r => f.put sep header r

/-- `for id in self.g.node_indices()` (writer.rs:111-113). -/
def eachNode {S X : Type} (body : S → X → S × Option Stop) : S → List X → S × Option Stop
  | s, [] => (s, none)
  | s, x :: l =>
    match body s x with
    | (s, some p) => (s, some p)
    | (s, none) => eachNode body s l

/-- `for (start, target) in self.g.edge_indices()` (writer.rs:124-130), with the iterator asked for one pair
after another; `fuel` bounds the number of turns. -/
def eachPair {S : Type} (ev : EdgeVec m k) (d : Bool) (body : S → Id m × Id m → S × Option Stop) :
    Nat → S → EdgeIter → S × Option Stop
  | 0, s, _ => (s, some (.panic .diverge))
  | f + 1, s, it =>
    match EdgeIter.next ev d (f + 1) it with
    | .error p => (s, some (.panic p))
    | .ok none => (s, none)
    | .ok (some (e, it)) =>
      match body s e with
      | (s, some p) => (s, some p)
      | (s, none) => eachPair ev d body f s it

/-- What the call comes to: `Ok`, `Err` or a panic. -/
def stopped : Option Stop → Res Bool
  | none => .ok true
  | some .failed => .ok false
  | some (.panic p) => .error p

/-- `CSVWriter::write` (writer.rs:99-133) with a comma for the separator: `g` answers the calls, `ev` and `d` the
iterator over the edges. A panic drops the writers that are open, the edge file's first; dropped, they hand on
what they hold. The paths are taken to be different. -/
def writeSteps (xf : Field (Id m)) (nf : Field NL) (ef : Field EL) (g : GView m k NL EL) (ev : EdgeVec m k)
    (d : Bool) (nodePath edgePath : String) (w : World) : Res Bool × World :=
  if w.room = 0 then (.ok false, w)
  else
    let n := eachNode (writeTurn comma [idName, labelName]
      (fun n => do let l ← g.getNodeLabel n; pure (record [xf.shown n] nf l)))
      ⟨⟨⟨[], w.room - 1⟩, []⟩, false⟩ g.nodeIndices
    if n.2 ≠ none then (stopped n.2, w.put nodePath n.1.out.drop)
    else if n.1.out.inner.room = 0 then (.ok false, w.put nodePath n.1.out.drop)
    else
      let e := eachPair ev d (writeTurn comma [startName, endName, typeName]
        (fun e => do let l ← g.getEdgeLabel e.1 e.2; pure (record [xf.shown e.1, xf.shown e.2] ef l)))
        (ev.offsets.length + ev.edges.length + 1) ⟨⟨⟨[], n.1.out.inner.room - 1⟩, []⟩, false⟩ ⟨0, 0⟩
      let es := e.1.out.drop
      let ns := (⟨⟨n.1.out.inner.data, es.room⟩, n.1.out.buf⟩ : CsvOut).drop
      (stopped e.2, (w.put edgePath es).put nodePath ns)

end Csv

/-- `write_to_csv` (csv/mod.rs:35-48) of a frozen graph. -/
def StaticGraph.writeCsv (xf : Field (Id m)) (nf : Field NL) (ef : Field EL) (g : StaticGraph m k NL EL)
    (nodePath edgePath : String) (w : World) : Res Bool × World :=
  Csv.writeSteps xf nf ef g.calls g.edgeVec g.directed nodePath edgePath w

/-- `write_to_csv` (csv/mod.rs:35-48) of a mapped graph. -/
def MmapGraph.writeCsv (xf : Field (Id m)) (nf : Field NL) (ef : Field EL) (g : MmapGraph m k NL EL)
    (nodePath edgePath : String) (w : World) : Res Bool × World :=
  Csv.writeSteps xf nf ef g.calls g.edges g.isDirected nodePath edgePath w

end Verif
