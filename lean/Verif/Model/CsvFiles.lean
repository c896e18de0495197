import Verif.Model.Csv
import Verif.Model.Disk

/-!
CSV files on the disk: `write_to_csv` and `read_from_csv` (`/repo/src/io/csv/mod.rs`) with the opening of
files in `CSVReader` and `CSVWriter` (`/repo/src/io/csv/reader.rs`, `writer.rs`), and the buffer of the
`csv` crate's `Writer`.
-/

namespace Verif

/-- `csv::Writer` over a file: the file and the bytes not handed on yet. -/
structure CsvOut where
  inner : Sink
  buf : List Byte
  deriving DecidableEq, Repr

namespace CsvOut

/-- The buffer's size (`buffer_capacity` of the crate's `WriterBuilder`). -/
def capacity : Nat := 8192

/-- `flush_buf`: `write_all` of the buffer to the file (the loop of `BufWriter`), which is emptied unless
that fails. -/
def flush (w : CsvOut) : Bool × CsvOut :=
  let r := (⟨w.inner, w.buf⟩ : BufWriter).flush
  (r.1, ⟨r.2.inner, if r.1 then [] else w.buf⟩)

/-- One more byte: a full buffer is flushed first. (Two bytes of an escaped quote are treated as any other
two: the crate may flush one byte earlier there.) -/
def push (w : CsvOut) (b : Byte) : Bool × CsvOut :=
  if w.buf.length < capacity then (true, ⟨w.inner, w.buf ++ [b]⟩)
  else
    let r := w.flush
    if r.1 then (true, ⟨r.2.inner, r.2.buf ++ [b]⟩) else r

/-- `serialize(..)?` for some records, given by their bytes: stops at the first error. -/
def pushAll (w : CsvOut) : List Byte → Bool × CsvOut
  | [] => (true, w)
  | b :: bs =>
    let r := w.push b
    if r.1 then pushAll r.2 bs else r

/-- `Drop`: one more flush, whose result is ignored. -/
def drop (w : CsvOut) : Sink := w.flush.2.inner

end CsvOut

namespace Csv

/-- `b','`, the separator of `CSVReader::new` (reader.rs:68) and `CSVWriter::new` (writer.rs:62). -/
def comma : Byte := 44

variable {m k : Nat} {NL EL : Type}

/-- `CSVWriter::write` (writer.rs:99-133) after the records are known: `nb` and `eb` are the bytes of the
two files. The writer of the node file is shadowed, not dropped, by that of the edge file (writer.rs:107,
120): both buffers are emptied at the end of the function, the edge file's first. The paths are taken to
be different. -/
def writeFiles (nodePath edgePath : String) (nb eb : List Byte) (w : World) : Bool × World :=
  if w.room = 0 then (false, w)
  else
    let n := (⟨⟨[], w.room - 1⟩, []⟩ : CsvOut).pushAll nb
    if n.1 = false then (false, w.put nodePath n.2.drop)
    else if n.2.inner.room = 0 then (false, w.put nodePath n.2.drop)
    else
      let e := (⟨⟨[], n.2.inner.room - 1⟩, []⟩ : CsvOut).pushAll eb
      let es := e.2.drop
      let ns := (⟨⟨n.2.inner.data, es.room⟩, n.2.buf⟩ : CsvOut).drop
      (e.1, (w.put edgePath es).put nodePath ns)

/-- `write_to_csv` (csv/mod.rs:35-48): the separator is a comma (writer.rs:53-64). The result is whether the
call returned `Ok`. -/
def writeTo (xf : Field (Id m)) (nf : Field NL) (ef : Field EL) (g : GView m k NL EL)
    (nodePath edgePath : String) (w : World) : Res (Bool × World) := do
  let b ← write comma xf nf ef g
  pure (writeFiles nodePath edgePath b.1 b.2 w)

/-- The separator of `read_from_csv` (csv/mod.rs:65-74). -/
def givenSeparator : Option String → Res Byte
  | some s => separatorOf s
  | none => pure comma

/-- `read_from_csv` (csv/mod.rs:50-75) with `CSVReader::new`, `with_separator`, `headers` and `flexible`
(reader.rs:64-110) and the opening of files in `read` (reader.rs:118-163): `false` is an `Err`, after which
the graph has what was added before. -/
def readFrom [DecidableEq NL] [DecidableEq EL] (xf : Field (Id m)) (nf : Field NL) (ef : Field EL)
    (nodePath : Option String) (edgePath : String) (separator : Option String)
    (hasHeaders flexible : Bool) (w : World) (g : GraphMap m k NL EL) :
    Res (Bool × GraphMap m k NL EL) := do
  let sep ← givenSeparator separator
  let c : Settings := ⟨sep, hasHeaders, flexible⟩
  let nodes ← (match nodePath with
    | none => pure (some none)
    | some p => pure ((w.files p).map some) : Res (Option (Option (List Byte))))
  match nodes with
  | none => pure (false, g)
  | some nodes =>
    match w.files edgePath with
    | some edges => do
      let g ← read c xf nf ef nodes edges g
      pure (true, g)
    | none => do
      let g ← read c xf nf ef nodes [] g
      pure (false, g)

end Csv

end Verif
