import Verif.Model.Serde
import Verif.Model.View

/-!
CSV: `/repo/src/io/csv/`, and as much of the `csv` crate (version 1) as it uses: `WriterBuilder` and
`ReaderBuilder` with everything but the delimiter, `has_headers` and `flexible` at its default.

Simplifications: file contents are lists of bytes; files that cannot be opened and a byte order mark are left
out; files that are not UTF-8 are in `Verif.Model.Utf8`; labels take one field each. How ids and labels are written in a field and read
from one is a parameter (`Field`), with Rust's decimal notation as an instance.
-/

namespace Verif

/-- `Serialize` and `Deserialize` of a value that takes one field. -/
structure Field (X : Type) where
  shown : X → List Byte
  parse : List Byte → Option X

/-- The bytes of an ASCII text. -/
def ascii (s : String) : List Byte := s.toList.map (fun c => Id.new c.toNat)

/-- `"` -/
def quote : Byte := 34

/-- Line ends: `\n` and `\r`. -/
def isTerm (c : Byte) : Bool := decide (c = 10) || decide (c = 13)

namespace Csv

/-! ### The writer of the crate -/

/-- `Writer::needs_quotes` of csv-core. -/
def needsQuotes (sep : Byte) (f : List Byte) : Bool :=
  f.any (fun c => decide (c = sep) || decide (c = quote) || isTerm c)

/-- A quote inside a quoted field is doubled. -/
def escape (f : List Byte) : List Byte := f.flatMap (fun c => if c = quote then [quote, quote] else [c])

/-- A field as it is written. -/
def writeField (sep : Byte) (f : List Byte) : List Byte :=
  if needsQuotes sep f then quote :: escape f ++ [quote] else f

/-- The fields of a record with separators in between. -/
def joinFields (sep : Byte) : List (List Byte) → List Byte
  | [] => []
  | [f] => writeField sep f
  | f :: fs => writeField sep f ++ sep :: joinFields sep fs

/-- A record as it is written: one that would leave an empty line becomes `""`. -/
def writeRecord (sep : Byte) (r : List (List Byte)) : List Byte :=
  (if joinFields sep r = [] then [quote, quote] else joinFields sep r) ++ [10]

/-! ### The reader of the crate -/

/-- The states of csv-core's reader that matter here. -/
inductive Mode
  | startRecord | startField | inField | inQuoted | afterQuote | afterCr
  deriving DecidableEq, Repr

/-- The reader: its state, the field and the record being read. -/
structure Scan where
  mode : Mode
  field : List Byte
  fields : List (List Byte)
  deriving DecidableEq, Repr

namespace Scan

/-- Before the first record. -/
def start : Scan := ⟨.startRecord, [], []⟩

/-- A byte that cannot be a quote's or escape's: end of field, end of record, or one more byte. -/
def plain (sep : Byte) (s : Scan) (c : Byte) : Scan × Option (List (List Byte)) :=
  if c = sep then (⟨.startField, [], s.fields ++ [s.field]⟩, none)
  else if isTerm c then
    (⟨if c = 13 then .afterCr else .startRecord, [], []⟩, some (s.fields ++ [s.field]))
  else (⟨.inField, s.field ++ [c], s.fields⟩, none)

/-- The first byte of a field. -/
def first (sep : Byte) (s : Scan) (c : Byte) : Scan × Option (List (List Byte)) :=
  if c = quote then (⟨.inQuoted, s.field, s.fields⟩, none) else s.plain sep c

/-- The first byte of a record; empty lines are skipped. -/
def line (sep : Byte) (s : Scan) (c : Byte) : Scan × Option (List (List Byte)) :=
  if isTerm c then (start, none) else s.first sep c

/-- `transition_nfa` of csv-core for one byte: the next state and the record it completes, if any. -/
def step (sep : Byte) (s : Scan) (c : Byte) : Scan × Option (List (List Byte)) :=
  match s.mode with
  | .startRecord => s.line sep c
  | .startField => s.first sep c
  | .inField => s.plain sep c
  | .inQuoted =>
    if c = quote then (⟨.afterQuote, s.field, s.fields⟩, none)
    else (⟨.inQuoted, s.field ++ [c], s.fields⟩, none)
  | .afterQuote =>
    if c = quote then (⟨.inQuoted, s.field ++ [c], s.fields⟩, none) else s.plain sep c
  | .afterCr => if c = 10 then (start, none) else s.line sep c

/-- All records: the state moves on byte by byte; at the end of the input an unfinished record counts. -/
def records (sep : Byte) (s : Scan) : List Byte → List (List (List Byte))
  | [] =>
    match s.mode with
    | .startRecord | .afterCr => []
    | _ => [s.fields ++ [s.field]]
  | c :: cs =>
    let r := s.step sep c
    match r.2 with
    | none => records sep r.1 cs
    | some rec => rec :: records sep r.1 cs

end Scan

/-- The records of a file. -/
def parse (sep : Byte) (bs : List Byte) : List (List (List Byte)) := Scan.start.records sep bs

/-- What `ReaderBuilder` is told (reader.rs:118-147). -/
structure Settings where
  separator : Byte
  hasHeaders : Bool
  flexible : Bool
  deriving DecidableEq, Repr

/-- `into_deserialize` up to the record type: the headers, and the rows of the right length. Rows of
another length than the first record are errors unless `flexible`. -/
def rows (c : Settings) (bs : List Byte) : List (List Byte) × List (List (List Byte)) :=
  match parse c.separator bs with
  | [] => ([], [])
  | r :: rs =>
    let good := fun x : List (List Byte) => c.flexible || decide (x.length = r.length)
    if c.hasHeaders then (r, rs.filter good) else ([], (r :: rs).filter good)

/-! ### Records of the library -/

/-- Column names (record.rs:30-34, 38-44). -/
def idName : List Byte := ascii "nodeId:ID"
def labelName : List Byte := ascii ":LABEL"
def startName : List Byte := ascii ":START_ID"
def endName : List Byte := ascii ":END_ID"
def typeName : List Byte := ascii ":TYPE"

section

variable {X L : Type}

/-- `next_value::<Option<L>>().unwrap_or(None)`: the label and the remaining fields. -/
def optField (lf : Field L) : List (List Byte) → Option L × List (List Byte)
  | [] => (none, [])
  | f :: fs => (if f = [] then none else lf.parse f, fs)

/-- `NodeRecord`'s `visit_seq` (record.rs:110-120), used without headers. -/
def nodeSeq (xf : Field X) (lf : Field L) : List (List Byte) → Option (X × Option L)
  | [] => none
  | f :: fs => do
    let i ← xf.parse f
    pure (i, match fs with
      | [] => none
      | l :: _ => lf.parse l)

/-- `NodeRecord`'s `visit_map` (record.rs:122-147), used with headers: the loop over the columns. -/
def nodeMap (xf : Field X) (lf : Field L) : List (List Byte) → List (List Byte) → Option X →
    Option (Option L) → Option (X × Option L)
  | [], _, id, label => do
    let i ← id
    pure (i, label.getD none)
  | h :: hs, fs, id, label =>
    if h = idName then
      if id.isSome then none
      else match fs with
        | [] => none
        | f :: fs => do
          let i ← xf.parse f
          nodeMap xf lf hs fs (some i) label
    else if h = labelName then
      if label.isSome then none
      else
        let r := optField lf fs
        nodeMap xf lf hs r.2 id (some r.1)
    else none

/-- `EdgeRecord`'s `visit_seq` (record.rs:198-211). -/
def edgeSeq (xf : Field X) (lf : Field L) : List (List Byte) → Option (X × X × Option L)
  | f :: g :: fs => do
    let s ← xf.parse f
    let t ← xf.parse g
    pure (s, t, match fs with
      | [] => none
      | l :: _ => lf.parse l)
  | _ => none

/-- `EdgeRecord`'s `visit_map` (record.rs:213-246): the loop over the columns. -/
def edgeMap (xf : Field X) (lf : Field L) : List (List Byte) → List (List Byte) → Option X → Option X →
    Option (Option L) → Option (X × X × Option L)
  | [], _, s, t, label => do
    let s ← s
    let t ← t
    pure (s, t, label.getD none)
  | h :: hs, fs, s, t, label =>
    if h = startName then
      if s.isSome then none
      else match fs with
        | [] => none
        | f :: fs => do
          let i ← xf.parse f
          edgeMap xf lf hs fs (some i) t label
    else if h = endName then
      if t.isSome then none
      else match fs with
        | [] => none
        | f :: fs => do
          let i ← xf.parse f
          edgeMap xf lf hs fs s (some i) label
    else if h = typeName then
      if label.isSome then none
      else
        let r := optField lf fs
        edgeMap xf lf hs r.2 s t (some r.1)
    else none

/-- `node_iter` (reader.rs:165-195): rows that fail are skipped. -/
def nodeIter (c : Settings) (xf : Field X) (lf : Field L) (bs : List Byte) : List (X × Option L) :=
  let r := rows c bs
  r.2.filterMap (fun row => if c.hasHeaders then nodeMap xf lf r.1 row none none else nodeSeq xf lf row)

/-- `edge_iter` (reader.rs:197-224). -/
def edgeIter (c : Settings) (xf : Field X) (lf : Field L) (bs : List Byte) : List (X × X × Option L) :=
  let r := rows c bs
  r.2.filterMap (fun row => if c.hasHeaders then edgeMap xf lf r.1 row none none none else edgeSeq xf lf row)

end

variable {m k : Nat} {NL EL : Type}

/-- `CSVReader::read` (reader.rs:118-163) with `add_to_graph` (record.rs:55-57, 71-73): `nodes` is the node
file, if a path was given. The records are those of `node_iter` and `edge_iter`: the same loops. -/
def read [DecidableEq NL] [DecidableEq EL] (c : Settings) (xf : Field (Id m)) (nf : Field NL)
    (ef : Field EL) (nodes : Option (List Byte)) (edges : List Byte) (g : GraphMap m k NL EL) :
    Res (GraphMap m k NL EL) := do
  let g ← (match nodes with
    | none => pure g
    | some bs => (nodeIter c xf nf bs).foldlM (fun g r => do
        let q ← g.addNode r.1 r.2
        pure q.1) g)
  (edgeIter c xf ef edges).foldlM (fun g r => do
    let q ← g.addEdge r.1 r.2.1 r.2.2
    pure q.1) g

/-- `csv::Writer::serialize` of some records: the column names come before the first one, so a file without
records is empty. -/
def writeAll (sep : Byte) (header : List (List Byte)) (rs : List (List (List Byte))) : List Byte :=
  if rs = [] then [] else writeRecord sep header ++ rs.flatMap (writeRecord sep)

/-- A record with an optional label (`None` is an empty field). -/
def record {L : Type} (ids : List (List Byte)) (lf : Field L) (l : Option L) : List (List Byte) :=
  ids ++ [(l.map lf.shown).getD []]

/-- `CSVWriter::write` (writer.rs:99-133): the contents of the node and the edge file. -/
def write (sep : Byte) (xf : Field (Id m)) (nf : Field NL) (ef : Field EL) (g : GView m k NL EL) :
    Res (List Byte × List Byte) := do
  let ns ← g.nodeIndices.mapM (fun n => do
    let l ← g.getNodeLabel n
    pure (record [xf.shown n] nf l))
  let es ← g.edgeIndices.mapM (fun e => do
    let l ← g.getEdgeLabel e.1 e.2
    pure (record [xf.shown e.1, xf.shown e.2] ef l))
  pure (writeAll sep [idName, labelName] ns, writeAll sep [startName, endName, typeName] es)

end Csv

/-- `with_separator` (reader.rs:75-99, writer.rs:66-90): the separator for a text. A text of one byte is
one ASCII character. -/
def separatorOf (s : String) : Res Byte :=
  let t := if s = "comma" then "," else if s = "space" then " " else if s = "tab" then "\t" else s
  if t.utf8ByteSize ≠ 1 then .error .explicit
  else match t.toList with
    | c :: _ => pure (Id.new c.toNat)
    | [] => .error .unwrapNone

/-- Decimal digits of a number. -/
def digits (n : Nat) : List Byte := (Nat.toDigits 10 n).map (fun c => Id.new c.toNat)

/-- The value of some decimal digits. -/
def ofDigits : Nat → List Byte → Option Nat
  | acc, [] => some acc
  | acc, c :: cs => if 48 ≤ c.val ∧ c.val ≤ 57 then ofDigits (acc * 10 + (c.val - 48)) cs else none

/-- Ids in decimal notation, as `Display` writes and `FromStr` reads unsigned integers: an optional `+`, then
at least one digit, the value not above the maximum. -/
def Field.decimal (m : Nat) : Field (Id m) where
  shown n := digits n.val
  parse f :=
    let ds := if f.head? = some 43 then f.tail else f
    if ds = [] then none
    else (ofDigits 0 ds).bind (fun n => if h : n < m + 1 then some ⟨n, h⟩ else none)

/-- The value of a hexadecimal digit in either case (`char::to_digit(16)`). -/
def hexValue (c : Byte) : Option Nat :=
  if 48 ≤ c.val ∧ c.val ≤ 57 then some (c.val - 48)
  else if 97 ≤ c.val ∧ c.val ≤ 102 then some (c.val - 87)
  else if 65 ≤ c.val ∧ c.val ≤ 70 then some (c.val - 55)
  else none

/-- The value of some hexadecimal digits. -/
def ofHex : Nat → List Byte → Option Nat
  | acc, [] => some acc
  | acc, c :: cs => (hexValue c).bind (fun d => ofHex (acc * 16 + d) cs)

/-- Ids as later versions 1.x of the csv crate read them: a field that begins with `0x` goes on with a
hexadecimal number (`from_str_radix`, which takes a `+` too), any other is decimal. (`Cargo.toml` asks for
any version 1.) -/
def Field.number (m : Nat) : Field (Id m) where
  shown n := digits n.val
  parse f :=
    if f.take 2 = ascii "0x" then
      let f := f.drop 2
      let ds := if f.head? = some 43 then f.tail else f
      if ds = [] then none
      else (ofHex 0 ds).bind (fun n => if h : n < m + 1 then some ⟨n, h⟩ else none)
    else (Field.decimal m).parse f

/-- Text labels (`String`). -/
def Field.text : Field (List Byte) := ⟨id, some⟩

end Verif
