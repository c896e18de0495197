import Verif.Model.Csv

/-!
Texts: what Rust accepts as a `String` (`core::str::from_utf8`), and the two places where bytes of a file
become one: the csv crate, which reads `StringRecord`s, and `bincode`'s `String`.

`Verif.Model.Csv` leaves this check out; here are the same functions with it. `Props.c165_*` and `Props.c166_*`
say when the two agree.
-/

namespace Verif

/-- One byte of `run_utf8_validation` (core::str): the ranges that the next bytes have to be in, or `none`
after an error. -/
def utf8Step : Option (List (Nat × Nat)) → Byte → Option (List (Nat × Nat))
  | none, _ => none
  | some ((lo, hi) :: rest), b => if lo ≤ b.val ∧ b.val ≤ hi then some rest else none
  | some [], b =>
    if b.val < 0x80 then some []
    else if 0xC2 ≤ b.val ∧ b.val ≤ 0xDF then some [(0x80, 0xBF)]
    else if b.val = 0xE0 then some [(0xA0, 0xBF), (0x80, 0xBF)]
    else if b.val = 0xED then some [(0x80, 0x9F), (0x80, 0xBF)]
    else if 0xE1 ≤ b.val ∧ b.val ≤ 0xEF then some [(0x80, 0xBF), (0x80, 0xBF)]
    else if b.val = 0xF0 then some [(0x90, 0xBF), (0x80, 0xBF), (0x80, 0xBF)]
    else if 0xF1 ≤ b.val ∧ b.val ≤ 0xF3 then some [(0x80, 0xBF), (0x80, 0xBF), (0x80, 0xBF)]
    else if b.val = 0xF4 then some [(0x80, 0x8F), (0x80, 0xBF), (0x80, 0xBF)]
    else none

/-- `core::str::from_utf8(bs).is_ok()`. -/
def utf8 (bs : List Byte) : Bool := decide (bs.foldl utf8Step (some []) = some [])

/-- A `String`: bytes in UTF-8. -/
abbrev Str := {bs : List Byte // utf8 bs = true}

namespace Csv

/-- `rows` with the check of the csv crate's `StringRecord`: a row with a field that is not UTF-8 is an error.
`DeserializeRecordsIntoIter::new` asks for the headers with `rdr.headers().ok()`: if they are not UTF-8 there
are none, though the first record is still left out. -/
def textRows (c : Settings) (bs : List Byte) : Option (List (List Byte)) × List (List (List Byte)) :=
  match parse c.separator bs with
  | [] => (if c.hasHeaders then some [] else none, [])
  | r :: rs =>
    let good := fun x : List (List Byte) =>
      (c.flexible || decide (x.length = r.length)) && x.all utf8
    if c.hasHeaders then (if r.all utf8 then some r else none, rs.filter good)
    else (none, (r :: rs).filter good)

variable {X L : Type}

/-- `node_iter` (reader.rs:165-195) with the check. -/
def nodeTexts (c : Settings) (xf : Field X) (lf : Field L) (bs : List Byte) : List (X × Option L) :=
  let r := textRows c bs
  r.2.filterMap (fun row =>
    match r.1 with
    | some h => nodeMap xf lf h row none none
    | none => nodeSeq xf lf row)

/-- `edge_iter` (reader.rs:197-224) with the check. -/
def edgeTexts (c : Settings) (xf : Field X) (lf : Field L) (bs : List Byte) : List (X × X × Option L) :=
  let r := textRows c bs
  r.2.filterMap (fun row =>
    match r.1 with
    | some h => edgeMap xf lf h row none none none
    | none => edgeSeq xf lf row)

/-- `CSVReader::read` (reader.rs:118-163) with the check. -/
def readTexts {m k : Nat} {NL EL : Type} [DecidableEq NL] [DecidableEq EL] (c : Settings) (xf : Field (Id m))
    (nf : Field NL) (ef : Field EL) (nodes : Option (List Byte)) (edges : List Byte) (g : GraphMap m k NL EL) :
    Res (GraphMap m k NL EL) := do
  let g ← (match nodes with
    | none => pure g
    | some bs => (nodeTexts c xf nf bs).foldlM (fun g r => do
        let q ← g.addNode r.1 r.2
        pure q.1) g)
  (edgeTexts c xf ef edges).foldlM (fun g r => do
    let q ← g.addEdge r.1 r.2.1 r.2.2
    pure q.1) g

end Csv

/-- `String` in a CSV field. -/
def Field.string : Field Str where
  shown := Subtype.val
  parse bs := if h : utf8 bs = true then some ⟨bs, h⟩ else none

/-- `String` in a `bincode` file: the length and the bytes, which have to be UTF-8. -/
def Codec.string : Codec Str where
  put s := (Codec.vec (Codec.ident 1 : Codec Byte)).put s.val
  get bs := do
    let p ← (Codec.vec (Codec.ident 1 : Codec Byte)).get bs
    if h : utf8 p.1 = true then pure (⟨p.1, h⟩, p.2) else none

end Verif
