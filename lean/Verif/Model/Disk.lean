import Verif.Model.Serde

/-!
Writing files: `std::io::BufWriter` over a file, `dump` (`/repo/src/io/mmap.rs:108-123`), `export` and
`import` (`/repo/src/io/serde.rs:53-77`).

The disk has a limited number of further effects, `room`: creating a file takes one, every byte written
takes one. When none is left, calls fail. So running with every value of `room` covers a full disk as well
as a process stopped at any point. What the operating system may lose in a power failure after a
successful write is not modelled.
-/

namespace Verif

/-- An open file: what it holds and the effects left. -/
structure Sink where
  data : List Byte
  room : Nat
  deriving DecidableEq, Repr

namespace Sink

/-- `Write::write` of a file: the number of bytes taken, or `none` for an error. -/
def write (s : Sink) (bs : List Byte) : Option Nat × Sink :=
  if bs.length = 0 then (some 0, s)
  else if s.room = 0 then (none, s)
  else (some (min bs.length s.room), ⟨s.data ++ bs.take s.room, s.room - bs.length⟩)

end Sink

/-- `BufWriter`: the file and the bytes not handed on yet. -/
structure BufWriter where
  inner : Sink
  buf : List Byte
  deriving DecidableEq, Repr

namespace BufWriter

/-- The buffer's size (`DEFAULT_BUF_SIZE`). -/
def capacity : Nat := 8192

/-- `BufWriter::new`. -/
def new (s : Sink) : BufWriter := ⟨s, []⟩

/-- The loop of `flush_buf`: the bytes are handed on until all are or a write fails; what was handed on
leaves the buffer. `fuel` bounds the turns. -/
def flushLoop : Nat → BufWriter → Bool × BufWriter
  | 0, w => (w.buf.length = 0, w)
  | fuel + 1, w =>
    if w.buf.length = 0 then (true, w)
    else match w.inner.write w.buf with
      | (some 0, s) => (false, ⟨s, w.buf⟩)
      | (some n, s) => flushLoop fuel ⟨s, w.buf.drop n⟩
      | (none, s) => (false, ⟨s, w.buf⟩)

/-- `flush_buf`; also `flush`. -/
def flush (w : BufWriter) : Bool × BufWriter := flushLoop (w.buf.length + 1) w

/-- `Write::write`: flush a buffer that would overflow; large inputs bypass the buffer. -/
def write (w : BufWriter) (bs : List Byte) : Option Nat × BufWriter :=
  let r := if w.buf.length + bs.length > capacity then w.flush else (true, w)
  if !r.1 then (none, r.2)
  else if bs.length ≥ capacity then
    let q := r.2.inner.write bs
    (q.1, ⟨q.2, r.2.buf⟩)
  else (some bs.length, ⟨r.2.inner, r.2.buf ++ bs⟩)

/-- `Write::write_all`. `fuel` bounds the turns. -/
def writeLoop : Nat → BufWriter → List Byte → Bool × BufWriter
  | 0, w, bs => (bs.length = 0, w)
  | fuel + 1, w, bs =>
    if bs.length = 0 then (true, w)
    else match w.write bs with
      | (some 0, w) => (false, w)
      | (some n, w) => writeLoop fuel w (bs.drop n)
      | (none, w) => (false, w)

/-- `Write::write_all`. -/
def writeAll (w : BufWriter) (bs : List Byte) : Bool × BufWriter := writeLoop (bs.length + 1) w bs

/-- Several `write_all` calls, stopping at the first error (`?`). -/
def writeEach (w : BufWriter) : List (List Byte) → Bool × BufWriter
  | [] => (true, w)
  | p :: ps =>
    let r := w.writeAll p
    if r.1 then writeEach r.2 ps else r

/-- `Drop`: one more flush, whose result is ignored. -/
def drop (w : BufWriter) : Sink := w.flush.2.inner

end BufWriter

/-- `to_write` for a slice of `n` bytes (io/mmap.rs:113-117), the end of the slices taken at 118 and 119. -/
def pieceLen (n : Nat) : Nat := if n < 10000 then n else 10000

/-- The pieces `dump` (io/mmap.rs:110-120) cuts a slice into: at most 10000 bytes each. `fuel` bounds the
turns of the loop. Slicing past the end would panic; `c49_pieces` shows that `pieceLen` never asks for it. -/
def chunks : Nat → List Byte → List (List Byte)
  | 0, _ => []
  | fuel + 1, bs =>
    if bs.length = 0 then []
    else
      let n := pieceLen bs.length
      bs.take n :: chunks fuel (bs.drop n)

/-- `dump` (io/mmap.rs:108-123) of the bytes of a slice: the pieces, then an explicit flush. -/
def dumpTo (s : Sink) (bs : List Byte) : Bool × Sink :=
  let r := (BufWriter.new s).writeEach (chunks (bs.length + 1) bs)
  if r.1 then
    let q := r.2.flush
    (q.1, q.2.drop)
  else (false, r.2.drop)

/-- `serialize_into` a `BufWriter` that is dropped at the end of `export` (io/serde.rs:60-62). -/
def exportTo (s : Sink) (pieces : List (List Byte)) : Bool × Sink :=
  let r := (BufWriter.new s).writeEach pieces
  (r.1, r.2.drop)

/-- The files of the disk and the effects left. -/
structure World where
  files : String → Option (List Byte)
  room : Nat

namespace World

/-- A file gets new contents. -/
def put (w : World) (path : String) (s : Sink) : World :=
  ⟨fun p => if p = path then some s.data else w.files p, s.room⟩

/-- `File::create(path)?` followed by writing with `f`. -/
def create (w : World) (path : String) (f : Sink → Bool × Sink) : Bool × World :=
  if w.room = 0 then (false, w)
  else
    let r := f ⟨[], w.room - 1⟩
    (r.1, w.put path r.2)

/-- `f()?; g()`. -/
def andThen (r : Bool × World) (f : World → Bool × World) : Bool × World := if r.1 then f r.2 else r

/-- `dump(data, File::create(path)?)?`. -/
def dump (path : String) (bs : List Byte) (w : World) : Bool × World :=
  w.create path (fun s => dumpTo s bs)

/-- `Serializer::export` (io/serde.rs:55-63). -/
def «export» {X : Type} (c : Codec X) (x : X) (path : String) (w : World) : Bool × World :=
  w.create path (fun s => exportTo s (c.put x))

/-- `Deserializer::import` (io/serde.rs:68-76): bytes after the value are not looked at. -/
def «import» {X : Type} (c : Codec X) (path : String) (w : World) : Option X := do
  let bs ← w.files path
  let p ← c.get bs
  pure p.1

end World

end Verif
