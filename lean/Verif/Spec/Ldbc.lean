import Verif.Model.Ldbc
import Verif.Spec.View

/-! What is asked of loading LDBC data. -/

namespace Verif.Spec

open Ldbc

/-- What a record says: `key` is the kind followed by the number in the file. -/
inductive Event
  | node (key label : Text)
  | edge (s kindS t kindT label : Text)
  deriving DecidableEq, Repr

/-- A node that was not there gets its kind as label. -/
def meet (A : AGraph Text Text Text) (key kind : Text) : AGraph Text Text Text :=
  if (A.node key).isSome then A else A.addNode key (some kind)

namespace Event

/-- The keys a record speaks of. -/
def keys : Event → List Text
  | node key _ => [key]
  | edge s _ t _ _ => [s, t]

/-- Node labels that may be needed. -/
def nodeLabels : Event → List Text
  | node _ l => [l]
  | edge _ ks _ kt _ => [ks, kt]

/-- Edge labels that may be needed. -/
def edgeLabels : Event → List Text
  | node _ _ => []
  | edge _ _ _ _ l => [l]

/-- Is it a relation? -/
def isEdge : Event → Bool
  | node _ _ => false
  | edge _ _ _ _ _ => true

/-- The graph over keys after one more record. -/
def apply (d : Bool) (A : AGraph Text Text Text) : Event → AGraph Text Text Text
  | node key l => A.addNode key (some l)
  | edge s ks t kt l => (meet (meet A s ks) t kt).addEdge d s t (some l)

end Event

/-- The graph over keys that some records describe. -/
def described (d : Bool) (es : List Event) : AGraph Text Text Text := es.foldl (Event.apply d) AGraph.empty

/-- One more key, unless it is known. -/
def mention (ks : List Text) (key : Text) : List Text := if key ∈ ks then ks else ks ++ [key]

/-- The keys of some records, each once, in the order in which they are first mentioned. -/
def firsts (es : List Event) : List Text := (es.flatMap Event.keys).foldl mention []

/-- The rows of a file below its header. -/
def body (sep : Byte) (bytes : List Byte) : List Record := (Csv.parse sep bytes).tail

/-- What a row of a node file says. -/
def nodeEvent (n : Node) (r : Record) : Event :=
  .node (ascii n.name ++ r.getD n.idIndex []) (r.getD n.labelIndex [])

/-- What a row of a relation file says. -/
def relEvent (x : Relation) (r : Record) : Event :=
  .edge (ascii x.startLabel ++ r.getD x.startIndex []) (ascii x.startLabel)
    (ascii x.targetLabel ++ r.getD x.targetIndex []) (ascii x.targetLabel) (ascii x.edgeLabel)

/-- All that a directory says: first the nodes, then the relations, in the order of the scheme. -/
def events (digit : Char → Bool) (s : Scheme) (files : List File) : List Event :=
  s.nodes.flatMap (fun n => (files.filter (fun f => n.isMatch digit f.name)).flatMap
    (fun f => (body s.delimiter f.bytes).map (nodeEvent n))) ++
  s.relations.flatMap (fun x => (files.filter (fun f => x.isMatch digit f.name)).flatMap
    (fun f => (body s.delimiter f.bytes).map (relEvent x)))

/-- A file whose rows are as long as its header, in UTF-8, and have the two given columns. -/
def Readable (utf8 : Text → Bool) (sep : Byte) (i j : Nat) (bytes : List Byte) : Prop :=
  ∀ r ∈ body sep bytes, r.length = ((Csv.parse sep bytes).headD []).length ∧ (∀ f ∈ r, utf8 f = true) ∧
    i < r.length ∧ j < r.length

/-- All files that are read are readable. -/
def AllReadable (digit : Char → Bool) (utf8 : Text → Bool) (s : Scheme) (files : List File) : Prop :=
  (∀ n ∈ s.nodes, ∀ f ∈ files, n.isMatch digit f.name = true →
    Readable utf8 s.delimiter n.idIndex n.labelIndex f.bytes) ∧
  (∀ x ∈ s.relations, ∀ f ∈ files, x.isMatch digit f.name = true →
    Readable utf8 s.delimiter x.startIndex x.targetIndex f.bytes)

/-- The nodes `0, 1, 2, ..` stand for the keys in the list. -/
def numbered {m : Nat} (ks : List Text) (A : AGraph Text Text Text) : AGraph (Id m) Text Text where
  node i := (ks[i.val]?).bind A.node
  edge i j := (ks[i.val]?).bind fun a => (ks[j.val]?).bind fun b => A.edge a b

/-- A row as long as the header, in UTF-8. -/
def RowOk (utf8 : Text → Bool) (sep : Byte) (bytes : List Byte) (r : Record) : Prop :=
  r.length = ((Csv.parse sep bytes).headD []).length ∧ ∀ f ∈ r, utf8 f = true

instance (utf8 : Text → Bool) (sep : Byte) (bytes : List Byte) (r : Record) :
    Decidable (RowOk utf8 sep bytes r) := by unfold RowOk; infer_instance

/-- All rows of a directory in the order in which they are read; `none` is a row that is not as long as the
header or not in UTF-8. -/
def reads (digit : Char → Bool) (utf8 : Text → Bool) (s : Scheme) (files : List File) :
    List (Option Event) :=
  s.nodes.flatMap (fun n => (files.filter (fun f => n.isMatch digit f.name)).flatMap
    (fun f => (body s.delimiter f.bytes).map (fun r =>
      if RowOk utf8 s.delimiter f.bytes r then some (nodeEvent n r) else none))) ++
  s.relations.flatMap (fun x => (files.filter (fun f => x.isMatch digit f.name)).flatMap
    (fun f => (body s.delimiter f.bytes).map (fun r =>
      if RowOk utf8 s.delimiter f.bytes r then some (relEvent x r) else none)))

/-- Files with a header long enough for the columns that are read. -/
def Columns (digit : Char → Bool) (s : Scheme) (files : List File) : Prop :=
  (∀ n ∈ s.nodes, ∀ f ∈ files, n.isMatch digit f.name = true → ∀ h ∈ (Csv.parse s.delimiter f.bytes).head?,
    n.idIndex < h.length ∧ n.labelIndex < h.length) ∧
  (∀ x ∈ s.relations, ∀ f ∈ files, x.isMatch digit f.name = true →
    ∀ h ∈ (Csv.parse s.delimiter f.bytes).head?, x.startIndex < h.length ∧ x.targetIndex < h.length)

/-- The events before the first bad row. -/
def before : List (Option Event) → List Event
  | [] => []
  | none :: _ => []
  | some e :: l => e :: before l

/-- The label a node record gives to a key. -/
def Event.names (key : Text) : Event → Option Text
  | .node k l => if k = key then some l else none
  | .edge _ _ _ _ _ => none

/-- The kind under which a relation record speaks of a key. -/
def Event.kind (key : Text) : Event → Option Text
  | .node _ _ => none
  | .edge s ks t kt _ => if s = key then some ks else if t = key then some kt else none

/-- The label a relation record gives to the edge of two keys. -/
def Event.joins (d : Bool) (a b : Text) : Event → Option Text
  | .node _ _ => none
  | .edge s _ t _ l => if AGraph.same d s t a b then some l else none

/-- A file name as LDBC's generator makes them: the start, then underscores and digits, then `.csv`. -/
def Canonical (digit : Char → Bool) (start name : String) : Prop :=
  ∃ t : List Char, (∀ c ∈ t, c = '_' ∨ digit c = true) ∧ name.toList = start.toList ++ t ++ ['.', 'c', 's', 'v']

/-- Some characters that are no digits. -/
def DigitTable (digit : Char → Bool) : Prop :=
  ∀ c ∈ "abcdefghijklmnopqrstuvwxyz".toList, digit c = false

/-- The scheme with every relation once. -/
def once : Scheme := { Scheme.init with relations := Scheme.init.relations.eraseDups }

/-- The number of rows of relation files. -/
def relationRows (digit : Char → Bool) (s : Scheme) (files : List File) : Nat :=
  ((files.filter (fun f => s.relations.any (fun x => x.isMatch digit f.name))).map
    (fun f => (body s.delimiter f.bytes).length)).sum

end Verif.Spec
