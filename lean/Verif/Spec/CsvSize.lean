import Verif.Spec.Csv

/-! How long CSV files are. -/

namespace Verif.Spec

variable {m : Nat} {NL EL L : Type}

/-- The bytes of a field: as it is, or, if it holds a separator, a quote or a line end, between quotes and
with every quote doubled. -/
def cellBytes (sep : Byte) (f : List Byte) : Nat :=
  if sep ∈ f ∨ 34 ∈ f ∨ 10 ∈ f ∨ 13 ∈ f then 2 + f.length + f.count 34 else f.length

/-- The bytes of a line: its fields, and one more byte after each. -/
def lineBytes (sep : Byte) (fs : List (List Byte)) : Nat := (fs.map (fun f => cellBytes sep f + 1)).sum

/-- The bytes of a file: none without lines, otherwise a line of column names and the others. -/
def fileBytes (sep : Byte) (names : List String) (lines : List (List (List Byte))) : Nat :=
  if lines = [] then 0 else lineBytes sep (names.map ascii) + (lines.map (lineBytes sep)).sum

/-- The text of a label, empty for none. -/
def textOf (f : Field L) (l : Option (Option L)) : List Byte := ((l.join).map f.shown).getD []

/-- The bytes of a node file. -/
def nodeFileBytes (sep : Byte) (xf : Field (Id m)) (nf : Field NL) (A : AGraph (Id m) NL EL) (ns : List (Id m)) : Nat :=
  fileBytes sep ["nodeId:ID", ":LABEL"] (ns.map fun n => [xf.shown n, textOf nf (A.node n)])

/-- The bytes of an edge file. -/
def edgeFileBytes (sep : Byte) (xf : Field (Id m)) (ef : Field EL) (A : AGraph (Id m) NL EL)
    (es : List (Id m × Id m)) : Nat :=
  fileBytes sep [":START_ID", ":END_ID", ":TYPE"]
    (es.map fun e => [xf.shown e.1, xf.shown e.2, textOf ef (A.edge e.1 e.2)])

/-- The room writing both files takes, with commas: one unit for each file and one for each byte. -/
def csvRoom (xf : Field (Id m)) (nf : Field NL) (ef : Field EL) (A : AGraph (Id m) NL EL) (ns : List (Id m))
    (es : List (Id m × Id m)) : Nat :=
  2 + nodeFileBytes 44 xf nf A ns + edgeFileBytes 44 xf ef A es

end Verif.Spec
