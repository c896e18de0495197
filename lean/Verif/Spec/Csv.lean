import Verif.Model.Csv
import Verif.Spec.View

/-! What is asked of CSV files. -/

namespace Verif.Spec

variable {m k : Nat} {NL EL X L : Type}

/-- A separator that cannot be confused with quotes or line ends. -/
def SeparatorOk (sep : Byte) : Prop := sep ≠ 34 ∧ sep ≠ 10 ∧ sep ≠ 13

/-- The field of a row under a column name. -/
def column (hdr row : List (List Byte)) (name : String) : Option (List Byte) :=
  (hdr.idxOf? (ascii name)).bind (row[·]?)

/-- A usable header: no column twice, only known names, the needed ones present. -/
def HeaderOk (hdr : List (List Byte)) (needed : List String) (optional : String) : Prop :=
  hdr.Nodup ∧ (∀ h ∈ hdr, (∃ n ∈ needed, h = ascii n) ∨ h = ascii optional) ∧ ∀ n ∈ needed, ascii n ∈ hdr

/-- An optional label: missing, empty and unreadable fields mean none. -/
def labelOf (lf : Field L) (f : Option (List Byte)) : Option L :=
  f.bind (fun f => if f = [] then none else lf.parse f)

/-- Labels that are written as an empty field disappear. -/
def AGraph.dropEmpty {I : Type} (nf : Field NL) (ef : Field EL) (A : AGraph I NL EL) : AGraph I NL EL where
  node n := (A.node n).map (fun l => l.filter (fun x => decide (nf.shown x ≠ [])))
  edge s t := (A.edge s t).map (fun l => l.filter (fun x => decide (ef.shown x ≠ [])))

end Verif.Spec
