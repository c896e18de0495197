import Verif.Spec.Csv

/-! A grammar of CSV files, with quotes: the format of RFC 4180 with everything that is not in it as well. -/

namespace Verif.Spec

/-- Line feed or carriage return. -/
def Ends (e : Byte) : Prop := e = 10 ∨ e = 13

/-- Quotes doubled. -/
def doubled (q : List Byte) : List Byte := q.flatMap (fun b => if b = 34 then [34, 34] else [b])

/-- Text that stands for itself: no separator, no line end, no quote in front. -/
def Bare (sep : Byte) (t : List Byte) : Prop :=
  t.head? ≠ some 34 ∧ ∀ b ∈ t, b ≠ sep ∧ ¬ Ends b

/-- A field as text and its value: bare text, or a quoted part and then bare text. -/
inductive CellText (sep : Byte) : List Byte → List Byte → Prop
  | bare {t : List Byte} (h : Bare sep t) : CellText sep t t
  | quoted (q : List Byte) {t : List Byte} (h : Bare sep t) :
    CellText sep (34 :: doubled q ++ 34 :: t) (q ++ t)

/-- A row as text and its fields. -/
inductive RowText (sep : Byte) : List Byte → List (List Byte) → Prop
  | one {t v : List Byte} (h : CellText sep t v) : RowText sep t [v]
  | more {t v t' : List Byte} {r : List (List Byte)} (h : CellText sep t v) (hr : RowText sep t' r) :
    RowText sep (t ++ sep :: t') (v :: r)

/-- A row whose last quote is never closed: it runs to the end of the file. -/
inductive OpenText (sep : Byte) : List Byte → List (List Byte) → Prop
  | one (q : List Byte) : OpenText sep (34 :: doubled q) [q]
  | more {t v t' : List Byte} {r : List (List Byte)} (h : CellText sep t v) (hr : OpenText sep t' r) :
    OpenText sep (t ++ sep :: t') (v :: r)

/-- A file as text and its rows; lines with nothing on them are no rows. -/
inductive FileText (sep : Byte) : List Byte → List (List (List Byte)) → Prop
  | done : FileText sep [] []
  | blank {e : Byte} {t : List Byte} {rs : List (List (List Byte))} (he : Ends e) (h : FileText sep t rs) :
    FileText sep (e :: t) rs
  | row {e : Byte} {t t' : List Byte} {r : List (List Byte)} {rs : List (List (List Byte))}
    (hr : RowText sep t r) (hne : t ≠ []) (he : Ends e) (h : FileText sep t' rs) :
    FileText sep (t ++ e :: t') (r :: rs)
  | last {t : List Byte} {r : List (List Byte)} (hr : RowText sep t r) (hne : t ≠ []) :
    FileText sep t [r]
  | opened {t : List Byte} {r : List (List Byte)} (hr : OpenText sep t r) : FileText sep t [r]

end Verif.Spec
