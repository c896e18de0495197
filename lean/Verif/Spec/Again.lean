import Verif.Spec.View
import Verif.Model.Csv

/-! Labels that CSV files can hold. -/

namespace Verif.Spec

variable {m : Nat} {NL EL : Type}

/-- The graph without the labels whose text is empty. -/
def AGraph.withoutEmpty (nf : Field NL) (ef : Field EL) (A : AGraph (Id m) NL EL) : AGraph (Id m) NL EL where
  node n := (A.node n).map (fun l => l.filter (fun x => nf.shown x ≠ []))
  edge s t := (A.edge s t).map (fun l => l.filter (fun x => ef.shown x ≠ []))

end Verif.Spec
