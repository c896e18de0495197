import Verif.Model.Basic
import Verif.Model.Serde

/-! The bytes of a text. -/

namespace Verif.Spec

/-- The bytes of a string as Lean defines them. -/
def bytesOf (s : String) : List Byte :=
  s.toList.flatMap (fun c => (String.utf8EncodeChar c).map UInt8.toFin)

end Verif.Spec
