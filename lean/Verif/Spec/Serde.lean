import Verif.Model.Serde

/-! What is asked of a byte format. -/

namespace Verif.Codec

variable {X : Type}

/-- Reading what was written for `x` gives `x` back and leaves exactly what follows. -/
def RoundTrips (c : Codec X) (x : X) : Prop := ∀ r, c.get (c.bytes x ++ r) = some (x, r)

/-- A successful read does not look at what follows. -/
def Stable (c : Codec X) : Prop := ∀ p q x r, c.get p = some (x, r) → c.get (p ++ q) = some (x, r ++ q)

/-- Whatever can be read from some bytes can be written and read again. -/
def Closed (c : Codec X) : Prop := ∀ p x r, c.get p = some (x, r) → c.RoundTrips x

end Verif.Codec
