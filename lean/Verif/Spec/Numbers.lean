import Verif.Model.Csv
import Mathlib.Data.Nat.Digits.Defs

/-! Numbers written in a field. -/

namespace Verif.Spec

variable {m : Nat}

/-- `c` is the character of the digit `d`: `0`–`9`, then `a`… or `A`…. -/
def IsDigit (base : Nat) (c : Byte) (d : Nat) : Prop :=
  d < base ∧ (d < 10 ∧ c.val = 48 + d ∨ 10 ≤ d ∧ (c.val = 87 + d ∨ c.val = 55 + d))

/-- A field is a number in this base: at least one digit, the most significant first, perhaps after a `+`. -/
def Numeral (base : Nat) (f : List Byte) (n : Nat) : Prop :=
  ∃ cs ds, (f = cs ∨ f = 43 :: cs) ∧ ds ≠ [] ∧ List.Forall₂ (IsDigit base) cs ds ∧
    n = Nat.ofDigits base ds.reverse

/-- A field that begins with `0x`. -/
def HexField (f : List Byte) : Prop := ∃ g, f = 48 :: 120 :: g

end Verif.Spec
