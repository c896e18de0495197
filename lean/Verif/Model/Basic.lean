import Mathlib.Order.Fin.Basic

/-!
Panics and identifiers.

Models `/repo/src/generic/dtype.rs`.
-/

namespace Verif

/-- The ways a modelled Rust function can fail to return.
`diverge` stands for a loop that never ends; everything else is a Rust panic. -/
inductive Panic where
  /-- `Option::unwrap` on `None`. -/
  | unwrapNone
  /-- An explicit `panic!("Node .. do not exist.")`. -/
  | nodeMissing
  /-- Slice or vector index out of range. -/
  | indexOutOfBounds
  /-- Arithmetic overflow (debug build). -/
  | overflow
  /-- Subtraction below zero on an unsigned integer (debug build). -/
  | underflow
  /-- Any other explicit `panic!`. -/
  | explicit
  /-- A loop that never terminates. -/
  | diverge
  deriving DecidableEq, Repr

/-- Result of a modelled function that may panic. -/
abbrev Res (α : Type) := Except Panic α

/-- `IdType` (generic/dtype.rs:64-72). Every implementor is a finite initial segment of the
naturals: `()` is `Id 0` (74-95), `u8` is `Id 255`, `u16` is `Id 65535`, `u32` is `Id (2^32-1)`,
`usize` is `Id (2^64-1)` (97-126). The parameter is the value of `max_usize()`. -/
abbrev Id (m : Nat) := Fin (m + 1)

/-- `IdType::new` (dtype.rs:67, 76-78, 102-104): a truncating cast. -/
def Id.new {m : Nat} (x : Nat) : Id m := Fin.ofNat (m + 1) x

/-- `IdType::max_value` (dtype.rs:69, 84-86, 110-112). -/
def Id.maxValue {m : Nat} : Id m := Fin.last m

/-- `IdType::increment` (dtype.rs:71, 92-94, 118-120). `()` returns itself; the integer types add one
and overflow at the maximum (a panic in a debug build). -/
def Id.increment {m : Nat} (i : Id m) : Res (Id m) :=
  if m = 0 then .ok i
  else if h : i.val < m then .ok ⟨i.val + 1, by omega⟩
  else .error .overflow

/-- `Option::unwrap`. -/
def unwrap {α : Type} : Option α → Res α
  | some a => .ok a
  | none => .error .unwrapNone

end Verif
