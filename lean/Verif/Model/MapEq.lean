import Verif.Model.Serde

/-!
Comparing and hashing label maps. What `Hash::hash` does to the hasher's state is modelled by the bytes it
feeds: `word` stands for the bytes the label type feeds for one label.
-/

namespace Verif

variable {L : Type}

/-- `==` of `SetMap` (derived, set_map.rs:32): `==` of `IndexSet`, which is
`self.len() == other.len() && self.is_subset(other)`; `is_subset` compares the lengths again and asks
`other.contains` for every item. -/
def SetMap.same [DecidableEq L] (a b : SetMap L) : Bool :=
  decide (a.len = b.len) && (decide (a.len ≤ b.len) && a.items.all b.contains)

/-- `Hash` of `SetMap` (set_map.rs:134-140): the items in order, without their number. -/
def SetMap.fed (word : L → List Byte) (a : SetMap L) : List Byte := a.items.flatMap word

/-- `==` of `VecMap` (derived, vec_map.rs:31): `==` of `Vec`, item by item. -/
def VecMap.same [DecidableEq L] (a b : VecMap L) : Bool :=
  decide (a.len = b.len) && (a.items.zip b.items).all (fun p => decide (p.1 = p.2))

/-- `Hash` of `VecMap` (derived, vec_map.rs:31): `Vec` feeds its length first. -/
def VecMap.fed (word : L → List Byte) (a : VecMap L) : List Byte := le 8 a.len ++ a.items.flatMap word

end Verif
