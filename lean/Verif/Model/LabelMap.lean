import Verif.Model.Basic

/-!
`SetMap` and `VecMap` (`/repo/src/map/set_map.rs`, `/repo/src/map/vec_map.rs`).

Simplification: the `IndexSet` inside `SetMap` is a list of its items in index order; hashing is not
modelled (lookup is by equality). Capacity (`with_capacity`, `shrink_to_fit`) is not modelled.
-/

namespace Verif

variable {L : Type}

/-- `SetMap` (set_map.rs:33-35). -/
structure SetMap (L : Type) where
  labels : List L
  deriving DecidableEq, Repr

namespace SetMap

/-- `SetMap::new` (set_map.rs:42-46), `Default` (69-73). -/
def empty : SetMap L := ⟨[]⟩

/-- `clear` (set_map.rs:64-66). -/
def clear (_ : SetMap L) : SetMap L := ⟨[]⟩

/-- `get_item` (set_map.rs:78-80). -/
def getItem (s : SetMap L) (i : Nat) : Option L := s.labels[i]?

/-- `items` (set_map.rs:98-100), also the order of `items_vec` (103-105). -/
def items (s : SetMap L) : List L := s.labels

/-- `len` (set_map.rs:109-111). -/
def len (s : SetMap L) : Nat := s.labels.length

variable [DecidableEq L]

/-- `find_index` (set_map.rs:84-89). -/
def findIndex (s : SetMap L) (x : L) : Option Nat := s.labels.idxOf? x

/-- `contains` (set_map.rs:93-95). -/
def contains (s : SetMap L) (x : L) : Bool := decide (x ∈ s.labels)

/-- `IndexSet::insert`, used by set_map.rs:121. -/
def insert (s : SetMap L) (x : L) : SetMap L :=
  if x ∈ s.labels then s else ⟨s.labels ++ [x]⟩

/-- `add_item` (set_map.rs:117-125): the new map and the returned index. The `unwrap` on line 119
follows a successful `contains`. -/
def addItem (s : SetMap L) (x : L) : Res (SetMap L × Nat) :=
  if s.contains x then do
    let i ← unwrap (s.findIndex x)
    pure (s, i)
  else
    let s' := s.insert x
    if s'.len = 0 then .error .underflow else pure (s', s'.len - 1)

omit [DecidableEq L] in
/-- `pop_item` (set_map.rs:129-131). -/
def popItem (s : SetMap L) : SetMap L × Option L := (⟨s.labels.dropLast⟩, s.labels.getLast?)

/-- `from_vec` (set_map.rs:58-62): collecting into an `IndexSet` inserts one by one;
also `From<Vec<L>>` (154-164). -/
def fromVec (v : List L) : SetMap L := v.foldl insert empty

/-- `FromIterator` (set_map.rs:142-152) and the `setmap!` macro (183-193): `add_item` one by one. -/
def fromIter (v : List L) : Res (SetMap L) :=
  v.foldlM (fun s x => do let r ← s.addItem x; pure r.1) empty

end SetMap

/-- `VecMap` (vec_map.rs:32-34). -/
structure VecMap (L : Type) where
  labels : List L
  deriving DecidableEq, Repr

namespace VecMap

/-- `VecMap::new` (vec_map.rs:41-45). -/
def empty : VecMap L := ⟨[]⟩

/-- `with_data` (vec_map.rs:53-55), also `From<Vec<L>>` (147-157): no check for repeats. -/
def withData (v : List L) : VecMap L := ⟨v⟩

/-- `clear` (vec_map.rs:61-63). -/
def clear (_ : VecMap L) : VecMap L := ⟨[]⟩

/-- `get_item` (vec_map.rs:75-77). -/
def getItem (s : VecMap L) (i : Nat) : Option L := s.labels[i]?

/-- `items` (vec_map.rs:98-100), also the order of `items_vec` (103-105). -/
def items (s : VecMap L) : List L := s.labels

/-- `len` (vec_map.rs:109-111). -/
def len (s : VecMap L) : Nat := s.labels.length

variable [DecidableEq L]

/-- The loop of `find_index` (vec_map.rs:82-86), `i` being the `enumerate` counter. -/
def findLoop (x : L) : List L → Nat → Option Nat
  | [], _ => none
  | a :: l, i => if a = x then some i else findLoop x l (i + 1)

/-- `find_index` (vec_map.rs:81-89). -/
def findIndex (s : VecMap L) (x : L) : Option Nat := findLoop x s.labels 0

/-- `contains` (vec_map.rs:93-95). -/
def contains (s : VecMap L) (x : L) : Bool := (s.findIndex x).isSome

/-- `add_item` (vec_map.rs:117-126). -/
def addItem (s : VecMap L) (x : L) : Res (VecMap L × Nat) :=
  match s.findIndex x with
  | some i => pure (s, i)
  | none =>
    let s' : VecMap L := ⟨s.labels ++ [x]⟩
    if s'.len = 0 then .error .underflow else pure (s', s'.len - 1)

omit [DecidableEq L] in
/-- `pop_item` (vec_map.rs:130-132). -/
def popItem (s : VecMap L) : VecMap L × Option L := (⟨s.labels.dropLast⟩, s.labels.getLast?)

/-- `FromIterator` (vec_map.rs:135-145) and the `vecmap!` macro (175-185). -/
def fromIter (v : List L) : Res (VecMap L) :=
  v.foldlM (fun s x => do let r ← s.addItem x; pure r.1) empty

omit [DecidableEq L] in
/-- `From<SetMap<L>> for VecMap<L>` (vec_map.rs:159-173). -/
def ofSetMap (s : SetMap L) : VecMap L := withData s.items

end VecMap

/-- `From<VecMap<L>> for SetMap<L>` (set_map.rs:166-180). -/
def SetMap.ofVecMap [DecidableEq L] (v : VecMap L) : SetMap L := SetMap.fromVec v.items

/-- The mutating calls of `MutMapTrait` (generic/map.rs:40-45) plus `clear`. -/
inductive MapOp (L : Type) where
  | add (x : L)
  | pop
  | clear
  deriving DecidableEq, Repr

/-- What a mutating call returns. -/
inductive MapAns (L : Type) where
  | index (i : Nat)
  | popped (x : Option L)
  | unit
  deriving DecidableEq, Repr

/-- One mutating call on a `SetMap`. -/
def SetMap.step [DecidableEq L] (s : SetMap L) : MapOp L → Res (SetMap L × MapAns L)
  | .add x => do let r ← s.addItem x; pure (r.1, .index r.2)
  | .pop => let r := s.popItem; pure (r.1, .popped r.2)
  | .clear => pure (s.clear, .unit)

/-- A history of calls on a `SetMap`: final map and the answers. -/
def SetMap.run [DecidableEq L] : SetMap L → List (MapOp L) → Res (SetMap L × List (MapAns L))
  | s, [] => pure (s, [])
  | s, op :: ops => do
    let r ← s.step op
    let r' ← SetMap.run r.1 ops
    pure (r'.1, r.2 :: r'.2)

/-- One mutating call on a `VecMap`. -/
def VecMap.step [DecidableEq L] (s : VecMap L) : MapOp L → Res (VecMap L × MapAns L)
  | .add x => do let r ← s.addItem x; pure (r.1, .index r.2)
  | .pop => let r := s.popItem; pure (r.1, .popped r.2)
  | .clear => pure (s.clear, .unit)

/-- A history of calls on a `VecMap`: final map and the answers. -/
def VecMap.run [DecidableEq L] : VecMap L → List (MapOp L) → Res (VecMap L × List (MapAns L))
  | s, [] => pure (s, [])
  | s, op :: ops => do
    let r ← s.step op
    let r' ← VecMap.run r.1 ops
    pure (r'.1, r.2 :: r'.2)

end Verif
