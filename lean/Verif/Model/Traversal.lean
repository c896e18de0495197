import Verif.Model.View

/-!
`Bfs` and `Dfs` (`/repo/src/algorithm/bfs.rs`, `/repo/src/algorithm/dfs.rs`).

The reference to the graph is a parameter instead of a field. An iterator is its `next` function.
-/

namespace Verif

/-- `fixedbitset::FixedBitSet` 0.1.9 as its list of bits (the crate packs them into words). -/
abbrev BitSet := List Bool

namespace BitSet

/-- `with_capacity(n)` followed by `insert_range(..)` (bfs.rs:72-76, dfs.rs:91-93): all bits set. -/
def full (n : Nat) : BitSet := List.replicate n true

/-- `contains`: bits beyond the end are not set. -/
def contains (b : BitSet) (i : Nat) : Bool := b.getD i false

/-- `set(i, v)` panics beyond the end. -/
def put (b : BitSet) (i : Nat) (v : Bool) : Res BitSet :=
  if i < b.length then pure (b.set i v) else .error .indexOutOfBounds

/-- `ones()`: the set bits in ascending order. -/
def ones (b : BitSet) : List Nat := (List.range b.length).filter (fun i => b.contains i)

end BitSet

/-- The state of `Bfs` (bfs.rs:58-66) and of `Dfs` (dfs.rs:57-64): `work` is the queue, front first, or
the stack, bottom first. A set bit of `undiscovered` (called `discovered` in the source) is a node not
discovered yet. -/
structure Traversal (m : Nat) where
  work : List (Id m)
  undiscovered : BitSet
deriving DecidableEq

namespace Traversal

variable {m k : Nat} {NL EL : Type}

/-- The state with all nodes undiscovered: `max_seen_id().unwrap().id() + 1` bits (bfs.rs:72-76),
`Dfs::with_capacity` (dfs.rs:90-100). -/
def withCapacity (g : GView m k NL EL) : Res (Traversal m) := do
  let M ← unwrap (← g.maxSeenId)
  pure ⟨[], BitSet.full (M.val + 1)⟩

/-- The node a search starts from (bfs.rs:78-94; `Dfs::move_to`, dfs.rs:142-163). -/
def startNode (g : GView m k NL EL) : Option (Id m) → Res (Id m)
  | some s => if !g.hasNode s then .error .explicit else pure s
  | none => if g.nodeCount = 0 then .error .explicit else unwrap g.nodeIndices.head?

/-- `Dfs::move_to` (dfs.rs:142-163), also the second half of `Bfs::new` (bfs.rs:78-94): mark the start
and make it the only entry of the work list. -/
def moveTo (g : GView m k NL EL) (start : Option (Id m)) (s : Traversal m) : Res (Traversal m) := do
  let n ← startNode g start
  let b ← s.undiscovered.put n.val false
  pure ⟨[n], b⟩

/-- `Bfs::new` (bfs.rs:71-100) and `Dfs::new` (dfs.rs:70-74). -/
def new (g : GView m k NL EL) (start : Option (Id m)) : Res (Traversal m) := do
  let s ← withCapacity g
  s.moveTo g start

/-- `Dfs::reset` (dfs.rs:103-107). -/
def reset (s : Traversal m) : Traversal m := ⟨[], BitSet.full s.undiscovered.length⟩

/-- `next_unvisited_node` (bfs.rs:125-132, dfs.rs:132-139). -/
def nextUnvisited (g : GView m k NL EL) (s : Traversal m) : Option (Id m) :=
  (s.undiscovered.ones.find? (fun i => g.hasNode (Id.new i))).map Id.new

/-- The restart at the head of `next` (bfs.rs:104-109, dfs.rs:111-116). -/
def refill (g : GView m k NL EL) (s : Traversal m) : Res (Traversal m) :=
  if s.work.length = 0 then
    match s.nextUnvisited g with
    | some n => do
      let b ← s.undiscovered.put n.val false
      pure ⟨s.work ++ [n], b⟩
    | none => pure s
  else pure s

/-- One turn of the loop over the neighbours (bfs.rs:112-117, dfs.rs:119-124). -/
def discover (s : Traversal m) (n : Id m) : Res (Traversal m) :=
  if s.undiscovered.contains n.val then do
    let b ← s.undiscovered.put n.val false
    pure ⟨s.work ++ [n], b⟩
  else pure s

/-- The loop over the neighbours of the current node. -/
def expand (g : GView m k NL EL) (n : Id m) (s : Traversal m) : Res (Traversal m) := do
  let l ← g.neighbors n
  l.foldlM discover s

end Traversal

namespace Bfs

variable {m k : Nat} {NL EL : Type}

/-- `Bfs::next` (bfs.rs:103-122). -/
def next (g : GView m k NL EL) (s : Traversal m) : Res (Option (Id m) × Traversal m) := do
  let s ← s.refill g
  match s.work with
  | [] => pure (none, s)
  | n :: rest => do
    let s ← Traversal.expand g n ⟨rest, s.undiscovered⟩
    pure (some n, s)

end Bfs

namespace Dfs

variable {m k : Nat} {NL EL : Type}

/-- `Dfs::from_parts` (dfs.rs:77-87). -/
def fromParts (stack : List (Id m)) (discovered : BitSet) : Traversal m := ⟨stack, discovered⟩

/-- `Dfs::next` (dfs.rs:110-129). -/
def next (g : GView m k NL EL) (s : Traversal m) : Res (Option (Id m) × Traversal m) := do
  let s ← s.refill g
  match s.work.getLast? with
  | none => pure (none, s)
  | some n => do
    let s ← Traversal.expand g n ⟨s.work.dropLast, s.undiscovered⟩
    pure (some n, s)

end Dfs

/-- What a `for` loop over an iterator sees: the items until the first `None`, with the state left
behind; `diverge` if there is none among the first `fuel` answers. -/
def drain {S X : Type} (next : S → Res (Option X × S)) : Nat → S → Res (List X × S)
  | 0, _ => .error .diverge
  | fuel + 1, s => do
    match ← next s with
    | (none, s') => pure ([], s')
    | (some x, s') => do
      let r ← drain next fuel s'
      pure (x :: r.1, r.2)

end Verif
