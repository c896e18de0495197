import Verif.Model.Traversal

/-!
The number of bits a search asks for on a machine with 64-bit `usize`: `max_seen_id().unwrap().id() + 1`
(`/repo/src/algorithm/bfs.rs:72-73`, `/repo/src/algorithm/dfs.rs:91-92`). `Traversal.withCapacity` adds without
bound. Memory is never short.
-/

namespace Verif.Traversal

variable {m k : Nat} {NL EL : Type}

/-- `with_capacity` (bfs.rs:72-76, dfs.rs:90-100) in a build with overflow checks. -/
def withCapacityChecked (g : GView m k NL EL) : Res (Traversal m) := do
  let M ← unwrap (← g.maxSeenId)
  if M.val + 1 < 2 ^ 64 then pure ⟨[], BitSet.full (M.val + 1)⟩ else .error .overflow

/-- `with_capacity` (bfs.rs:72-76, dfs.rs:90-100) in a release build: the addition wraps around. -/
def withCapacityRelease (g : GView m k NL EL) : Res (Traversal m) := do
  let M ← unwrap (← g.maxSeenId)
  pure ⟨[], BitSet.full ((M.val + 1) % 2 ^ 64)⟩

/-- `Bfs::new` (bfs.rs:71-100) and `Dfs::new` (dfs.rs:70-74) in a build with overflow checks. -/
def newChecked (g : GView m k NL EL) (start : Option (Id m)) : Res (Traversal m) := do
  let s ← withCapacityChecked g
  s.moveTo g start

/-- `Bfs::new` (bfs.rs:71-100) and `Dfs::new` (dfs.rs:70-74) in a release build. -/
def newRelease (g : GView m k NL EL) (start : Option (Id m)) : Res (Traversal m) := do
  let s ← withCapacityRelease g
  s.moveTo g start

/-- The ids `next_unvisited_node` (bfs.rs:125-132, dfs.rs:132-139) asks `has_node` about when `next` (bfs.rs:103-109,
dfs.rs:110-116) calls it. -/
def asked (g : GView m k NL EL) (s : Traversal m) : List Nat :=
  if s.work.length = 0 then
    s.undiscovered.ones.takeWhile (fun i => !g.hasNode (Id.new i)) ++
      (s.undiscovered.ones.find? (fun i => g.hasNode (Id.new i))).toList
  else []

/-- Yielding `l` leads from one state to the other and asks `has_node` `c` times. -/
inductive Asks (g : GView m k NL EL) (next : Traversal m → Res (Option (Id m) × Traversal m)) :
    Traversal m → List (Id m) → Nat → Traversal m → Prop
  | nil (s : Traversal m) : Asks g next s [] 0 s
  | cons {s s' s'' : Traversal m} {x : Id m} {l : List (Id m)} {c : Nat} :
      next s = .ok (some x, s') → Asks g next s' l c s'' → Asks g next s (x :: l) ((asked g s).length + c) s''

end Verif.Traversal
