import Verif.Model.Traversal

/-!
`Bfs::next` and `Dfs::next` with the state they leave behind, also when the graph panics within them and the panic is
caught (`/repo/src/algorithm/bfs.rs`, `/repo/src/algorithm/dfs.rs`).
-/

namespace Verif

variable {m k : Nat} {NL EL : Type}

/-- `Bfs::next` (bfs.rs:103-122) with the state left behind. The node is off the queue when `neighbors_iter` is called,
and the loop over the neighbours has not begun when that panics. (`set` does not panic in `next`: it is only called for
a bit just found set. Were it to, the state would be given here as before the call.) -/
def Bfs.nextKeep (g : GView m k NL EL) (s : Traversal m) : Res (Option (Id m)) × Traversal m :=
  match s.refill g with
  | .error p => (.error p, s)
  | .ok s1 =>
    match s1.work with
    | [] => (.ok none, s1)
    | n :: rest =>
      match Traversal.expand g n ⟨rest, s1.undiscovered⟩ with
      | .error p => (.error p, ⟨rest, s1.undiscovered⟩)
      | .ok s2 => (.ok (some n), s2)

/-- `Dfs::next` (dfs.rs:110-129) with the state left behind, as for `Bfs.nextKeep`. -/
def Dfs.nextKeep (g : GView m k NL EL) (s : Traversal m) : Res (Option (Id m)) × Traversal m :=
  match s.refill g with
  | .error p => (.error p, s)
  | .ok s1 =>
    match s1.work.getLast? with
    | none => (.ok none, s1)
    | some n =>
      match Traversal.expand g n ⟨s1.work.dropLast, s1.undiscovered⟩ with
      | .error p => (.error p, ⟨s1.work.dropLast, s1.undiscovered⟩)
      | .ok s2 => (.ok (some n), s2)

/-- The answers to the first `n` calls of an iterator whose panics are caught. -/
def replies {S X : Type} (next : S → Res (Option X) × S) : Nat → S → List (Res (Option X))
  | 0, _ => []
  | n + 1, s => (next s).1 :: replies next n (next s).2

end Verif
