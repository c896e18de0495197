import Verif.Spec.Crash

/-! What an interrupted `dump_mmap` leaves where other files were. As in `Spec/Crash.lean`, `R` counts the
effects left. -/

namespace Verif

variable {m k : Nat} {NL EL : Type}

/-- A file as loading sees it: `none` if mapping or reading it panics, `some none` if it is not there. -/
abbrev Seen (X : Type) := Option (Option X)

/-- The eight files loading looks at. -/
structure Dumped (m k : Nat) (NL EL : Type) where
  outOffsets : Seen (List Nat)
  outEdges : Seen (List (Id m))
  outLabels : Seen (List (Id k))
  inOffsets : Seen (List Nat)
  inEdges : Seen (List (Id m))
  inLabels : Seen (List (Id k))
  labels : Seen (List (Id k))
  aux : Seen (Aux NL EL)

/-- The complete `w`-byte numbers in a file; an empty file cannot be mapped. -/
def World.numbers (w : Nat) (path : String) (x : World) : Seen (List Nat) :=
  match x.files path with
  | none => some none
  | some bs =>
    if bs = [] then none
    else some (some ((List.range (bs.length / w)).map fun i => ofLe ((bs.drop (i * w)).take w)))

/-- The ids in a file. -/
def World.idsIn (w : Nat) (path : String) (x : World) : Seen (List (Id m)) :=
  (x.numbers w path).map fun o => o.map fun l => l.map Id.new

/-- The files under a prefix. -/
def World.dumped [DecidableEq NL] [DecidableEq EL] (w v : Nat) (nl : Codec NL) (el : Codec EL) (pre : String)
    (x : World) : Dumped m k NL EL where
  outOffsets := x.numbers 8 (pre ++ "_OUT.offsets")
  outEdges := x.idsIn w (pre ++ "_OUT.edges")
  outLabels := x.idsIn v (pre ++ "_OUT.labels")
  inOffsets := x.numbers 8 (pre ++ "_IN.offsets")
  inEdges := x.idsIn w (pre ++ "_IN.edges")
  inLabels := x.idsIn v (pre ++ "_IN.labels")
  labels := x.idsIn v (pre ++ ".labels")
  aux := if x.files (pre ++ "_aux.bin") = none then some none
    else (x.import (Codec.aux nl el) (pre ++ "_aux.bin")).map some

/-- The in-edges the files stand for: none without offsets. -/
def Dumped.ins (p : Dumped m k NL EL) : Option (Option (EdgeVec m k)) :=
  match p.inOffsets with
  | none => none
  | some none => some none
  | some (some io) => do
    let ie ← p.inEdges.join
    let il ← p.inLabels
    pure (some ⟨io, ie, il⟩)

/-- The graph the files stand for, `none` if loading panics. -/
def Dumped.load (p : Dumped m k NL EL) : Option (MmapGraph m k NL EL) := do
  let oo ← p.outOffsets.join
  let oe ← p.outEdges.join
  let ol ← p.outLabels
  let ins ← p.ins
  let ls ← p.labels
  let a ← p.aux
  match a with
  | some a => pure ⟨⟨oo, oe, ol⟩, ins, ls, a.numNodes, a.numEdges, a.nodeLabels, a.edgeLabels⟩
  | none =>
    if oo = [] then none
    else pure ⟨⟨oo, oe, ol⟩, ins, ls, oo.length - 1, if ins.isSome then oe.length else oe.length / 2,
      SetMap.empty, SetMap.empty⟩

/-- Writing an array of `v`-byte elements over a file: not begun, cannot be mapped, or the elements written
completely. -/
def overArray {X : Type} (v R : Nat) (l : List X) (old : Seen (List X)) : Seen (List X) :=
  if R = 0 then old
  else if R = 1 then none
  else some (some (l.take ((R - 1) / v)))

/-- The same for labels, which are only written if there are any. -/
def overLabels (v R : Nat) (l : List (Id k)) (old : Seen (List (Id k))) : Seen (List (Id k)) :=
  if l = [] then old else overArray v R l old

/-- The files after dumping `g` over them stopped after `R` effects; the auxiliary file takes `size` bytes. -/
def StaticGraph.interrupted (w v size R : Nat) (g : StaticGraph m k NL EL) (p : Dumped m k NL EL) :
    Dumped m k NL EL :=
  let edgesAt (ev : EdgeVec m k) (R : Nat) := R - (1 + ev.offsets.length * 8)
  let labelsAt (ev : EdgeVec m k) (R : Nat) := edgesAt ev R - (1 + ev.edges.length * w)
  let inAt := R - g.edgeVec.cost w v
  let at' := inAt - ((g.inEdgeVec.map (·.cost w v)).getD 0)
  let auxAt := at' - ((g.labels.map fun ls => 1 + ls.length * v).getD 0)
  { outOffsets := overArray 8 R g.edgeVec.offsets p.outOffsets
    outEdges := overArray w (edgesAt g.edgeVec R) g.edgeVec.edges p.outEdges
    outLabels := overLabels v (labelsAt g.edgeVec R) g.edgeVec.getLabels p.outLabels
    inOffsets := match g.inEdgeVec with
      | none => p.inOffsets
      | some e => overArray 8 inAt e.offsets p.inOffsets
    inEdges := match g.inEdgeVec with
      | none => p.inEdges
      | some e => overArray w (edgesAt e inAt) e.edges p.inEdges
    inLabels := match g.inEdgeVec with
      | none => p.inLabels
      | some e => overLabels v (labelsAt e inAt) e.getLabels p.inLabels
    labels := match g.labels with
      | none => p.labels
      | some ls => overArray v at' ls p.labels
    aux := if auxAt = 0 then p.aux
      else if auxAt - 1 < size then none
      else some (some ⟨g.numNodes, g.numEdges, g.nodeLabels, g.edgeLabels⟩) }

end Verif
