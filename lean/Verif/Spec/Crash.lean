import Verif.Spec.Mmap

/-! What an interrupted `dump_mmap` leaves, as loading shows it. `R` counts the effects left: one for
creating a file, one for each byte. `none` stands for a panic of the loading program. -/

namespace Verif

variable {m k : Nat} {NL EL : Type}

/-- An array of `v`-byte elements in a file of its own: no file, a file that cannot be mapped, or the
elements written completely. -/
def cutArray {X : Type} (v R : Nat) (l : List X) : Option (Option (List X)) :=
  if R = 0 then some none
  else if R = 1 then none
  else some (some (l.take ((R - 1) / v)))

namespace EdgeVec

/-- The effects of dumping an adjacency. -/
def cost (w v : Nat) (ev : EdgeVec m k) : Nat :=
  1 + ev.offsets.length * 8 + (1 + ev.edges.length * w) +
    if ev.getLabels = [] then 0 else 1 + ev.getLabels.length * v

/-- An adjacency: nothing at all; offsets without edges, which cannot be opened; or all offsets, some edges
and some labels. -/
def cut (w v R : Nat) (ev : EdgeVec m k) : Option (Option (EdgeVec m k)) :=
  if R = 0 then some none
  else if R ≤ 1 + ev.offsets.length * 8 + 1 then none
  else do
    let l ← (if ev.getLabels = [] then some none
      else cutArray v (R - (1 + ev.offsets.length * 8) - (1 + ev.edges.length * w)) ev.getLabels)
    pure (some ⟨ev.offsets, ev.edges.take ((R - (1 + ev.offsets.length * 8) - 1) / w), l⟩)

end EdgeVec

/-- The graph that loads after dumping `g` stopped after `R` effects; the auxiliary file takes `aux`
bytes. Without it, the counts come from the arrays. -/
def StaticGraph.cut [DecidableEq NL] [DecidableEq EL] (w v aux R : Nat) (g : StaticGraph m k NL EL) :
    Option (MmapGraph m k NL EL) := do
  let out ← g.edgeVec.cut w v R
  let out ← out
  let R := R - g.edgeVec.cost w v
  let ins ← (match g.inEdgeVec with
    | none => some none
    | some e => e.cut w v R)
  let R := R - match g.inEdgeVec with
    | none => 0
    | some e => e.cost w v
  let ls ← (match g.labels with
    | none => some none
    | some ls => cutArray v R ls)
  let R := R - match g.labels with
    | none => 0
    | some ls => 1 + ls.length * v
  if R = 0 then
    pure ⟨out, ins, ls, out.offsets.length - 1,
      if ins.isSome then out.edges.length else out.edges.length / 2, SetMap.empty, SetMap.empty⟩
  else if R - 1 < aux then none
  else pure ⟨out, ins, ls, g.numNodes, g.numEdges, g.nodeLabels, g.edgeLabels⟩

end Verif
