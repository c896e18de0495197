import Verif.Model.Reorder

/-! The graphs a program can hold. -/

namespace Verif

namespace GraphMap

variable {m k : Nat} {NL EL : Type} [DecidableEq NL] [DecidableEq EL]

/-- Graphs that can be obtained through the public API: an empty graph over label maps with distinct
labels (`SetMap` never holds others, `Props.c01_setmap_bijection`), any call that did not panic, any
`reorder_id_with` (hence also `reorder_id`) that did not panic, and any change of the hash map's
iteration order. The maps given to `reorder_id_with` may have repeats, as a `VecMap` may, but no more entries
than there are ids (see `Props.c134_merges` for more). -/
inductive Reachable : GraphMap m k NL EL → Prop
  | start (d nl el) : nl.labels.Nodup → el.labels.Nodup → Reachable (withLabelMap d nl el)
  | step {g op g'} : Reachable g → g.apply op = .ok g' → Reachable g'
  | reorder {g g'} (idm nlm elm) : Reachable g → (∀ s, idm = some s → s.len ≤ m + 1) →
      g.reorderIdWith idm nlm elm = .ok g' → Reachable g'
  | rehash {g nm} : Reachable g → g.nodeMap.Perm nm → Reachable { g with nodeMap := nm }

end GraphMap

end Verif
