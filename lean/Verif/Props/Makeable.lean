import Verif.Proof.Makeable
import Verif.Spec.Sound
import Verif.Props.Reimport
import Verif.Props.Traversal

/-! Property theorems about which graphs calls can make: C154. -/

namespace Verif.Props

open GraphMap Spec

variable {m k wd v : Nat} {NL EL : Type} [DecidableEq NL] [DecidableEq EL]

omit [DecidableEq NL] [DecidableEq EL] in
theorem sound_inv {g : GraphMap m k NL EL} : (Proper g ∧ Coherent g) ↔ g.Inv := by
  constructor
  · rintro ⟨hp, hf⟩
    have hmem : ∀ n nd, g.getNode n = some nd → (n, nd) ∈ g.nodeMap := fun n nd h => AL.get_mem h
    have hw : g.NWF := ⟨hp.keys, fun n nd h => hf.ids _ (hmem n nd h),
      fun n nd h => hp.neighbors _ (hmem n nd h), fun n nd h => hp.inNeighbors _ (hmem n nd h)⟩
    refine ⟨hw, ?_, ?_, ?_, ?_, ?_, hp.nodeLabels, hp.edgeLabels, hf.seen⟩
    · intro s t h; rw [← hasEdge_eq_outE] at h; exact hf.targets s t h
    · intro hd s t
      rw [← hasEdge_eq_outE]
      constructor
      · rintro ⟨nd, h1, h2⟩; exact (hf.sources hd _ (hmem t nd h1) s).1 h2
      · intro h
        obtain ⟨nd, h1⟩ := (hasNode_iff g t).1 (hf.targets s t h)
        exact ⟨nd, h1, (hf.sources hd _ (hmem t nd h1) s).2 h⟩
    · rintro hd t s ⟨nd, h1, h2⟩
      rw [hf.noSources hd _ (hmem t nd h1)] at h2
      cases h2
    · intro hd s t h
      have h : (g.outE s t).isSome = true := h
      show (g.outE t s).isSome = true
      rw [← hasEdge_eq_outE] at h ⊢
      rw [hf.bothWays hd t s]; exact h
    · rw [← edgeIndices_length hw]; exact hf.counted
  · intro hg
    have hget : ∀ p ∈ g.nodeMap, g.getNode p.1 = some p.2 := fun p h => AL.get_eq_of_mem hg.keys h
    refine ⟨⟨hg.keys, fun p h => hg.sortedOut _ _ (hget p h), fun p h => hg.sortedIn _ _ (hget p h),
      hg.nlNodup, hg.elNodup⟩, fun p h => hg.ids _ _ (hget p h), ?_, ?_, ?_, ?_, ?_, hg.maxBound⟩
    · intro s t h; rw [hasEdge_eq_outE] at h; exact hg.target s t h
    · intro hd p hp s
      rw [hasEdge_eq_outE, ← hg.inSpec hd]
      unfold inE
      rw [hget p hp]
      simp
    · intro hd p hp
      rw [List.eq_nil_iff_forall_not_mem]
      exact fun s hs => hg.inNil hd p.1 s ⟨p.2, hget p hp, hs⟩
    · intro hd s t
      rw [Bool.eq_iff_iff, hasEdge_eq_outE, hasEdge_eq_outE]
      exact ⟨hg.sym hd s t, hg.sym hd t s⟩
    · show g.edgeIndices.length ≤ g.numEdges
      rw [edgeIndices_length hg.toNWF]; exact hg.count

/-- **C154.** The graphs that calls can make are exactly those whose collections are proper and whose records
fit together: whatever is proved of all graphs that can be made uses all there is. -/
theorem c154_reachable (g : GraphMap m k NL EL) : Reachable g ↔ Proper g ∧ Coherent g := by
  rw [reachable_iff, sound_inv]

/-- **C154**, without `reorder_id_with`, and starting from `new`: the same graphs, except that one that has
seen no node has counted no edge. -/
theorem c154_from_new (d : Bool) (g : GraphMap m k NL EL) :
    (∃ ops, Run (GraphMap.new d) ops g) ↔
      g.isDirected = d ∧ Proper g ∧ Coherent g ∧ (g.maxSeenId = none → g.edgeCount = 0) := by
  rw [← and_assoc (a := Proper g), sound_inv]
  constructor
  · rintro ⟨ops, h⟩
    obtain rfl : g.directed = d := (run_shape List.nodup_nil List.nodup_nil h).1
    exact ⟨rfl, (made_iff g).1 ⟨ops, h⟩⟩
  · rintro ⟨rfl, h⟩
    exact (made_iff g).2 h

/-- **C154.** What `import` makes of a file, whoever wrote it, has proper collections; so it is a graph that
calls can make exactly if its records fit together, and only that would be left to check. -/
theorem c154_import {nl : Codec NL} {el : Codec EL} (hnl : nl.Closed) (hel : el.Closed)
    (hw : m + 1 = 256 ^ wd) (hv : k + 1 = 256 ^ v) {d : Bool} {path : String} {w : World}
    {g : GraphMap m k NL EL} (h : w.import (.graphMap wd v nl el d) path = some g) :
    g.isDirected = d ∧ Proper g ∧ (Reachable g ↔ Coherent g) := by
  obtain ⟨bs, r, -, h2⟩ := import_get h
  obtain ⟨hd, hp⟩ := Codec.graphMap_proper hw hv hnl hel h2
  exact ⟨hd, hp, by rw [c154_reachable]; exact ⟨fun h => h.2, fun h => ⟨hp, h⟩⟩⟩

/-- **C154.** A graph that was exported and imported by this library is such a graph again, so importing and
going on is like never having stopped. -/
theorem c154_go_on {nl : Codec NL} {el : Codec EL} (hnl : nl.Closed) (hel : el.Closed)
    (hw : m + 1 = 256 ^ wd) (hv : k + 1 = 256 ^ v) {path : String} {w : World}
    {g : GraphMap m k NL EL} (h : w.import (.graphMap wd v nl el g.isDirected) path = some g)
    (hc : Coherent g) (ops : List (Op m k NL EL)) :
    Reachable g ∧ ∀ g', g.exec ops = .ok g' → Reachable g' ∧ Proper g' ∧ Coherent g' := by
  have hr := (c154_import hnl hel hw hv h).2.2.2 hc
  refine ⟨hr, fun g' h' => ?_⟩
  have : ∀ (ops : List (Op m k NL EL)) (g : GraphMap m k NL EL), Reachable g → g.exec ops = .ok g' →
      Reachable g' := by
    intro ops
    induction ops with
    | nil => intro g hg h; cases h; exact hg
    | cons op ops ih =>
      intro g hg h
      unfold exec at h
      rw [List.foldlM_cons] at h
      obtain ⟨g1, h1, h2⟩ := bind_eq_ok h
      exact ih g1 (.step hg h1) h2
  have hr' := this ops g hr h'
  exact ⟨hr', (c154_reachable g').1 hr'⟩

/-- A graph with a node, an edge and two label tables meets the conditions, and so does one that no node is
left in. -/
example : Proper kite ∧ Coherent kite ∧
    ∃ ops, Run (GraphMap.new true) ops (⟨true, [], 5, ⟨["a"]⟩, ⟨[]⟩, some 2⟩ : GraphMap 9 3 String String) := by
  refine ⟨((c154_reachable kite).1 kite_reachable).1, ((c154_reachable kite).1 kite_reachable).2, ?_⟩
  rw [c154_from_new]
  refine ⟨rfl, ⟨by decide, by decide, by decide, by decide, by decide⟩,
    ⟨by decide, by decide, by decide, by decide, by decide, by decide, by decide⟩, by decide⟩

/-- **C154.** Reordering a graph without nodes gives one that calls on a new graph do not make: it has seen no
node and counts edges. -/
theorem c154_only_reordered :
    let g : GraphMap 9 3 String String := ⟨true, [], 5, ⟨[]⟩, ⟨[]⟩, none⟩
    Reachable g ∧ ¬ ∃ ops, Run (GraphMap.new true) ops g := by
  refine ⟨(c154_reachable _).2 ⟨⟨by decide, by decide, by decide, by decide, by decide⟩,
    ⟨by decide, by decide, by decide, by decide, by decide, by decide, by decide⟩⟩, fun h => ?_⟩
  rw [c154_from_new] at h
  exact absurd (h.2.2.2 rfl) (by decide)

/-- **C154.** Graphs that break one of the conditions on how records fit together, and one that breaks
none. -/
theorem c154_each_needed :
    let rec' (n : Id 9) (out : List (Id 9)) (inn : List (Id 9)) : Id 9 × NodeMap 9 3 :=
      (n, ⟨n, none, out.map (fun t => (t, none)), inn⟩)
    let G (d : Bool) (nm : List (Id 9 × NodeMap 9 3)) (c : Nat) (M : Option (Id 9)) :
      GraphMap 9 3 String String := ⟨d, nm, c, ⟨[]⟩, ⟨[]⟩, M⟩
    -- a record under another id
    ¬ Reachable (G true [(1, ⟨2, none, [], []⟩)] 0 (some 1)) ∧
    -- an edge to a node that is not there
    ¬ Reachable (G true [rec' 1 [2] []] 1 (some 2)) ∧
    -- an edge its target does not know of, and one its source does not know of
    ¬ Reachable (G true [rec' 1 [2] [], rec' 2 [] []] 1 (some 2)) ∧
    ¬ Reachable (G true [rec' 1 [] [], rec' 2 [] [1]] 1 (some 2)) ∧
    -- in-neighbours in an undirected graph
    ¬ Reachable (G false [rec' 1 [2] [], rec' 2 [1] [1]] 1 (some 2)) ∧
    -- an undirected edge there one way only
    ¬ Reachable (G false [rec' 1 [2] [], rec' 2 [] []] 1 (some 2)) ∧
    -- an edge that was not counted
    ¬ Reachable (G true [rec' 1 [2] [], rec' 2 [] [1]] 0 (some 2)) ∧
    -- a node above the largest id seen
    ¬ Reachable (G true [rec' 1 [2] [], rec' 2 [] [1]] 1 (some 1)) ∧
    -- and one that breaks none
    Reachable (G true [rec' 1 [2] [], rec' 2 [] [1]] 1 (some 2)) := by
  intro rec' G
  refine ⟨?_, ?_, ?_, ?_, ?_, ?_, ?_, ?_, ?_⟩
  · exact fun h => absurd ((c154_reachable _).1 h).2.ids (by decide)
  · exact fun h => absurd (((c154_reachable _).1 h).2.targets 1 2) (by decide)
  · exact fun h => absurd (((c154_reachable _).1 h).2.sources rfl (rec' 2 [] []) (by decide) 1) (by decide)
  · exact fun h => absurd (((c154_reachable _).1 h).2.sources rfl (rec' 2 [] [1]) (by decide) 1) (by decide)
  · exact fun h => absurd (((c154_reachable _).1 h).2.noSources rfl (rec' 2 [1] [1]) (by decide)) (by decide)
  · exact fun h => absurd (((c154_reachable _).1 h).2.bothWays rfl 1 2) (by decide)
  · exact fun h => absurd ((c154_reachable _).1 h).2.counted (by decide)
  · exact fun h => absurd (((c154_reachable _).1 h).2.seen 2) (by decide)
  · refine (c154_reachable _).2 ⟨⟨by decide, by decide, by decide, by decide, by decide⟩,
      ⟨by decide, by decide, by decide, by decide, by decide, by decide, by decide⟩⟩

end Verif.Props
