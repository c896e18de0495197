import Verif.Props.CsvStats

/-! C199: `remove_labels` and then `stats`. -/

namespace Verif.Props

open GraphMap Spec Programs

variable {m k wd v : Nat}

/-- **C199.** Whatever the arrays, a graph with figures has the same largest degree and no labels once its
labels are removed. -/
theorem c199_figures {g : Plain m k} {d : Nat} {a b : List (Id m × Nat)} (h : stats g = .ok (d, a, b)) :
    stats g.removeLabels = .ok (d, [], []) := by
  have hs := c28_structure_kept g g.removeLabels (by simp)
  obtain ⟨hn, -, hnl⟩ := c28_node_labels_gone g g.removeLabels (by simp)
  obtain ⟨he, hes, hel⟩ := c28_edge_labels_gone g g.removeLabels (by simp)
  unfold stats at h
  obtain ⟨vw, h1, h⟩ := bind_eq_ok h
  obtain ⟨ds, h2, h⟩ := bind_eq_ok h
  obtain ⟨d', h3, h⟩ := bind_eq_ok h
  obtain ⟨a', h4, h⟩ := bind_eq_ok h
  obtain ⟨b', h5, h⟩ := bind_eq_ok h
  cases h
  unfold StaticGraph.view at h1
  obtain ⟨es, p1, h1⟩ := bind_eq_ok h1
  obtain ⟨eds, p2, h1⟩ := bind_eq_ok h1
  cases h1
  have hv : g.removeLabels.view = .ok ⟨g.directed, g.numNodes, g.numEdges, g.hasNode, g.hasEdge,
      g.removeLabels.nodeLid, (fun s t => do let e ← g.removeLabels.getEdge s t; pure (e.bind (·.label))),
      g.nodeIndices, es, g.removeLabels.nodes, es.map (fun e => ⟨e.1, e.2, none⟩), g.degree, g.neighbors,
      g.maxSeenId, .empty, .empty⟩ := by
    unfold StaticGraph.view
    rw [hes, hs.2.2.2.2.2.2.2.1, p1, bind_ok, bind_ok]
    rfl
  unfold stats
  rw [hv, bind_ok]
  simp only at h2 h3 h4 h5 ⊢
  rw [h2, bind_ok, h3, bind_ok]
  unfold GView.nodeLabelCounter GView.edgeLabelCounter
  unfold GView.edgeLabelCounter at h5
  obtain ⟨ls, h5, -⟩ := bind_eq_ok h5
  rw [mapM_ok _ (fun _ => none) g.nodeIndices ?_, mapM_ok _ (fun _ => none) es ?_]
  · simp only [bind_ok, pure_ok, counterOf_nones]
  · rintro ⟨s, t⟩ hin
    obtain ⟨i, hi, hid⟩ := List.getElem_of_mem hin
    have hF := mapM_eq_ok h5
    have hi' : i < ls.length := by rw [← hF.length_eq]; exact hi
    have := (List.forall₂_iff_get.1 hF).2 i hi hi'
    simp only [List.get_eq_getElem] at this
    rw [hid] at this
    unfold GView.getEdgeLabel at this ⊢
    obtain ⟨x, hx, -⟩ := bind_eq_ok this
    obtain ⟨e, hx, -⟩ := bind_eq_ok hx
    simp only [he, hx, bind_ok, pure_ok]
    cases e <;> rfl
  · intro n _
    unfold GView.getNodeLabel
    simp only [hn, bind_ok, pure_ok]

/-- **C199.** A file of which `stats` gives figures: `remove_labels`, given room on the disk, ends well, and of
the file it leaves `stats` gives the same largest degree and no labels. -/
theorem c199_chain (hw : m + 1 = 256 ^ wd) (hv : k + 1 = 256 ^ v) {inFile outFile : String} {w : World}
    {d : Nat} {a b : List (Id m × Nat)} (h : statsOf m k wd v w inFile = .ok (d, a, b)) :
    ∃ g : Plain m k, load wd v false inFile w = .ok g ∧
      (((Codec.staticGraph wd v (.ident wd) (.ident wd) false).bytes g).length < w.room →
      ∃ w', removeLabels m k wd v inFile outFile w = (.ok (), w') ∧
        statsOf m k wd v w' outFile = .ok (d, [], []) ∧
        (inFile ≠ outFile → statsOf m k wd v w' inFile = .ok (d, a, b))) := by
  have h' := h
  unfold statsOf at h
  obtain ⟨g, h1, h2⟩ := bind_eq_ok h
  refine ⟨g, h1, fun hroom => ?_⟩
  have hi : w.import (.staticGraph wd v (.ident wd) (.ident wd) false) inFile = some g := by
    unfold load orPanic at h1
    split at h1
    · rename_i x hx; rw [hx]; cases h1; rfl
    · cases h1
  obtain ⟨bs, r, -, hb⟩ := import_get hi
  have hc := Codec.ident_closed hw
  obtain ⟨hd, hW⟩ := Codec.staticGraph_writable hw hv hc hc hb
  have hr := round_nil (hW.removeLabels hw hv).round
  have hd' : g.removeLabels.directed = false := hd
  rw [hd'] at hr
  obtain ⟨a1, a2, a3⟩ := export_import hr outFile w (lt_of_le_of_lt (bytes_removeLabels g) hroom)
  refine ⟨(w.export (.staticGraph wd v (.ident wd) (.ident wd) false) g.removeLabels outFile).2, ?_, ?_, ?_⟩
  · unfold removeLabels exported
    rw [h1]
    simp only [bind_ok, pure_ok, a1, if_true]
  · unfold statsOf load
    rw [a2]
    exact c199_figures h2
  · intro hne
    have hfile := a3 inFile hne
    rw [← h']
    unfold statsOf load World.import
    rw [hfile]

/-- **C199.** The other way round it fails: two nodes and one label. `stats` panics; with the labels removed it
does not. -/
theorem c199_mends :
    stats (⟨false, 2, 1, ⟨[0, 1, 2], [1, 0], some [0, 0]⟩, none, some [0], ⟨[7]⟩, ⟨[5]⟩⟩ : Plain 9 3) =
      .error .indexOutOfBounds ∧
    stats (⟨false, 2, 1, ⟨[0, 1, 2], [1, 0], some [0, 0]⟩, none, some [0], ⟨[7]⟩, ⟨[5]⟩⟩ : Plain 9 3).removeLabels =
      .ok (1, [], []) := by decide

/-- Non-vacuity: a graph with labels. -/
example : stats (⟨false, 2, 1, ⟨[0, 1, 2], [1, 0], some [0, 0]⟩, none, some [0, 0], ⟨[7]⟩, ⟨[5]⟩⟩ : Plain 9 3) =
    .ok (1, [(7, 2)], [(5, 1)]) := by decide

end Verif.Props
