import Verif.Spec.Leftovers
import Verif.Proof.MmapGraph
import Verif.Proof.MmapRoom

/-! Dumping over files that are already there. -/

namespace Verif

variable {m k : Nat} {NL EL : Type}

theorem mapIfPresent_congr {w : Nat} {p : String} {x y : World} (h : x.files p = y.files p) :
    mapIfPresent w p x = mapIfPresent w p y := by
  unfold mapIfPresent TypedMap.new
  rw [h]

theorem World.labelsAt_congr {v : Nat} {p : String} {x y : World} (h : x.files p = y.files p) :
    (x.labelsAt v p : Res (Option (List (Id k)))) = y.labelsAt v p := by
  unfold World.labelsAt
  rw [mapIfPresent_congr h]

theorem World.labelsAt_none {v : Nat} {p : String} {x : World} (h : x.files p = none) :
    (x.labelsAt v p : Res (Option (List (Id k)))) = .ok none := by
  unfold World.labelsAt mapIfPresent
  rw [h]; rfl

theorem World.labelsAt_some {v : Nat} (hv : 0 < v) (hvk : k + 1 = 256 ^ v) {p : String} {x : World}
    {ls : List (Id k)} (hne : ls ≠ []) (h : x.files p = some (typedBytes v (ls.map (·.val)))) :
    x.labelsAt v p = .ok (some ls) := by
  unfold World.labelsAt mapIfPresent
  rw [h]
  simp only [Option.isSome_some, if_true]
  rw [TypedMap.new_eq hv (by simpa using hne) h]
  simp only [bind_ok, pure_ok, Option.map_some, List.length_map, TypedMap.ids_full hvk]

namespace EdgeVec

theorem openMmap_congr {w v : Nat} {pre : String} {x y : World}
    (h1 : x.files (pre ++ ".offsets") = y.files (pre ++ ".offsets"))
    (h2 : x.files (pre ++ ".edges") = y.files (pre ++ ".edges"))
    (h3 : x.files (pre ++ ".labels") = y.files (pre ++ ".labels")) :
    (EdgeVec.openMmap w v pre x : Res (EdgeVec m k)) = EdgeVec.openMmap w v pre y := by
  unfold openMmap TypedMap.new
  rw [h1, h2, mapIfPresent_congr h3]

/-- Mapping when offsets and edges are as dumped, whatever the labels. -/
theorem openMmap_labels {w v : Nat} (hw : 0 < w) (hwm : m + 1 = 256 ^ w)
    {ev : EdgeVec m k} {pre : String} {x : World} (h0 : ev.offsets ≠ []) (h1 : ev.edges ≠ [])
    (h2 : ∀ o ∈ ev.offsets, o < 2 ^ 64)
    (f1 : x.files (pre ++ ".offsets") = some (typedBytes 8 ev.offsets))
    (f2 : x.files (pre ++ ".edges") = some (typedBytes w (ev.edges.map (·.val)))) :
    EdgeVec.openMmap w v pre x = ((do
      let l ← x.labelsAt v (pre ++ ".labels")
      pure ⟨ev.offsets, ev.edges, l⟩) : Res (EdgeVec m k)) := by
  unfold openMmap World.labelsAt
  rw [TypedMap.new_eq (by decide) h0 f1, bind_ok,
    TypedMap.new_eq hw (by simpa using h1) f2, bind_ok]
  have e2 := TypedMap.ids_full hwm ev.edges
  rw [TypedMap.read_full 8 ev.offsets (by simpa using h2), List.length_map, e2]
  cases mapIfPresent v (pre ++ ".labels") x <;> rfl

end EdgeVec

namespace StaticGraph

variable [DecidableEq NL] [DecidableEq EL]

/-- Loading when the arrays are as dumped over the files of `y`. -/
theorem load_over {w v : Nat} (hw : 0 < w) (hv : 0 < v) (hwm : m + 1 = 256 ^ w) (hvk : k + 1 = 256 ^ v)
    (nl : Codec NL) (el : Codec EL) {g : StaticGraph m k NL EL} (hg : g.Mappable) {pre : String}
    {x y : World} (hx : ∀ p, p ≠ pre ++ "_aux.bin" → x.files p = World.look (g.files w v pre) y.files p) :
    MmapGraph.new w v nl el pre x = ((do
      let ol ← (if g.edgeVec.getLabels = [] then y.labelsAt v (pre ++ "_OUT" ++ ".labels")
        else pure (some g.edgeVec.getLabels))
      let ins ← (match g.inEdgeVec with
        | none => if (y.files (pre ++ "_IN" ++ ".offsets")).isSome then do
              let e ← EdgeVec.openMmap w v (pre ++ "_IN") y
              pure (some e)
            else pure none
        | some e => do
          let il ← (if e.getLabels = [] then y.labelsAt v (pre ++ "_IN" ++ ".labels")
            else pure (some e.getLabels))
          pure (some ⟨e.offsets, e.edges, il⟩))
      let ls ← (match g.labels with
        | none => y.labelsAt v (pre ++ ".labels")
        | some ls => pure (some ls))
      let aux ← MmapGraph.loadAux nl el ⟨g.edgeVec.offsets, g.edgeVec.edges, ol⟩ ins.isSome
        (pre ++ "_aux.bin") x
      pure ⟨⟨g.edgeVec.offsets, g.edgeVec.edges, ol⟩, ins, ls, aux.numNodes, aux.numEdges,
        aux.nodeLabels, aux.edgeLabels⟩) : Res (MmapGraph m k NL EL)) := by
  obtain ⟨f1, f2, f3, f4, f5, f6, f7, -⟩ := look_files w v g pre y.files
  have path : ∀ a b : String, pre ++ a ++ b = pre ++ (a ++ b) := fun a b => String.append_assoc
  rw [← hx _ (by rw [path, Ne, prefix_inj]; decide)] at f1 f2 f3 f4 f5 f6
  rw [← hx _ (by rw [Ne, prefix_inj]; decide)] at f7
  have lab : ∀ (ev : EdgeVec m k) (p : String), (x.files p = if ev.getLabels = [] then y.files p
      else some (typedBytes v (ev.getLabels.map (·.val)))) →
      (x.labelsAt v p : Res (Option (List (Id k)))) =
        (if ev.getLabels = [] then y.labelsAt v p else pure (some ev.getLabels)) := by
    intro ev p h
    by_cases hl : ev.getLabels = []
    · rw [if_pos hl] at h ⊢; exact World.labelsAt_congr h
    · rw [if_neg hl] at h ⊢; exact World.labelsAt_some hv hvk hl h
  have hins : (if (x.files (pre ++ "_IN" ++ ".offsets")).isSome then do
      let e ← EdgeVec.openMmap w v (pre ++ "_IN") x
      pure (some e)
    else pure none) = ((match g.inEdgeVec with
        | none => if (y.files (pre ++ "_IN" ++ ".offsets")).isSome then do
              let e ← EdgeVec.openMmap w v (pre ++ "_IN") y
              pure (some e)
            else pure none
        | some e => do
          let il ← (if e.getLabels = [] then y.labelsAt v (pre ++ "_IN" ++ ".labels")
            else pure (some e.getLabels))
          pure (some ⟨e.offsets, e.edges, il⟩)) : Res (Option (EdgeVec m k))) := by
    cases hi : g.inEdgeVec with
    | none =>
      rw [hi] at f4 f5 f6
      simp only [Option.map_none, Option.none_or, Option.bind_none] at f4 f5 f6
      rw [f4, EdgeVec.openMmap_congr f4 f5 f6]
    | some e =>
      rw [hi] at f4 f5 f6
      simp only [Option.map_some, Option.some_or, Option.bind_some] at f4 f5 f6
      have he := hg.ins e hi
      rw [EdgeVec.openMmap_labels hw hwm he.offsets he.edges he.small f4 f5, f4]
      simp only [Option.isSome_some, if_true]
      rw [lab e _ (by rw [f6]; by_cases hl : e.getLabels = [] <;> simp [hl])]
      split
      · cases (y.labelsAt v (pre ++ "_IN" ++ ".labels") : Res (Option (List (Id k)))) <;> rfl
      · rfl
  have hlab : (x.labelsAt v (pre ++ ".labels") : Res (Option (List (Id k)))) = (match g.labels with
      | none => y.labelsAt v (pre ++ ".labels")
      | some ls => pure (some ls)) := by
    cases hl : g.labels with
    | none => rw [hl] at f7; exact World.labelsAt_congr f7
    | some ls =>
      rw [hl] at f7
      exact World.labelsAt_some hv hvk (fun hc => hg.labels (by rw [hl, hc])) f7
  unfold MmapGraph.new
  rw [hins, ← hlab, EdgeVec.openMmap_labels hw hwm hg.out.offsets hg.out.edges hg.out.small f1 f2,
    lab g.edgeVec _ f3]
  generalize (if g.edgeVec.getLabels = [] then _ else _ : Res (Option (List (Id k)))) = A
  generalize (match g.inEdgeVec with | none => _ | some e => _ : Res (Option (EdgeVec m k))) = B
  unfold World.labelsAt
  cases A with
  | error p => rfl
  | ok a =>
    simp only [bind_ok, pure_ok]
    cases B with
    | error p => rfl
    | ok b =>
      simp only [bind_ok]
      cases mapIfPresent v (pre ++ ".labels") x <;> rfl

end StaticGraph

end Verif
