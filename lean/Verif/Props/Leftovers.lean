import Verif.Proof.Leftovers
import Verif.Props.Mmap

/-! Property theorems about dumping over other files: C109. -/

namespace Verif.Props

open Verif

variable {m k : Nat} {NL EL : Type} [DecidableEq NL] [DecidableEq EL] {w v : Nat}

/-- **C109.** Whatever files are under the prefix, a dump with room enough succeeds and loading then gives
the offsets, edges, counts and label maps of the graph dumped; of the labels of edges and nodes and of the
in-edges, what the graph has not is taken from the files that were there. -/
theorem c109_loads {nl : Codec NL} {el : Codec EL} {g : StaticGraph m k NL EL}
    (hw : 0 < w) (hv : 0 < v) (hwm : m + 1 = 256 ^ w) (hvk : k + 1 = 256 ^ v)
    (hnl : ∀ y ∈ g.nodeLabels.labels, nl.RoundTrips y) (hel : ∀ y ∈ g.edgeLabels.labels, el.RoundTrips y)
    (hg : g.Mappable) (pre : String) :
    ∀ x : World, g.dumpRoom w v nl el ≤ x.room →
      (g.dumpMmap w v nl el pre x).1 = true ∧
      MmapGraph.new w v nl el pre (g.dumpMmap w v nl el pre x).2 = ((do
        let ol ← (if g.edgeVec.getLabels = [] then x.labelsAt v (pre ++ "_OUT" ++ ".labels")
          else pure (some g.edgeVec.getLabels))
        let ins ← (match g.inEdgeVec with
          | none => if (x.files (pre ++ "_IN" ++ ".offsets")).isSome then do
                let e ← EdgeVec.openMmap w v (pre ++ "_IN") x
                pure (some e)
              else pure none
          | some e => do
            let il ← (if e.getLabels = [] then x.labelsAt v (pre ++ "_IN" ++ ".labels")
              else pure (some e.getLabels))
            pure (some ⟨e.offsets, e.edges, il⟩))
        let ls ← (match g.labels with
          | none => x.labelsAt v (pre ++ ".labels")
          | some ls => pure (some ls))
        pure ⟨⟨g.edgeVec.offsets, g.edgeVec.edges, ol⟩, ins, ls, g.numNodes, g.numEdges,
          g.nodeLabels, g.edgeLabels⟩) : Res (MmapGraph m k NL EL)) := by
  intro x hroom
  obtain ⟨h4, h1, n, h2, h5⟩ := Sizes.dump_done pre hroom
  · refine ⟨h4, ?_⟩
    rw [StaticGraph.load_over hw hv hwm hvk nl el hg h1]
    have hrt := StaticGraph.auxBytes_round hnl hel hg (nl := nl) (el := el) []
    rw [List.append_nil] at hrt
    have haux : ∀ (e : EdgeVec m k) d, (MmapGraph.loadAux nl el e d (pre ++ "_aux.bin") (g.dumpMmap w v nl el pre x).2 :
        Res (Aux NL EL)) = .ok ⟨g.numNodes, g.numEdges, g.nodeLabels, g.edgeLabels⟩ := by
      intro e d
      unfold MmapGraph.loadAux World.import
      rw [h2, List.take_of_length_le h5]
      simp only [Option.isSome_some, if_true, Option.bind_eq_bind, Option.bind_some]
      rw [hrt]; rfl
    simp only [haux, bind_ok]
    rfl

/-- **C109** for a prefix that loads as `h` before the dump: the graph fills its holes from `h`. (Labels
of in-edges without in-edges, which no dump leaves, are ruled out.) -/
theorem c109_over {nl : Codec NL} {el : Codec EL} {g : StaticGraph m k NL EL}
    (hw : 0 < w) (hv : 0 < v) (hwm : m + 1 = 256 ^ w) (hvk : k + 1 = 256 ^ v)
    (hnl : ∀ y ∈ g.nodeLabels.labels, nl.RoundTrips y) (hel : ∀ y ∈ g.edgeLabels.labels, el.RoundTrips y)
    (hg : g.Mappable) (pre : String) :
    ∀ x : World, g.dumpRoom w v nl el ≤ x.room → ∀ h : MmapGraph m k NL EL, MmapGraph.new w v nl el pre x = .ok h →
      (h.inEdges = none → x.files (pre ++ "_IN" ++ ".labels") = none) →
      (g.dumpMmap w v nl el pre x).1 = true ∧
      MmapGraph.new w v nl el pre (g.dumpMmap w v nl el pre x).2 = .ok (g.over h) := by
  have hneed := c109_loads (g := g) hw hv hwm hvk hnl hel hg pre
  intro x hroom h hload horphan
  obtain ⟨h1, h2⟩ := hneed x hroom
  refine ⟨h1, ?_⟩
  rw [h2]
  unfold MmapGraph.new at hload
  obtain ⟨e, he, hload⟩ := bind_eq_ok hload
  obtain ⟨i, hi, hload⟩ := bind_eq_ok hload
  obtain ⟨l, hl, hload⟩ := bind_eq_ok hload
  obtain ⟨a, -, hload⟩ := bind_eq_ok hload
  cases hload
  have labels_of : ∀ {p : String} {e : EdgeVec m k}, EdgeVec.openMmap w v p x = .ok e →
      x.labelsAt v (p ++ ".labels") = .ok e.labels := by
    intro p e he
    unfold EdgeVec.openMmap at he
    obtain ⟨o', -, he⟩ := bind_eq_ok he
    obtain ⟨e', -, he⟩ := bind_eq_ok he
    obtain ⟨l', hl', he⟩ := bind_eq_ok he
    cases he
    unfold World.labelsAt
    rw [hl']; rfl
  have hol := labels_of he
  have hnl : x.labelsAt v (pre ++ ".labels") = .ok (l.map TypedMap.ids : Option (List (Id k))) := by
    unfold World.labelsAt
    rw [hl]; rfl
  have h3 : (if g.edgeVec.getLabels = [] then x.labelsAt v (pre ++ "_OUT" ++ ".labels")
      else pure (some g.edgeVec.getLabels)) = (.ok (g.edgeVec.labelsOr e.labels) :
        Res (Option (List (Id k)))) := by
    unfold EdgeVec.labelsOr
    rw [hol]; split <;> rfl
  rw [h3, bind_ok]
  have h5 : (match g.labels with
      | none => x.labelsAt v (pre ++ ".labels")
      | some ls => pure (some ls)) = (.ok (g.labels.or (l.map TypedMap.ids)) :
        Res (Option (List (Id k)))) := by
    rw [hnl]
    cases g.labels <;> rfl
  rw [h5]
  have h6 : (x.labelsAt v (pre ++ "_IN" ++ ".labels") : Res (Option (List (Id k)))) =
      .ok (i.bind (·.labels)) := by
    split at hi
    · obtain ⟨e', he', hi⟩ := bind_eq_ok hi
      cases hi
      exact labels_of he'
    · cases hi
      exact World.labelsAt_none (horphan rfl)
  unfold StaticGraph.over
  cases hin : g.inEdgeVec with
  | none => simp only; rw [hi]; rfl
  | some e' =>
    simp only [h6]
    unfold EdgeVec.labelsOr
    by_cases hl : e'.getLabels = []
    · simp only [if_pos hl, bind_ok, pure_ok]
    · simp only [if_neg hl, bind_ok, pure_ok]

/-- **C109.** Dumped where `h` was, the graph comes back as it is exactly if it has every array `h` has. -/
theorem c109_right_iff {nl : Codec NL} {el : Codec EL} {g : StaticGraph m k NL EL}
    (hw : 0 < w) (hv : 0 < v) (hwm : m + 1 = 256 ^ w) (hvk : k + 1 = 256 ^ v)
    (hnl : ∀ y ∈ g.nodeLabels.labels, nl.RoundTrips y) (hel : ∀ y ∈ g.edgeLabels.labels, el.RoundTrips y)
    (hg : g.Mappable) (hlab : g.edgeVec.labels ≠ some [])
    (hilab : ∀ e, g.inEdgeVec = some e → e.labels ≠ some []) (pre : String) :
    ∀ x : World, g.dumpRoom w v nl el ≤ x.room → ∀ h : MmapGraph m k NL EL, MmapGraph.new w v nl el pre x = .ok h →
      (h.inEdges = none → x.files (pre ++ "_IN" ++ ".labels") = none) →
      (MmapGraph.new w v nl el pre (g.dumpMmap w v nl el pre x).2 = .ok g.asMmap ↔
        (h.edges.labels.isSome = true → g.edgeVec.labels.isSome = true) ∧
        (h.inEdges.isSome = true → g.inEdgeVec.isSome = true) ∧
        (∀ e, g.inEdgeVec = some e → ∀ e', h.inEdges = some e' → e'.labels.isSome = true →
          e.labels.isSome = true) ∧
        (h.labels.isSome = true → g.labels.isSome = true)) := by
  have hneed := c109_over (g := g) hw hv hwm hvk hnl hel hg pre
  intro x hroom h hload horphan
  rw [(hneed x hroom h hload horphan).2]
  have key : ∀ (ev : EdgeVec m k), ev.labels ≠ some [] → ∀ l, (ev.labelsOr l = ev.labels ↔
      (l.isSome = true → ev.labels.isSome = true)) := by
    intro ev hev l
    unfold EdgeVec.labelsOr EdgeVec.getLabels
    cases hel : ev.labels with
    | none => cases l <;> simp
    | some ls =>
      have : ls ≠ [] := fun hc => hev (by rw [hel, hc])
      simp [this]
  constructor
  · intro hok
    have hok := Except.ok.inj hok
    have e1 := congrArg (·.edges.labels) hok
    have e2 := congrArg (·.inEdges) hok
    have e3 := congrArg (·.labels) hok
    simp only [StaticGraph.over, StaticGraph.asMmap] at e1 e2 e3
    refine ⟨(key _ hlab _).1 e1, ?_, ?_, ?_⟩
    · intro hs
      cases hin : g.inEdgeVec with
      | some e => rfl
      | none => rw [hin] at e2; simp only at e2; rw [e2] at hs; cases hs
    · intro e he e' he' hs
      rw [he] at e2
      simp only [Option.some.injEq] at e2
      have e4 := congrArg (·.labels) e2
      simp only at e4
      rw [he'] at e4
      exact (key e (hilab e he) _).1 e4 hs
    · intro hs
      cases hgl : g.labels with
      | some _ => rfl
      | none => rw [hgl] at e3; simp only [Option.none_or] at e3; rw [e3] at hs; cases hs
  · rintro ⟨h1, h2, h3, h4⟩
    congr 1
    unfold StaticGraph.over StaticGraph.asMmap
    rw [(key _ hlab _).2 h1]
    congr 1
    · cases hin : g.inEdgeVec with
      | none =>
        simp only
        cases hi : h.inEdges with
        | none => rfl
        | some _ => rw [hi, hin] at h2; exact absurd (h2 rfl) Bool.false_ne_true
      | some e =>
        simp only
        rw [(key e (hilab e hin) _).2]
        intro hs
        cases hi : h.inEdges with
        | none => rw [hi] at hs; cases hs
        | some e' => rw [hi] at hs; exact h3 e hin e' hi hs
    · cases hgl : g.labels with
      | some _ => rfl
      | none =>
        cases hh : h.labels with
        | none => rfl
        | some _ => rw [hh, hgl] at h4; exact absurd (h4 rfl) Bool.false_ne_true

/-- The hypotheses of C109 for the little undirected graph over the little directed one, and what comes
back: the directed one's in-edges. -/
example : ∃ r r', smallStatic true = .ok r ∧ smallStatic false = .ok r' ∧ r'.Mappable ∧
    r'.edgeVec.labels ≠ some [] ∧ (∀ e, r'.inEdgeVec = some e → e.labels ≠ some []) ∧
    ∃ h, MmapGraph.new (m := 255) (k := 255) 1 1 text text "g"
        (r.dumpMmap 1 1 text text "g" (blank 1000)).2 = .ok h ∧ h.inEdges ≠ none ∧
      MmapGraph.new (m := 255) (k := 255) 1 1 text text "g"
        (r'.dumpMmap 1 1 text text "g" (r.dumpMmap 1 1 text text "g" (blank 1000)).2).2 = .ok (r'.over h) ∧
      (r'.over h).inEdges = r.inEdgeVec := by
  refine ⟨_, _, rfl, rfl, ⟨⟨?_, ?_, ?_⟩, ?_, ?_, ?_, ?_, ?_, ?_⟩, ?_, ?_, _, rfl, ?_, ?_, ?_⟩
  · decide
  · decide
  · decide
  · intro e he; cases he
  · decide
  · decide
  · decide
  · decide
  · decide
  · decide
  · intro e he; cases he
  · decide
  · rfl
  · rfl

end Verif.Props
