import Verif.Props.FrozenStats
import Verif.Props.Pipeline

/-! C137: `stats` on exported files. -/

namespace Verif.Props

open GraphMap Spec Programs

variable {m k wd v : Nat}

/-- What `stats` makes of one file. -/
def statsOf (m k wd v : Nat) (w : World) (path : String) : Res (Nat × List (Id m × Nat) × List (Id m × Nat)) := do
  let g : Plain m k ← load wd v false path w
  stats g

/-- **C137.** `stats` prints its figures for one file after another up to the first that cannot be read or has
no nodes, where it panics; if there is none it ends well. -/
theorem c137_files (w : World) : ∀ (paths : List String),
    List.Forall₂ (fun p x => statsOf m k wd v w p = .ok x)
      (paths.take (statsFiles (m := m) (k := k) wd v w paths).1.length) (statsFiles (m := m) (k := k) wd v w paths).1 ∧
    ((statsFiles (m := m) (k := k) wd v w paths).2 = .ok () ∧
        (statsFiles (m := m) (k := k) wd v w paths).1.length = paths.length ∨
      ∃ e p, (statsFiles (m := m) (k := k) wd v w paths).2 = .error e ∧
        paths[(statsFiles (m := m) (k := k) wd v w paths).1.length]? = some p ∧ statsOf m k wd v w p = .error e)
  | [] => ⟨List.Forall₂.nil, .inl ⟨rfl, rfl⟩⟩
  | p :: ps => by
    obtain ⟨h1, h2⟩ := c137_files w ps
    cases hq : statsOf m k wd v w p with
    | error e =>
      have e1 : statsFiles (m := m) (k := k) wd v w (p :: ps) = ([], .error e) := by
        unfold statsFiles
        unfold statsOf at hq
        rw [hq]
      rw [e1]
      exact ⟨List.Forall₂.nil, .inr ⟨e, p, rfl, rfl, hq⟩⟩
    | ok x =>
      have e1 : statsFiles (m := m) (k := k) wd v w (p :: ps) =
          (x :: (statsFiles (m := m) (k := k) wd v w ps).1, (statsFiles (m := m) (k := k) wd v w ps).2) := by
        rw [statsFiles]
        unfold statsOf at hq
        rw [hq]
      rw [e1]
      refine ⟨List.Forall₂.cons hq h1, ?_⟩
      rcases h2 with ⟨h2, h3⟩ | ⟨e, p', h2, h3, h4⟩
      · exact .inl ⟨h2, by simp [h3]⟩
      · exact .inr ⟨e, p', h2, by simpa using h3, h4⟩

/-- A frozen graph taken for undirected lists the edges that do not go from a larger to a smaller id. -/
theorem unoriented {g : GraphMap m k (Id m) (Id m)} (hg : Reachable g) {r : Plain m k}
    (hr : g.intoStatic = .ok r) {vw} (hv : r.view = .ok vw) :
    ∃ es eds, ({ r with directed := false } : Plain m k).view =
        .ok { vw with directed := false, edgeIndices := es, edges := eds } ∧
      es.Perm (g.edgeIndices.filter (fun e => decide (e.1 ≤ e.2))) := by
  obtain ⟨h0, h1⟩ := (c26_into_static_succeeds_iff hg).1 ⟨r, hr⟩
  obtain ⟨M, hmax, hlt⟩ := exists_max h0 h1
  obtain ⟨r', hr', hf⟩ := intoStatic_ok hg.inv.toNWF hmax hlt
  obtain rfl := Except.ok.inj (hr.symm.trans hr')
  have hM := (max_spec hmax).2
  obtain ⟨u, hu, -⟩ := StaticGraph.view_ok (g := { r with directed := false }) hf.out (by simp; omega)
  have hu' := hu
  unfold StaticGraph.view at hu hv
  obtain ⟨es, a1, hu⟩ := bind_eq_ok hu
  obtain ⟨eds, a2, hu⟩ := bind_eq_ok hu
  obtain ⟨es0, b1, hv⟩ := bind_eq_ok hv
  obtain ⟨eds0, b2, hv⟩ := bind_eq_ok hv
  cases hv
  refine ⟨es, eds, hu'.trans (congrArg _ (Except.ok.inj hu).symm), ?_⟩
  have a3 : ({ r with directed := false } : Plain m k).edgeIndices =
      .ok ((pairsOf false (g.rows (M.val + 1))).map EdgeIter.toEdge) :=
    Verif.edgeIndices_eq hf.out (by simp; omega) false
  rw [a1] at a3
  obtain rfl := Except.ok.inj a3
  rw [List.perm_ext_iff_of_nodup (edgeList_nodup _ _ hf.out.sorted (by simp; omega))
    ((edgeIndices_nodup hg.inv.toNWF).filter _)]
  rintro ⟨s, t⟩
  rw [mem_edgeList _ _ (by simp; omega), List.mem_filter, mem_edgeIndices hg.inv.toNWF]
  simp only [rows_length, rows_getElem, outE_rows, decide_eq_true_eq, Bool.false_eq_true, false_or]
  constructor
  · rintro ⟨⟨_, h⟩, h2⟩
    exact ⟨⟨h, .inr h2⟩, h2⟩
  · rintro ⟨⟨h, -⟩, h2⟩
    have := hM s (outE_hasNode h)
    rw [Fin.le_def] at this
    exact ⟨⟨by omega, h⟩, h2⟩

/-- **C137.** `stats` reads every file as an undirected graph. For the file of a frozen graph, of either kind, it
gives the largest out-degree and the numbers of nodes by label as C102 says, and for every edge label the
number of edges with it that do not go from a larger to a smaller id: all edges of an undirected graph, but
not of a directed one. -/
theorem c137_exported {g : GraphMap m k (Id m) (Id m)} (hg : Reachable g) {r : Plain m k}
    (hr : g.intoStatic = .ok r) (hnl : g.nodeLabels.len ≤ k) (hel : g.edgeLabels.len ≤ k) {w : World}
    {path : String} (hw : w.import (.staticGraph wd v (.ident wd) (.ident wd) g.directed) path = some r) :
    ∃ d a b, statsOf m k wd v w path = .ok (d, a, b) ∧ (∃ b', stats r = .ok (d, a, b')) ∧
      (AL.keys b).Nodup ∧ (∀ x c, AL.get b x = some c ↔ 0 < c ∧
        c = (g.edgeIndices.filter (fun e => decide (e.1 ≤ e.2 ∧
          (g.getEdgeLabel e.1 e.2).toOption = some (some x)))).length) := by
  obtain ⟨h0, h1⟩ := (c26_into_static_succeeds_iff hg).1 ⟨r, hr⟩
  obtain ⟨r', vw, hr', hv, e1, e2, e3, e4, e5, e6, -⟩ := c25_sparse hg h0 h1 hnl hel
  obtain rfl := Except.ok.inj (hr.symm.trans hr')
  obtain ⟨d, a, b', hst, -⟩ := c102_frozen hg hr hnl hel
  obtain ⟨es, eds, hu, hp⟩ := unoriented hg hr hv
  have S := reachable_shows hg
  have hl : ∀ e ∈ es, vw.getEdgeLabel e.1 e.2 = .ok (g.abs.edge e.1 e.2).join := by
    rintro ⟨s, t⟩ he
    have he := (List.mem_filter.1 (hp.mem_iff.1 he)).1
    obtain ⟨a1, a2⟩ := (S.memEdges s t).1 he
    obtain ⟨l, hl⟩ := Option.isSome_iff_exists.1 a1
    rw [e5]
    have := S.edgeLabel s t l hl a2
    rw [view_getEdgeLabel] at this
    rw [hl]
    exact this
  have hb : (GView.edgeLabelCounter { vw with directed := false, edgeIndices := es, edges := eds }) =
      .ok (counterOf ((es.map (fun e => (g.abs.edge e.1 e.2).join)).filterMap id)) := by
    show (do
      let ls ← es.mapM (fun e => vw.getEdgeLabel e.1 e.2)
      pure (counterOf (ls.filterMap id)) : Res _) = _
    rw [mapM_ok _ _ _ hl]
    rfl
  refine ⟨d, a, counterOf ((es.map (fun e => (g.abs.edge e.1 e.2).join)).filterMap id), ?_, ⟨b', hst⟩,
    counterOf_keys_nodup _, ?_⟩
  · unfold statsOf load
    rw [import_direction _ _ false g.directed, hw]
    show stats { r with directed := false } = _
    unfold stats at hst ⊢
    rw [hv, bind_ok] at hst
    rw [hu, bind_ok]
    obtain ⟨ds, q1, hst⟩ := bind_eq_ok hst
    obtain ⟨d', q2, hst⟩ := bind_eq_ok hst
    obtain ⟨a', q3, hst⟩ := bind_eq_ok hst
    obtain ⟨b2, q4, hst⟩ := bind_eq_ok hst
    cases hst
    have q1' : ({ vw with directed := false, edgeIndices := es, edges := eds } : GView m k _ _).nodeIndices.mapM
        ({ vw with directed := false, edgeIndices := es, edges := eds } : GView m k _ _).degree = .ok ds := q1
    have q3' : GView.nodeLabelCounter { vw with directed := false, edgeIndices := es, edges := eds } = .ok a := q3
    rw [q1', bind_ok, q2, bind_ok, q3', bind_ok, hb]
    rfl
  · intro x c
    rw [List.filterMap_map, counter_spec]
    have : (es.filter (fun e => decide ((id ∘ fun (e : Id m × Id m) =>
        (g.abs.edge e.1 e.2).join) e = some x))).length =
        (g.edgeIndices.filter (fun e => decide (e.1 ≤ e.2 ∧
          (g.getEdgeLabel e.1 e.2).toOption = some (some x)))).length := by
      rw [(hp.filter _).length_eq, List.filter_filter]
      congr 1
      apply List.filter_congr
      intro e he
      by_cases hle : e.1 ≤ e.2
      · have h2 := hl e (hp.mem_iff.2 (List.mem_filter.2 ⟨he, by simpa using hle⟩))
        rw [e5] at h2
        simp [h2, Except.toOption, hle]
      · simp [hle]
    rw [this]

/-- A directed graph with edges 0 → 1 and 2 → 1, both labelled 9. -/
def twoArcs : Res (GraphMap 255 255 (Id 255) (Id 255)) :=
  (GraphMap.withLabelMap true SetMap.empty SetMap.empty).exec
    [.addNode 0 (some 7), .addNode 1 none, .addNode 2 (some 7), .addEdge 0 1 (some 9), .addEdge 2 1 (some 9)]

set_option maxRecDepth 16000 in
/-- From its file `stats` counts one edge with label 9; the frozen graph itself counts two. -/
example : ∃ g r, twoArcs = .ok g ∧ Reachable g ∧ g.intoStatic = .ok r ∧
    stats r = .ok (1, [(7, 2)], [(9, 2)]) ∧
    stats { r with directed := false } = .ok (1, [(7, 2)], [(9, 1)]) ∧
    ((blank 1000).export (.staticGraph 1 1 (.ident 1) (.ident 1) true) r "a").2.import
      (.staticGraph 1 1 (.ident 1) (.ident 1) true) "a" = some r := by
  obtain ⟨g, h⟩ : ∃ g, twoArcs = .ok g := ⟨_, rfl⟩
  have hg : Reachable g := (exec_run h).reachable List.nodup_nil List.nodup_nil
  have hM : g.nodeIndices.max? = some 2 := by cases h; decide
  have hround : ∀ y : Id 255, (Codec.ident (m := 255) 1).RoundTrips y := fun y => Codec.ident_round (by decide) y
  obtain ⟨r, hr, -, h3⟩ := c46_frozen (w := 1) (v := 1) (nl := .ident 1) (el := .ident 1) hg (by decide)
    (by decide) hM (by decide) (by decide) (by cases h; decide) (by cases h; decide) (by cases h; decide)
    (fun y _ => hround y) (fun y _ => hround y) "a"
  refine ⟨g, r, h, hg, hr, ?_⟩
  have hd : g.directed = true := by cases h; rfl
  rw [hd] at h3
  have h4 := h3 (by cases h; cases hr; decide) (by cases h; cases hr; intro e he; cases he; decide) (blank 1000)
    (by cases h; cases hr; decide)
  refine ⟨?_, ?_, h4.2⟩
  · cases h; cases hr; decide
  · cases h; cases hr; decide

end Verif.Props
