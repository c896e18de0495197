import Verif.Model.Programs
import Verif.Proof.FrozenSize
import Verif.Props.CsvFiles
import Verif.Props.Reorder
import Verif.Props.Static
import Verif.Props.Serde

/-! Property theorems about the program `csv_to_static`: C91, C92. -/

namespace Verif.Props

open GraphMap Spec Csv Programs

variable {m k : Nat}

/-! ### C92 -/

/-- **C92.** The flag `--reorder_labels` of `csv_to_static` does nothing: with it and without it the program
ends the same way and leaves the same files, for all other arguments and all inputs. -/
theorem c92_flag_ignored (wd v : Nat) (a : CsvArgs) (mcN mcE : List (Id k × Nat)) (w : World) :
    csvToStatic m wd v { a with flags := "--reorder_labels" :: a.flags } mcN mcE w =
      csvToStatic m wd v a mcN mcE w := by
  have e : ∀ name, name ∈ ["has_headers", "is_flexible", "is_directed", "reorder_node_id",
      "reorder_label_id"] →
      isPresent csvFlags ("--reorder_labels" :: a.flags) name = isPresent csvFlags a.flags name := by
    intro name hn
    simp only [List.mem_cons, List.not_mem_nil, or_false] at hn
    rcases hn with rfl | rfl | rfl | rfl | rfl <;>
      simp [isPresent, csvFlags]
  unfold csvToStatic csvToStaticGraph
  simp only [e _ (by simp : "has_headers" ∈ _), e _ (by simp : "is_flexible" ∈ _),
    e _ (by simp : "is_directed" ∈ _), e _ (by simp : "reorder_node_id" ∈ _),
    e _ (by simp : "reorder_label_id" ∈ _)]

theorem on_headers (fl : List String) : isPresent csvFlags fl "has_headers" = fl.contains "--headers" := by
  simp [isPresent, csvFlags]

theorem on_flexible (fl : List String) : isPresent csvFlags fl "is_flexible" = fl.contains "--flexible" := by
  simp [isPresent, csvFlags]

theorem on_directed (fl : List String) : isPresent csvFlags fl "is_directed" = fl.contains "--directed" := by
  simp [isPresent, csvFlags]

theorem on_nodes (fl : List String) :
    isPresent csvFlags fl "reorder_node_id" = fl.contains "--reorder_nodes" := by
  simp [isPresent, csvFlags]

theorem on_labels (fl : List String) : isPresent csvFlags fl "reorder_label_id" = false := by
  simp [isPresent, csvFlags]

/-- The graph `csv_to_static` reads: the CSV files as the flags say. -/
def Reads (a : CsvArgs) (w : World) (g : GraphMap m k (List Byte) (List Byte)) : Prop :=
  readFrom (.decimal m) .text .text a.nodeFile a.edgeFile a.separator (a.flags.contains "--headers")
    (a.flags.contains "--flexible") w (new (a.flags.contains "--directed")) = .ok (true, g)

theorem exists_mostCommon {X : Type} (c : List (X × Nat)) : ∃ r, IsMostCommon c r := by
  refine ⟨c.insertionSort (fun a b => b.2 ≤ a.2), List.perm_insertionSort _ _, ?_⟩
  have : Std.Total (fun a b : X × Nat => b.2 ≤ a.2) := ⟨fun a b => le_total _ _⟩
  have : IsTrans (X × Nat) (fun a b => b.2 ≤ a.2) := ⟨fun a b c h1 h2 => le_trans h2 h1⟩
  exact List.pairwise_insertionSort _ _

theorem reorderId_labels_off (g : GraphMap m k (List Byte) (List Byte)) (rn : Bool)
    (a b c d : List (Id k × Nat)) : g.reorderId rn false false a b = g.reorderId rn false false c d := rfl

theorem reorderIdWith_keeps {g h : GraphMap m k (List Byte) (List Byte)} {idm : Option (SetMap (Id m))}
    (hh : g.reorderIdWith idm none none = .ok h) :
    h.nodeLabels = g.nodeLabels ∧ h.edgeLabels = g.edgeLabels := by
  unfold reorderIdWith at hh
  split at hh
  · cases hh; exact ⟨rfl, rfl⟩
  · obtain ⟨nodes, -, hh⟩ := bind_eq_ok hh
    simp only [newLabelMap, pure_ok, bind_ok] at hh
    cases hh
    exact ⟨rfl, rfl⟩

theorem csvToStaticGraph_eq {a : CsvArgs} {w : World} {g : GraphMap m k (List Byte) (List Byte)}
    (hr : Reads a w g) (mcN mcE : List (Id k × Nat)) :
    Reachable g ∧ g.isDirected = a.flags.contains "--directed" ∧
    ∃ f h, Reachable h ∧ h.isDirected = g.isDirected ∧ h.nodeCount = g.nodeCount ∧
      h.edgeCount = g.edgeCount ∧ Carries f g h ∧ h.nodeLabels = g.nodeLabels ∧
      h.edgeLabels = g.edgeLabels ∧
      (a.flags.contains "--reorder_nodes" = true → ∀ i, h.hasNode i = true ↔ i.val < g.nodeCount) ∧
      (a.flags.contains "--reorder_nodes" = false → h = g ∧ f = id) ∧
      csvToStaticGraph a mcN mcE w = h.intoStatic := by
  have h0 : Reachable (new (a.flags.contains "--directed") : GraphMap m k (List Byte) (List Byte)) :=
    .start _ _ _ List.nodup_nil List.nodup_nil
  obtain ⟨hg, hok, -, sep, -, hx⟩ := c90_outcome h0 _ _ _ _ _ _ _ _ _ hr
  have hx := hx (hok.1 rfl).1
  have hd : g.isDirected = a.flags.contains "--directed" :=
    (run_shape (nl := SetMap.empty) (el := SetMap.empty) List.nodup_nil List.nodup_nil (exec_run hx)).1
  refine ⟨hg, hd, ?_⟩
  have hunf : csvToStaticGraph a mcN mcE w =
      (g.reorderId (a.flags.contains "--reorder_nodes") false false mcN mcE >>= fun r =>
        unwrap r.graph >>= fun h => h.intoStatic) := by
    unfold csvToStaticGraph
    simp only [on_headers, on_flexible, on_directed, on_nodes, on_labels]
    rw [hr, bind_ok]
    simp only [if_true, pure_ok, bind_ok]
  cases hf : a.flags.contains "--reorder_nodes" with
  | false =>
    refine ⟨id, g, hg, rfl, rfl, rfl, ⟨Set.bijOn_id _, fun _ _ => rfl, fun _ _ _ _ => ⟨rfl, rfl⟩⟩, rfl, rfl,
      (fun h => by cases h), fun _ => ⟨rfl, rfl⟩, ?_⟩
    rw [hunf, hf]
    rfl
  | true =>
    obtain ⟨N, hN⟩ := exists_mostCommon g.view.nodeLabelIdCounter
    obtain ⟨E, hE⟩ := exists_mostCommon g.view.edgeLabelIdCounter
    obtain ⟨r, h, e1, e2, e3, e4, e5, e6, f, e7, -⟩ := c29_reorder_isomorphism hg true false false hN hE
      (fun h => by cases h) (fun h => by cases h)
    have hdense := (c30_reorder_ids hg false false hN hE e1 e2).1
    have hl : h.nodeLabels = g.nodeLabels ∧ h.edgeLabels = g.edgeLabels := by
      have := e1
      rw [reorderId_unfold hg.inv true false false hN hE] at this
      obtain ⟨h', hw, this⟩ := bind_eq_ok this
      cases this
      obtain rfl : h' = h := Option.some.inj e2
      exact reorderIdWith_keeps hw
    refine ⟨f, h, e3, e4, e5, e6, e7, hl.1, hl.2, fun _ => hdense, (fun h => by cases h), ?_⟩
    rw [hunf, hf, reorderId_labels_off g true mcN mcE N E, e1, bind_ok, e2]
    rfl

theorem export_others {X : Type} (c : Codec X) (x : X) (path : String) (w : World) {p : String}
    (hp : p ≠ path) : (w.export c x path).2.files p = w.files p := by
  unfold World.export World.create
  split
  · rfl
  · simp [World.put, hp]

/-! ### C91 -/

/-- **C91**: when the graph has been read, `csv_to_static` gets as far as exporting exactly if the graph has
a node and the largest id is not needed: not used as an id or, when ids are given anew, there is not a node
for every id. -/
theorem c91_converts_iff {a : CsvArgs} {w : World} {g : GraphMap m k (List Byte) (List Byte)}
    (hr : Reads a w g) (mcN mcE : List (Id k × Nat)) :
    (∃ r : StaticGraph m k _ _, csvToStaticGraph a mcN mcE w = .ok r) ↔
      g.nodeCount ≠ 0 ∧ (if "--reorder_nodes" ∈ a.flags then g.nodeCount ≤ m
        else g.hasNode Id.maxValue = false) := by
  obtain ⟨hg, -, f, h, e1, -, e3, -, -, -, -, e8, e9, e10⟩ := csvToStaticGraph_eq hr mcN mcE
  rw [e10, c26_into_static_succeeds_iff e1, e3]
  by_cases hf : "--reorder_nodes" ∈ a.flags
  · rw [if_pos hf]
    have := e8 (by simpa using hf) Id.maxValue
    have hm : (Id.maxValue : Id m).val = m := rfl
    rw [hm] at this
    rw [← Bool.not_eq_true, this]
    constructor <;> rintro ⟨a, b⟩ <;> exact ⟨a, by omega⟩
  · rw [if_neg hf, (e9 (by simpa using hf)).1]

/-- **C91**: if the files cannot be read as asked, the program panics and changes no file. -/
theorem c91_unreadable {a : CsvArgs} {w : World} (hr : ∀ g : GraphMap m k (List Byte) (List Byte), ¬ Reads a w g)
    (wd v : Nat) (mcN mcE : List (Id k × Nat)) :
    ∃ p, csvToStatic m wd v a mcN mcE w = (.error p, w) := by
  have : ∃ p, csvToStaticGraph (m := m) a mcN mcE w = .error p := by
    cases h : csvToStaticGraph (m := m) a mcN mcE w with
    | error p => exact ⟨p, rfl⟩
    | ok r =>
      exfalso
      unfold csvToStaticGraph at h
      obtain ⟨⟨ok, g⟩, h1, h2⟩ := bind_eq_ok h
      obtain ⟨g', h3, -⟩ := bind_eq_ok h2
      cases ok with
      | false => cases h3
      | true =>
        simp only [on_headers, on_flexible, on_directed] at h1
        exact hr g h1
  obtain ⟨p, hp⟩ := this
  exact ⟨p, by unfold csvToStatic; rw [hp]; rfl⟩

/-- **C91.** For every input that is read as a graph `g`: with `--reorder_nodes`, or if the ids are already
`0..n-1`, the file `csv_to_static` leaves holds a frozen graph with the same nodes, edges and labels as `g`
under a renaming of the nodes to `0..n-1`, which is the identity without the flag. The conditions are that
there is a node, that the largest node id and label id stay free, that sizes fit the file format and that
the disk has room. -/
theorem c91_converts {a : CsvArgs} {w : World} {g : GraphMap m k (List Byte) (List Byte)}
    (hr : Reads a w g) (mcN mcE : List (Id k × Nat)) {wd v : Nat} (hw : m + 1 = 256 ^ wd)
    (hv : k + 1 = 256 ^ v) (h64 : m + 1 < 2 ^ 64) (h0 : g.nodeCount ≠ 0) (h1 : g.nodeCount ≤ m)
    (hd : "--reorder_nodes" ∈ a.flags ∨ ∀ n, g.hasNode n = true ↔ n.val < g.nodeCount)
    (hnl : g.nodeLabels.len ≤ k) (hel : g.edgeLabels.len ≤ k) (hec : g.edgeCount < 2 ^ 63)
    (hnl' : g.nodeLabels.len < 2 ^ 64) (hel' : g.edgeLabels.len < 2 ^ 64)
    (cnl : ∀ y ∈ g.nodeLabels.items, y.length < 2 ^ 64)
    (cel : ∀ y ∈ g.edgeLabels.items, y.length < 2 ^ 64) :
    ∃ (r : StaticGraph m k (List Byte) (List Byte)) (vw : GView m k (List Byte) (List Byte))
        (f : Id m → Id m), r.view = .ok vw ∧ vw.directed = a.flags.contains "--directed" ∧
      vw.nodeCount = g.nodeCount ∧ vw.edgeCount = g.edgeCount ∧
      (∀ i, vw.hasNode i = true ↔ i.val < g.nodeCount) ∧
      Set.BijOn f {n | g.hasNode n = true} {n | vw.hasNode n = true} ∧
      (∀ n, g.hasNode n = true → vw.getNodeLabel (f n) = .ok (g.getNodeLabel n)) ∧
      (∀ s t, g.hasNode s = true → g.hasNode t = true →
        vw.hasEdge (f s) (f t) = .ok (g.hasEdge s t) ∧ vw.getEdgeLabel (f s) (f t) = g.getEdgeLabel s t) ∧
      ("--reorder_nodes" ∉ a.flags → f = id) ∧
      (((Codec.staticGraph wd v Programs.text Programs.text (a.flags.contains "--directed")).bytes r).length <
          w.room →
        ∃ w', csvToStatic m wd v a mcN mcE w = (.ok (), w') ∧
          (∀ p, p ≠ a.outFile.getD "graph.static" → w'.files p = w.files p) ∧
          w'.import (Codec.staticGraph (m := m) (k := k) wd v Programs.text Programs.text
            (a.flags.contains "--directed")) (a.outFile.getD "graph.static") = some r) := by
  obtain ⟨hg, hdir, f, h, e1, e2, e3, e4, e5, e6, e7, e8, e9, e10⟩ := csvToStaticGraph_eq hr mcN mcE
  have hdense : ∀ i, h.hasNode i = true ↔ i.val < g.nodeCount := by
    by_cases hf : "--reorder_nodes" ∈ a.flags
    · exact e8 (by simpa using hf)
    · rw [(e9 (by simpa using hf)).1]
      exact hd.resolve_left hf
  have hmax : h.hasNode Id.maxValue = false := by
    rw [← Bool.not_eq_true, hdense]
    show ¬ m < _
    omega
  obtain ⟨M, hM, hlt⟩ := exists_max (g := h) (by rw [e3]; exact h0) hmax
  obtain ⟨r, vw, r1, r2, k1, k2, k3, k4, k5, k6, k7, k8, k9, -⟩ := c24_into_static_keeps_graph e1
    (by rw [e3]; exact h0) (by rw [e3]; exact hdense) (by rw [e3]; exact h1) (by rw [e6]; exact hnl)
    (by rw [e7]; exact hel)
  obtain ⟨r', q1, q2, q3⟩ := c46_frozen (nl := Programs.text) (el := Programs.text) e1 hw hv hM hlt
    (by omega) (by rw [e4]; omega) (by rw [e6]; exact hnl') (by rw [e7]; exact hel')
    (by rw [e6]; exact fun y hy => text_round (cnl y hy))
    (by rw [e7]; exact fun y hy => text_round (cel y hy)) (a.outFile.getD "graph.static")
  rw [r1] at q1
  obtain rfl := Except.ok.inj q1
  obtain ⟨r', q1, hfz⟩ := intoStatic_ok e1.inv.toNWF hM hlt
  rw [r1] at q1
  obtain rfl := Except.ok.inj q1
  have hdir' : h.directed = a.flags.contains "--directed" := by
    have : h.isDirected = a.flags.contains "--directed" := by rw [e2, hdir]
    exact this
  rw [hdir'] at q3
  refine ⟨r, vw, f, r2, by rw [k1, e2, hdir], by rw [k2, e3], by rw [k3, e4], ?_, ?_, ?_, ?_, ?_,
    fun hroom => ?_⟩
  · intro i; rw [k4]; exact hdense i
  · have : {n | vw.hasNode n = true} = {n | h.hasNode n = true} :=
      Set.ext fun n => by show vw.hasNode n = true ↔ h.hasNode n = true; rw [k4]
    rw [this]; exact e5.1
  · intro n hn
    rw [k6, e5.2.1 n hn]
  · intro s t hs ht
    rw [k7, k9, (e5.2.2 s t hs ht).1, (e5.2.2 s t hs ht).2]
    exact ⟨rfl, rfl⟩
  · intro hf
    exact (e9 (by simpa using hf)).2
  obtain ⟨x1, x2⟩ := q3
    (by
      rw [hfz.out.edges, List.length_map]
      have := rows_flatten_le e1.inv (j := M.val + 1) (by omega)
      omega)
    (by
      intro e he
      cases hdd : h.directed with
      | false => rw [hfz.noIn hdd] at he; cases he
      | true =>
        obtain ⟨iv, i1, i2⟩ := hfz.inn hdd
        rw [i1] at he
        cases he
        rw [i2.edges, List.length_map]
        have := inRows_flatten_le e1.inv hdd (j := M.val + 1) (by omega)
        omega) w hroom
  refine ⟨_, ?_, fun p hp => export_others _ _ _ _ hp, x2⟩
  unfold csvToStatic exported
  rw [e10, r1, on_directed]
  simp only [x1, if_true]

/-- A disk with a node file and an edge file, without headers. -/
def csvDisk : World :=
  ⟨fun p => if p = "n" then some (lines ["5,hi", "9,"]) else
    if p = "e" then some (lines ["9,5,e", "9,7,"]) else none, 1000⟩

/-- Arguments for it. -/
def csvArgs (fl : List String) : CsvArgs := ⟨some "n", "e", none, none, fl⟩

set_option maxRecDepth 8000 in
example : ∃ g : GraphMap 255 255 (List Byte) (List Byte), Reads (csvArgs ["--flexible", "--reorder_nodes"]) csvDisk g ∧
    g.nodeCount = 3 ∧ g.nodeLabels.len = 2 ∧ g.edgeLabels.len = 2 ∧ g.edgeCount = 2 := by
  refine ⟨_, rfl, ?_, ?_, ?_, ?_⟩ <;> decide

set_option maxRecDepth 8000 in
example : (csvToStatic (k := 255) 255 1 1 (csvArgs ["--flexible", "--reorder_nodes"]) [] [] csvDisk).1 = .ok () ∧
    ((csvToStatic (k := 255) 255 1 1 (csvArgs ["--flexible", "--reorder_nodes"]) [] [] csvDisk).2.import
      (Codec.staticGraph (m := 255) (k := 255) 1 1 Programs.text Programs.text false) "graph.static").map
        (fun r => (r.numNodes, r.edgeVec.edges, r.labels)) =
      some (3, [2, 2, 0, 1], some [0, 255, 1]) := by
  constructor <;> decide

end Verif.Props
