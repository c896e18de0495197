import Verif.Props.Reimport
import Verif.Props.Equality
import Verif.Proof.ReorderIso

/-! Property theorems about the programs `vary_labels` (C100, C101) and `stats` (C102). -/

namespace Verif.Props

open GraphMap Spec Programs

variable {m k wd v : Nat}

/-! ### C100 -/

theorem redraw_ok : ∀ (ls : List (Id k)) (r : Rng), ∃ ls', redraw ls r = .ok ls' ∧ ls'.length = ls.length ∧
    ∀ i l, ls[i]? = some l → ls'[i]? =
      some (if 10 < (r i).word % 15 then Id.new ((r i).word % 15) else l)
  | [], _ => ⟨[], rfl, rfl, by simp⟩
  | l :: ls, r => by
    obtain ⟨ls', h1, h2, h3⟩ := redraw_ok ls r.rest
    refine ⟨(if 10 < (r 0).word % 15 then Id.new ((r 0).word % 15) else l) :: ls', ?_, by simp [h2], ?_⟩
    · simp only [redraw, Rng.range, pure_ok, bind_ok, h1]
      rw [if_neg (by decide), bind_ok, h1]
      rfl
    · intro i x hi
      cases i with
      | zero => simp only [List.getElem?_cons_zero, Option.some.injEq] at hi ⊢; rw [hi]
      | succ i =>
        simp only [List.getElem?_cons_succ] at hi ⊢
        exact h3 i x hi

theorem addItems_ok {X : Type} [DecidableEq X] : ∀ (xs : List X) (s : SetMap X), xs.Nodup →
    xs.foldlM (fun s i => do
      let q ← s.addItem i
      pure q.1) s = (.ok ⟨s.labels ++ xs.filter (fun x => decide (x ∉ s.labels))⟩ : Res (SetMap X))
  | [], s, _ => by simp [pure_ok]
  | x :: xs, s, h => by
    obtain ⟨hx, hn⟩ := List.nodup_cons.1 h
    rw [List.foldlM_cons]
    by_cases hm : x ∈ s.labels
    · rw [SetMap.addItem_mem hm, bind_ok, pure_ok, bind_ok, addItems_ok xs s hn]
      simp [hm]
    · rw [SetMap.addItem_not_mem hm, bind_ok, pure_ok, bind_ok, addItems_ok xs _ hn]
      simp only [Except.ok.injEq, SetMap.mk.injEq, List.filter_cons, hm, not_false_eq_true, decide_true, if_true,
        List.append_assoc, List.singleton_append, List.append_cancel_left_eq, List.cons.injEq, true_and]
      apply List.filter_congr
      intro y hy
      have : y ≠ x := fun e => hx (e ▸ hy)
      simp [this]

/-- The labels `vary_labels` adds to the table. -/
def newLabels (m : Nat) : List (Id m) := [Id.new 11, Id.new 12, Id.new 13, Id.new 14]

theorem newLabels_nodup (hm : 14 ≤ m) : (newLabels m).Nodup := by
  simp only [newLabels, List.nodup_cons, List.mem_cons, List.not_mem_nil, or_false, not_or, List.nodup_nil,
    and_true, Id.new, Fin.ext_iff, Fin.val_ofNat]
  rw [Nat.mod_eq_of_lt (by omega), Nat.mod_eq_of_lt (by omega), Nat.mod_eq_of_lt (by omega),
    Nat.mod_eq_of_lt (by omega)]
  decide

/-- What `vary_labels` makes of the graph it loaded. -/
structure Varied (g : Plain m k) (r : Rng) (g' : Plain m k) : Prop where
  structure_ : g'.directed = g.directed ∧ g'.numNodes = g.numNodes ∧ g'.numEdges = g.numEdges ∧
    g'.hasNode = g.hasNode ∧ g'.nodeIndices = g.nodeIndices ∧ g'.hasEdge = g.hasEdge ∧
    g'.edgeIndices = g.edgeIndices ∧ g'.degree = g.degree ∧ g'.neighbors = g.neighbors
  noEdgeLabels : g'.edgeLabels.len = 0 ∧ ∀ s t e, g'.getEdge s t = .ok (some e) → e.label = none
  table : g'.nodeLabels.items = g.nodeLabels.items ++
    (newLabels m).filter (fun x => decide (x ∉ g.nodeLabels.items))
  ids : ∀ ls, g.labels = some ls → ∃ ls', g'.labels = some ls' ∧ ls'.length = ls.length ∧
    ∀ i l, ls[i]? = some l → ls'[i]? = some (if 10 < (r i).word % 15 then Id.new ((r i).word % 15) else l)

theorem variedLabels_ok (hm : 14 ≤ m) {g : Plain m k} {ls : List (Id k)} (hl : g.labels = some ls) (r : Rng) :
    ∃ g', variedLabels g r = .ok g' ∧ Varied g r g' ∧ g'.edgeVec = g.removeEdgeLabels.edgeVec ∧
      g'.inEdgeVec = g.removeEdgeLabels.inEdgeVec := by
  obtain ⟨ls', h1, h2, h3⟩ := redraw_ok ls r
  have hs := c28_structure_kept g g.removeEdgeLabels (by simp)
  have he := c28_edge_labels_gone g g.removeEdgeLabels (by simp)
  have ht := addItems_ok (newLabels m) g.nodeLabels (newLabels_nodup hm)
  refine ⟨{ g.removeEdgeLabels with nodeLabels := ⟨_⟩, labels := some ls' }, ?_, ⟨?_, ⟨?_, ?_⟩, rfl, ?_⟩, rfl,
    rfl⟩
  · unfold variedLabels
    have e : (List.range 4).map (fun i => (Id.new (11 + i) : Id m)) = newLabels m := rfl
    rw [e]
    have e2 : g.removeEdgeLabels.nodeLabels = g.nodeLabels := rfl
    have e3 : g.removeEdgeLabels.labels = some ls := hl
    simp only [e2, e3]
    rw [ht, bind_ok]
    simp only [unwrap, pure_ok, bind_ok, h1]
    rfl
  · exact ⟨hs.1, hs.2.1, hs.2.2.1, hs.2.2.2.1, hs.2.2.2.2.1, hs.2.2.2.2.2.1, hs.2.2.2.2.2.2.2.1,
      hs.2.2.2.2.2.2.2.2.1, hs.2.2.2.2.2.2.2.2.2.1⟩
  · rfl
  · intro s t e hse
    have hse : g.removeEdgeLabels.getEdge s t = .ok (some e) := hse
    rw [he.1] at hse
    obtain ⟨o, -, ho⟩ := bind_eq_ok hse
    simp only [pure_ok, Except.ok.injEq, Option.map_eq_some_iff] at ho
    obtain ⟨x, -, rfl⟩ := ho
    rfl
  · intro ls0 h0
    rw [hl, Option.some.injEq] at h0
    subst h0
    exact ⟨ls', rfl, h2, h3⟩

/-- **C100**: `vary_labels` panics, leaving the disk alone, if the input cannot be read or its nodes carry
no labels. -/
theorem c100_panics {inFile outFile : String} {w : World} {r : Rng}
    (h : ∀ g : Plain m k, w.import (.staticGraph wd v (.ident wd) (.ident wd) false) inFile = some g →
      g.labels = none) :
    ∃ p, varyLabels m k wd v inFile outFile r w = (.error p, w) := by
  cases hi : w.import (Codec.staticGraph (m := m) (k := k) wd v (.ident (m := m) wd) (.ident (m := m) wd) false)
      inFile with
  | none => exact ⟨.explicit, by simp only [varyLabels, load, hi, orPanic, exported, bind_error]⟩
  | some g =>
    have hl : g.removeEdgeLabels.labels = none := h g hi
    cases hf : ((List.range 4).map (fun i => (Id.new (11 + i) : Id m))).foldlM
        (fun s i => do
          let q ← SetMap.addItem s i
          (pure q.1 : Res _)) g.removeEdgeLabels.nodeLabels with
    | error p =>
      refine ⟨p, ?_⟩
      simp only [varyLabels, load, hi, orPanic, pure_ok, bind_ok, variedLabels]
      simp only [pure_ok] at hf
      rw [hf]
      rfl
    | ok s =>
      refine ⟨.unwrapNone, ?_⟩
      simp only [varyLabels, load, hi, orPanic, pure_ok, bind_ok, variedLabels]
      simp only [pure_ok] at hf
      rw [hf, bind_ok, hl]
      rfl

/-- The size of an exported frozen graph. -/
theorem bytes_varied {nl : Codec (Id m)} (hw : ∀ x, (nl.bytes x).length = wd) {g g' : Plain m k} {r : Rng}
    (h : Varied g r g') (e1 : g'.edgeVec = g.removeEdgeLabels.edgeVec)
    (e2 : g'.inEdgeVec = g.removeEdgeLabels.inEdgeVec) {ls : List (Id k)} (hl : g.labels = some ls) {d : Bool} :
    ((Codec.staticGraph wd v nl nl d).bytes g').length ≤
      ((Codec.staticGraph wd v nl nl d).bytes g).length + 4 * wd := by
  have hvec : ∀ {X : Type} (c : Codec X) (n : Nat), (∀ x, (c.bytes x).length = n) → ∀ l : List X,
      ((Codec.vec c).bytes l).length = 8 + n * l.length := by
    intro X c n hc l
    have : ∀ l : List X, ((l.flatMap c.put).flatten).length = n * l.length := by
      intro l
      induction l with
      | nil => simp
      | cons x l ih =>
        have := hc x
        simp only [Codec.bytes] at this
        rw [List.flatMap_cons, List.flatten_append, List.length_append, this, ih, List.length_cons,
          Nat.mul_add, Nat.mul_one, Nat.add_comm]
    have := this l
    simp only [Codec.bytes, Codec.vec, Codec.usize, List.flatten_append, List.length_append, List.flatten_cons,
      List.flatten_nil, length_le, List.append_nil] at this ⊢
    rw [this]
  refine le_trans ?_ (Nat.add_le_add_right (bytes_removeEdgeLabels g) _)
  obtain ⟨ls', b1, b2, -⟩ := h.ids ls hl
  have t1 : ((Codec.opt (Codec.vec (Codec.ident (m := k) v))).bytes g'.labels).length =
      ((Codec.opt (Codec.vec (Codec.ident (m := k) v))).bytes g.labels).length := by
    have q : ∀ x : Id k, ((Codec.ident v).bytes x).length = v := by
      intro x; simp [Codec.bytes, Codec.ident, length_le]
    have q1 := hvec (Codec.ident v) v q ls
    have q2 := hvec (Codec.ident v) v q ls'
    rw [b1, hl]
    simp only [Codec.bytes, Codec.opt, List.flatten_cons, List.length_append] at q1 q2 ⊢
    rw [q1, q2, b2]
  have t2 : ((Codec.setMap nl).bytes g'.nodeLabels).length ≤
      ((Codec.setMap nl).bytes g.nodeLabels).length + 4 * wd := by
    have q1 := hvec nl wd hw g.nodeLabels.labels
    have q2 := hvec nl wd hw g'.nodeLabels.labels
    have ht : g'.nodeLabels.labels = _ := h.table
    have hlen : g'.nodeLabels.labels.length ≤ g.nodeLabels.labels.length + 4 := by
      rw [ht, List.length_append]
      have := List.length_filter_le (fun x => decide (x ∉ g.nodeLabels.items)) (newLabels m)
      have e : (newLabels m).length = 4 := rfl
      have e2 : g.nodeLabels.items.length = g.nodeLabels.labels.length := rfl
      omega
    have := Nat.mul_le_mul_left wd hlen
    simp only [Codec.bytes, Codec.setMap] at q1 q2 ⊢
    rw [q1, q2]
    rw [Nat.mul_add, Nat.mul_comm wd 4] at this
    omega
  have t3 : g'.edgeLabels = g.removeEdgeLabels.edgeLabels := by
    have := h.noEdgeLabels.1
    cases hg : g'.edgeLabels with
    | mk l =>
      rw [hg] at this
      exact congrArg SetMap.mk (List.length_eq_zero_iff.1 this)
  have t4 : g.removeEdgeLabels.labels = g.labels := rfl
  have t5 : g.removeEdgeLabels.nodeLabels = g.nodeLabels := rfl
  have t6 : g.removeEdgeLabels.numNodes = g.numNodes := rfl
  have t7 : g.removeEdgeLabels.numEdges = g.numEdges := rfl
  simp only [Codec.bytes, Codec.staticGraph, List.flatten_append, List.length_append, e1, e2, t3, t4, t5, t6, t7,
    h.structure_.2.1, h.structure_.2.2.1] at t1 t2 ⊢
  omega

/-- **C100.** Otherwise, on a disk with room, exactly the output file is replaced, and it is read as the
graph loaded with: no edge labels; the labels 11..14 added to the table; and the label id of each node kept
if the draw for it is at most 10 and set to the draw otherwise. -/
theorem c100_varies (hm : 14 ≤ m) (hw : m + 1 = 256 ^ wd) (hv : k + 1 = 256 ^ v) {inFile outFile : String}
    {w : World} {r : Rng} {g : Plain m k}
    (h : w.import (.staticGraph wd v (.ident wd) (.ident wd) false) inFile = some g) {ls : List (Id k)}
    (hl : g.labels = some ls) (hlen : g.nodeLabels.len + 4 < 2 ^ 64)
    (hroom : ((Codec.staticGraph wd v (.ident wd) (.ident wd) false).bytes g).length + 4 * wd < w.room) :
    ∃ (w' : World) (g' : Plain m k), varyLabels m k wd v inFile outFile r w = (.ok (), w') ∧
      w'.import (.staticGraph wd v (.ident wd) (.ident wd) false) outFile = some g' ∧
      (∀ p, p ≠ outFile → w'.files p = w.files p) ∧ Varied g r g' := by
  obtain ⟨bs, q, -, h2⟩ := import_get h
  have hi := Codec.ident_closed hw
  obtain ⟨hd, hW⟩ := Codec.staticGraph_writable hw hv hi hi h2
  obtain ⟨g', a1, a2, a3, a4⟩ := variedLabels_ok hm hl r
  have hE := hW.removeEdgeLabels hw hv
  obtain ⟨ls', b1, b2, -⟩ := a2.ids ls hl
  have hlsl : ls.length < 2 ^ 64 := by
    have := hW.labels
    rw [hl] at this
    have := Codec.opt_some_part (Codec.vec_closed (Codec.ident_closed hv)) this
    have := this []
    exact (Codec.vec_get (Codec.ident_closed hv) this).1
  have hnod : g.nodeLabels.labels.Nodup := by
    have := hW.nodeLabels []
    exact (Codec.setMap_get hi this).2.2
  have hW' : Codec.Writable wd v (.ident wd) (.ident wd) g' := by
    refine ⟨?_, ?_, a3 ▸ hE.outVec, a4 ▸ hE.inVec, ?_, ?_, ?_⟩
    · rw [a2.structure_.2.1]; exact hW.numNodes
    · rw [a2.structure_.2.2.1]; exact hW.numEdges
    · rw [b1]
      refine Codec.opt_round ?_
      rintro y ⟨⟩
      exact Codec.vec_round (by omega) (fun x _ => Codec.ident_round hv x)
    · have ht : g'.nodeLabels.labels = _ := a2.table
      refine Codec.setMap_round ?_ (fun x _ => Codec.ident_round hw x) ?_
      · rw [ht, List.length_append]
        have := List.length_filter_le (fun x => decide (x ∉ g.nodeLabels.items)) (newLabels m)
        have e : (newLabels m).length = 4 := rfl
        have e2 : g.nodeLabels.items.length = g.nodeLabels.len := rfl
        omega
      · rw [ht]
        refine List.nodup_append.2 ⟨hnod, (newLabels_nodup hm).filter _, ?_⟩
        rintro x hx y hy rfl
        simp only [List.mem_filter, decide_eq_true_eq] at hy
        exact hy.2 hx
    · have : g'.edgeLabels = ⟨[]⟩ := by
        have := a2.noEdgeLabels.1
        cases hg : g'.edgeLabels with
        | mk l =>
          rw [hg] at this
          exact congrArg SetMap.mk (List.length_eq_zero_iff.1 this)
      rw [this]
      exact Codec.setMap_round (by simp) (by simp) (by simp)
  have hr := round_nil hW'.round
  have hd' : g'.directed = false := a2.structure_.1.trans hd
  rw [hd'] at hr
  have hb := bytes_varied (v := v) (nl := .ident wd) (wd := wd) (by
    intro x; simp [Codec.bytes, Codec.ident, length_le]) a2 a3 a4 hl (d := false)
  obtain ⟨c1, c2, c3⟩ := export_import hr outFile w (by omega)
  refine ⟨_, g', ?_, c2, c3, a2⟩
  simp only [varyLabels, load, h, orPanic, exported, pure_ok, bind_ok, a1]
  rw [c1]
  rfl

/-! ### C101 -/

/-- **C101.** Which label a redrawn node reports: the entry of the new table at the place of the draw. -/
theorem c101_reports {g g' : Plain m k} {r : Rng} (h : Varied g r g') (hk : 15 ≤ k) {ls : List (Id k)}
    (hl : g.labels = some ls) {n : Id m} (hn : g.hasNode n = true) (hi : n.val < ls.length)
    (hd : 10 < (r n.val).word % 15) {gv : GView m k (Id m) (Id m)} (hgv : g'.view = .ok gv) :
    gv.getNodeLabel n = .ok (g'.nodeLabels.items[(r n.val).word % 15]?) := by
  obtain ⟨ls', a1, a2, a3⟩ := h.ids ls hl
  have a4 := a3 n.val ls[n.val] (List.getElem?_eq_getElem hi)
  rw [if_pos hd] at a4
  have hlt : (r n.val).word % 15 < 15 := Nat.mod_lt _ (by decide)
  have hval : (Id.new ((r n.val).word % 15) : Id k).val = (r n.val).word % 15 := by
    simp only [Id.new, Fin.val_ofNat]
    exact Nat.mod_eq_of_lt (by omega)
  have hlid : g'.nodeLid n = .ok (some (Id.new ((r n.val).word % 15))) := by
    have hn' : g'.hasNode n = true := by rw [h.structure_.2.2.2.1]; exact hn
    have hne : (Id.new ((r n.val).word % 15) : Id k) ≠ Id.maxValue := by
      intro e
      have e := congrArg Fin.val e
      rw [hval] at e
      have : (Id.maxValue : Id k).val = k := rfl
      omega
    simp only [StaticGraph.nodeLid, hn', a1, index, a4, pure_ok, bind_ok, staticLabel]
    rw [if_neg hne]
    rfl
  unfold StaticGraph.view at hgv
  obtain ⟨es, -, hgv⟩ := bind_eq_ok hgv
  obtain ⟨eds, -, hgv⟩ := bind_eq_ok hgv
  cases hgv
  simp only [GView.getNodeLabel, hlid, bind_ok, pure_ok, SetMap.getItem, hval]
  rfl

theorem newLabels_at (d : Nat) (h1 : 10 < d) (h2 : d < 15) : (newLabels m)[d - 11]? = some (Id.new d) := by
  have : d = 11 ∨ d = 12 ∨ d = 13 ∨ d = 14 := by omega
  rcases this with rfl | rfl | rfl | rfl <;> rfl

/-- **C101**: with eleven labels, none of them 11..14, redrawn nodes report the label drawn. -/
theorem c101_eleven {g g' : Plain m k} {r : Rng} (h : Varied g r g') (h11 : g.nodeLabels.len = 11)
    (hnew : ∀ x ∈ newLabels m, x ∉ g.nodeLabels.items) {d : Nat} (h1 : 10 < d) (h2 : d < 15) :
    g'.nodeLabels.items[d]? = some (Id.new d) := by
  have h11 : g.nodeLabels.items.length = 11 := h11
  rw [h.table, List.getElem?_append_right (by omega), h11, List.filter_eq_self.2 (by simpa using hnew)]
  exact newLabels_at d h1 h2

/-- **C101**: with fewer than eleven labels, nodes for which 14 is drawn report no label at all. -/
theorem c101_short {g g' : Plain m k} {r : Rng} (h : Varied g r g') (h11 : g.nodeLabels.len < 11) :
    g'.nodeLabels.items[14]? = none := by
  have h11 : g.nodeLabels.items.length < 11 := h11
  have := List.length_filter_le (fun x => decide (x ∉ g.nodeLabels.items)) (newLabels m)
  have e : (newLabels m).length = 4 := rfl
  rw [h.table, List.getElem?_eq_none_iff, List.length_append]
  omega

/-- **C101**: with more than eleven labels, the label reported for the draw 11 is one the graph had before. -/
theorem c101_long {g g' : Plain m k} {r : Rng} (h : Varied g r g') (h11 : 11 < g.nodeLabels.len) :
    g'.nodeLabels.items[11]? = g.nodeLabels.items[11]? := by
  have h11 : 11 < g.nodeLabels.items.length := h11
  rw [h.table, List.getElem?_append_left h11]

/-- A graph with two labelled nodes, one edge and two labels. -/
def twoLabels : Res (Plain 255 255) := do
  let g ← (GraphMap.new false : GraphMap 255 255 (Id 255) (Id 255)).addNode 0 (some 7)
  let g ← g.1.addNode 1 (some 3)
  let g ← g.1.addEdge 0 1 (some 9)
  g.1.intoStatic

/-- The draws `l`, then zeros. -/
def wordsOf (l : List Nat) : Rng := fun i => ⟨l[i]?.getD 0, 0, le_refl 0, zero_lt_one⟩

set_option maxRecDepth 8000 in
/-- The hypotheses hold for it; with the draws 14 and 0 the first node loses its label. -/
example : ∃ g, twoLabels = .ok g ∧ g.labels = some [0, 1] ∧
    let w := ((blank 500).export (.staticGraph 1 1 (.ident 1) (.ident 1) false) g "f").2
    w.import (.staticGraph 1 1 (.ident 1) (.ident 1) false) "f" = some g ∧
    ((Codec.staticGraph 1 1 (.ident 1) (.ident 1) false).bytes g).length + 4 < w.room ∧
    (varyLabels 255 255 1 1 "f" "g" (wordsOf [14, 0]) w).1 = .ok () ∧
    ∃ g' gv, variedLabels g (wordsOf [14, 0]) = .ok g' ∧ g'.view = .ok gv ∧
      gv.getNodeLabel 0 = .ok none ∧ gv.getNodeLabel 1 = .ok (some 3) := by
  obtain ⟨g, h⟩ : ∃ g, twoLabels = .ok g := ⟨_, rfl⟩
  refine ⟨g, h, ?_⟩
  cases h
  exact ⟨by decide, by decide, by decide, by decide, _, _, rfl, rfl, by decide, by decide⟩

/-! ### C102 -/

/-- **C102**: `stats` panics on a graph without nodes. -/
theorem c102_empty {g : Plain m k} (h : g.numNodes = 0) : ∃ p, stats g = .error p := by
  unfold stats
  cases hv : g.view with
  | error p => exact ⟨p, rfl⟩
  | ok gv =>
    have : gv.nodeIndices = [] := by
      unfold StaticGraph.view at hv
      obtain ⟨es, -, hv⟩ := bind_eq_ok hv
      obtain ⟨eds, -, hv⟩ := bind_eq_ok hv
      cases hv
      simp [StaticGraph.nodeIndices, h]
    refine ⟨.unwrapNone, ?_⟩
    rw [bind_ok, this]
    rfl

/-- **C102.** For a graph frozen from one with the nodes `0..n-1`, `stats` gives the largest degree and, for
every label, the number of nodes and of edges that carry it. -/
theorem c102_counts {g : GraphMap m k (Id m) (Id m)} (hg : Reachable g) (h0 : g.nodeCount ≠ 0)
    (hd : ∀ n : Id m, g.hasNode n = true ↔ n.val < g.nodeCount) (h1 : g.nodeCount ≤ m)
    (hnl : g.nodeLabels.len ≤ k) (hel : g.edgeLabels.len ≤ k) :
    ∃ r d a b, g.intoStatic = .ok r ∧ stats r = .ok (d, a, b) ∧
      (∃ n, g.hasNode n = true ∧ g.degree n = .ok d) ∧
      (∀ n d', g.hasNode n = true → g.degree n = .ok d' → d' ≤ d) ∧
      (AL.keys a).Nodup ∧ (∀ x c, AL.get a x = some c ↔ 0 < c ∧
        c = (g.nodeIndices.filter (fun n => decide (g.getNodeLabel n = some x))).length) ∧
      (AL.keys b).Nodup ∧ (∀ x c, AL.get b x = some c ↔ 0 < c ∧
        c = (g.edgeIndices.filter (fun e => decide ((g.getEdgeLabel e.1 e.2).toOption = some (some x)))).length) := by
  obtain ⟨r, gv, hr, hv, -, -, -, e4, e5, e6, -, e8, e9, e10, -⟩ :=
    c24_into_static_keeps_graph hg h0 hd h1 hnl hel
  obtain ⟨r', gv', hr', hv', hs⟩ := c24_shows hg h0 hd h1 hnl hel
  rw [hr] at hr'; cases hr'
  rw [hv] at hv'; cases hv'
  obtain ⟨a, ha, ha1, ha2⟩ := c21_node_label_counter hs
  obtain ⟨b, hb, hb1, hb2⟩ := c21_edge_label_counter hs
  have hmem : ∀ n, n ∈ gv.nodeIndices ↔ g.hasNode n = true := by
    intro n
    rw [hs.memNodes, ← hs.hasNode n, e4]
  have hdeg : ∀ n, g.hasNode n = true → ∃ x, g.degree n = .ok x := by
    intro n hn
    obtain ⟨l, -, -, -, hl⟩ := c09_neighbors hg n hn
    exact ⟨_, hl⟩
  obtain ⟨ds, hds⟩ := mapM_total (f := gv.degree) (l := gv.nodeIndices) (fun n hn => by
    have hn := (hmem n).1 hn
    obtain ⟨x, hx⟩ := hdeg n hn
    exact ⟨x, (e10 n hn).2.trans hx⟩)
  have hF := mapM_eq_ok hds
  have hne : ds ≠ [] := by
    rintro rfl
    have h2 := hF.length_eq
    rw [e5.length_eq] at h2
    exact h0 (by simpa [nodeIndices, AL.keys, nodeCount] using h2)
  obtain ⟨d, hdmax⟩ : ∃ d, ds.max? = some d := by
    cases hq : ds.max? with
    | none => exact absurd (List.max?_eq_none_iff.1 hq) hne
    | some d => exact ⟨d, rfl⟩
  obtain ⟨hdm, hdle⟩ := List.max?_eq_some_iff.1 hdmax
  refine ⟨r, d, a, b, hr, ?_, ?_, ?_, ha1, ?_, hb1, ?_⟩
  · simp only [stats, hv, bind_ok, hds, hdmax, unwrap, pure_ok, ha, hb]
  · obtain ⟨i, hi, hid⟩ := List.getElem_of_mem hdm
    have hi' : i < gv.nodeIndices.length := by rw [hF.length_eq]; exact hi
    have := List.forall₂_iff_get.1 hF |>.2 i hi' hi
    simp only [List.get_eq_getElem, hid] at this
    have hn := (hmem _).1 (List.getElem_mem hi')
    exact ⟨_, hn, (e10 _ hn).2 ▸ this⟩
  · intro n d' hn hd'
    obtain ⟨i, hi, rfl⟩ := List.getElem_of_mem ((hmem n).2 hn)
    have hi' : i < ds.length := by rw [← hF.length_eq]; exact hi
    have := List.forall₂_iff_get.1 hF |>.2 i hi hi'
    simp only [List.get_eq_getElem] at this
    rw [(e10 _ hn).2, hd'] at this
    cases this
    exact hdle _ (List.getElem_mem hi')
  · intro x c
    rw [ha2]
    have : (gv.nodeIndices.filter (fun n => decide ((gv.getNodeLabel n).toOption = some (some x)))).length =
        (g.nodeIndices.filter (fun n => decide (g.getNodeLabel n = some x))).length := by
      rw [(e5.filter _).length_eq]
      congr 1
      apply List.filter_congr
      intro n _
      simp [e6, Except.toOption]
    rw [this]
  · intro x c
    rw [hb2]
    have : (gv.edgeIndices.filter (fun e => decide ((gv.getEdgeLabel e.1 e.2).toOption = some (some x)))).length =
        (g.edgeIndices.filter (fun e => decide ((g.getEdgeLabel e.1 e.2).toOption = some (some x)))).length := by
      rw [(e8.filter _).length_eq]
      congr 1
      apply List.filter_congr
      intro n _
      rw [e9]
    rw [this]

set_option maxRecDepth 8000 in
/-- The largest degree is 2; label 7 on two nodes, 3 on one; label 9 on both edges. -/
example : ∃ g, (GraphMap.withLabelMap false SetMap.empty SetMap.empty : GraphMap 255 255 (Id 255) (Id 255)).exec
      [.addNode 0 (some 7), .addNode 1 (some 3), .addNode 2 (some 7), .addEdge 0 1 (some 9),
        .addEdge 1 2 (some 9)] = .ok g ∧ Reachable g ∧ g.nodeCount = 3 ∧
      (∀ n : Id 255, g.hasNode n = true ↔ n.val < g.nodeCount) ∧
      ∃ r, g.intoStatic = .ok r ∧ stats r = .ok (2, [(7, 2), (3, 1)], [(9, 2)]) := by
  obtain ⟨g, h⟩ : ∃ g, (GraphMap.withLabelMap false SetMap.empty SetMap.empty :
      GraphMap 255 255 (Id 255) (Id 255)).exec [.addNode 0 (some 7), .addNode 1 (some 3), .addNode 2 (some 7),
        .addEdge 0 1 (some 9), .addEdge 1 2 (some 9)] = .ok g := ⟨_, rfl⟩
  refine ⟨g, h, (exec_run h).reachable List.nodup_nil List.nodup_nil, ?_⟩
  cases h
  exact ⟨by decide, by decide, _, rfl, by decide⟩

/-- **C102**: with gaps in the ids the answer is wrong: two nodes joined by an edge, largest degree 0. -/
theorem c102_gap : ∃ (g : GraphMap 255 255 (Id 255) (Id 255)) (r : Plain 255 255), Reachable g ∧
    g.intoStatic = .ok r ∧ g.degree 5 = .ok 1 ∧ ∃ a b, stats r = .ok (0, a, b) := by
  obtain ⟨g, h⟩ : ∃ g, (GraphMap.withLabelMap false SetMap.empty SetMap.empty :
      GraphMap 255 255 (Id 255) (Id 255)).exec [.addEdge 5 6 none] = .ok g := ⟨_, rfl⟩
  obtain ⟨r, hr⟩ : ∃ r, g.intoStatic = .ok r := by cases h; exact ⟨_, rfl⟩
  refine ⟨g, r, (exec_run h).reachable List.nodup_nil List.nodup_nil, hr, ?_⟩
  cases h
  cases hr
  exact ⟨by decide, [], [], by decide⟩

end Verif.Props
