import Verif.Spec.Sizes
import Verif.Proof.Sizes
import Verif.Proof.MmapRoom
import Verif.Props.Mmap

/-! Property theorems about the lengths of written files: C144; and about frozen graphs whose export was
cut off: C73. -/

namespace Verif.Props

open GraphMap Spec Sizes

variable {m k w v : Nat} {NL EL : Type} [DecidableEq NL] [DecidableEq EL]

/-- **C73** for frozen graphs: a cut-off export of any frozen graph is refused. -/
theorem c73_static_graph {nl : Codec NL} {el : Codec EL} {g : StaticGraph m k NL EL}
    (hw : m + 1 = 256 ^ w) (hv : k + 1 = 256 ^ v) (hn : g.numNodes < 2 ^ 64) (he : g.numEdges < 2 ^ 64)
    (hout : SizedVec g.edgeVec) (hin : ∀ e, g.inEdgeVec = some e → SizedVec e)
    (hlab : ∀ l, g.labels = some l → l.length < 2 ^ 64)
    (hnl : g.nodeLabels.len < 2 ^ 64) (hel : g.edgeLabels.len < 2 ^ 64)
    (nnl : g.nodeLabels.items.Nodup) (nel : g.edgeLabels.items.Nodup)
    (cnl : ∀ y ∈ g.nodeLabels.items, nl.RoundTrips y) (cel : ∀ y ∈ g.edgeLabels.items, el.RoundTrips y)
    (snl : nl.Stable) (sel : el.Stable) {n : Nat}
    (hcut : n < ((Codec.staticGraph w v nl el g.directed).bytes g).length) {x : World} {path : String}
    (hx : x.files path = some (((Codec.staticGraph w v nl el g.directed).bytes g).take n)) :
    x.import (Codec.staticGraph (m := m) (k := k) w v nl el g.directed) path = none := by
  have hev : ∀ e : EdgeVec m k, SizedVec e → (Codec.edgeVec w v).RoundTrips e := fun e h =>
    Codec.edgeVec_round hw hv h.offsets h.values h.edges h.labels
  refine c73_truncated (Codec.staticGraph_stable snl sel g.directed)
    (fun r => Codec.staticGraph_round (w := w) hv cnl cel hn he (hev _ hout) (fun e h => hev e (hin e h)) hlab hnl nnl
      hel nel g.directed r) (List.take_prefix n _) ?_ hx
  intro hc
  have := congrArg List.length hc
  rw [List.length_take] at this
  omega

/-- **C144.** The length of an exported `GraphMap`. Each node takes its id twice, 17 bytes and its label;
each edge, at each end that lists it, an id, a byte and its label; in a directed graph, another id. -/
theorem c144_graph_map {nl : Codec NL} {el : Codec EL} {g : GraphMap m k NL EL} (hg : Reachable g) :
    ((Codec.graphMap w v nl el g.directed).bytes g).length =
      8 + g.nodeCount * (2 * w + 17) + v * g.labelledNodes + g.arcs * (w + 1) + v * g.labelledArcs +
      (if g.directed then g.arcs * w else 0) + 8 + (8 + labelBytes nl g.nodeLabels) +
      (8 + labelBytes el g.edgeLabels) + 1 + (if g.maxSeenId.isSome then w else 0) := by
  have h1 := bytes_hmap (Codec.ident w) (Codec.nodeMap w v) g.nodeMap
  have h2 := bytes_usize g.numEdges
  have h3 := bytes_setMap nl g.nodeLabels
  have h4 := bytes_setMap el g.edgeLabels
  have h5 := bytes_opt (Codec.ident w) g.maxId
  have e : (g.nodeMap.map (fun p => ((Codec.ident w).bytes p.1).length + ((Codec.nodeMap w v).bytes p.2).length)).sum =
      g.nodeCount * (2 * w + 17) + v * g.labelledNodes + g.arcs * (w + 1) + v * g.labelledArcs +
        (if g.directed then g.arcs * w else 0) := by
    have e1 : ∀ l : List (Id m × NodeMap m k),
        (l.map (fun p => ((Codec.ident w).bytes p.1).length + ((Codec.nodeMap w v).bytes p.2).length)).sum =
        l.length * (2 * w + 17) + ((AL.values l).map (fun nd => if nd.label.isSome then v else 0)).sum +
        ((AL.values l).map (fun nd => nd.neighbors.length)).sum * (w + 1) +
        v * ((AL.values l).map (fun nd => marks nd.neighbors)).sum +
        ((AL.values l).map (fun nd => nd.inNeighbors.length)).sum * w := by
      intro l
      induction l with
      | nil => simp [AL.values]
      | cons a l ih =>
        rw [List.map_cons, List.sum_cons, ih, bytes_ident, bytes_nodeMap]
        simp only [AL.values, List.map_cons, List.sum_cons, List.length_cons]
        ring
    rw [e1, labelled_card hg.inv.toNWF, arcs_sum hg.inv.toNWF, marks_sum hg.inv.toNWF, inArcs_sum hg.inv]
    unfold nodeCount
    split <;> simp
  rw [e] at h1
  have h6 : (g.maxId.map (fun x => ((Codec.ident w).bytes x).length)).getD 0 = if g.maxSeenId.isSome then w else 0 := by
    unfold maxSeenId
    cases g.maxId with
    | none => rfl
    | some a => simp only [Option.map_some, Option.getD_some, bytes_ident, Option.isSome_some, if_true]
  rw [h6] at h5
  clear e h6
  unfold Codec.bytes at *
  simp only [Codec.graphMap, List.flatten_append, List.length_append, h1, h2, h3, h4, h5]
  omega

/-- **C144.** The length of an exported frozen graph: adjacency arrays with one offset more than there are
ids up to the largest node, `M`. -/
theorem c144_static {nl : Codec NL} {el : Codec EL} {g : GraphMap m k NL EL} (hg : Reachable g)
    {M : Id m} (hM : g.nodeIndices.max? = some M) (hlt : M.val < m) :
    ∃ r, g.intoStatic = .ok r ∧ ((Codec.staticGraph w v nl el g.directed).bytes r).length =
      16 + (25 + 8 * (M.val + 1) + w * g.arcs + (if g.view.hasEdgeLabels then 8 + v * g.arcs else 0)) +
      1 + (if g.directed then 25 + 8 * (M.val + 1) + w * g.arcs else 0) +
      1 + (if g.view.hasNodeLabels then 8 + v * (M.val + 1) else 0) +
      (8 + labelBytes nl g.nodeLabels) + (8 + labelBytes el g.edgeLabels) := by
  obtain ⟨r, h1, h2⟩ := intoStatic_ok hg.inv.toNWF hM hlt
  refine ⟨r, h1, ?_⟩
  have hmax : ∀ n, g.hasNode n = true → n.val < M.val + 1 := fun n hn =>
     Nat.lt_succ_of_le ((max_spec hM).2 n hn)
  have e1 := bytes_usize r.numNodes
  have e2 := bytes_usize r.numEdges
  have e3 := bytes_edgeVec (w := w) (v := v) h2.out
  have e4 := bytes_opt (Codec.edgeVec w v) r.inEdgeVec
  have e5 := bytes_opt (Codec.vec (Codec.ident v)) r.labels
  have e6 := bytes_setMap nl r.nodeLabels
  have e7 := bytes_setMap el r.edgeLabels
  rw [rows_length, rows_arcs hg.inv (by omega) hmax] at e3
  have e8 : (r.inEdgeVec.map (fun x => ((Codec.edgeVec w v).bytes x).length)).getD 0 =
      if g.directed then 25 + 8 * (M.val + 1) + w * g.arcs else 0 := by
    cases hd : g.directed with
    | false => rw [h2.noIn hd]; rfl
    | true =>
      obtain ⟨iv, h3, h4⟩ := h2.inn hd
      rw [h3, Option.map_some, Option.getD_some, bytes_edgeVec h4, inRows_arcs hg.inv hd (by omega) hmax]
      simp [inRows]
  have e9 : (r.labels.map (fun x => ((Codec.vec (Codec.ident v)).bytes x).length)).getD 0 =
      if g.view.hasNodeLabels then 8 + v * (M.val + 1) else 0 := by
    rw [h2.labels]
    split
    · rw [Option.map_some, Option.getD_some, bytes_vec]
      simp only [bytes_ident, sum_const, List.length_map, List.length_range]
      ring
    · rfl
  rw [e8] at e4
  rw [e9] at e5
  rw [h2.nodeLabels] at e6
  rw [h2.edgeLabels] at e7
  unfold Codec.bytes at *
  simp only [Codec.staticGraph, List.flatten_append, List.length_append, e1, e2, e3, e4, e5, h2.nodeLabels,
    h2.edgeLabels, e6, e7]
  omega

/-- **C144.** The lengths of the files `dump_mmap` writes for a frozen graph, given room for all of them, and
how much room is left (creating a file takes one unit of it): those a graph has no use for are left as they
were. -/
theorem c144_dump {nl : Codec NL} {el : Codec EL} {g : GraphMap m k NL EL} (hg : Reachable g)
    {M : Id m} (hM : g.nodeIndices.max? = some M) (hlt : M.val < m) (pre : String) (x : World) :
    ∃ r, g.intoStatic = .ok r ∧
      let need := 3 + 8 * (M.val + 2) + w * g.arcs +
        (if g.view.hasEdgeLabels ∧ g.arcs ≠ 0 then 1 + v * g.arcs else 0) +
        (if g.directed then 2 + 8 * (M.val + 2) + w * g.arcs else 0) +
        (if g.view.hasNodeLabels then 1 + v * (M.val + 1) else 0) +
        32 + labelBytes nl g.nodeLabels + labelBytes el g.edgeLabels
      let y := (r.dumpMmap w v nl el pre x).2
      r.dumpRoom w v nl el = need ∧ y.room = x.room - need ∧ (need ≤ x.room →
        (r.dumpMmap w v nl el pre x).1 = true ∧
        (y.files (pre ++ "_OUT.offsets")).map List.length = some (8 * (M.val + 2)) ∧
        (y.files (pre ++ "_OUT.edges")).map List.length = some (w * g.arcs) ∧
        (y.files (pre ++ "_OUT.labels")).map List.length =
          (if g.view.hasEdgeLabels ∧ g.arcs ≠ 0 then some (v * g.arcs)
           else (x.files (pre ++ "_OUT.labels")).map List.length) ∧
        (y.files (pre ++ "_IN.offsets")).map List.length =
          (if g.directed then some (8 * (M.val + 2)) else (x.files (pre ++ "_IN.offsets")).map List.length) ∧
        (y.files (pre ++ "_IN.edges")).map List.length =
          (if g.directed then some (w * g.arcs) else (x.files (pre ++ "_IN.edges")).map List.length) ∧
        y.files (pre ++ "_IN.labels") = x.files (pre ++ "_IN.labels") ∧
        (y.files (pre ++ ".labels")).map List.length =
          (if g.view.hasNodeLabels then some (v * (M.val + 1)) else (x.files (pre ++ ".labels")).map List.length) ∧
        (y.files (pre ++ "_aux.bin")).map List.length =
          some (32 + labelBytes nl g.nodeLabels + labelBytes el g.edgeLabels)) := by
  obtain ⟨r, h1, h2⟩ := intoStatic_ok hg.inv.toNWF hM hlt
  refine ⟨r, h1, ?_⟩
  have hmax : ∀ n, g.hasNode n = true → n.val < M.val + 1 := fun n hn =>
    Nat.lt_succ_of_le ((max_spec hM).2 n hn)
  have a1 : r.edgeVec.offsets.length = M.val + 2 := by rw [h2.out.offsets, offsetsOf_length, rows_length]
  have a2 : r.edgeVec.edges.length = g.arcs := by
    rw [h2.out.edges, List.length_map, rows_arcs hg.inv (by omega) hmax]
  have a3 : r.edgeVec.getLabels.length = if g.view.hasEdgeLabels then g.arcs else 0 := by
    unfold EdgeVec.getLabels
    rw [h2.out.labels]
    cases g.view.hasEdgeLabels with
    | false => rfl
    | true => simp only [if_true, Option.getD_some]; rw [List.length_map, rows_arcs hg.inv (by omega) hmax]
  have a4 : (r.auxBytes nl el).length = 32 + labelBytes nl g.nodeLabels + labelBytes el g.edgeLabels := by
    rw [aux_length, h2.nodeLabels, h2.edgeLabels]
  have a5 : (r.edgeVec.getLabels = []) ↔ ¬ (g.view.hasEdgeLabels = true ∧ g.arcs ≠ 0) := by
    rw [← List.length_eq_zero_iff, a3]
    cases g.view.hasEdgeLabels <;> simp
  have b : (g.directed = false ∧ r.inEdgeVec = none) ∨ (g.directed = true ∧ ∃ iv, r.inEdgeVec = some iv ∧
      iv.offsets.length = M.val + 2 ∧ iv.edges.length = g.arcs ∧ iv.getLabels = []) := by
    cases hd : g.directed with
    | false => exact .inl ⟨rfl, h2.noIn hd⟩
    | true =>
      obtain ⟨iv, h3, h4⟩ := h2.inn hd
      refine .inr ⟨rfl, iv, h3, ?_, ?_, ?_⟩
      · rw [h4.offsets, offsetsOf_length]; simp [inRows]
      · rw [h4.edges, List.length_map, inRows_arcs hg.inv hd (by omega) hmax]
      · unfold EdgeVec.getLabels; rw [h4.labels]; rfl
  have c1 : (r.labels.map List.length) = if g.view.hasNodeLabels then some (M.val + 1) else none := by
    rw [h2.labels]; split <;> simp
  have cost : World.cost (r.files w v pre) + 1 + (r.auxBytes nl el).length =
      3 + 8 * (M.val + 2) + w * g.arcs +
        (if g.view.hasEdgeLabels ∧ g.arcs ≠ 0 then 1 + v * g.arcs else 0) +
        (if g.directed then 2 + 8 * (M.val + 2) + w * g.arcs else 0) +
        (if g.view.hasNodeLabels then 1 + v * (M.val + 1) else 0) +
        32 + labelBytes nl g.nodeLabels + labelBytes el g.edgeLabels := by
    have d1 : ∀ (ev : EdgeVec m k) (q : String), World.cost (ev.files w v q) =
        2 + 8 * ev.offsets.length + w * ev.edges.length +
          (if ev.getLabels = [] then 0 else 1 + v * ev.getLabels.length) := by
      intro ev q
      unfold EdgeVec.files
      split <;>
        simp only [World.cost, List.nil_append, List.cons_append, List.map_cons, List.map_nil, List.sum_cons, List.sum_nil,
          typedBytes_length, List.length_map] <;> ring
    unfold StaticGraph.files
    rw [World.cost_append, World.cost_append, d1, a1, a2, a4]
    have d2 : World.cost ((r.inEdgeVec.map fun e => e.files w v (pre ++ "_IN")).getD []) =
        if g.directed then 2 + 8 * (M.val + 2) + w * g.arcs else 0 := by
      rcases b with ⟨hd, hi⟩ | ⟨hd, iv, hi, b1, b2, b3⟩ <;> rw [hd, hi]
      · rfl
      · rw [Option.map_some, Option.getD_some, d1, b1, b2, if_pos b3]; rfl
    have d3 : World.cost ((r.labels.map fun ls => [(pre ++ ".labels", typedBytes v (ls.map (·.val)))]).getD []) =
        if g.view.hasNodeLabels then 1 + v * (M.val + 1) else 0 := by
      cases hl : r.labels with
      | none =>
        rw [hl] at c1
        cases hh : g.view.hasNodeLabels with
        | true => rw [hh] at c1; cases c1
        | false => rfl
      | some ls =>
        rw [hl] at c1
        cases hh : g.view.hasNodeLabels with
        | false => rw [hh] at c1; cases c1
        | true =>
          rw [hh] at c1
          simp only [Option.map_some, if_true, Option.some.injEq] at c1
          simp [World.cost, typedBytes_length, c1, Nat.mul_comm]
    have d4 : (if r.edgeVec.getLabels = [] then 0 else 1 + v * r.edgeVec.getLabels.length) =
        if g.view.hasEdgeLabels ∧ g.arcs ≠ 0 then 1 + v * g.arcs else 0 := by
      by_cases hl : g.view.hasEdgeLabels = true ∧ g.arcs ≠ 0
      · rw [if_pos hl, if_neg (fun h => a5.1 h hl), a3, if_pos hl.1]
      · rw [if_neg hl, if_pos (a5.2 hl)]
    rw [d2, d3, d4]
    omega
  intro need y
  have room : y.room = x.room - need := by
    have h := StaticGraph.dump_room w v nl el r pre x
    rw [cost] at h
    exact h
  have total : r.dumpRoom w v nl el = need := (dump_cost w v nl el r pre).symm.trans cost
  refine ⟨total, room, fun hroom => ?_⟩
  obtain ⟨done, hf, n, ha, hn⟩ := dump_done (nl := nl) (el := el) (w := w) (v := v) (g := r) pre (x := x)
    (total.trans_le hroom)
  · refine ⟨done, ?_⟩
    obtain ⟨l1, l2, l3, l4, l5, l6, l7, -⟩ := StaticGraph.look_files w v r pre x.files
    have path : ∀ a b : String, pre ++ a ++ b = pre ++ (a ++ b) := fun a b => String.append_assoc
    have hf' : ∀ s : String, s ≠ "_aux.bin" → y.files (pre ++ s) = World.look (r.files w v pre) x.files (pre ++ s) :=
      fun s hs => hf _ (by rw [Ne, prefix_inj]; exact hs)
    simp only [path] at l1 l2 l3 l4 l5 l6
    refine ⟨?_, ?_, ?_, ?_, ?_, ?_, ?_, ?_⟩
    · rw [hf' _ (by decide)]
      refine (congrArg _ l1).trans ?_
      rw [Option.map_some, typedBytes_length, a1, Nat.mul_comm]
    · rw [hf' _ (by decide)]
      refine (congrArg _ l2).trans ?_
      rw [Option.map_some, typedBytes_length, List.length_map, a2, Nat.mul_comm]
    · rw [hf' _ (by decide)]
      refine (congrArg _ l3).trans ?_
      by_cases hl : g.view.hasEdgeLabels = true ∧ g.arcs ≠ 0
      · rw [if_pos hl, if_neg (fun h => a5.1 h hl), Option.map_some, typedBytes_length, List.length_map, a3,
          if_pos hl.1, Nat.mul_comm]
      · rw [if_neg hl, if_pos (a5.2 hl)]
        rfl
    · rw [hf' _ (by decide)]
      refine (congrArg _ l4).trans ?_
      rcases b with ⟨hd, hi⟩ | ⟨hd, iv, hi, b1, b2, b3⟩ <;> rw [hd, hi]
      · rfl
      · simp [typedBytes_length, b1, Nat.mul_comm]
    · rw [hf' _ (by decide)]
      refine (congrArg _ l5).trans ?_
      rcases b with ⟨hd, hi⟩ | ⟨hd, iv, hi, b1, b2, b3⟩ <;> rw [hd, hi]
      · rfl
      · simp [typedBytes_length, b2, Nat.mul_comm]
    · rw [hf' _ (by decide)]
      refine l6.trans ?_
      rcases b with ⟨hd, hi⟩ | ⟨hd, iv, hi, b1, b2, b3⟩ <;> rw [hi]
      · rfl
      · simp only [Option.bind_some, if_pos b3, Option.none_or]
        rfl
    · rw [hf' _ (by decide)]
      refine (congrArg _ l7).trans ?_
      cases hl : r.labels with
      | none =>
        rw [hl] at c1
        cases hh : g.view.hasNodeLabels with
        | true => rw [hh] at c1; cases c1
        | false => rfl
      | some ls =>
        rw [hl] at c1
        cases hh : g.view.hasNodeLabels with
        | false => rw [hh] at c1; cases c1
        | true =>
          rw [hh] at c1
          simp only [Option.map_some, if_true, Option.some.injEq] at c1
          simp [typedBytes_length, c1, Nat.mul_comm]
    · refine (congrArg _ ha).trans ?_
      rw [Option.map_some, List.take_of_length_le hn]
      exact congrArg some a4

/-- A labelled node and an edge that bears a label, of ids that take one byte each. -/
def sized (d : Bool) : Res (GraphMap 3 3 (List Byte) (List Byte)) := do
  let g ← (GraphMap.new d).apply (.addNode 1 (some [104, 105]))
  g.apply (.addEdge 1 0 (some [101]))

theorem sized_reachable (d : Bool) : ∃ g, sized d = .ok g ∧ Reachable g := by
  have h : ∃ g, sized d = .ok g := by cases d <;> exact ⟨_, rfl⟩
  obtain ⟨g, h⟩ := h
  refine ⟨g, h, ?_⟩
  unfold sized at h
  obtain ⟨g1, h1, h2⟩ := bind_eq_ok h
  exact .step (.step (.start d _ _ List.nodup_nil List.nodup_nil) h1) h2

set_option maxRecDepth 4000 in
example : ∃ g, sized true = .ok g ∧ g.arcs = 1 ∧ g.labelledArcs = 1 ∧ g.labelledNodes = 1 ∧
    labelBytes text g.nodeLabels = 10 ∧ labelBytes text g.edgeLabels = 9 ∧ g.directed = true ∧
    ((Codec.graphMap 1 1 text text true).bytes g).length = 96 := by
  refine ⟨_, rfl, ?_, ?_, ?_, ?_, ?_, ?_, ?_⟩ <;> decide

set_option maxRecDepth 4000 in
example : ∃ g, sized false = .ok g ∧ g.arcs = 2 ∧ g.labelledArcs = 2 ∧ g.nodeIndices.max? = some 1 ∧
    ∃ r, g.intoStatic = .ok r ∧ ((Codec.staticGraph 1 1 text text false).bytes r).length = 16 +
      (25 + 16 + 2 + (8 + 2)) + 1 + 0 + 1 + (8 + 2) + 18 + 17 := by
  refine ⟨_, rfl, ?_, ?_, ?_, _, rfl, ?_⟩ <;> decide

set_option maxRecDepth 4000 in
example : ∃ g r, sized true = .ok g ∧ g.intoStatic = .ok r ∧
    ((r.dumpMmap 1 1 text text "g" (blank 1000)).2.files "g_IN.offsets").map List.length = some 24 ∧
    ((r.dumpMmap 1 1 text text "g" (blank 1000)).2.files "g.labels").map List.length = some 2 ∧
    ((r.dumpMmap 1 1 text text "g" (blank 1000)).2.files "g_aux.bin").map List.length = some 51 ∧
    (r.dumpMmap 1 1 text text "g" (blank 1000)).2.room = 1000 - (3 + 24 + 1 + 2 + (2 + 24 + 1) + 3 + 32 + 10 + 9) := by
  refine ⟨_, _, rfl, rfl, ?_, ?_, ?_, ?_⟩ <;> decide

end Verif.Props
