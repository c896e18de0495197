import Verif.Spec.Sizes
import Verif.Proof.FrozenSize
import Verif.Proof.Serde
import Verif.Proof.Mmap
import Verif.Proof.MmapRoom
import Mathlib.Tactic.Ring

/-! Lengths of written files. -/

namespace Verif.Sizes

open GraphMap

variable {m k w v : Nat} {NL EL X Y : Type}

theorem le_length (w n : Nat) : (le w n).length = w := by
  induction w generalizing n with
  | zero => rfl
  | succ w ih => simp [le, ih]

theorem bytes_usize (n : Nat) : (Codec.usize.bytes n).length = 8 := by
  simp [Codec.bytes, Codec.usize, le_length]

theorem bytes_ident (x : Id m) : ((Codec.ident w).bytes x).length = w := by
  simp [Codec.bytes, Codec.ident, le_length]

theorem bytes_opt (c : Codec X) (o : Option X) :
    ((Codec.opt c).bytes o).length = 1 + (o.map (fun x => (c.bytes x).length)).getD 0 := by
  cases o <;> simp [Codec.bytes, Codec.opt]; omega

theorem bytes_pair (c : Codec X) (d : Codec Y) (p : X × Y) :
    ((Codec.pair c d).bytes p).length = (c.bytes p.1).length + (d.bytes p.2).length := by
  simp [Codec.bytes, Codec.pair]

theorem bytes_vec (c : Codec X) (l : List X) :
    ((Codec.vec c).bytes l).length = 8 + (l.map (fun x => (c.bytes x).length)).sum := by
  have h := bytes_usize l.length
  unfold Codec.bytes at *
  simp only [Codec.vec, List.flatten_append, List.length_append, h]
  congr 1
  clear h
  induction l with
  | nil => rfl
  | cons a l ih =>
    simp only [List.flatMap_cons, List.flatten_append, List.length_append, ih, List.map_cons, List.sum_cons]

theorem bytes_collect (c : Codec X) (add : List Y → X → List Y) (en : List Y → List X) (l : List Y) :
    ((Codec.collect c add en).bytes l).length = ((Codec.vec c).bytes (en l)).length := rfl

theorem bytes_setMap [DecidableEq X] (c : Codec X) (s : SetMap X) :
    ((Codec.setMap c).bytes s).length = 8 + labelBytes c s := bytes_vec c s.labels

theorem sum_const (l : List X) (c : Nat) : (l.map (fun _ => c)).sum = l.length * c := by
  induction l with
  | nil => simp
  | cons a l ih => simp [ih]; ring

theorem sum_add (l : List X) (f h : X → Nat) : (l.map (fun x => f x + h x)).sum = (l.map f).sum + (l.map h).sum := by
  induction l with
  | nil => rfl
  | cons a l ih => simp [ih]; omega

theorem sum_mul (l : List X) (f : X → Nat) (c : Nat) : (l.map (fun x => c * f x)).sum = c * (l.map f).sum := by
  induction l with
  | nil => rfl
  | cons a l ih => simp [ih]; ring

/-- The label entries of a row of neighbours. -/
def marks (l : List (Id m × Option (Id k))) : Nat := (l.filter (fun p => p.2.isSome)).length

theorem bytes_nodeMap (nd : NodeMap m k) : ((Codec.nodeMap w v).bytes nd).length =
    w + 17 + (if nd.label.isSome then v else 0) + nd.neighbors.length * (w + 1) + v * marks nd.neighbors +
      nd.inNeighbors.length * w := by
  have h1 := bytes_ident (w := w) nd.id
  have h2 := bytes_opt (Codec.ident v) nd.label
  have h3 : ((Codec.bmap (Codec.ident w) (Codec.opt (Codec.ident v))).bytes nd.neighbors).length =
      8 + (nd.neighbors.length * (w + 1) + v * marks nd.neighbors) := by
    unfold Codec.bmap
    rw [bytes_collect, bytes_vec]
    congr 1
    simp only [id]
    induction nd.neighbors with
    | nil => simp [marks]
    | cons p l ih =>
      rw [List.map_cons, List.sum_cons, ih]
      simp only [bytes_pair, bytes_ident, bytes_opt, List.length_cons]
      unfold marks
      cases h : p.2 with
      | none => rw [List.filter_cons_of_neg (by simp [h])]; simp only [Option.map_none, Option.getD_none]; ring
      | some x =>
        rw [List.filter_cons_of_pos (by simp [h])]
        simp only [Option.map_some, Option.getD_some, bytes_ident, List.length_cons]
        ring
  have h4 : ((Codec.bset (Codec.ident w)).bytes nd.inNeighbors).length = 8 + nd.inNeighbors.length * w := by
    unfold Codec.bset
    rw [bytes_collect, bytes_vec]
    simp only [bytes_ident, sum_const, id]
  have h2' : ((Codec.opt (Codec.ident v)).bytes nd.label).length = 1 + (if nd.label.isSome then v else 0) := by
    rw [h2]
    cases nd.label with
    | none => rfl
    | some x => simp [bytes_ident]
  unfold Codec.bytes at *
  simp only [Codec.nodeMap, List.flatten_append, List.length_append, h1, h2', h3, h4]
  omega

theorem sum_values {g : GraphMap m k NL EL} (hg : g.NWF) (f : NodeMap m k → Nat) :
    ((AL.values g.nodeMap).map f).sum = ∑ n, ((g.getNode n).map f).getD 0 := by
  rw [← sum_nodeIndices hg]
  · congr 1
    unfold AL.values nodeIndices AL.keys
    rw [List.map_map, List.map_map]
    apply List.map_congr_left
    intro p hp
    have : g.getNode p.1 = some p.2 := AL.get_eq_of_mem hg.keys hp
    simp [this]
  · intro n hn
    unfold GraphMap.hasNode at hn
    unfold GraphMap.getNode
    cases h : AL.get g.nodeMap n with
    | none => rfl
    | some nd => rw [h] at hn; cases hn

theorem labelled_card {g : GraphMap m k NL EL} (hg : g.NWF) :
    ((AL.values g.nodeMap).map (fun nd => if nd.label.isSome then v else 0)).sum = v * g.labelledNodes := by
  rw [sum_values hg, GraphMap.labelledNodes, Finset.card_filter, Finset.mul_sum]
  refine Finset.sum_congr rfl (fun n _ => ?_)
  cases g.getNode n with
  | none => simp
  | some nd => cases nd.label <;> simp

theorem arcs_sum {g : GraphMap m k NL EL} (hg : g.NWF) :
    ((AL.values g.nodeMap).map (fun nd => nd.neighbors.length)).sum = g.arcs := by
  rw [sum_values hg, GraphMap.arcs, ← sum_card (fun s t => g.hasEdge s t = true)]
  refine Finset.sum_congr rfl (fun n _ => ?_)
  simp only [hasEdge_eq_outE]
  cases h : g.getNode n with
  | none => simp [outE, h]
  | some nd => exact degree_eq hg h

theorem inArcs_sum {g : GraphMap m k NL EL} (hg : g.Inv) :
    ((AL.values g.nodeMap).map (fun nd => nd.inNeighbors.length)).sum = if g.directed then g.arcs else 0 := by
  rw [sum_values hg.toNWF]
  cases hd : g.directed with
  | true =>
    rw [if_pos rfl, GraphMap.arcs]
    simp only [hasEdge_eq_outE]
    rw [← card_swap (fun s t : Id m => (g.outE s t).isSome = true), ← sum_card (fun s t : Id m => (g.outE t s).isSome = true)]
    refine Finset.sum_congr rfl (fun n _ => ?_)
    cases h : g.getNode n with
    | none =>
      symm
      rw [Option.map_none, Option.getD_none, Finset.card_eq_zero, Finset.filter_eq_empty_iff]
      intro t _ ht
      have := hg.target t n ht
      obtain ⟨nd, h'⟩ := (hasNode_iff _ _).1 this
      rw [h] at h'; cases h'
    | some nd =>
      have := inDegree_eq hg h
      rw [if_pos hd] at this
      exact this
  | false =>
    rw [if_neg (by simp)]
    refine Finset.sum_eq_zero (fun n _ => ?_)
    cases h : g.getNode n with
    | none => rfl
    | some nd =>
      have := inDegree_eq hg h
      rw [if_neg (by simp [hd])] at this
      exact this

theorem marks_sum {g : GraphMap m k NL EL} (hg : g.NWF) :
    ((AL.values g.nodeMap).map (fun nd => marks nd.neighbors)).sum = g.labelledArcs := by
  rw [sum_values hg, GraphMap.labelledArcs, ← sum_card (fun s t => g.edgeMarked s t = true)]
  refine Finset.sum_congr rfl (fun n _ => ?_)
  have hm : ∀ t, g.edgeMarked n t = (g.outE n t).join.isSome := by
    intro t
    unfold GraphMap.edgeMarked
    rw [getEdge_eq_outE]
    cases g.outE n t <;> rfl
  simp only [hm]
  cases h : g.getNode n with
  | none => simp [outE, h]
  | some nd =>
    have hn : (AL.keys nd.neighbors).Nodup := sorted_nodup (hg.sortedOut n nd h)
    show marks nd.neighbors = _
    unfold marks
    rw [← List.length_map (f := Prod.fst)]
    apply length_eq_card
    · exact (List.Sublist.map _ List.filter_sublist).nodup hn
    · intro t
      rw [outE_of_get h]
      constructor
      · intro ht
        obtain ⟨p, hp, rfl⟩ := List.mem_map.1 ht
        rw [List.mem_filter] at hp
        rw [AL.get_eq_of_mem hn hp.1]
        exact hp.2
      · intro ht
        cases e : AL.get nd.neighbors t with
        | none => rw [e] at ht; cases ht
        | some o =>
          rw [e] at ht
          exact List.mem_map.2 ⟨(t, o), List.mem_filter.2 ⟨AL.get_mem e, ht⟩, rfl⟩

theorem aux_length [DecidableEq NL] [DecidableEq EL] (nl : Codec NL) (el : Codec EL) (g : StaticGraph m k NL EL) :
    (g.auxBytes nl el).length = 32 + labelBytes nl g.nodeLabels + labelBytes el g.edgeLabels := by
  have e1 := bytes_usize g.numNodes
  have e2 := bytes_usize g.numEdges
  have e6 := bytes_setMap nl g.nodeLabels
  have e7 := bytes_setMap el g.edgeLabels
  unfold StaticGraph.auxBytes
  unfold Codec.bytes at *
  simp only [Codec.aux, List.flatten_append, List.length_append, e1, e2, e6, e7]
  omega


theorem bytes_hmap {K V : Type} [DecidableEq K] (c : Codec K) (d : Codec V) (l : List (K × V)) :
    ((Codec.hmap c d).bytes l).length = 8 + (l.map (fun p => (c.bytes p.1).length + (d.bytes p.2).length)).sum := by
  unfold Codec.hmap
  rw [bytes_collect, bytes_vec]
  simp only [id, bytes_pair]

theorem bytes_edgeVec {ev : EdgeVec m k} {rows : List (List (Id m × Id k))} {lab : Bool} (h : Spec.Encodes ev rows lab) :
    ((Codec.edgeVec w v).bytes ev).length = 25 + 8 * rows.length + w * rows.flatten.length +
      (if lab then 8 + v * rows.flatten.length else 0) := by
  have h1 := bytes_vec Codec.usize ev.offsets
  have h2 := bytes_vec (Codec.ident w) ev.edges
  have h3 := bytes_opt (Codec.vec (Codec.ident v)) ev.labels
  simp only [bytes_usize, sum_const, bytes_ident] at h1 h2
  rw [h.offsets, offsetsOf_length] at h1
  rw [h.edges, List.length_map] at h2
  have h3' : ((Codec.opt (Codec.vec (Codec.ident v))).bytes ev.labels).length =
      1 + (if lab then 8 + v * rows.flatten.length else 0) := by
    rw [h3, h.labels]
    cases lab with
    | false => rfl
    | true =>
      simp only [if_true, Option.map_some, Option.getD_some, bytes_vec, bytes_ident, sum_const, List.length_map]
      rw [Nat.mul_comm v]
  rw [← h.offsets] at h1
  rw [← h.edges] at h2
  unfold Codec.bytes at *
  simp only [Codec.edgeVec, List.flatten_append, List.length_append, h1, h2, h3']
  rw [Nat.mul_comm w]
  omega

theorem sum_range_eq (F : Nat → Nat) (f : Id m → Nat) (h : ∀ n : Id m, F n.val = f n) {j : Nat}
    (hj : j ≤ m + 1) (h0 : ∀ n : Id m, j ≤ n.val → f n = 0) : ((List.range j).map F).sum = ∑ n, f n := by
  have e : ∀ j, ((List.range j).map F).sum = ∑ i ∈ Finset.range j, F i := by
    intro j
    induction j with
    | zero => rfl
    | succ j ih => rw [List.range_succ, List.map_append, List.sum_append, ih, Finset.sum_range_succ]; simp
  rw [e]
  calc ∑ i ∈ Finset.range j, F i = ∑ i ∈ Finset.range (m + 1), F i := by
        refine Finset.sum_subset (Finset.range_subset_range.2 hj) (fun i hi hni => ?_)
        rw [Finset.mem_range] at hi hni
        rw [h ⟨i, hi⟩]
        exact h0 _ (by simpa using hni)
    _ = ∑ n : Fin (m + 1), F n.val := (Fin.sum_univ_eq_sum_range F (m + 1)).symm
    _ = ∑ n, f n := Finset.sum_congr rfl (fun n _ => h n)

theorem rows_arcs {g : GraphMap m k NL EL} (hg : g.Inv) {j : Nat} (hj : j ≤ m + 1)
    (hmax : ∀ n, g.hasNode n = true → n.val < j) : (g.rows j).flatten.length = g.arcs := by
  rw [List.length_flatten, rows, List.map_map, GraphMap.arcs, ← sum_card (fun s t : Id m => g.hasEdge s t = true)]
  simp only [hasEdge_eq_outE]
  refine sum_range_eq _ _ (fun n => ?_) hj (fun n hn => ?_)
  · simp only [Function.comp, rowOf, new_val]
    cases hn : g.getNode n with
    | none => simp [outE, hn]
    | some nd =>
      have := degree_eq hg.toNWF hn
      rw [← this]
      simp [NodeMap.degree]
  · rw [Finset.card_eq_zero, Finset.filter_eq_empty_iff]
    intro t _ ht
    have := hmax n (outE_hasNode ht)
    omega

theorem inRows_arcs {g : GraphMap m k NL EL} (hg : g.Inv) (hd : g.directed = true) {j : Nat} (hj : j ≤ m + 1)
    (hmax : ∀ n, g.hasNode n = true → n.val < j) : (g.inRows j).flatten.length = g.arcs := by
  rw [List.length_flatten, inRows, List.map_map, GraphMap.arcs]
  simp only [hasEdge_eq_outE]
  rw [← card_swap (fun s t : Id m => (g.outE s t).isSome = true), ← sum_card (fun s t : Id m => (g.outE t s).isSome = true)]
  refine sum_range_eq _ _ (fun n => ?_) hj (fun n hn => ?_)
  · simp only [Function.comp, inRowOf, new_val]
    cases hn : g.getNode n with
    | none =>
      simp only [List.length_nil]
      symm
      rw [Finset.card_eq_zero, Finset.filter_eq_empty_iff]
      intro t _ ht
      have := hg.target t n ht
      obtain ⟨nd, h⟩ := (hasNode_iff _ _).1 this
      rw [hn] at h; cases h
    | some nd =>
      have := inDegree_eq hg hn
      rw [if_pos hd] at this
      rw [← this]
      simp [NodeMap.inDegree]
  · rw [Finset.card_eq_zero, Finset.filter_eq_empty_iff]
    intro t _ ht
    have := hmax n (hg.target t n ht)
    omega

theorem cost_files (w v : Nat) (ev : EdgeVec m k) (q : String) :
    World.cost (ev.files w v q) = ev.dumpRoom w v := by
  unfold EdgeVec.files EdgeVec.dumpRoom
  split <;>
    simp only [World.cost, List.nil_append, List.cons_append, List.map_cons, List.map_nil, List.sum_cons, List.sum_nil,
      typedBytes_length, List.length_map] <;> ring

theorem dump_cost [DecidableEq NL] [DecidableEq EL] (w v : Nat) (nl : Codec NL) (el : Codec EL)
    (g : StaticGraph m k NL EL) (pre : String) :
    World.cost (g.files w v pre) + 1 + (g.auxBytes nl el).length = g.dumpRoom w v nl el := by
  unfold StaticGraph.files StaticGraph.dumpRoom
  rw [World.cost_append, World.cost_append, cost_files, aux_length]
  have d1 : World.cost ((g.inEdgeVec.map fun e => e.files w v (pre ++ "_IN")).getD []) =
      (g.inEdgeVec.map (·.dumpRoom w v)).getD 0 := by
    cases g.inEdgeVec with
    | none => rfl
    | some e => exact cost_files w v e _
  have d2 : World.cost ((g.labels.map fun ls => [(pre ++ ".labels", typedBytes v (ls.map (·.val)))]).getD []) =
      (g.labels.map fun ls => 1 + v * ls.length).getD 0 := by
    cases g.labels with
    | none => rfl
    | some ls =>
      simp only [Option.map_some, Option.getD_some, World.cost, List.map_cons, List.map_nil, List.sum_cons, List.sum_nil,
        typedBytes_length, List.length_map]
      ring
  rw [d1, d2]
  omega

/-- What is left after a dump. -/
theorem room_left [DecidableEq NL] [DecidableEq EL] (w v : Nat) (nl : Codec NL) (el : Codec EL)
    (g : StaticGraph m k NL EL) (pre : String) (x : World) :
    (g.dumpMmap w v nl el pre x).2.room = x.room - g.dumpRoom w v nl el := by
  rw [StaticGraph.dump_room, dump_cost]

/-- A dump with room for all of it. -/
theorem dump_done [DecidableEq NL] [DecidableEq EL] {w v : Nat} {nl : Codec NL} {el : Codec EL}
    {g : StaticGraph m k NL EL} (pre : String) {x : World} (hr : g.dumpRoom w v nl el ≤ x.room) :
    (g.dumpMmap w v nl el pre x).1 = true ∧
    (∀ p, p ≠ pre ++ "_aux.bin" → (g.dumpMmap w v nl el pre x).2.files p =
        World.look (g.files w v pre) x.files p) ∧
      ∃ n, (g.dumpMmap w v nl el pre x).2.files (pre ++ "_aux.bin") =
        some (((Codec.aux nl el).bytes ⟨g.numNodes, g.numEdges, g.nodeLabels, g.edgeLabels⟩).take n) ∧
          ((Codec.aux nl el).bytes ⟨g.numNodes, g.numEdges, g.nodeLabels, g.edgeLabels⟩).length ≤ n := by
  rw [← dump_cost w v nl el g pre] at hr
  have hp := StaticGraph.paid_dumpArrays w v g pre x
  have hd := StaticGraph.did_dumpArrays w v g pre x
  have h1 := hp.done (by omega)
  have h2 := hp.room
  rw [StaticGraph.dumpMmap_eq]
  unfold World.andThen
  rw [if_pos h1]
  obtain ⟨ok, e1, e2⟩ := World.export_eq (Codec.aux nl el)
    ⟨g.numNodes, g.numEdges, g.nodeLabels, g.edgeLabels⟩ (pre ++ "_aux.bin") (g.dumpArrays w v pre x).2
  rw [e1, if_neg (by omega)]
  have h3 : ((Codec.aux nl el).bytes ⟨g.numNodes, g.numEdges, g.nodeLabels, g.edgeLabels⟩).length ≤
      (g.dumpArrays w v pre x).2.room - 1 := by
    unfold StaticGraph.auxBytes at hr
    omega
  refine ⟨e2 h3, ?_, (g.dumpArrays w v pre x).2.room - 1, ?_, h3⟩
  · intro p hp
    simp only [World.put]
    rw [if_neg hp, hd.done h1]
  · simp only [World.put, if_true]

end Verif.Sizes
