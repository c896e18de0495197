import Verif.Spec.Wide
import Verif.Props.Ids
import Verif.Props.Lids
import Verif.Props.Melt

/-! C174: the widths of the id types do not matter to frozen graphs. -/

namespace Verif.Props

open Spec Proof.Ids

section Vectors

variable {m m' k k' : Nat} {f : Id m → Id m'} {u : Id k → Id k'}

theorem wide_mono (hf : ∀ i, (f i).val = i.val) : StrictMono f := fun a b h => by
  show (f a).val < (f b).val
  rw [hf, hf]; exact h

theorem wide_new (hf : ∀ i, (f i).val = i.val) {n : Nat} (h : n ≤ m) : f (Id.new n) = Id.new n := by
  have hm : m ≤ m' := by
    have h1 := hf ⟨m, by omega⟩
    have h2 := (f ⟨m, by omega⟩).isLt
    simp only at h1
    omega
  apply Fin.ext
  rw [hf]
  show n % (m + 1) = n % (m' + 1)
  rw [Nat.mod_eq_of_lt (by omega), Nat.mod_eq_of_lt (by omega)]

theorem stored_label (hu : ∀ i, (u i).val = i.val) (hk : k ≤ k') (l : Id k) :
    staticLabel (storedLid u l) = (staticLabel l).map u := by
  unfold staticLabel storedLid
  by_cases h : l = Id.maxValue
  · rw [if_pos h, if_pos rfl, if_pos h]; rfl
  · rw [if_neg h, if_neg h, if_neg]
    · rfl
    · intro h2
      have h3 := congrArg Fin.val h2
      rw [hu] at h3
      have h4 : (Id.maxValue : Id k').val = k' := rfl
      have h5 : l.val ≠ k := fun h6 => h (Fin.ext h6)
      have := l.isLt
      omega

theorem index_map {X Y : Type} (F : X → Y) (l : List X) (i : Nat) : index (l.map F) i = F <$> index l i := by
  unfold index
  rw [List.getElem?_map]
  cases l[i]? <;> rfl

theorem search_loop_wide (hf : StrictMono f) (l : List (Id m)) (x : Id m) (fuel base size : Nat) :
    searchLoop (l.map f) (f x) fuel base size = searchLoop l x fuel base size := by
  induction fuel generalizing base size with
  | zero => rfl
  | succ n ih =>
    unfold searchLoop
    split_ifs
    · simp only [index_map, bind_map_left, hf.lt_iff_lt, ih]
    · rfl

theorem search_wide (hf : StrictMono f) (l : List (Id m)) (x : Id m) :
    binarySearch (l.map f) (f x) = binarySearch l x := by
  unfold binarySearch
  simp only [List.length_map, search_loop_wide hf, index_map, bind_map_left, hf.injective.eq_iff, hf.lt_iff_lt]

theorem slice_map {X Y : Type} (F : X → Y) (l : List X) (a b : Nat) :
    EdgeVec.slice (l.map F) a b = List.map F <$> EdgeVec.slice l a b := by
  unfold EdgeVec.slice
  rw [List.length_map]
  split_ifs
  · rw [← List.map_take, ← List.map_drop]; rfl
  · rfl

variable (f u) in
theorem vec_nodes_wide (ev : EdgeVec m k) : (vecWide f u ev).numNodes = ev.numNodes := rfl

theorem vec_has_wide (hf : ∀ i, (f i).val = i.val) (ev : EdgeVec m k) (n : Id m) :
    (vecWide f u ev).hasNode (f n) = ev.hasNode n := by
  unfold EdgeVec.hasNode
  rw [vec_nodes_wide, hf]

theorem vec_neighbors_wide (hf : ∀ i, (f i).val = i.val) (ev : EdgeVec m k) (n : Id m) :
    (vecWide f u ev).neighbors (f n) = List.map f <$> ev.neighbors n := by
  unfold EdgeVec.neighbors EdgeVec.row
  rw [vec_has_wide hf, map_bind]
  congr 1
  funext b
  cases b with
  | false => rfl
  | true =>
    simp only [if_true, hf, map_bind]
    congr 1; funext a; congr 1; funext b
    exact slice_map f _ _ _

theorem vec_degree_wide (hf : ∀ i, (f i).val = i.val) (ev : EdgeVec m k) (n : Id m) :
    (vecWide f u ev).degree (f n) = ev.degree n := by
  unfold EdgeVec.degree EdgeVec.rowLength
  rw [vec_has_wide hf, hf]
  rfl

theorem vec_find_wide (hf : ∀ i, (f i).val = i.val) (ev : EdgeVec m k) (s t : Id m) :
    (vecWide f u ev).findEdgeIndex (f s) (f t) = ev.findEdgeIndex s t := by
  unfold EdgeVec.findEdgeIndex EdgeVec.searchRow
  rw [vec_has_wide hf, vec_has_wide hf, vec_neighbors_wide hf]
  simp only [bind_map_left, search_wide (wide_mono hf), hf]
  rfl

theorem vec_labels_wide (ev : EdgeVec m k) : (vecWide f u ev).getLabels = ev.getLabels.map (storedLid u) := by
  unfold EdgeVec.getLabels vecWide
  cases ev.labels <;> rfl

theorem vec_label_wide (hf : ∀ i, (f i).val = i.val) (ev : EdgeVec m k) (s t : Id m) :
    (vecWide f u ev).findEdgeLabelId (f s) (f t) = Option.map (storedLid u) <$> ev.findEdgeLabelId s t := by
  unfold EdgeVec.findEdgeLabelId
  rw [vec_labels_wide, vec_find_wide hf]
  simp only [List.map_eq_nil_iff]
  split_ifs
  · rfl
  · rw [map_bind]
    congr 1
    funext r
    cases r with
    | none => rfl
    | some i => simp only [List.getElem?_map, map_pure]

/-! ### The enumeration of the edges -/

theorem skip_wide (hf : ∀ i, (f i).val = i.val) {ev : EdgeVec m k} (ho : ev.offsets.length ≤ m + 1) (fuel : Nat)
    (it : EdgeIter) (hit : it.currNode < ev.offsets.length) :
    EdgeIter.skipEmpty (vecWide f u ev) fuel it = EdgeIter.skipEmpty ev fuel it ∧
      ∀ it', EdgeIter.skipEmpty ev fuel it = .ok it' → it'.currNode < ev.offsets.length := by
  induction fuel generalizing it with
  | zero => exact ⟨rfl, fun _ h => by cases h⟩
  | succ n ih =>
    unfold EdgeIter.skipEmpty
    rw [← wide_new hf (show it.currNode ≤ m by omega), vec_has_wide hf, vec_degree_wide hf]
    have hb : ev.hasNode (Id.new it.currNode) = .ok (decide (it.currNode < ev.offsets.length - 1)) := by
      have hv : (Id.new it.currNode : Id m).val = it.currNode := Nat.mod_eq_of_lt (by omega)
      unfold EdgeVec.hasNode EdgeVec.numNodes
      rw [if_neg (by omega), hv]
      rfl
    rw [hb]
    simp only [bind_ok]
    by_cases hc : it.currNode < ev.offsets.length - 1
    · simp only [hc, decide_true, if_true]
      cases ev.degree (Id.new it.currNode) with
      | error e => exact ⟨rfl, fun _ h => by cases h⟩
      | ok d =>
        simp only [bind_ok]
        by_cases hd : it.currIdx ≥ d
        · simp only [hd, if_true]
          exact ih ⟨it.currNode + 1, 0⟩ (show it.currNode + 1 < _ by omega)
        · simp only [hd, if_false]
          exact ⟨trivial, fun it' h => by cases h; exact hit⟩
    · simp only [hc, decide_false]
      exact ⟨rfl, fun it' h => by cases h; exact hit⟩

theorem pick_wide (hf : ∀ i, (f i).val = i.val) (nb : List (Id m)) (d : Bool) (n : Nat) (hn : n ≤ m) (i : Nat) :
    EdgeIter.pick (nb.map f) d n i = EdgeIter.pick nb d n i := by
  unfold EdgeIter.pick
  rw [← wide_new hf hn, search_wide (wide_mono hf)]
  simp only [index_map, bind_map_left, (wide_mono hf).lt_iff_lt, List.length_map]

theorem next_wide (hf : ∀ i, (f i).val = i.val) {ev : EdgeVec m k} (ho : ev.offsets.length ≤ m + 1) (d : Bool)
    (fuel : Nat) (it : EdgeIter) (hit : it.currNode < ev.offsets.length) :
    EdgeIter.next (vecWide f u ev) d fuel it =
        Option.map (fun r => ((f r.1.1, f r.1.2), r.2)) <$> EdgeIter.next ev d fuel it ∧
      ∀ e it', EdgeIter.next ev d fuel it = .ok (some (e, it')) → it'.currNode < ev.offsets.length := by
  induction fuel generalizing it with
  | zero => exact ⟨rfl, fun _ _ h => by cases h⟩
  | succ n ih =>
    unfold EdgeIter.next
    obtain ⟨h1, h2⟩ := skip_wide (u := u) hf ho (n + 1) it hit
    rw [h1]
    cases hs : EdgeIter.skipEmpty ev (n + 1) it with
    | error e => exact ⟨rfl, fun _ _ h => by cases h⟩
    | ok it1 =>
      have hit1 := h2 it1 hs
      simp only [bind_ok]
      rw [← wide_new hf (show it1.currNode ≤ m by omega), vec_has_wide hf, vec_neighbors_wide hf]
      have hb : ev.hasNode (Id.new it1.currNode) = .ok (decide (it1.currNode < ev.offsets.length - 1)) := by
        have hv : (Id.new it1.currNode : Id m).val = it1.currNode := Nat.mod_eq_of_lt (by omega)
        unfold EdgeVec.hasNode EdgeVec.numNodes
        rw [if_neg (by omega), hv]
        rfl
      rw [hb]
      simp only [bind_ok]
      by_cases hc : it1.currNode < ev.offsets.length - 1
      · simp only [hc, decide_true, if_true]
        cases ev.neighbors (Id.new it1.currNode) with
        | error e => exact ⟨rfl, fun _ _ h => by cases h⟩
        | ok nb =>
          simp only [bind_ok, show (List.map f <$> (Except.ok nb : Res (List (Id m)))) = .ok (nb.map f) from rfl]
          rw [pick_wide hf nb d it1.currNode (by omega)]
          cases EdgeIter.pick nb d it1.currNode it1.currIdx with
          | error e => exact ⟨rfl, fun _ _ h => by cases h⟩
          | ok o =>
            simp only [bind_ok]
            cases o with
            | none => exact ih ⟨it1.currNode + 1, 0⟩ (show it1.currNode + 1 < _ by omega)
            | some i =>
              simp only [EdgeIter.yieldAt, index_map]
              cases index nb i with
              | error e => exact ⟨rfl, fun _ _ h => by cases h⟩
              | ok t =>
                refine ⟨?_, fun e it' h => ?_⟩
                · show Except.ok _ = Except.ok _
                  rw [← wide_new hf (show it1.currNode ≤ m by omega)]
                  rfl
                · cases h
                  exact hit1
      · simp only [hc, decide_false]
        exact ⟨rfl, fun _ _ h => by cases h⟩

theorem collect_wide (hf : ∀ i, (f i).val = i.val) {ev : EdgeVec m k} (ho : ev.offsets.length ≤ m + 1) (d : Bool)
    (fuel : Nat) (it : EdgeIter) (hit : it.currNode < ev.offsets.length) :
    EdgeIter.collect (vecWide f u ev) d fuel it =
      List.map (fun e => (f e.1, f e.2)) <$> EdgeIter.collect ev d fuel it := by
  induction fuel generalizing it with
  | zero => rfl
  | succ n ih =>
    unfold EdgeIter.collect
    obtain ⟨h1, h2⟩ := next_wide (u := u) hf ho d (n + 1) it hit
    rw [h1]
    cases hs : EdgeIter.next ev d (n + 1) it with
    | error e => rfl
    | ok o =>
      cases o with
      | none => rfl
      | some r =>
        obtain ⟨e, it'⟩ := r
        show (do let l ← EdgeIter.collect (vecWide f u ev) d n it'; pure ((f e.1, f e.2) :: l)) = _
        rw [ih it' (h2 e it' hs)]
        show _ = List.map _ <$> (do let l ← EdgeIter.collect ev d n it'; pure (e :: l))
        cases EdgeIter.collect ev d n it' <;> rfl

theorem zip_wide {X Y : Type} (F : X → Y) (hf : ∀ i, (f i).val = i.val) {ev : EdgeVec m k}
    (ho : ev.offsets.length ≤ m + 1) (d : Bool) (fuel : Nat) (xs : List X) (it : EdgeIter)
    (hit : it.currNode < ev.offsets.length) :
    EdgeIter.zip (vecWide f u ev) d fuel (xs.map F) it =
      List.map (fun e => ((f e.1.1, f e.1.2), F e.2)) <$> EdgeIter.zip ev d fuel xs it := by
  induction xs generalizing it with
  | nil =>
    unfold EdgeIter.zip
    simp only [List.map_nil, (next_wide (u := u) hf ho d fuel it hit).1]
    cases EdgeIter.next ev d fuel it <;> rfl
  | cons x xs ih =>
    simp only [List.map_cons, EdgeIter.zip]
    obtain ⟨h1, h2⟩ := next_wide (u := u) hf ho d fuel it hit
    rw [h1]
    cases hs : EdgeIter.next ev d fuel it with
    | error e => rfl
    | ok o =>
      cases o with
      | none => rfl
      | some r =>
        obtain ⟨e, it'⟩ := r
        show (do let l ← EdgeIter.zip (vecWide f u ev) d fuel (xs.map F) it'; pure (((f e.1, f e.2), F x) :: l)) = _
        rw [ih it' (h2 e it' hs)]
        show _ = List.map _ <$> (do let l ← EdgeIter.zip ev d fuel xs it'; pure ((e, x) :: l))
        cases EdgeIter.zip ev d fuel xs it' <;> rfl

theorem listing_wide (hf : ∀ i, (f i).val = i.val) {ev : EdgeVec m k} (ho : ev.offsets.length ≤ m + 1) (d : Bool) :
    (vecWide f u ev).edgeIndices d = List.map (fun e => (f e.1, f e.2)) <$> ev.edgeIndices d := by
  unfold EdgeVec.edgeIndices
  have : (vecWide f u ev).offsets.length + (vecWide f u ev).edges.length = ev.offsets.length + ev.edges.length := by
    simp [vecWide]
  rw [this]
  by_cases h0 : ev.offsets.length = 0
  · have hn : ev.offsets = [] := List.length_eq_zero_iff.1 h0
    have h1 : ∀ {m k : Nat} (ev : EdgeVec m k) (hn : ev.offsets = []) n d,
        EdgeIter.collect ev d (n + 1) ⟨0, 0⟩ = .error .underflow := by
      intro m k ev hn n d
      simp [EdgeIter.collect, EdgeIter.next, EdgeIter.skipEmpty, EdgeVec.hasNode, EdgeVec.numNodes, hn]
      rfl
    rw [h1 _ (show (vecWide f u ev).offsets = [] from hn), h1 _ hn]
    rfl
  · exact collect_wide hf ho d _ _ (Nat.pos_of_ne_zero h0)

theorem labelled_wide (hf : ∀ i, (f i).val = i.val) {ev : EdgeVec m k} (ho : ev.offsets.length ≤ m + 1) (d : Bool) :
    (vecWide f u ev).labelled d =
      List.map (fun e => ((f e.1.1, f e.1.2), storedLid u e.2)) <$> ev.labelled d := by
  unfold EdgeVec.labelled
  have : 2 * (vecWide f u ev).offsets.length + (vecWide f u ev).edges.length =
      2 * ev.offsets.length + ev.edges.length := by simp [vecWide]
  rw [this, vec_labels_wide]
  by_cases h0 : ev.offsets.length = 0
  · have hn : ev.offsets = [] := List.length_eq_zero_iff.1 h0
    have h1 : ∀ {m k : Nat} (ev : EdgeVec m k) (hn : ev.offsets = []) n d {X : Type} (xs : List X),
        EdgeIter.zip ev d (n + 1) xs ⟨0, 0⟩ = .error .underflow := by
      intro m k ev hn n d X xs
      cases xs <;>
      · simp [EdgeIter.zip, EdgeIter.next, EdgeIter.skipEmpty, EdgeVec.hasNode, EdgeVec.numNodes, hn]
        rfl
    rw [h1 _ (show (vecWide f u ev).offsets = [] from hn), h1 _ hn]
    rfl
  · exact zip_wide _ hf ho d _ _ _ (Nat.pos_of_ne_zero h0)

end Vectors

section Queries

variable {m m' k k' : Nat} {NL EL : Type} {f : Id m → Id m'} {u : Id k → Id k'}

/-- **C174**, queries: a frozen graph of at most `m` rows, taken with wider ids and label ids, gives the same answers
and the same panics. -/
theorem c174_queries (hf : ∀ i, (f i).val = i.val) (hu : ∀ i, (u i).val = i.val) (g : StaticGraph m k NL EL)
    (ho : g.edgeVec.offsets.length ≤ m + 1) (hn : g.numNodes ≤ m + 1) :
    (∀ n, (staticWide f u g).hasNode (f n) = g.hasNode n) ∧
      (∀ n, (staticWide f u g).nodeLid (f n) = Option.map u <$> g.nodeLid n) ∧
      (∀ s t, (staticWide f u g).hasEdge (f s) (f t) = g.hasEdge s t) ∧
      (∀ s t, (staticWide f u g).findEdgeIndex (f s) (f t) = g.findEdgeIndex s t) ∧
      (∀ s t, (staticWide f u g).getEdge (f s) (f t) = Option.map (edgeWide f u) <$> g.getEdge s t) ∧
      (∀ n, (staticWide f u g).degree (f n) = g.degree n) ∧
      (∀ n, (staticWide f u g).neighbors (f n) = List.map f <$> g.neighbors n) ∧
      (∀ n, (staticWide f u g).inNeighbors (f n) = List.map f <$> g.inNeighbors n) ∧
      (∀ n, (staticWide f u g).inDegree (f n) = g.inDegree n) ∧
      (staticWide f u g).nodeIndices = g.nodeIndices.map f ∧
      (staticWide f u g).edgeIndices = List.map (fun e => (f e.1, f e.2)) <$> g.edgeIndices ∧
      (staticWide f u g).nodes = g.nodes.map (fun p => (f p.1, p.2.map u)) ∧
      (staticWide f u g).edges = List.map (edgeWide f u) <$> g.edges ∧
      (staticWide f u g).maxSeenId = Option.map f <$> g.maxSeenId := by
  have hk : k ≤ k' := by
    have h1 := hu ⟨k, by omega⟩
    have h2 := (u ⟨k, by omega⟩).isLt
    simp only at h1
    omega
  have hh : ∀ n, (staticWide f u g).hasNode (f n) = g.hasNode n := fun n => by
    unfold StaticGraph.hasNode
    rw [hf]; rfl
  have hi : (staticWide f u g).nodeIndices = g.nodeIndices.map f := by
    unfold StaticGraph.nodeIndices
    rw [List.map_map]
    refine List.map_congr_left (fun i hi => ?_)
    have := List.mem_range.1 hi
    have : i < g.numNodes := this
    exact (wide_new hf (by omega)).symm
  have he : ∀ s t, (staticWide f u g).hasEdge (f s) (f t) = g.hasEdge s t := fun s t => by
    unfold StaticGraph.hasEdge EdgeVec.hasEdge
    show (do let r ← (vecWide f u g.edgeVec).findEdgeIndex (f s) (f t); pure r.isSome) = _
    rw [vec_find_wide hf]
  have hin : ∀ n, (staticWide f u g).inNeighbors (f n) = List.map f <$> g.inNeighbors n := fun n => by
    unfold StaticGraph.inNeighbors
    show (do let ev ← unwrap (g.inEdgeVec.map (vecWide f u)); ev.neighbors (f n)) = _
    cases g.inEdgeVec with
    | none => rfl
    | some ev => exact vec_neighbors_wide hf ev n
  refine ⟨hh, fun n => ?_, he, fun s t => vec_find_wide hf _ s t, fun s t => ?_, fun n => vec_degree_wide hf _ n,
    fun n => vec_neighbors_wide hf _ n, hin, fun n => ?_, hi, listing_wide hf ho _, ?_, ?_, ?_⟩
  · unfold StaticGraph.nodeLid
    rw [hh]
    split_ifs
    · rfl
    · show (match g.labels.map (List.map (storedLid u)) with
        | some ls => (do let l ← index ls (f n).val; pure (staticLabel l))
        | none => pure none) = _
      cases g.labels with
      | none => rfl
      | some ls =>
        simp only [Option.map_some, index_map, hf, bind_map_left, map_bind, map_pure, stored_label hu hk]
  · unfold StaticGraph.getEdge
    rw [he, map_bind]
    congr 1
    funext b
    cases b with
    | false => rfl
    | true =>
      simp only [if_true]
      show (do match ← (vecWide f u g.edgeVec).findEdgeLabelId (f s) (f t) with
        | some l => pure (some (⟨f s, f t, staticLabel l⟩ : Edge m' k'))
        | none => pure (some (⟨f s, f t, none⟩ : Edge m' k'))) = _
      rw [vec_label_wide hf, bind_map_left, map_bind]
      congr 1
      funext o
      cases o with
      | none => rfl
      | some l =>
        show Except.ok _ = Except.ok _
        rw [stored_label hu hk]
        rfl
  · unfold StaticGraph.inDegree
    rw [hin, bind_map_left]
    simp only [List.length_map]
  · unfold StaticGraph.nodes
    rw [hi]
    show (match g.labels.map (List.map (storedLid u)) with
      | none => (g.nodeIndices.map f).map (fun i => (i, none))
      | some ls => ((g.nodeIndices.map f).zip ls).map (fun p : Id m' × Id k' => (p.1, staticLabel p.2))) = _
    cases g.labels with
    | none => simp only [Option.map_none, List.map_map]; rfl
    | some ls =>
      simp only [Option.map_some, List.zip_map, List.map_map]
      refine List.map_congr_left (fun p _ => ?_)
      simp only [Function.comp_apply, Prod.map, stored_label hu hk]
  · unfold StaticGraph.edges
    show (if (vecWide f u g.edgeVec).getLabels = [] then _ else _) = _
    rw [vec_labels_wide]
    simp only [List.map_eq_nil_iff]
    split_ifs
    · show (do let es ← (vecWide f u g.edgeVec).edgeIndices g.directed; pure (es.map (fun e : Id m' × Id m' => (⟨e.1, e.2, none⟩ : Edge m' k')))) = _
      rw [listing_wide hf ho, bind_map_left, map_bind]
      simp only [map_pure, List.map_map]
      rfl
    · show (do let es ← (vecWide f u g.edgeVec).labelled g.directed
               pure (es.map (fun p : (Id m' × Id m') × Id k' => (⟨p.1.1, p.1.2, staticLabel p.2⟩ : Edge m' k')))) = _
      rw [labelled_wide hf ho, bind_map_left, map_bind]
      simp only [map_pure, List.map_map]
      congr 1
      funext es
      congr 1
      refine List.map_congr_left (fun p _ => ?_)
      simp only [Function.comp_apply, stored_label hu hk, edgeWide]
  · unfold StaticGraph.maxSeenId
    show (if g.numNodes = 0 then _ else _) = _
    split_ifs
    · rfl
    · show Except.ok (some (Id.new (g.numNodes - 1))) = Except.ok (some (f (Id.new (g.numNodes - 1))))
      rw [wide_new hf (by omega)]

end Queries

section Freezing

variable {m m' k k' : Nat} {NL EL : Type} {f : Id m → Id m'} {u : Id k → Id k'}

/-- A node's record with other ids and other label ids. -/
def nodeWide (f : Id m → Id m') (u : Id k → Id k') (nd : NodeMap m k) : NodeMap m' k' := nodeIds f (nodeLids u nd)

/-- The state of the loop of `into_static` with other ids and other label ids. -/
def freezeWide (f : Id m → Id m') (u : Id k → Id k') (st : Freeze m k) : Freeze m' k' :=
  ⟨st.nodeMap.map (fun p => (f p.1, nodeWide f u p.2)), st.offset, st.offsets, st.edges.map f,
    st.edgeLabels.map (List.map (storedLid u)), st.nodeLabels.map (List.map (storedLid u)),
    st.ins.map (fun i => (i.1, i.2.1, i.2.2.map f))⟩

/-- A record that does not use the largest label id. -/
def Free (nd : NodeMap m k) : Prop :=
  nd.label ≠ some Id.maxValue ∧ ∀ p ∈ nd.neighbors, p.2 ≠ some Id.maxValue

theorem stored_getD {l : Option (Id k)} (h : l ≠ some Id.maxValue) :
    (l.map u).getD Id.maxValue = storedLid u (l.getD Id.maxValue) := by
  cases l with
  | none => simp [storedLid]
  | some x =>
    have : x ≠ Id.maxValue := fun hx => h (by rw [hx])
    simp [storedLid, this]

theorem present_wide (st : Freeze m k) {nd : NodeMap m k} (h : Free nd) :
    (freezeWide f u st).present (nodeWide f u nd) = freezeWide f u (st.present nd) := by
  have h1 : ((nodeWide f u nd).neighbors.map (fun p => p.2.getD Id.maxValue)) =
      (nd.neighbors.map (fun p => p.2.getD Id.maxValue)).map (storedLid u) := by
    simp only [nodeWide, nodeIds, nodeLids, List.map_map]
    exact List.map_congr_left (fun p hp => stored_getD (h.2 p hp))
  have h2 : AL.keys (nodeWide f u nd).neighbors = (AL.keys nd.neighbors).map f := by
    simp [AL.keys, nodeWide, nodeIds, nodeLids, Function.comp_def]
  have h3 : (nodeWide f u nd).label.getD Id.maxValue = storedLid u (nd.label.getD Id.maxValue) := stored_getD h.1
  have h4 : (nodeWide f u nd).neighbors.length = nd.neighbors.length := by simp [nodeWide, nodeIds, nodeLids]
  have h5 : (nodeWide f u nd).inNeighbors = nd.inNeighbors.map f := rfl
  obtain ⟨a, b, c, d, e, n, i⟩ := st
  simp only [Freeze.present, freezeWide, h1, h2, h3, h4, h5, List.length_map, List.map_append, Freeze.mk.injEq,
    true_and]
  refine ⟨?_, ?_, ?_⟩
  · cases e <;> simp
  · cases n <;> simp
  · cases i <;> simp

theorem turn_wide (hf : ∀ i, (f i).val = i.val) (st : Freeze m k) (n : Id m)
    (h : ∀ x nd, AL.get st.nodeMap x = some nd → Free nd) :
    (freezeWide f u st).turn (f n) = freezeWide f u (st.turn n) := by
  unfold Freeze.turn
  have hg : AL.get (freezeWide f u st).nodeMap (f n) = (AL.get st.nodeMap n).map (nodeWide f u) :=
    get_ids (wide_mono hf) st.nodeMap n
  rw [hg]
  have hpush : ∀ st : Freeze m k, (freezeWide f u st).push = freezeWide f u st.push := by
    rintro ⟨a, b, c, d, e, n, i⟩
    cases i <;> rfl
  cases hn : AL.get st.nodeMap n with
  | none =>
    simp only [Option.map_none]
    rw [← hpush]
    congr 1
    obtain ⟨a, b, c, d, e, n, i⟩ := st
    cases n <;> simp [Freeze.absent, freezeWide, storedLid]
  | some nd =>
    simp only [Option.map_some]
    rw [← hpush, ← present_wide _ (h n nd hn)]
    congr 2
    have := erase_ids (F := nodeWide f u) (wide_mono hf) st.nodeMap n
    simp only [freezeWide, this]

theorem turn_free (st : Freeze m k) (n : Id m) (h : ∀ x nd, AL.get st.nodeMap x = some nd → Free nd) :
    ∀ x nd, AL.get (st.turn n).nodeMap x = some nd → Free nd := by
  intro x nd hx
  unfold Freeze.turn at hx
  cases hn : AL.get st.nodeMap n with
  | none => rw [hn] at hx; exact h x nd hx
  | some nd' =>
    rw [hn] at hx
    have hx : AL.get (AL.erase st.nodeMap n) x = some nd := hx
    rw [AL.get_erase] at hx
    split_ifs at hx
    exact h x nd hx

theorem loop_wide (hf : ∀ i, (f i).val = i.val) (fuel fuel' : Nat) (hfu : fuel ≤ fuel') (n M : Id m) (st r : Freeze m k)
    (h : ∀ x nd, AL.get st.nodeMap x = some nd → Free nd) (hr : Freeze.loop fuel n M st = .ok r) :
    Freeze.loop fuel' (f n) (f M) (freezeWide f u st) = .ok (freezeWide f u r) := by
  induction fuel generalizing fuel' n st with
  | zero => cases hr
  | succ c ih =>
    obtain ⟨c', rfl⟩ : ∃ c', fuel' = c' + 1 := ⟨fuel' - 1, by omega⟩
    unfold Freeze.loop at hr ⊢
    simp only [(wide_mono hf).le_iff_le]
    by_cases hc : n ≤ M
    · simp only [hc, if_true] at hr ⊢
      obtain ⟨n', h1, h2⟩ := bind_eq_ok hr
      have h3 : (f n).increment = .ok (f n') := by
        unfold Id.increment at h1 ⊢
        have hm : m ≤ m' := by
          have h1 := hf ⟨m, by omega⟩
          have h2 := (f ⟨m, by omega⟩).isLt
          simp only at h1
          omega
        by_cases h0 : m = 0
        · exfalso
          subst h0
          rw [if_pos rfl] at h1
          cases h1
          have : ∀ c (st : Freeze 0 k), Freeze.loop c n M st = .error .diverge := by
            intro c
            induction c with
            | zero => intro _; rfl
            | succ c ihc =>
              intro st
              unfold Freeze.loop
              simp only [hc, if_true, Id.increment]
              exact ihc _
          rw [this] at h2
          cases h2
        · rw [if_neg h0] at h1
          split_ifs at h1 with h4
          cases h1
          rw [if_neg (by omega), dif_pos (by rw [hf]; omega)]
          congr 1
          apply Fin.ext
          rw [hf ⟨n.val + 1, _⟩]
          show (f n).val + 1 = n.val + 1
          rw [hf n]
      rw [h3, bind_ok, turn_wide hf st n h]
      exact ih c' (by omega) n' _ (turn_free st n h) h2
    · simp only [hc, if_false] at hr ⊢
      cases hr
      rfl

theorem max_wide (hf : StrictMono f) (l : List (Id m)) : (l.map f).max? = l.max?.map f := by
  cases l with
  | nil => rfl
  | cons a l =>
    rw [List.map_cons, List.max?_cons', List.max?_cons', Option.map_some]
    congr 1
    induction l generalizing a with
    | nil => rfl
    | cons b l ih => rw [List.map_cons, List.foldl_cons, List.foldl_cons, ← hf.monotone.map_max, ih]

/-- **C174**, freezing: where no node and no edge has the largest label id, `into_static` gives the same frozen graph
with wider ids and label ids. -/
theorem c174_freeze (hf : ∀ i, (f i).val = i.val) (g : GraphMap m k NL EL)
    (hfree : ∀ n nd, g.getNode n = some nd → Free nd) {r : StaticGraph m k NL EL} (hr : g.intoStatic = .ok r) :
    (mapWide f u g).intoStatic = .ok (staticWide f u r) := by
  unfold GraphMap.intoStatic at hr ⊢
  obtain ⟨M, h1, hr⟩ := bind_eq_ok hr
  obtain ⟨st, h2, hr⟩ := bind_eq_ok hr
  obtain ⟨ev, h3, hr⟩ := bind_eq_ok hr
  have hm : m ≤ m' := by
    have h1 := hf ⟨m, by omega⟩
    have h2 := (f ⟨m, by omega⟩).isLt
    simp only at h1
    omega
  have e1 : (mapWide f u g).nodeIndices = g.nodeIndices.map f := by
    simp [GraphMap.nodeIndices, mapWide, mapIds, mapLids, AL.keys, Function.comp_def]
  have e2 : (mapWide f u g).freezeInit = freezeWide f u g.freezeInit := by
    have a1 : (mapWide f u g).view.hasEdgeLabels = g.view.hasEdgeLabels := rfl
    have a2 : (mapWide f u g).view.hasNodeLabels = g.view.hasNodeLabels := rfl
    have a3 : (mapWide f u g).directed = g.directed := rfl
    unfold GraphMap.freezeInit freezeWide
    rw [a1, a2, a3]
    simp only [Freeze.mk.injEq, List.map_nil, true_and]
    refine ⟨?_, ?_, ?_, ?_⟩
    · simp [mapWide, mapIds, mapLids, nodeWide, Function.comp_def]
    all_goals split_ifs <;> rfl
  rw [e1, max_wide (wide_mono hf), e2]
  have h1' : g.nodeIndices.max? = some M := by
    cases hx : g.nodeIndices.max? with
    | none => rw [hx] at h1; cases h1
    | some y => rw [hx] at h1; cases h1; rfl
  rw [h1']
  show (do
    let st ← Freeze.loop (m' + 2) (Id.new 0) (f M) (freezeWide f u g.freezeInit)
    let ev ← EdgeVec.fromRaw st.offsets st.edges st.edgeLabels
    StaticGraph.fromRaw g.directed (mapWide f u g).nodeCount g.edgeCount ev
      (st.ins.map (fun i : Nat × List Nat × List (Id m') => EdgeVec.new i.2.1 i.2.2)) st.nodeLabels g.nodeLabels
      g.edgeLabels) = _
  have e3 : (mapWide f u g).nodeCount = g.nodeCount := by
    simp [GraphMap.nodeCount, mapWide, mapIds, mapLids]
  rw [← wide_new hf (Nat.zero_le m), loop_wide hf (m + 2) (m' + 2) (by omega) _ _ _ _ hfree h2, bind_ok]
  have e4 : EdgeVec.fromRaw (freezeWide f u st).offsets (freezeWide f u st).edges (freezeWide f u st).edgeLabels =
      .ok (vecWide f u ev) := by
    obtain ⟨a, b, c, d, e, n, i⟩ := st
    cases e with
    | none => cases h3; rfl
    | some ls =>
      simp only [EdgeVec.fromRaw, EdgeVec.withLabels] at h3
      split_ifs at h3 with h4
      cases h3
      simp only [freezeWide, Option.map_some, EdgeVec.fromRaw, EdgeVec.withLabels, List.length_map, h4, if_false]
      rfl
  rw [e4, bind_ok, e3]
  unfold StaticGraph.fromRaw at hr ⊢
  obtain ⟨c, h5, hr⟩ := bind_eq_ok hr
  rw [vec_nodes_wide, h5, bind_ok]
  have e5 : (Option.map (fun i => (EdgeVec.new i.2.1 i.2.2 : EdgeVec m' k')) (freezeWide f u st).ins) =
      (st.ins.map (fun i => (EdgeVec.new i.2.1 i.2.2 : EdgeVec m k))).map (vecWide f u) := by
    obtain ⟨a, b, c, d, e, n, i⟩ := st
    cases i <;> rfl
  rw [e5, Option.isNone_map]
  split_ifs at hr ⊢
  cases hr
  rfl

/-- **C174**, together: what a graph that calls can make freezes to has few enough rows, so the wider frozen graph
gives the same answers. -/
theorem c174_room [DecidableEq NL] [DecidableEq EL] {g : GraphMap m k NL EL} (hg : GraphMap.Reachable g)
    {r : StaticGraph m k NL EL} (hr : g.intoStatic = .ok r) :
    r.edgeVec.offsets.length ≤ m + 1 ∧ r.numNodes ≤ m + 1 := by
  obtain ⟨c, h⟩ := (c160_frozen r).1 ⟨g, hg, hr⟩
  have h1 := h.free
  have h2 := h.nodes.2
  have h3 := h.out.rows
  omega

end Freezing

/-- A path with labels, in the id type up to `m` and the label-id type up to `k`. -/
def wideGraph (m k : Nat) : Res (GraphMap m k String String) :=
  (GraphMap.new true).exec [.addNode (Id.new 0) (some "a"), .addNode (Id.new 1) none,
    .addEdge (Id.new 0) (Id.new 1) (some "x"), .addEdge (Id.new 1) (Id.new 0) none]

/-- The conditions can be met: ids up to 2 and label ids up to 1 taken with ids up to 255 and label ids up to 9. -/
example : ∃ (g : GraphMap 2 1 String String) (r : StaticGraph 2 1 String String), wideGraph 2 1 = .ok g ∧
    g.intoStatic = .ok r ∧
    (mapWide (Fin.castLE (by omega)) (Fin.castLE (by omega)) g : GraphMap 255 9 String String).intoStatic =
      .ok (staticWide (Fin.castLE (by omega)) (Fin.castLE (by omega)) r) ∧
    r.nodeLid 0 = .ok (some 0) ∧ r.nodeLid 1 = .ok none := by
  have key : ∃ (g : GraphMap 2 1 String String) (r : StaticGraph 2 1 String String), wideGraph 2 1 = .ok g ∧
      g.intoStatic = .ok r ∧ r.nodeLid 0 = .ok (some 0) ∧ r.nodeLid 1 = .ok none ∧
      ∀ n nd, g.getNode n = some nd → Free nd := by
    refine ⟨_, _, rfl, rfl, rfl, rfl, fun n nd h => ?_⟩
    fin_cases n
    · cases h; exact ⟨by decide, by decide⟩
    · cases h; exact ⟨by decide, by decide⟩
    · cases h
  obtain ⟨g, r, h1, h2, h3, h4, h5⟩ := key
  exact ⟨g, r, h1, h2, c174_freeze (by intro i; rfl) g h5 h2, h3, h4⟩

/-- **C174**, the limits: a node with the largest id can only be frozen with the wider type, and a label with the
largest label id is only kept by the wider type. -/
theorem c174_limits :
    (∃ g : GraphMap 1 1 String String, wideGraph 1 1 = .ok g ∧ g.intoStatic = .error .overflow) ∧
    (∃ (g : GraphMap 2 1 String String) (r : StaticGraph 2 1 String String), wideGraph 2 1 = .ok g ∧
      g.intoStatic = .ok r) ∧
    (∃ (g : GraphMap 2 0 String String) (r : StaticGraph 2 0 String String), wideGraph 2 0 = .ok g ∧
      g.intoStatic = .ok r ∧ g.getNodeLabel 0 = some "a" ∧ r.nodeLid 0 = .ok none) ∧
    ∃ (g : GraphMap 2 1 String String) (r : StaticGraph 2 1 String String), wideGraph 2 1 = .ok g ∧
      g.intoStatic = .ok r ∧ r.nodeLid 0 = .ok (some 0) :=
  ⟨⟨_, rfl, rfl⟩, ⟨_, _, rfl, rfl⟩, ⟨_, _, rfl, rfl, rfl, rfl⟩, ⟨_, _, rfl, rfl, rfl⟩⟩

end Verif.Props
