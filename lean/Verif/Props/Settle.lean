import Verif.Props.Undo

/-! C184: what two reorderings have in common, and reordering a reordered graph. -/

namespace Verif.Props

open GraphMap

variable {m k : Nat} {NL EL : Type}

/-- Degree plus in-degree of every node, smallest first. -/
def totals (g : GraphMap m k NL EL) : List Nat :=
  (g.nodes.map (fun nd => nd.degree + nd.inDegree)).insertionSort (· ≤ ·)

/-- How often each label id in use is used, smallest first. -/
def uses (f : Id k → Nat) : List Nat :=
  (((List.finRange (k + 1)).map f).filter (fun c => decide (0 < c))).insertionSort (· ≤ ·)

theorem sorted_unique {l o : List Nat} (hp : o.Perm l) (hs : o.Pairwise (· ≤ ·)) : l.insertionSort (· ≤ ·) = o :=
  ((List.perm_insertionSort _ _).trans hp.symm).eq_of_pairwise' (List.pairwise_insertionSort _ _) hs

theorem uses_of {f : Id k → Nat} {o : List (Id k)} (hn : o.Nodup) (hm : ∀ x, x ∈ o ↔ 0 < f x)
    (hs : o.Pairwise (fun a b => f a ≤ f b)) : uses f = o.map f := by
  refine sorted_unique ?_ (List.pairwise_map.2 hs)
  have : ((List.finRange (k + 1)).map f).filter (fun c => decide (0 < c)) =
      ((List.finRange (k + 1)).filter (fun x => decide (0 < f x))).map f := by
    rw [List.filter_map]; rfl
  rw [this]
  refine List.Perm.map f ((List.perm_ext_iff_of_nodup hn ((List.nodup_finRange _).filter _)).2 fun x => ?_)
  rw [hm]
  simp

/-- The ids below a bound, in order. -/
def firstIds (k n : Nat) : List (Id k) := (List.range (min n (k + 1))).map Id.new

theorem firstIds_val {n i : Nat} (h : i < min n (k + 1)) : (Id.new i : Id k).val = i :=
  Nat.mod_eq_of_lt (by omega)

theorem firstIds_get {n : Nat} (i : Id k) : (firstIds k n)[i.val]? = if i.val < n then some i else none := by
  unfold firstIds
  have := i.isLt
  rw [List.getElem?_map]
  split
  · rw [List.getElem?_range (by omega), Option.map_some]
    congr 1
    exact Fin.ext (firstIds_val (n := n) (by omega))
  · rw [List.getElem?_eq_none (by simp; omega)]; rfl

theorem firstIds_mem {n : Nat} (x : Id k) : x ∈ firstIds k n ↔ x.val < n := by
  constructor
  · intro h
    obtain ⟨i, h1, rfl⟩ := List.mem_map.1 h
    have := List.mem_range.1 h1
    rw [firstIds_val this]; omega
  · intro h
    exact List.mem_of_getElem? (by rw [firstIds_get, if_pos h])

theorem firstIds_sorted (n : Nat) : (firstIds k n).Pairwise (· < ·) := by
  unfold firstIds
  rw [List.pairwise_map]
  refine List.pairwise_lt_range.imp_of_mem ?_
  intro a b ha hb hab
  rw [Fin.lt_def, firstIds_val (n := n) (List.mem_range.1 ha), firstIds_val (n := n) (List.mem_range.1 hb)]
  exact hab

theorem firstIds_nodup (n : Nat) : (firstIds k n).Nodup := (firstIds_sorted n).imp (fun h => ne_of_lt h)

/-- A list that ranks the ids is read off by the ids themselves once they are in order. -/
theorem uses_get {f : Id k → Nat} {n : Nat} (hpos : ∀ i : Id k, 0 < f i ↔ i.val < n)
    (hs : ∀ i j : Id k, i ≤ j → j.val < n → f i ≤ f j) (i : Id k) :
    (uses f)[i.val]? = if i.val < n then some (f i) else none := by
  rw [uses_of (firstIds_nodup n) (fun x => (firstIds_mem x).trans (hpos x).symm)
    ((firstIds_sorted n).imp_of_mem fun {a b} _ hb hab => hs a b (le_of_lt hab) ((firstIds_mem b).1 hb)),
    List.getElem?_map, firstIds_get]
  split <;> rfl

/-! ### Degrees -/

/-- Degree plus in-degree. -/
def total (g : GraphMap m k NL EL) (n : Id m) : Res Nat := do
  let a ← g.degree n
  let b ← g.inDegree n
  pure (a + b)

theorem total_node {g : GraphMap m k NL EL} {n : Id m} {nd : NodeMap m k} (h : g.getNode n = some nd) :
    total g n = .ok (nd.degree + nd.inDegree) := by
  unfold total GraphMap.degree GraphMap.inDegree
  rw [h]; rfl

theorem total_iff {g : GraphMap m k NL EL} {n : Id m} {d : Nat} :
    total g n = .ok d ↔ ∃ nd, g.getNode n = some nd ∧ d = nd.degree + nd.inDegree := by
  constructor
  · intro h
    cases hn : g.getNode n with
    | none => unfold total GraphMap.degree at h; rw [hn] at h; cases h
    | some nd => rw [total_node hn] at h; cases h; exact ⟨nd, rfl, rfl⟩
  · rintro ⟨nd, h, rfl⟩; exact total_node h

theorem idsByDegree_totals {g : GraphMap m k NL EL} (hg : g.NWF) (i : Nat) :
    (totals g)[i]? = (g.idsByDegree[i]?).bind fun n => (g.getNode n).map fun nd => nd.degree + nd.inDegree := by
  let l := (AL.values g.nodeMap).map (fun nd : NodeMap m k => (nd.id, nd.degree + nd.inDegree))
  have hp : (l.insertionSort (fun a b => a.2 ≤ b.2)).Perm l := List.perm_insertionSort _ _
  have hs : (l.insertionSort (fun a b => a.2 ≤ b.2)).Pairwise (fun a b => a.2 ≤ b.2) :=
    haveI : IsTrans (Id m × Nat) (fun a b => a.2 ≤ b.2) := ⟨fun _ _ _ => le_trans⟩
    haveI : Std.Total (fun a b : Id m × Nat => a.2 ≤ b.2) := ⟨fun a b => le_total a.2 b.2⟩
    List.pairwise_insertionSort _ l
  have e1 : totals g = (l.insertionSort (fun a b => a.2 ≤ b.2)).map Prod.snd := by
    refine sorted_unique ?_ (List.pairwise_map.2 hs)
    have := hp.map Prod.snd
    simp only [l, List.map_map] at this
    exact this
  have e2 : g.idsByDegree = (l.insertionSort (fun a b => a.2 ≤ b.2)).map Prod.fst := rfl
  rw [e1, e2, List.getElem?_map, List.getElem?_map]
  cases hi : (l.insertionSort (fun a b => a.2 ≤ b.2))[i]? with
  | none => rfl
  | some p =>
    obtain ⟨nd, h1, rfl⟩ := List.mem_map.1 (hp.mem_iff.1 (List.mem_of_getElem? hi))
    have := (mem_values hg nd).1 h1
    simp only [Option.map_some, Option.bind_some]
    rw [this]; rfl

variable [DecidableEq NL] [DecidableEq EL]

/-- **C184.** After reordering by degree the node of number `i` has the `i`-th smallest degree: which one it was of
those that have it depends on the order of the hash map, the degree does not. -/
theorem c184_degrees {g : GraphMap m k NL EL} (hg : Reachable g) (rnl rel : Bool)
    {mcN mcE : List (Id k × Nat)} (hN : IsMostCommon g.view.nodeLabelIdCounter mcN)
    (hE : IsMostCommon g.view.edgeLabelIdCounter mcE) {r h}
    (hr : g.reorderId true rnl rel mcN mcE = .ok r) (hh : r.graph = some h) (i : Id m) (d : Nat) :
    total h i = .ok d ↔ (totals g)[i.val]? = some d := by
  rw [reorderId_unfold hg.inv true rnl rel hN hE] at hr
  obtain ⟨h', hw, hr⟩ := bind_eq_ok hr
  cases hr
  obtain rfl : h' = h := Option.some.inj hh
  have hid := ids_len hg.inv true
  obtain ⟨hi', H, _, _, hc⟩ := reorderIdWith_all hg.inv hid hw
  obtain ⟨i1, i2, i3, i4⟩ := idsByDegree_spec hg.inv.toNWF
  rw [idsByDegree_totals hg.inv.toNWF, total_iff]
  constructor
  · rintro ⟨nd', hx, rfl⟩
    obtain ⟨n, h5, h6⟩ := (H.hasNode i).1 ((hasNode_iff _ _).2 ⟨nd', hx⟩)
    obtain ⟨nd, hnd⟩ := (hasNode_iff _ _).1 h5
    rw [← newId_ren h6] at hx
    obtain ⟨d1, d2⟩ := H.degree_ren hg.inv hi' hid hnd hx
    have : g.idsByDegree[i.val]? = some n := (newId_some (s := ⟨g.idsByDegree⟩) i1 n i).1 h6
    rw [this, Option.bind_some, hnd, Option.map_some, d1, d2]
  · intro h
    obtain ⟨n, h1, h2⟩ := Option.bind_eq_some_iff.1 h
    obtain ⟨nd, h3, rfl⟩ := Option.map_eq_some_iff.1 h2
    have h6 : newId (some ⟨g.idsByDegree⟩) n = .ok i := (newId_some (s := ⟨g.idsByDegree⟩) i1 n i).2 h1
    obtain ⟨nd', hx⟩ := (hasNode_iff _ _).1 ((H.hasNode i).2 ⟨n, (hasNode_iff _ _).2 ⟨nd, h3⟩, h6⟩)
    refine ⟨nd', hx, ?_⟩
    rw [← newId_ren h6] at hx
    obtain ⟨d1, d2⟩ := H.degree_ren hg.inv hi' hid h3 hx
    rw [d1, d2]

/-- What `reorder_id` did was a reordering of the kind `Reachable` allows. -/
theorem reordered_reachable {g : GraphMap m k NL EL} (hg : Reachable g) (rn rnl rel : Bool)
    {mcN mcE : List (Id k × Nat)} (hN : IsMostCommon g.view.nodeLabelIdCounter mcN)
    (hE : IsMostCommon g.view.edgeLabelIdCounter mcE) {r h}
    (hr : g.reorderId rn rnl rel mcN mcE = .ok r) (hh : r.graph = some h) : Reachable h := by
  rw [reorderId_unfold hg.inv rn rnl rel hN hE] at hr
  obtain ⟨h', hw, hr⟩ := bind_eq_ok hr
  cases hr
  obtain rfl : h' = h := Option.some.inj hh
  exact .reorder _ _ _ hg (ids_len hg.inv rn) hw

omit [DecidableEq NL] [DecidableEq EL] in
theorem totals_rehash {g : GraphMap m k NL EL} {nm} (hp : g.nodeMap.Perm nm) :
    totals { g with nodeMap := nm } = totals g := by
  unfold totals
  refine sorted_unique ?_ (List.pairwise_insertionSort _ _)
  refine (List.perm_insertionSort _ _).trans (List.Perm.map _ ?_)
  exact hp.map _

/-- The degrees, ranked, are those of the graph reordered. -/
theorem totals_reordered {g : GraphMap m k NL EL} (hg : Reachable g) (rnl rel : Bool)
    {mcN mcE : List (Id k × Nat)} (hN : IsMostCommon g.view.nodeLabelIdCounter mcN)
    (hE : IsMostCommon g.view.edgeLabelIdCounter mcE) {r h}
    (hr : g.reorderId true rnl rel mcN mcE = .ok r) (hh : r.graph = some h) : totals h = totals g := by
  have hi := (reordered_reachable hg true rnl rel hN hE hr hh).inv
  have hd := c184_degrees hg rnl rel hN hE hr hh
  have hc := (c30_reorder_ids hg rnl rel hN hE hr hh).1
  let F : Id m → Nat := fun n => ((h.getNode n).map fun nd => nd.degree + nd.inDegree).getD 0
  have e1 : h.nodes.map (fun nd => nd.degree + nd.inDegree) = (h.nodes.map NodeMap.id).map F := by
    rw [List.map_map]
    refine List.map_congr_left fun nd hnd => ?_
    have := (mem_values hi.toNWF nd).1 hnd
    simp only [Function.comp, F]
    rw [this]; rfl
  have e2 : (h.nodes.map NodeMap.id).Perm (firstIds m g.nodeCount) := by
    refine (List.perm_ext_iff_of_nodup ?_ (firstIds_nodup _)).2 fun x => ?_
    · exact List.pairwise_map.2 (values_pairwise hi.toNWF)
    · rw [firstIds_mem, ← hc, hasNode_iff]
      constructor
      · intro hx
        obtain ⟨nd, h1, rfl⟩ := List.mem_map.1 hx
        exact ⟨nd, (mem_values hi.toNWF nd).1 h1⟩
      · rintro ⟨nd, h1⟩
        have h2 := hi.toNWF.ids _ _ h1
        exact List.mem_map.2 ⟨nd, (mem_values hi.toNWF nd).2 (by rw [h2]; exact h1), h2⟩
  have lenle : g.nodeCount ≤ m + 1 := by
    have := (idsByDegree_spec hg.inv.toNWF).1.length_le_card
    have h2 : g.idsByDegree.length = g.nodeCount := by
      simp [idsByDegree, nodeCount, AL.values]
    rw [h2] at this
    simpa using this
  have e3 : totals g = (firstIds m g.nodeCount).map F := by
    have l1 : (totals g).length = g.nodeCount := by simp [totals, nodes, AL.values, nodeCount]
    apply List.ext_getElem?
    intro i
    rcases Nat.lt_or_ge i g.nodeCount with h | h'
    · have hv : (Id.new i : Id m).val = i := Nat.mod_eq_of_lt (by omega)
      rw [List.getElem?_map]
      have := firstIds_get (n := g.nodeCount) (Id.new i : Id m)
      rw [hv, if_pos h] at this
      rw [this, Option.map_some]
      obtain ⟨nd, hnd⟩ := (hasNode_iff _ _).1 ((hc (Id.new i)).2 (by rw [hv]; exact h))
      have h2 := (hd _ _).1 (total_node hnd)
      rw [hv] at h2
      rw [h2]
      simp only [F, hnd, Option.map_some, Option.getD_some]
    · rw [List.getElem?_eq_none (by omega), List.getElem?_eq_none (by simp [firstIds]; omega)]
  rw [e3]
  refine sorted_unique ?_ ?_
  · rw [e1]; exact (e2.map F).symm
  · rw [← e3]; exact List.pairwise_insertionSort _ _

/-- **C184.** Reordering the reordered graph again, whatever order its hash map is in by then, leaves every number
with the degree it had. -/
theorem c184_again {g : GraphMap m k NL EL} (hg : Reachable g) (rnl rel rnl' rel' : Bool)
    {mcN mcE mcN' mcE' : List (Id k × Nat)} (hN : IsMostCommon g.view.nodeLabelIdCounter mcN)
    (hE : IsMostCommon g.view.edgeLabelIdCounter mcE) {r h}
    (hr : g.reorderId true rnl rel mcN mcE = .ok r) (hh : r.graph = some h) {nm} (hp : h.nodeMap.Perm nm)
    (hN' : IsMostCommon ({ h with nodeMap := nm } : GraphMap m k NL EL).view.nodeLabelIdCounter mcN')
    (hE' : IsMostCommon ({ h with nodeMap := nm } : GraphMap m k NL EL).view.edgeLabelIdCounter mcE') {r' j}
    (hr' : ({ h with nodeMap := nm } : GraphMap m k NL EL).reorderId true rnl' rel' mcN' mcE' = .ok r')
    (hj : r'.graph = some j) (i : Id m) (d : Nat) : total j i = .ok d ↔ total h i = .ok d := by
  have hq := (reordered_reachable hg true rnl rel hN hE hr hh).rehash hp
  rw [c184_degrees hq rnl' rel' hN' hE' hr' hj, totals_rehash hp, totals_reordered hg rnl rel hN hE hr hh,
    c184_degrees hg rnl rel hN hE hr hh]

/-! ### Labels -/

theorem uses_moved {f f' : Id k → Nat} {o : List (Id k)} (hn : o.Nodup) (hm : ∀ x, x ∈ o ↔ 0 < f x)
    (hs : o.Pairwise (fun a b => f a ≤ f b)) (hin : ∀ i : Id k, (hi : i.val < o.length) → f' i = f o[i.val])
    (hout : ∀ i : Id k, o.length ≤ i.val → f' i = 0) :
    uses f' = uses f ∧ ∀ i : Id k, (uses f)[i.val]? = if i.val < o.length then some (f' i) else none := by
  have key : ∀ i : Id k, (uses f)[i.val]? = if i.val < o.length then some (f' i) else none := by
    intro i
    rw [uses_of hn hm hs, List.getElem?_map]
    split
    · next h => rw [List.getElem?_eq_getElem h, hin i h]; rfl
    · next h => rw [List.getElem?_eq_none (by omega)]; rfl
  refine ⟨?_, key⟩
  have lenle : o.length ≤ k + 1 := by simpa using hn.length_le_card
  have hpos : ∀ i : Id k, 0 < f' i ↔ i.val < o.length := by
    intro i
    constructor
    · intro h
      by_contra hc
      have := hout i (by omega)
      omega
    · intro h
      rw [hin i h]
      exact (hm _).1 (List.getElem_mem h)
  have hord : ∀ i j : Id k, i ≤ j → j.val < o.length → f' i ≤ f' j := by
    intro i j hij hj
    have hi : i.val < o.length := lt_of_le_of_lt (Fin.le_def.1 hij) hj
    rw [hin i hi, hin j hj]
    rcases Nat.lt_or_ge i.val j.val with hlt | hge
    · exact (List.pairwise_iff_getElem.1 hs) _ _ hi hj hlt
    · obtain rfl : i = j := le_antisymm hij (Fin.le_def.2 hge)
      exact le_refl _
  have l1 : (uses f).length = o.length := by rw [uses_of hn hm hs, List.length_map]
  have e := uses_of (firstIds_nodup (k := k) o.length) (fun x => (firstIds_mem x).trans (hpos x).symm)
    ((firstIds_sorted _).imp_of_mem fun {a b} _ hb hab => hord a b (le_of_lt hab) ((firstIds_mem b).1 hb))
  have l2 : (uses f').length = o.length := by rw [e, List.length_map]; simp [firstIds]; omega
  apply List.ext_getElem?
  intro i
  rcases Nat.lt_or_ge i o.length with h | h
  · have hv : (Id.new i : Id k).val = i := Nat.mod_eq_of_lt (by omega)
    have a := key (Id.new i)
    have b := uses_get hpos hord (Id.new i)
    rw [hv] at a b
    rw [a, b]
  · rw [List.getElem?_eq_none (by omega), List.getElem?_eq_none (by omega)]

/-- **C184.** After reordering by label frequency the node label of number `i` is on the `i`-th smallest number of
nodes, and the label map has the labels in use. -/
theorem c184_node_labels {g : GraphMap m k NL EL} (hg : Reachable g) (rn rel : Bool)
    {mcN mcE : List (Id k × Nat)} (hN : IsMostCommon g.view.nodeLabelIdCounter mcN)
    (hE : IsMostCommon g.view.edgeLabelIdCounter mcE) {r h}
    (hr : g.reorderId rn true rel mcN mcE = .ok r) (hh : r.graph = some h) :
    uses (nodeFreq h) = uses (nodeFreq g) ∧
    ∀ i : Id k, (uses (nodeFreq g))[i.val]? = if i.val < h.nodeLabels.len then some (nodeFreq h i) else none := by
  have hk := (c30_reorder_node_labels hg rn rel hN hE hr hh).1
  rw [nodeIdsKnown_iff] at hk
  rw [reorderId_unfold hg.inv rn true rel hN hE] at hr
  obtain ⟨h', hw, hr⟩ := bind_eq_ok hr
  cases hr
  obtain rfl : h' = h := Option.some.inj hh
  have hid := ids_len hg.inv rn
  obtain ⟨hi', H, h3, _, _⟩ := reorderIdWith_all hg.inv hid hw
  obtain ⟨o1, o2, o3⟩ := labelOrder_spec hN
  obtain ⟨_, l2, l3⟩ := reorderLabelMap_getItem hg.inv.nlNodup h3
  have hlen : h'.nodeLabels.len = (labelOrder mcN).length := l2
  have hcount : ∀ x, nodeFreq g x = (g.view.nodes.filterMap (fun p => p.2)).count x := by
    intro x
    rw [count_filterMap]
    simp only [view, List.filter_map, List.length_map]
    rfl
  have hfreq : ∀ i : Id k, (hi : i.val < (labelOrder mcN).length) →
      nodeFreq h' i = nodeFreq g (labelOrder mcN)[i.val] := by
    intro i hi
    have hj : (⟨labelOrder mcN⟩ : SetMap (Id k)).getItem i.val = some (labelOrder mcN)[i.val] :=
      List.getElem?_eq_getElem hi
    have := H.node_freq hid (newLabel_some_iff o1 hj)
    unfold nodeFreq
    rw [nodes_filter_card hi'.toNWF, ← this, ← nodes_filter_card hg.inv.toNWF]
  have hzero : ∀ i : Id k, (labelOrder mcN).length ≤ i.val → nodeFreq h' i = 0 := by
    intro i hi
    unfold nodeFreq
    rw [nodes_filter_card hi'.toNWF, Finset.card_eq_zero, Finset.filter_eq_empty_iff]
    intro n _ hl
    have := hk n i hl
    omega
  rw [hlen]
  refine uses_moved o1 ?_ ?_ hfreq hzero
  · intro x; rw [o2, hcount, List.count_pos_iff]
  · refine o3.imp ?_
    intro a b hab
    rw [hcount, hcount]; exact hab

/-- **C184.** The same for edge labels. -/
theorem c184_edge_labels {g : GraphMap m k NL EL} (hg : Reachable g) (rn rnl : Bool)
    {mcN mcE : List (Id k × Nat)} (hN : IsMostCommon g.view.nodeLabelIdCounter mcN)
    (hE : IsMostCommon g.view.edgeLabelIdCounter mcE) (hs : EdgeIdsSymmetric g) {r h}
    (hr : g.reorderId rn rnl true mcN mcE = .ok r) (hh : r.graph = some h) :
    uses (edgeFreq h) = uses (edgeFreq g) ∧
    ∀ i : Id k, (uses (edgeFreq g))[i.val]? = if i.val < h.edgeLabels.len then some (edgeFreq h i) else none := by
  have hk := (c30_reorder_edge_labels hg rn rnl hN hE hs hr hh).1
  rw [edgeIdsKnown_iff] at hk
  rw [reorderId_unfold hg.inv rn rnl true hN hE] at hr
  obtain ⟨h', hw, hr⟩ := bind_eq_ok hr
  cases hr
  obtain rfl : h' = h := Option.some.inj hh
  have hid := ids_len hg.inv rn
  obtain ⟨hi', H, _, h3, _⟩ := reorderIdWith_all hg.inv hid hw
  obtain ⟨o1, o2, o3⟩ := labelOrder_spec hE
  obtain ⟨_, l2, l3⟩ := reorderLabelMap_getItem hg.inv.elNodup h3
  have hlen : h'.edgeLabels.len = (labelOrder mcE).length := l2
  have hsym := (edgeIdsSymmetric_iff hg.inv).1 hs
  have hcount : ∀ x, edgeFreq g x = (g.view.edges.filterMap (fun e => e.label)).count x := by
    intro x
    rw [count_filterMap]
    rfl
  have hfreq : ∀ i : Id k, (hi : i.val < (labelOrder mcE).length) →
      edgeFreq h' i = edgeFreq g (labelOrder mcE)[i.val] := by
    intro i hi
    have hj : (⟨labelOrder mcE⟩ : SetMap (Id k)).getItem i.val = some (labelOrder mcE)[i.val] :=
      List.getElem?_eq_getElem hi
    have := H.edge_freq hg.inv hid hsym (newLabel_some_iff o1 hj)
    unfold edgeFreq
    rw [edges_filter_card hi'.toNWF, ← this, ← edges_filter_card hg.inv.toNWF]
  have hzero : ∀ i : Id k, (labelOrder mcE).length ≤ i.val → edgeFreq h' i = 0 := by
    intro i hi
    unfold edgeFreq
    rw [edges_filter_card hi'.toNWF, Finset.card_eq_zero, Finset.filter_eq_empty_iff]
    rintro ⟨a, b⟩ _ ⟨hl, -⟩
    have := hk a b i hl
    omega
  rw [hlen]
  refine uses_moved o1 ?_ ?_ hfreq hzero
  · intro x; rw [o2, hcount, List.count_pos_iff]
  · refine o3.imp ?_
    intro a b hab
    rw [hcount, hcount]; exact hab

omit [DecidableEq NL] [DecidableEq EL] in
theorem nodeFreq_rehash {g : GraphMap m k NL EL} {nm} (hp : g.nodeMap.Perm nm) (x : Id k) :
    nodeFreq ({ g with nodeMap := nm } : GraphMap m k NL EL) x = nodeFreq g x :=
  (List.Perm.filter _ (hp.symm.map _)).length_eq

omit [DecidableEq NL] [DecidableEq EL] in
theorem edgeFreq_rehash {g : GraphMap m k NL EL} {nm} (hp : g.nodeMap.Perm nm) (x : Id k) :
    edgeFreq ({ g with nodeMap := nm } : GraphMap m k NL EL) x = edgeFreq g x := by
  refine (List.Perm.filter _ ?_).length_eq
  unfold edges
  have h : (AL.values nm).Perm (AL.values g.nodeMap) := hp.symm.map _
  split
  · exact h.flatMap_right _
  · exact h.flatMap_right _

/-- A symmetric graph stays one. -/
theorem symmetric_reordered {g : GraphMap m k NL EL} (hg : Reachable g) (rn rnl rel : Bool)
    {mcN mcE : List (Id k × Nat)} (hN : IsMostCommon g.view.nodeLabelIdCounter mcN)
    (hE : IsMostCommon g.view.edgeLabelIdCounter mcE) {r h} (hs : EdgeIdsSymmetric g)
    (hr : g.reorderId rn rnl rel mcN mcE = .ok r) (hh : r.graph = some h) : EdgeIdsSymmetric h := by
  have hq := reordered_reachable hg rn rnl rel hN hE hr hh
  rw [reorderId_unfold hg.inv rn rnl rel hN hE] at hr
  obtain ⟨h', hw, hr⟩ := bind_eq_ok hr
  cases hr
  obtain rfl : h' = h := Option.some.inj hh
  obtain ⟨hi', H, _, _, _⟩ := reorderIdWith_all hg.inv (ids_len hg.inv rn) hw
  rw [edgeIdsSymmetric_iff hg.inv] at hs
  rw [edgeIdsSymmetric_iff hi']
  intro hd s t
  rw [H.dir] at hd
  have step : ∀ s t l, h'.outE s t = some l → h'.outE t s = some l := by
    intro s t l hl
    obtain ⟨a, b, x, e1, e2, e3, e4⟩ := (H.arc _ _ _).1 hl
    exact (H.arc _ _ _).2 ⟨b, a, x, by rw [← hs hd]; exact e1, e3, e2, e4⟩
  cases e : h'.outE s t with
  | some l => rw [step _ _ _ e]
  | none =>
    cases e' : h'.outE t s with
    | none => rfl
    | some l => rw [step _ _ _ e'] at e; cases e

/-- **C184.** Nor do the numbers of nodes per label id change when the reordered graph is reordered again, and no
label is dropped then. -/
theorem c184_labels_again {g : GraphMap m k NL EL} (hg : Reachable g) (rn rel rn' rel' : Bool)
    {mcN mcE mcN' mcE' : List (Id k × Nat)} (hN : IsMostCommon g.view.nodeLabelIdCounter mcN)
    (hE : IsMostCommon g.view.edgeLabelIdCounter mcE) {r h}
    (hr : g.reorderId rn true rel mcN mcE = .ok r) (hh : r.graph = some h) {nm} (hp : h.nodeMap.Perm nm)
    (hN' : IsMostCommon ({ h with nodeMap := nm } : GraphMap m k NL EL).view.nodeLabelIdCounter mcN')
    (hE' : IsMostCommon ({ h with nodeMap := nm } : GraphMap m k NL EL).view.edgeLabelIdCounter mcE') {r' j}
    (hr' : ({ h with nodeMap := nm } : GraphMap m k NL EL).reorderId rn' true rel' mcN' mcE' = .ok r')
    (hj : r'.graph = some j) (i : Id k) :
    nodeFreq j i = nodeFreq h i ∧ (i.val < j.nodeLabels.len ↔ i.val < h.nodeLabels.len) := by
  have hq0 := reordered_reachable hg rn true rel hN hE hr hh
  have hq := hq0.rehash hp
  obtain ⟨a1, a2⟩ := c184_node_labels hg rn rel hN hE hr hh
  obtain ⟨b1, b2⟩ := c184_node_labels hq rn' rel' hN' hE' hr' hj
  have e : nodeFreq ({ h with nodeMap := nm } : GraphMap m k NL EL) = nodeFreq h :=
    funext (nodeFreq_rehash hp)
  have k1 := (c30_reorder_node_labels hg rn rel hN hE hr hh).1
  have k2 := (c30_reorder_node_labels hq rn' rel' hN' hE' hr' hj).1
  have hi2 := (reordered_reachable hq rn' true rel' hN' hE' hr' hj).inv
  rw [nodeIdsKnown_iff] at k1 k2
  have z : ∀ {x : GraphMap m k NL EL}, x.Inv → (∀ n l, x.labE n = some (some l) → l.val < x.nodeLabels.len) →
      ¬ i.val < x.nodeLabels.len → nodeFreq x i = 0 := by
    intro x hx hk hn
    unfold nodeFreq
    rw [nodes_filter_card hx.toNWF, Finset.card_eq_zero, Finset.filter_eq_empty_iff]
    intro n _ hl
    exact hn (hk n i hl)
  have t := b2 i
  rw [e, a1, a2 i] at t
  by_cases c1 : i.val < h.nodeLabels.len <;> by_cases c2 : i.val < j.nodeLabels.len
  · rw [if_pos c1, if_pos c2] at t
    exact ⟨(Option.some.inj t).symm, iff_of_true c2 c1⟩
  · rw [if_pos c1, if_neg c2] at t; cases t
  · rw [if_neg c1, if_pos c2] at t; cases t
  · exact ⟨by rw [z hq0.inv k1 c1, z hi2 k2 c2], iff_of_false c2 c1⟩

/-- **C184.** Nor the numbers of edges per label id. -/
theorem c184_edges_again {g : GraphMap m k NL EL} (hg : Reachable g) (rn rnl rn' rnl' : Bool)
    {mcN mcE mcN' mcE' : List (Id k × Nat)} (hN : IsMostCommon g.view.nodeLabelIdCounter mcN)
    (hE : IsMostCommon g.view.edgeLabelIdCounter mcE) (hs : EdgeIdsSymmetric g) {r h}
    (hr : g.reorderId rn rnl true mcN mcE = .ok r) (hh : r.graph = some h) {nm} (hp : h.nodeMap.Perm nm)
    (hN' : IsMostCommon ({ h with nodeMap := nm } : GraphMap m k NL EL).view.nodeLabelIdCounter mcN')
    (hE' : IsMostCommon ({ h with nodeMap := nm } : GraphMap m k NL EL).view.edgeLabelIdCounter mcE') {r' j}
    (hr' : ({ h with nodeMap := nm } : GraphMap m k NL EL).reorderId rn' rnl' true mcN' mcE' = .ok r')
    (hj : r'.graph = some j) (i : Id k) :
    edgeFreq j i = edgeFreq h i ∧ (i.val < j.edgeLabels.len ↔ i.val < h.edgeLabels.len) := by
  have hq0 := reordered_reachable hg rn rnl true hN hE hr hh
  have hq := hq0.rehash hp
  have hs0 := symmetric_reordered hg rn rnl true hN hE hs hr hh
  have hs' : EdgeIdsSymmetric ({ h with nodeMap := nm } : GraphMap m k NL EL) := by
    rw [edgeIdsSymmetric_iff hq.inv]
    rw [edgeIdsSymmetric_iff hq0.inv] at hs0
    intro hd s t
    have := hs0 hd s t
    unfold outE at this ⊢
    rw [getNode_rehash hq0.inv.toNWF hp, getNode_rehash hq0.inv.toNWF hp]
    exact this
  obtain ⟨a1, a2⟩ := c184_edge_labels hg rn rnl hN hE hs hr hh
  obtain ⟨b1, b2⟩ := c184_edge_labels hq rn' rnl' hN' hE' hs' hr' hj
  have e : edgeFreq ({ h with nodeMap := nm } : GraphMap m k NL EL) = edgeFreq h :=
    funext (edgeFreq_rehash hp)
  have k1 := (c30_reorder_edge_labels hg rn rnl hN hE hs hr hh).1
  have k2 := (c30_reorder_edge_labels hq rn' rnl' hN' hE' hs' hr' hj).1
  have hi2 := (reordered_reachable hq rn' rnl' true hN' hE' hr' hj).inv
  rw [edgeIdsKnown_iff] at k1 k2
  have z : ∀ {x : GraphMap m k NL EL}, x.Inv → (∀ s t l, x.outE s t = some (some l) → l.val < x.edgeLabels.len) →
      ¬ i.val < x.edgeLabels.len → edgeFreq x i = 0 := by
    intro x hx hk hn
    unfold edgeFreq
    rw [edges_filter_card hx.toNWF, Finset.card_eq_zero, Finset.filter_eq_empty_iff]
    rintro ⟨a, b⟩ _ ⟨hl, -⟩
    exact hn (hk a b i hl)
  have t := b2 i
  rw [e, a1, a2 i] at t
  by_cases c1 : i.val < h.edgeLabels.len <;> by_cases c2 : i.val < j.edgeLabels.len
  · rw [if_pos c1, if_pos c2] at t
    exact ⟨(Option.some.inj t).symm, iff_of_true c2 c1⟩
  · rw [if_pos c1, if_neg c2] at t; cases t
  · rw [if_neg c1, if_pos c2] at t; cases t
  · exact ⟨by rw [z hq0.inv k1 c1, z hi2 k2 c2], iff_of_false c2 c1⟩

/-- **C184.** Where the hash map happens to give the nodes of the reordered graph in ascending order, reordering by
degree again changes nothing. -/
theorem c184_fixed {g : GraphMap m k NL EL} (hg : Reachable g) (rnl rel : Bool)
    {mcN mcE mcN' mcE' : List (Id k × Nat)} (hN : IsMostCommon g.view.nodeLabelIdCounter mcN)
    (hE : IsMostCommon g.view.edgeLabelIdCounter mcE) {r h}
    (hr : g.reorderId true rnl rel mcN mcE = .ok r) (hh : r.graph = some h) {nm} (hp : h.nodeMap.Perm nm)
    (ha : (nm.map Prod.fst).Pairwise (· < ·))
    (hN' : IsMostCommon ({ h with nodeMap := nm } : GraphMap m k NL EL).view.nodeLabelIdCounter mcN')
    (hE' : IsMostCommon ({ h with nodeMap := nm } : GraphMap m k NL EL).view.edgeLabelIdCounter mcE') :
    ∃ r' j, ({ h with nodeMap := nm } : GraphMap m k NL EL).reorderId true false false mcN' mcE' = .ok r' ∧
      r'.graph = some j ∧ SameButMax h j ∧ j.maxId = h.nodeIndices.max? ∧
      ∀ n, h.hasNode n = true → r'.findNewNodeId n = .ok n := by
  have hq0 := reordered_reachable hg true rnl rel hN hE hr hh
  have hq := hq0.rehash hp
  have hc := (c30_reorder_ids hg rnl rel hN hE hr hh).1
  let q : GraphMap m k NL EL := { h with nodeMap := nm }
  have hqi : q.Inv := hq.inv
  have get : ∀ x, q.getNode x = h.getNode x := getNode_rehash hq0.inv.toNWF hp
  have hnode : ∀ x, q.hasNode x = true ↔ x.val < g.nodeCount := by
    intro x; rw [← hc, hasNode_iff, hasNode_iff, get]
  have e1 : (AL.values nm).map NodeMap.id = nm.map Prod.fst := by
    unfold AL.values
    rw [List.map_map]
    refine List.map_congr_left fun p hpm => ?_
    exact hqi.ids p.1 p.2 (AL.get_eq_of_mem hqi.keys hpm)
  have e2 : nm.map Prod.fst = firstIds m g.nodeCount := by
    refine List.Perm.eq_of_pairwise' (ha.imp fun hl => le_of_lt hl) ((firstIds_sorted _).imp fun hl => le_of_lt hl)
      ((List.perm_ext_iff_of_nodup hqi.keys (firstIds_nodup _)).2 fun x => ?_)
    rw [firstIds_mem, ← hnode]
    exact (AL.get_isSome_iff q.nodeMap x).symm
  have e3 : q.idsByDegree = firstIds m g.nodeCount := by
    have : ((AL.values nm).map (fun nd : NodeMap m k => (nd.id, nd.degree + nd.inDegree))).Pairwise
        (fun a b => a.2 ≤ b.2) := by
      rw [List.pairwise_map]
      have h1 : ((AL.values nm).map NodeMap.id).Pairwise (· < ·) := by rw [e1]; exact ha
      rw [List.pairwise_map] at h1
      refine h1.imp_of_mem ?_
      intro a b ha' hb' hab
      have ga : h.getNode a.id = some a := by rw [← get]; exact (mem_values hqi.toNWF a).1 ha'
      have gb : h.getNode b.id = some b := by rw [← get]; exact (mem_values hqi.toNWF b).1 hb'
      refine c30_reorder_sorted hg rnl rel hN hE hr hh (le_of_lt hab) (di := a.degree) (dj := b.degree) ?_ ?_ ?_ ?_
      · unfold GraphMap.degree; rw [ga]; rfl
      · unfold GraphMap.inDegree; rw [ga]; rfl
      · unfold GraphMap.degree; rw [gb]; rfl
      · unfold GraphMap.inDegree; rw [gb]; rfl
    have e4 : q.idsByDegree = (((AL.values nm).map (fun nd : NodeMap m k => (nd.id, nd.degree + nd.inDegree))).insertionSort
      (fun a b => a.2 ≤ b.2)).map Prod.fst := rfl
    rw [e4, this.insertionSort_eq, List.map_map, ← e2, ← e1]
    rfl
  have hitem : ∀ n : Id m, q.hasNode n = true → (⟨q.idsByDegree⟩ : SetMap (Id m)).getItem n.val = some n := by
    intro n hn
    show (q.idsByDegree)[n.val]? = some n
    rw [e3, firstIds_get, if_pos ((hnode n).1 hn)]
  have hnd : (⟨q.idsByDegree⟩ : SetMap (Id m)).labels.Nodup := (idsByDegree_spec hqi.toNWF).1
  obtain ⟨x, x1, x2, x3⟩ := c182_identity hq hnd hitem
  refine ⟨⟨some ⟨q.idsByDegree⟩, some x⟩, x, ?_, rfl, ?_, ?_, ?_⟩
  · rw [reorderId_unfold hqi true false false hN' hE']
    show (q.reorderIdWith (some ⟨q.idsByDegree⟩) none none >>= _) = _
    rw [x1]; rfl
  · obtain ⟨y1, y2, y3, y4, y5⟩ := x2
    exact ⟨y1, hp.trans y2, y3, y4, y5⟩
  · rw [x3]
    exact (max_perm hp).symm
  · intro n hn
    exact (newId_some hnd n n).2 (hitem n (by rw [hnode, ← hc]; exact hn))

/-- **C184.** Which node has a number does change: the hash map gave two nodes of equal degree in the other order, and
they change places. -/
theorem c184_swap : ∃ (g h j : GraphMap 9 3 String String) (nm : List (Id 9 × NodeMap 9 3))
    (r r' : ReorderResult 9 3 String String), Reachable g ∧
    g.reorderId true false false [(1, 1), (0, 1)] [] = .ok r ∧ r.graph = some h ∧ h.nodeMap.Perm nm ∧
    ({ h with nodeMap := nm } : GraphMap 9 3 String String).reorderId true false false [(1, 1), (0, 1)] [] = .ok r' ∧
    r'.graph = some j ∧ h.getNodeLabel 0 = some "a" ∧ j.getNodeLabel 0 = some "b" := by
  have hr : ∀ g, (withLabelMap (m := 9) (k := 3) (NL := String) (EL := String) false SetMap.empty SetMap.empty).exec
      [.addNode 4 (some "a"), .addNode 6 (some "b"), .addEdge 4 6 none] = .ok g → Reachable g :=
    fun g h => (GraphMap.exec_run h).reachable List.nodup_nil List.nodup_nil
  exact ⟨⟨false, [(4, ⟨4, some 0, [(6, none)], []⟩), (6, ⟨6, some 1, [(4, none)], []⟩)], 1, ⟨["a", "b"]⟩, ⟨[]⟩, some 6⟩,
    ⟨false, [(0, ⟨0, some 0, [(1, none)], []⟩), (1, ⟨1, some 1, [(0, none)], []⟩)], 1, ⟨["a", "b"]⟩, ⟨[]⟩, some 1⟩,
    ⟨false, [(0, ⟨0, some 1, [(1, none)], []⟩), (1, ⟨1, some 0, [(0, none)], []⟩)], 1, ⟨["a", "b"]⟩, ⟨[]⟩, some 1⟩,
    [(1, ⟨1, some 1, [(0, none)], []⟩), (0, ⟨0, some 0, [(1, none)], []⟩)],
    ⟨some ⟨[4, 6]⟩, some ⟨false, [(0, ⟨0, some 0, [(1, none)], []⟩), (1, ⟨1, some 1, [(0, none)], []⟩)], 1,
      ⟨["a", "b"]⟩, ⟨[]⟩, some 1⟩⟩,
    ⟨some ⟨[1, 0]⟩, some ⟨false, [(0, ⟨0, some 1, [(1, none)], []⟩), (1, ⟨1, some 0, [(0, none)], []⟩)], 1,
      ⟨["a", "b"]⟩, ⟨[]⟩, some 1⟩⟩,
    hr _ (by decide +kernel), by decide +kernel, rfl, List.Perm.swap _ _ _, by decide +kernel, rfl,
    by decide +kernel, by decide +kernel⟩

/-- The star: three nodes of degree one and one of degree three, one node under the first label and two under the
second; reordered (`Props.Reorder`) it is reordered again, from a map that gives its nodes in ascending order. -/
example : Reachable star ∧ totals star = [1, 1, 1, 3] ∧ uses (nodeFreq star) = [1, 2] ∧
    uses (edgeFreq star) = [1, 2] ∧ EdgeIdsSymmetric star ∧
    ([(3, ⟨3, some 0, [(0, some 1), (1, some 0), (2, some 1)], []⟩),
       (0, ⟨0, some 1, [(3, some 1)], []⟩), (1, ⟨1, some 1, [(3, some 0)], []⟩),
       (2, ⟨2, none, [(3, some 1)], []⟩)] : List (Id 9 × NodeMap 9 3)).Perm
      [(0, ⟨0, some 1, [(3, some 1)], []⟩), (1, ⟨1, some 1, [(3, some 0)], []⟩),
       (2, ⟨2, none, [(3, some 1)], []⟩), (3, ⟨3, some 0, [(0, some 1), (1, some 0), (2, some 1)], []⟩)] ∧
    ([0, 1, 2, 3] : List (Id 9)).Pairwise (· < ·) ∧
    IsMostCommon star.view.nodeLabelIdCounter [(1, 2), (0, 1)] ∧
    IsMostCommon star.view.edgeLabelIdCounter [(0, 2), (1, 1)] := by
  have hr : Reachable star := star_run.reachable List.nodup_nil List.nodup_nil
  refine ⟨hr, by decide +kernel, by decide +kernel, by decide +kernel, ?_, by decide, by decide,
    ⟨by decide, by decide⟩, ⟨by decide, by decide⟩⟩
  rw [edgeIdsSymmetric_iff hr.inv]
  decide +kernel

end Verif.Props
