import Verif.Proof.View

/-! What `reorder_id_with` and `reorder_id` preserve, and when they succeed. -/

namespace Verif

open Spec

theorem mapM_total {α β : Type} {f : α → Res β} {l : List α} (h : ∀ x ∈ l, ∃ y, f x = .ok y) :
    ∃ r, l.mapM f = .ok r := by
  induction l with
  | nil => exact ⟨[], rfl⟩
  | cons a l ih =>
    obtain ⟨b, hb⟩ := h a (by simp)
    obtain ⟨r, hr⟩ := ih (fun x hx => h x (by simp [hx]))
    exact ⟨b :: r, by rw [List.mapM_cons, hb, hr]; rfl⟩

theorem count_filterMap {α β : Type} [DecidableEq β] (f : α → Option β) (l : List α) (x : β) :
    (l.filterMap f).count x = (l.filter (fun a => decide (f a = some x))).length := by
  induction l with
  | nil => rfl
  | cons a l ih =>
    cases h : f a with
    | none => rw [List.filterMap_cons_none h, ih, List.filter_cons_of_neg (by simp [h])]
    | some y =>
      rw [List.filterMap_cons_some h, List.count_cons, ih]
      by_cases hy : y = x
      · rw [List.filter_cons_of_pos (by simp [h, hy])]; simp [hy]
      · rw [List.filter_cons_of_neg (by simp [h, hy])]; simp [hy]

/-- Decoding a renamed label id with the renamed map. -/
theorem newLabel_decode {k : Nat} {X : Type} [DecidableEq X] {map : Option (SetMap (Id k))}
    {old r : SetMap X} (hold : old.labels.Nodup) (hmap : ∀ s, map = some s → s.labels.Nodup)
    (h : GraphMap.newLabelMap map old = .ok r) {l l' : Option (Id k)} (hl : newLabel map l = .ok l') :
    l'.bind (fun i => r.getItem i.val) = l.bind (fun i => old.getItem i.val) := by
  cases map with
  | none =>
    cases h
    rw [GraphMap.newLabel_none] at hl
    rw [hl]
  | some s =>
    cases l with
    | none => cases hl; rfl
    | some i =>
      obtain ⟨j, h1, h2⟩ := bind_eq_ok hl
      cases h2
      rw [newId_some (hmap s rfl)] at h1
      simp only [Option.bind_some]
      rw [(reorderLabelMap_getItem hold h).2.2, h1]
      rfl

theorem newLabel_total {k : Nat} {map : Option (SetMap (Id k))} {l : Option (Id k)}
    (h : ∀ s i, map = some s → l = some i → i ∈ s.items) : ∃ l', newLabel map l = .ok l' := by
  cases map with
  | none => exact ⟨l, (GraphMap.newLabel_none _ _).2 rfl⟩
  | some s =>
    cases l with
    | none => exact ⟨none, rfl⟩
    | some i =>
      obtain ⟨j, hj⟩ := (newId_total i).2 (h s i rfl rfl)
      exact ⟨some j, by simp only [newLabel, hj, bind_ok, pure_ok]⟩

theorem newLabel_some_mem {k : Nat} {s : SetMap (Id k)} {i : Id k} {l'}
    (h : newLabel (some s) (some i) = .ok l') : i ∈ s.items := by
  obtain ⟨j, h1, _⟩ := bind_eq_ok h
  exact (newId_total i).1 ⟨j, h1⟩

theorem newId_ok {m : Nat} {map : Option (SetMap (Id m))} {i : Id m}
    (h : ∀ s, map = some s → i ∈ s.items) : ∃ j, newId map i = .ok j := by
  cases map with
  | none => exact ⟨i, (newId_none _ _).2 rfl⟩
  | some s => exact (newId_total i).2 (h s rfl)

namespace GraphMap

variable {m k : Nat} {NL EL : Type}

namespace Renamed

variable {g h : GraphMap m k NL EL} {idm : Option (SetMap (Id m))} {nlm elm : Option (SetMap (Id k))}

theorem bijOn (H : Renamed g h idm nlm elm) (hid : ∀ s, idm = some s → s.len ≤ m + 1) :
    Set.BijOn (ren idm) {n | g.hasNode n = true} {n | h.hasNode n = true} := by
  refine ⟨?_, ?_, ?_⟩
  · intro n hn; exact (H.hasNode _).2 ⟨n, hn, H.ren_ok hn⟩
  · intro a ha b hb e
    have h1 := H.ren_ok ha
    have h2 := H.ren_ok hb
    rw [← e] at h2
    exact newId_inj hid h1 h2
  · intro n' hn'
    obtain ⟨n, h1, h2⟩ := (H.hasNode n').1 hn'
    exact ⟨n, h1, newId_ren h2⟩

theorem labE_ren (H : Renamed g h idm nlm elm) {n : Id m} {l} (hn : g.labE n = some l) :
    ∃ l', newLabel nlm l = .ok l' ∧ h.labE (ren idm n) = some l' := by
  obtain ⟨n', l', h1, h2⟩ := H.nodeTotal n l hn
  exact ⟨l', h2, (H.node _ _).2 ⟨n, l, hn, by rw [newId_ren h1]; exact h1, h2⟩⟩

theorem outE_ren (H : Renamed g h idm nlm elm) (hid : ∀ s, idm = some s → s.len ≤ m + 1)
    {s t : Id m} (hs : g.hasNode s = true) (ht : g.hasNode t = true) :
    (g.outE s t = none → h.outE (ren idm s) (ren idm t) = none) ∧
    ∀ l, g.outE s t = some l →
      ∃ l', newLabel elm l = .ok l' ∧ h.outE (ren idm s) (ren idm t) = some l' := by
  refine ⟨fun hn => ?_, fun l hl => ?_⟩
  · rw [Option.eq_none_iff_forall_ne_some]
    intro l' hl'
    obtain ⟨s1, t1, l, h1, h2, h3, _⟩ := (H.arc _ _ _).1 hl'
    obtain rfl := newId_inj hid (H.ren_ok hs) h2
    obtain rfl := newId_inj hid (H.ren_ok ht) h3
    rw [hn] at h1; cases h1
  · obtain ⟨t', l', h1, h2⟩ := H.arcTotal s t l hl
    exact ⟨l', h2, (H.arc _ _ _).2 ⟨s, t, l, hl, H.ren_ok hs, H.ren_ok ht, h2⟩⟩

theorem hasEdge_ren (H : Renamed g h idm nlm elm) (hid : ∀ s, idm = some s → s.len ≤ m + 1)
    {s t : Id m} (hs : g.hasNode s = true) (ht : g.hasNode t = true) :
    h.hasEdge (ren idm s) (ren idm t) = g.hasEdge s t := by
  obtain ⟨h1, h2⟩ := H.outE_ren hid hs ht
  rw [hasEdge_eq_outE, hasEdge_eq_outE]
  cases ho : g.outE s t with
  | none => rw [h1 ho]
  | some l =>
    obtain ⟨l', _, e⟩ := h2 l ho
    rw [e]; rfl

theorem degree_ren (H : Renamed g h idm nlm elm) (hg : g.Inv) (hh : h.Inv)
    (hid : ∀ s, idm = some s → s.len ≤ m + 1) {n : Id m} {nd nd' : NodeMap m k}
    (hn : g.getNode n = some nd) (hn' : h.getNode (ren idm n) = some nd') :
    nd'.degree = nd.degree ∧ nd'.inDegree = nd.inDegree := by
  have hgn : g.hasNode n = true := (hasNode_iff _ _).2 ⟨nd, hn⟩
  constructor
  · rw [degree_eq hh.toNWF hn', degree_eq hg.toNWF hn]
    symm
    apply Finset.card_bij (fun t _ => ren idm t)
    · intro t ht
      simp only [Finset.mem_filter, Finset.mem_univ, true_and] at ht ⊢
      rw [← hasEdge_eq_outE, H.hasEdge_ren hid hgn (hg.target _ _ ht), hasEdge_eq_outE]; exact ht
    · intro a ha b hb e
      simp only [Finset.mem_filter, Finset.mem_univ, true_and] at ha hb
      exact (H.bijOn hid).2.1 (hg.target _ _ ha) (hg.target _ _ hb) e
    · intro t' ht'
      simp only [Finset.mem_filter, Finset.mem_univ, true_and] at ht'
      obtain ⟨s, t, h1, h2, h3⟩ := (H.outE _ _).1 ht'
      obtain rfl := newId_inj hid (H.ren_ok hgn) h2
      exact ⟨t, by simpa using h1, newId_ren h3⟩
  · rw [inDegree_eq hh hn', inDegree_eq hg hn, H.dir]
    split
    · symm
      apply Finset.card_bij (fun t _ => ren idm t)
      · intro t ht
        simp only [Finset.mem_filter, Finset.mem_univ, true_and] at ht ⊢
        rw [← hasEdge_eq_outE, H.hasEdge_ren hid (outE_hasNode ht) hgn, hasEdge_eq_outE]; exact ht
      · intro a ha b hb e
        simp only [Finset.mem_filter, Finset.mem_univ, true_and] at ha hb
        exact (H.bijOn hid).2.1 (outE_hasNode ha) (outE_hasNode hb) e
      · intro t' ht'
        simp only [Finset.mem_filter, Finset.mem_univ, true_and] at ht'
        obtain ⟨s, t, h1, h2, h3⟩ := (H.outE _ _).1 ht'
        obtain rfl := newId_inj hid (H.ren_ok hgn) h3
        exact ⟨s, by simpa using h1, newId_ren h2⟩
    · rfl

end Renamed

/-! ### Frequencies -/

theorem nodes_filter_card {g : GraphMap m k NL EL} (hg : g.NWF) (l : Option (Id k)) :
    (g.nodes.filter (fun nd => decide (nd.label = l))).length =
      (Finset.univ.filter (fun n => g.labE n = some l)).card := by
  rw [← List.length_map (f := fun nd : NodeMap m k => nd.id)]
  apply length_eq_card
  · have := values_pairwise hg
    exact List.pairwise_map.2 (this.filter _)
  · intro n
    constructor
    · intro h
      obtain ⟨nd, h1, rfl⟩ := List.mem_map.1 h
      obtain ⟨h2, h3⟩ := List.mem_filter.1 h1
      have := (mem_values hg nd).1 h2
      unfold labE
      rw [this]
      simpa using h3
    · intro h
      obtain ⟨nd, h1, h2⟩ := Option.map_eq_some_iff.1 h
      have hid := hg.ids n nd h1
      refine List.mem_map.2 ⟨nd, List.mem_filter.2 ⟨(mem_values hg nd).2 (by rw [hid]; exact h1), ?_⟩, hid⟩
      simp [h2]

theorem edges_filter_card {g : GraphMap m k NL EL} (hg : g.NWF) (l : Option (Id k)) :
    (g.edges.filter (fun e => decide (e.label = l))).length =
      (Finset.univ.filter (fun q : Id m × Id m =>
        g.outE q.1 q.2 = some l ∧ (g.directed = true ∨ q.1 ≤ q.2))).card := by
  rw [← List.length_map (f := fun e : Edge m k => (e.src, e.dst))]
  apply length_eq_card
  · have h1 := edgeIndices_nodup hg
    rw [edgeIndices_eq] at h1
    exact (h1.sublist (List.filter_sublist.map _))
  · rintro ⟨s, t⟩
    constructor
    · intro h
      obtain ⟨e, h1, h2⟩ := List.mem_map.1 h
      simp only [Prod.mk.injEq] at h2
      obtain ⟨rfl, rfl⟩ := h2
      obtain ⟨h3, h4⟩ := List.mem_filter.1 h1
      have := (mem_edges hg e).1 h3
      have h4 : e.label = l := by simpa using h4
      rw [h4] at this
      exact this
    · intro h
      exact List.mem_map.2 ⟨⟨s, t, l⟩, List.mem_filter.2 ⟨(mem_edges hg _).2 h, by simp⟩, rfl⟩

namespace Renamed

variable {g h : GraphMap m k NL EL} {idm : Option (SetMap (Id m))} {nlm elm : Option (SetMap (Id k))}

theorem node_freq (H : Renamed g h idm nlm elm) (hid : ∀ s, idm = some s → s.len ≤ m + 1)
    {l l' : Option (Id k)} (hinj : ∀ x, newLabel nlm x = .ok l' ↔ x = l) :
    (Finset.univ.filter (fun n => g.labE n = some l)).card =
      (Finset.univ.filter (fun n => h.labE n = some l')).card := by
  have hn : ∀ n, g.labE n = some l → g.hasNode n = true := fun n hl => by
    rw [hasNode_eq_labE, hl]; rfl
  apply Finset.card_bij (fun n _ => ren idm n)
  · intro n hl
    simp only [Finset.mem_filter, Finset.mem_univ, true_and] at hl ⊢
    exact (H.node _ _).2 ⟨n, l, hl, H.ren_ok (hn n hl), (hinj l).2 rfl⟩
  · intro a ha b hb e
    simp only [Finset.mem_filter, Finset.mem_univ, true_and] at ha hb
    exact (H.bijOn hid).2.1 (hn _ ha) (hn _ hb) e
  · intro n' hl
    simp only [Finset.mem_filter, Finset.mem_univ, true_and] at hl
    obtain ⟨n, x, h1, h2, h3⟩ := (H.node _ _).1 hl
    obtain rfl := (hinj x).1 h3
    exact ⟨n, by simpa using h1, newId_ren h2⟩

theorem edge_freq (H : Renamed g h idm nlm elm) (hg : g.Inv)
    (hid : ∀ s, idm = some s → s.len ≤ m + 1)
    (hsym : g.directed = false → ∀ s t, g.outE s t = g.outE t s)
    {l l' : Option (Id k)} (hinj : ∀ x, newLabel elm x = .ok l' ↔ x = l) :
    (Finset.univ.filter (fun q : Id m × Id m =>
        g.outE q.1 q.2 = some l ∧ (g.directed = true ∨ q.1 ≤ q.2))).card =
    (Finset.univ.filter (fun q : Id m × Id m =>
        h.outE q.1 q.2 = some l' ∧ (h.directed = true ∨ q.1 ≤ q.2))).card := by
  have hp : ∀ s t, g.outE s t = some l → (g.outE s t).isSome := fun s t e => by rw [e]; rfl
  have hpp : ∀ s' t', h.outE s' t' = some l' ↔
      ∃ s t, g.outE s t = some l ∧ newId idm s = .ok s' ∧ newId idm t = .ok t' := by
    intro s' t'
    rw [H.arc]
    constructor
    · rintro ⟨s, t, x, h1, h2, h3, h4⟩
      obtain rfl := (hinj x).1 h4
      exact ⟨s, t, h1, h2, h3⟩
    · rintro ⟨s, t, h1, h2, h3⟩
      exact ⟨s, t, l, h1, h2, h3, (hinj l).2 rfl⟩
  rw [H.dir]
  cases hd : g.directed with
  | true =>
    have := H.card_arcs hid hg.target (fun s t => g.outE s t = some l) (fun s t => h.outE s t = some l')
      hp hpp
    simpa using this
  | false =>
    have := H.card_half hid hg.target (fun s t => g.outE s t = some l) (fun s t => h.outE s t = some l')
      hp hpp (fun s t e => by rw [← hsym hd s t]; exact e)
    simpa using this

end Renamed

/-! ### Success -/

variable [DecidableEq NL] [DecidableEq EL]

/-- The maps mention everything that needs a new id. -/
structure Covers (g : GraphMap m k NL EL) (idm : Option (SetMap (Id m)))
    (nlm elm : Option (SetMap (Id k))) : Prop where
  nodes : ∀ s, idm = some s → ∀ n, g.hasNode n = true → n ∈ s.items
  nodeLabels : ∀ s, nlm = some s → ∀ n l, g.labE n = some (some l) → l ∈ s.items
  edgeLabels : ∀ s, elm = some s → ∀ a b l, g.outE a b = some (some l) → l ∈ s.items
  nodeMap : ∀ s, nlm = some s → s.labels.Nodup ∧ ∀ i ∈ s.items, i.val < g.nodeLabels.len
  edgeMap : ∀ s, elm = some s → s.labels.Nodup ∧ ∀ i ∈ s.items, i.val < g.edgeLabels.len

theorem newLabelMap_ok {X : Type} [DecidableEq X] {map : Option (SetMap (Id k))} {old : SetMap X}
    (hold : old.labels.Nodup) : (∃ r, newLabelMap map old = .ok r) ↔
      ∀ s, map = some s → s.labels.Nodup ∧ ∀ i ∈ s.items, i.val < old.len := by
  cases map with
  | none => simp [newLabelMap, pure_ok]
  | some s => simpa [newLabelMap, SetMap.items] using (reorderLabelMap_spec (s := s) hold).2

omit [DecidableEq NL] [DecidableEq EL] in
theorem reorderNode_total {g : GraphMap m k NL EL} (hg : g.Inv) {idm : Option (SetMap (Id m))}
    {nlm elm : Option (SetMap (Id k))} (hc : Covers g idm nlm elm) {n : Id m} {nd : NodeMap m k}
    (hnd : g.getNode n = some nd) : ∃ nd', reorderNode idm nlm elm nd = .ok nd' := by
  have hid := hg.ids n nd hnd
  subst hid
  have hn : g.hasNode nd.id = true := (hasNode_iff _ _).2 ⟨nd, hnd⟩
  obtain ⟨n', h1⟩ := newId_ok (map := idm) (i := nd.id) (fun s e => hc.nodes s e _ hn)
  obtain ⟨l', h2⟩ := newLabel_total (map := nlm) (l := nd.label)
    (fun s i e el => hc.nodeLabels s e nd.id i (by unfold labE; rw [hnd]; simp [el]))
  have h3 : ∃ r, reorderNeighbors idm elm nd.neighbors = .ok r := by
    unfold reorderNeighbors
    split
    · obtain ⟨r, hr⟩ := mapM_total (f := reorderArc idm elm) (l := nd.neighbors) (by
        rintro ⟨t, lb⟩ ht
        have ho : g.outE nd.id t = some lb := by
          rw [outE_of_get hnd]
          exact AL.get_eq_of_mem (sorted_nodup (hg.sortedOut _ _ hnd)) ht
        obtain ⟨t', e1⟩ := newId_ok (map := idm) (i := t)
          (fun s e => hc.nodes s e _ (hg.target nd.id t (by rw [ho]; rfl)))
        obtain ⟨lb', e2⟩ := newLabel_total (map := elm) (l := lb)
          (fun s i e el => hc.edgeLabels s e nd.id t i (by rw [ho, el]))
        exact ⟨(t', lb'), reorderArc_ok.2 ⟨e1, e2⟩⟩)
      exact ⟨collectMap r, by rw [hr]; rfl⟩
    · exact ⟨_, rfl⟩
  have h4 : ∃ r, reorderIn idm nd.inNeighbors = .ok r := by
    unfold reorderIn
    split
    · obtain ⟨r, hr⟩ := mapM_total (f := newId idm) (l := nd.inNeighbors) (by
        intro x hx
        have hi : g.inE nd.id x := ⟨nd, hnd, hx⟩
        apply newId_ok
        intro s e
        cases hd : g.directed with
        | true => exact hc.nodes s e _ (outE_hasNode ((hg.inSpec hd x nd.id).1 hi))
        | false => exact absurd hi (hg.inNil hd _ _))
      exact ⟨collectSet r, by rw [hr]; rfl⟩
    · exact ⟨_, rfl⟩
  obtain ⟨r3, h3⟩ := h3
  obtain ⟨r4, h4⟩ := h4
  exact ⟨⟨n', l', r3, r4⟩, reorderNode_ok.2 ⟨h1, h2, h3, h4⟩⟩

theorem reorderIdWith_total {g : GraphMap m k NL EL} (hg : g.Inv) {idm : Option (SetMap (Id m))}
    {nlm elm : Option (SetMap (Id k))} :
    (∃ h, g.reorderIdWith idm nlm elm = .ok h) ↔ Covers g idm nlm elm := by
  constructor
  · rintro ⟨h, hh⟩
    by_cases hcase : (idm.isNone && nlm.isNone && elm.isNone) = true
    · simp only [Bool.and_eq_true, Option.isNone_iff_eq_none] at hcase
      obtain ⟨⟨rfl, rfl⟩, rfl⟩ := hcase
      constructor <;> simp
    · unfold reorderIdWith at hh
      rw [if_neg hcase] at hh
      obtain ⟨nodes, h1, hh⟩ := bind_eq_ok hh
      obtain ⟨nl, h3, hh⟩ := bind_eq_ok hh
      obtain ⟨el, h4, hh⟩ := bind_eq_ok hh
      have each : ∀ n nd, g.getNode n = some nd → ∃ nd', reorderNode idm nlm elm nd = .ok nd' := by
        intro n nd hnd
        have hid := hg.ids n nd hnd
        subst hid
        obtain ⟨nd', -, e⟩ := forall₂_mem_left (mapM_eq_ok h1) ((mem_values hg.toNWF nd).2 hnd)
        exact ⟨nd', e⟩
      refine ⟨?_, ?_, ?_, (newLabelMap_ok hg.nlNodup).1 ⟨_, h3⟩, (newLabelMap_ok hg.elNodup).1 ⟨_, h4⟩⟩
      · rintro s rfl n hn
        obtain ⟨nd, hnd⟩ := (hasNode_iff _ _).1 hn
        obtain ⟨nd', e⟩ := each n nd hnd
        have := (reorderNode_ok.1 e).1
        rw [hg.ids n nd hnd] at this
        exact (newId_total n).1 ⟨_, this⟩
      · rintro s rfl n l hl
        obtain ⟨nd, hnd, hl⟩ := Option.map_eq_some_iff.1 hl
        obtain ⟨nd', e⟩ := each n nd hnd
        have := (reorderNode_ok.1 e).2.1
        rw [hl] at this
        exact newLabel_some_mem this
      · rintro s rfl a b l hl
        obtain ⟨nd, hnd, hl⟩ := Option.bind_eq_some_iff.1 hl
        obtain ⟨nd', e⟩ := each a nd hnd
        have := (reorderNode_ok.1 e).2.2.1
        unfold reorderNeighbors at this
        rw [if_pos (by simp)] at this
        obtain ⟨r, hr, -⟩ := bind_eq_ok this
        obtain ⟨p, -, hp⟩ := forall₂_mem_left (mapM_eq_ok hr) ((AL.mem_iff_get (sorted_nodup (hg.sortedOut _ _ hnd))).2 hl)
        exact newLabel_some_mem (reorderArc_ok.1 hp).2
  · intro hc
    unfold reorderIdWith
    split
    · exact ⟨g, rfl⟩
    · obtain ⟨nodes, h1⟩ := mapM_total (f := reorderNode idm nlm elm) (l := AL.values g.nodeMap)
        (fun nd hnd => reorderNode_total hg hc ((mem_values hg.toNWF nd).1 hnd))
      obtain ⟨nl, h2⟩ := (newLabelMap_ok (map := nlm) hg.nlNodup).2 hc.nodeMap
      obtain ⟨el, h3⟩ := (newLabelMap_ok (map := elm) hg.elNodup).2 hc.edgeMap
      exact ⟨_, by rw [h1, bind_ok, h2, bind_ok, h3, bind_ok]; rfl⟩

/-- All facts about a successful call at once. -/
theorem reorderIdWith_all {g h : GraphMap m k NL EL} (hg : g.Inv) {idm : Option (SetMap (Id m))}
    {nlm elm : Option (SetMap (Id k))} (hid : ∀ s, idm = some s → s.len ≤ m + 1)
    (hh : g.reorderIdWith idm nlm elm = .ok h) :
    h.Inv ∧ Renamed g h idm nlm elm ∧ newLabelMap nlm g.nodeLabels = .ok h.nodeLabels ∧
      newLabelMap elm g.edgeLabels = .ok h.edgeLabels ∧ h.nodeCount = g.nodeCount := by
  refine ⟨inv_reorder hg hid hh, ?_⟩
  by_cases hcase : (idm.isNone && nlm.isNone && elm.isNone) = true
  · simp only [Bool.and_eq_true, Option.isNone_iff_eq_none] at hcase
    obtain ⟨⟨rfl, rfl⟩, rfl⟩ := hcase
    rw [reorderIdWith_none] at hh
    cases hh
    exact ⟨renamed_refl g, rfl, rfl, rfl⟩
  · obtain ⟨_, H, h3, h4, _, h6⟩ := reorderIdWith_spec hg.toNWF hid hh hcase
    refine ⟨H, h3, h4, ?_⟩
    simpa [nodeCount, nodeIndices, AL.keys] using h6

theorem getNodeLabel_ren {g h : GraphMap m k NL EL} (hg : g.Inv) {idm : Option (SetMap (Id m))}
    {nlm elm : Option (SetMap (Id k))} (hid : ∀ s, idm = some s → s.len ≤ m + 1)
    (hh : g.reorderIdWith idm nlm elm = .ok h) {n : Id m} (hn : g.hasNode n = true) :
    h.getNodeLabel (ren idm n) = g.getNodeLabel n := by
  obtain ⟨hi, H, h3, h4, _⟩ := reorderIdWith_all hg hid hh
  have hc := (reorderIdWith_total hg).1 ⟨h, hh⟩
  rw [hasNode_eq_labE] at hn
  obtain ⟨l, hl⟩ := Option.isSome_iff_exists.1 hn
  obtain ⟨l', e1, e2⟩ := H.labE_ren hl
  rw [getNodeLabel_eq, getNodeLabel_eq]
  unfold decode
  simp only [hl, e2, Option.map_some, Option.join_some]
  exact newLabel_decode hg.nlNodup (fun s e => (hc.nodeMap s e).1) h3 e1

theorem getEdgeLabel_ren {g h : GraphMap m k NL EL} (hg : g.Inv) {idm : Option (SetMap (Id m))}
    {nlm elm : Option (SetMap (Id k))} (hid : ∀ s, idm = some s → s.len ≤ m + 1)
    (hh : g.reorderIdWith idm nlm elm = .ok h) {s t : Id m} (hs : g.hasNode s = true)
    (ht : g.hasNode t = true) :
    h.getEdgeLabel (ren idm s) (ren idm t) = g.getEdgeLabel s t := by
  obtain ⟨hi, H, h3, h4, _⟩ := reorderIdWith_all hg hid hh
  have hc := (reorderIdWith_total hg).1 ⟨h, hh⟩
  obtain ⟨e1, e2⟩ := H.outE_ren hid hs ht
  rw [getEdgeLabel_eq, getEdgeLabel_eq]
  unfold decode
  cases ho : g.outE s t with
  | none => simp [ho, e1 ho]
  | some l =>
    obtain ⟨l', f1, f2⟩ := e2 l ho
    simp only [ho, f2, Option.map_some, Option.join_some]
    rw [newLabel_decode hg.elNodup (fun s e => (hc.edgeMap s e).1) h4 f1]

/-! ### `reorder_id` -/

omit [DecidableEq NL] [DecidableEq EL] in
/-- The id order lists the nodes, without repeats, by degree plus in-degree. -/
theorem idsByDegree_spec {g : GraphMap m k NL EL} (hg : g.NWF) :
    g.idsByDegree.Nodup ∧ (∀ n, n ∈ g.idsByDegree ↔ g.hasNode n = true) ∧
    g.idsByDegree.length = g.nodeCount ∧
    g.idsByDegree.Pairwise (fun a b => ∀ na nb, g.getNode a = some na → g.getNode b = some nb →
      na.degree + na.inDegree ≤ nb.degree + nb.inDegree) := by
  let l := (AL.values g.nodeMap).map (fun nd : NodeMap m k => (nd.id, nd.degree + nd.inDegree))
  have hp : (l.insertionSort (fun a b => a.2 ≤ b.2)).Perm l := List.perm_insertionSort _ _
  have hs : (l.insertionSort (fun a b => a.2 ≤ b.2)).Pairwise (fun a b => a.2 ≤ b.2) :=
    haveI : IsTrans (Id m × Nat) (fun a b => a.2 ≤ b.2) := ⟨fun _ _ _ => le_trans⟩
    haveI : Std.Total (fun a b : Id m × Nat => a.2 ≤ b.2) := ⟨fun a b => le_total a.2 b.2⟩
    List.pairwise_insertionSort _ l
  have hids : l.map Prod.fst = (AL.values g.nodeMap).map (·.id) := by simp [l]
  have hperm : g.idsByDegree.Perm ((AL.values g.nodeMap).map (·.id)) := by
    rw [← hids]; exact hp.map _
  refine ⟨?_, ?_, ?_, ?_⟩
  · exact hperm.nodup_iff.2 (List.pairwise_map.2 (values_pairwise hg))
  · intro n
    rw [hperm.mem_iff, List.mem_map, hasNode_iff]
    constructor
    · rintro ⟨nd, h1, rfl⟩; exact ⟨nd, (mem_values hg nd).1 h1⟩
    · rintro ⟨nd, h1⟩
      have := hg.ids n nd h1
      exact ⟨nd, (mem_values hg nd).2 (by rw [this]; exact h1), this⟩
  · rw [hperm.length_eq]; simp [AL.values, nodeCount]
  · show ((l.insertionSort (fun a b => a.2 ≤ b.2)).map Prod.fst).Pairwise _
    rw [List.pairwise_map]
    have hval : ∀ p ∈ l.insertionSort (fun a b => a.2 ≤ b.2), ∀ nd, g.getNode p.1 = some nd →
        p.2 = nd.degree + nd.inDegree := by
      intro p hp' nd hnd
      obtain ⟨nd', h1, rfl⟩ := List.mem_map.1 (hp.mem_iff.1 hp')
      have := (mem_values hg nd').1 h1
      simp only at hnd
      rw [this] at hnd
      cases hnd; rfl
    apply hs.imp_of_mem
    intro a b ha hb hab na nb h1 h2
    rw [← hval a ha na h1, ← hval b hb nb h2]; exact hab

theorem counterOf_pos {X : Type} [DecidableEq X] (l : List X) (p : X × Nat) (h : p ∈ counterOf l) :
    p.1 ∈ l ∧ p.2 = l.count p.1 ∧ 0 < p.2 := by
  have h1 := AL.get_eq_of_mem (counterOf_keys_nodup l) (k := p.1) (v := p.2) h
  rw [counterOf_get] at h1
  split at h1
  · rename_i hm
    have : p.2 = l.count p.1 := (Option.some.inj h1).symm
    exact ⟨hm, this, by rw [this]; exact List.count_pos_iff.2 hm⟩
  · cases h1

/-- The label order lists the counted ids, without repeats, by frequency. -/
theorem labelOrder_spec {l : List (Id k)} {mc} (h : IsMostCommon (counterOf l) mc) :
    (labelOrder mc).Nodup ∧ (∀ x, x ∈ labelOrder mc ↔ x ∈ l) ∧
    (labelOrder mc).Pairwise (fun a b => l.count a ≤ l.count b) := by
  obtain ⟨hp, hs⟩ := h
  have hmem : ∀ p ∈ mc, p.1 ∈ l ∧ p.2 = l.count p.1 ∧ 0 < p.2 :=
    fun p hp' => counterOf_pos l p (hp.mem_iff.1 hp')
  have hdw : mc.reverse.dropWhile (fun p => p.2 == 0) = mc.reverse := by
    cases hr : mc.reverse with
    | nil => rfl
    | cons a r =>
      rw [List.dropWhile_cons_of_neg]
      have := (hmem a (by rw [← List.mem_reverse, hr]; simp)).2.2
      simp; omega
  unfold labelOrder
  rw [hdw]
  refine ⟨?_, ?_, ?_⟩
  · rw [List.map_reverse, List.nodup_reverse]
    exact (hp.map Prod.fst).nodup_iff.2 (counterOf_keys_nodup l)
  · intro x
    rw [List.map_reverse, List.mem_reverse, (hp.map Prod.fst).mem_iff]
    show x ∈ AL.keys (counterOf l) ↔ _
    rw [← AL.get_isSome_iff, counterOf_get]
    split <;> simp_all
  · rw [List.pairwise_map, List.pairwise_reverse]
    apply hs.imp_of_mem
    intro a b ha hb hab
    rw [← (hmem a ha).2.1, ← (hmem b hb).2.1]; exact hab

theorem mapIf_nodup {X : Type} [DecidableEq X] (flag : Bool) {l : List X} (hl : l.Nodup) :
    mapIf flag l = .ok (if flag then some ⟨l⟩ else none) := by
  cases flag with
  | false => rfl
  | true =>
    unfold mapIf
    rw [if_pos rfl, SetMap.fromIter_eq, SetMap.fromVec_of_nodup hl]
    rfl

end GraphMap

end Verif
