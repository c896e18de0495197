import Verif.Props.Reorder

/-! C134: `reorder_id_with` given `VecMap`s, which may have repeats. -/

namespace Verif.Props

open GraphMap Spec

/-- **C134.** A `VecMap` and a `SetMap` with the same entries answer `find_index` and `items`, all that
`reorder_id_with` asks them, alike, even if there are repeats. -/
theorem c134_answers {X : Type} [DecidableEq X] (v : VecMap X) (x : X) :
    v.findIndex x = (⟨v.items⟩ : SetMap X).findIndex x ∧ v.items = (⟨v.items⟩ : SetMap X).items :=
  ⟨VecMap.findIndex_eq v x, rfl⟩

variable {m k : Nat} {NL EL : Type} [DecidableEq NL] [DecidableEq EL]

/-- **C134.** `reorder_id_with` panics exactly if a map lacks an id in use, or a label map lists an id twice or an
id without a label. Repeats of node ids do not matter. -/
theorem c134_total {g : GraphMap m k NL EL} (hg : Reachable g)
    (idm : Option (VecMap (Id m))) (nlm elm : Option (VecMap (Id k))) :
    (∃ h, g.reorderIdWithVec idm nlm elm = .ok h) ↔
      (∀ s, idm = some s → ∀ n, g.hasNode n = true → n ∈ s.items) ∧
      (∀ s, nlm = some s → s.items.Nodup ∧
        (∀ n nd l, g.getNode n = some nd → nd.label = some l → l ∈ s.items) ∧
        ∀ i ∈ s.items, i.val < g.nodeLabels.len) ∧
      (∀ s, elm = some s → s.items.Nodup ∧
        (∀ a b e l, g.getEdge a b = .ok (some e) → e.label = some l → l ∈ s.items) ∧
        ∀ i ∈ s.items, i.val < g.edgeLabels.len) := by
  unfold reorderIdWithVec
  rw [reorderIdWith_total hg.inv]
  constructor
  · rintro ⟨c1, c2, c3, c4, c5⟩
    refine ⟨?_, ?_, ?_⟩
    · rintro s rfl; exact c1 _ rfl
    · rintro s rfl
      refine ⟨(c4 _ rfl).1, fun n nd l hn hl => c2 _ rfl n l (by simp [labE, hn, hl]), (c4 _ rfl).2⟩
    · rintro s rfl
      refine ⟨(c5 _ rfl).1, fun a b e' l he hl => ?_, (c5 _ rfl).2⟩
      rw [getEdge_eq_outE] at he
      obtain ⟨l', h4, rfl⟩ := Option.map_eq_some_iff.1 (Except.ok.inj he)
      exact c3 _ rfl a b l (by rw [h4, ← hl])
  · rintro ⟨c1, c2, c3⟩
    refine ⟨?_, ?_, ?_, ?_, ?_⟩
    · intro s e
      obtain ⟨v, rfl, rfl⟩ := Option.map_eq_some_iff.1 e
      exact c1 v rfl
    · intro s e n l hl
      obtain ⟨v, rfl, rfl⟩ := Option.map_eq_some_iff.1 e
      obtain ⟨nd, h4, h5⟩ := Option.map_eq_some_iff.1 hl
      exact (c2 v rfl).2.1 n nd l h4 h5
    · intro s e a b l hl
      obtain ⟨v, rfl, rfl⟩ := Option.map_eq_some_iff.1 e
      exact (c3 v rfl).2.1 a b ⟨a, b, some l⟩ l (by rw [getEdge_eq_outE, hl]; rfl) rfl
    · intro s e
      obtain ⟨v, rfl, rfl⟩ := Option.map_eq_some_iff.1 e
      exact ⟨(c2 v rfl).1, (c2 v rfl).2.2⟩
    · intro s e
      obtain ⟨v, rfl, rfl⟩ := Option.map_eq_some_iff.1 e
      exact ⟨(c3 v rfl).1, (c3 v rfl).2.2⟩

/-- **C134.** With no more entries than there are ids the new graph is isomorphic to the old one; the new id of a
node is its first position in the map, and labels keep their meaning. -/
theorem c134_isomorphism {g h : GraphMap m k NL EL} (hg : Reachable g)
    (idm : Option (VecMap (Id m))) (nlm elm : Option (VecMap (Id k)))
    (hid : ∀ s, idm = some s → s.len ≤ m + 1) (hh : g.reorderIdWithVec idm nlm elm = .ok h) :
    Reachable h ∧ h.isDirected = g.isDirected ∧ h.nodeCount = g.nodeCount ∧
    h.edgeCount = g.edgeCount ∧
    ∃ f, Carries f g h ∧ (idm = none → f = id) ∧
      ∀ s, idm = some s → ∀ n, g.hasNode n = true → s.findIndex n = some (f n).val := by
  have hid' : ∀ s : SetMap (Id m), idm.map (fun v => ⟨v.items⟩) = some s → s.len ≤ m + 1 := by
    intro s e
    obtain ⟨v, rfl, rfl⟩ := Option.map_eq_some_iff.1 e
    exact hid v rfl
  unfold reorderIdWithVec at hh
  obtain ⟨_, H, _, _, hc⟩ := reorderIdWith_all hg.inv hid' hh
  refine ⟨.reorder _ _ _ hg hid' hh, H.dir, hc, H.cnt, ren _,
    ⟨H.bijOn hid', fun n hn => getNodeLabel_ren hg.inv hid' hh hn, fun s t hs ht =>
      ⟨H.hasEdge_ren hid' hs ht, getEdgeLabel_ren hg.inv hid' hh hs ht⟩⟩, ?_, ?_⟩
  · rintro rfl; funext n; exact newId_ren ((newId_none _ _).2 rfl)
  · rintro s rfl n hn
    rw [(c134_answers s n).1]
    exact (newId_first (hid s rfl) _ _).1 (H.ren_ok hn)

omit [DecidableEq NL] [DecidableEq EL] in
theorem mem_keys_foldl_hinsert (nodes : List (NodeMap m k)) (acc : List (Id m × NodeMap m k)) (x : Id m) :
    x ∈ AL.keys (nodes.foldl (fun nm nd => AL.hinsert nm nd.id nd) acc) ↔
      x ∈ AL.keys acc ∨ ∃ nd ∈ nodes, nd.id = x := by
  induction nodes generalizing acc with
  | nil => simp
  | cons nd nodes ih =>
    rw [List.foldl_cons, ih, AL.keys_hinsert]
    split
    · rename_i hm
      constructor
      · rintro (h | ⟨n, h, e⟩)
        · exact .inl h
        · exact .inr ⟨n, .tail _ h, e⟩
      · rintro (h | ⟨n, h, e⟩)
        · exact .inl h
        · rcases List.mem_cons.1 h with rfl | h
          · exact .inl (e ▸ hm)
          · exact .inr ⟨n, h, e⟩
    · rw [List.mem_append, List.mem_singleton]
      constructor
      · rintro ((h | h) | ⟨n, h, e⟩)
        · exact .inl h
        · exact .inr ⟨nd, .head _, h.symm⟩
        · exact .inr ⟨n, .tail _ h, e⟩
      · rintro (h | ⟨n, h, e⟩)
        · exact .inl (.inl h)
        · rcases List.mem_cons.1 h with rfl | h
          · exact .inl (.inr e.symm)
          · exact .inr ⟨n, h, e⟩

/-- **C134.** Whatever the length of the map, the nodes of the new graph are the first positions of the nodes of
the old one, reduced to the id type, and the largest of them is its `max_seen_id`. -/
theorem c134_nodes {g h : GraphMap m k NL EL} (hg : Reachable g) (v : VecMap (Id m))
    (nlm elm : Option (VecMap (Id k))) (hh : g.reorderIdWithVec (some v) nlm elm = .ok h) :
    (∀ x, h.hasNode x = true ↔ ∃ n j, g.hasNode n = true ∧ v.findIndex n = some j ∧ x.val = j % (m + 1)) ∧
    h.maxSeenId = h.nodeIndices.max? ∧ h.edgeCount = g.edgeCount := by
  unfold reorderIdWithVec reorderIdWith at hh
  rw [if_neg (by simp)] at hh
  obtain ⟨nodes, h1, hh⟩ := bind_eq_ok hh
  obtain ⟨nl, h3, hh⟩ := bind_eq_ok hh
  obtain ⟨el, h4, hh⟩ := bind_eq_ok hh
  cases hh
  refine ⟨fun x => ?_, rfl, rfl⟩
  have hk : ∀ (nm : List (Id m × NodeMap m k)) a b c d e,
      (⟨a, nm, b, c, d, e⟩ : GraphMap m k NL EL).hasNode x = true ↔ x ∈ AL.keys nm := by
    intro nm a b c d e
    exact AL.get_isSome_iff _ _
  rw [hk, mem_keys_foldl_hinsert]
  have hnew : ∀ n y : Id m, newId (some (⟨v.items⟩ : SetMap (Id m))) n = .ok y ↔
      ∃ j, v.findIndex n = some j ∧ y.val = j % (m + 1) := by
    intro n y
    rw [(c134_answers v n).1]
    have e : newId (some (⟨v.items⟩ : SetMap (Id m))) n =
      (unwrap ((⟨v.items⟩ : SetMap (Id m)).findIndex n) >>= fun j => pure (Id.new j)) := rfl
    rw [e]
    cases (⟨v.items⟩ : SetMap (Id m)).findIndex n with
    | none => simp [unwrap]
    | some j =>
      simp only [unwrap, bind_ok, pure_ok, Except.ok.injEq, Option.some.injEq, exists_eq_left']
      constructor
      · rintro rfl; rfl
      · intro h; exact Fin.ext h.symm
  have hF := mapM_eq_ok h1
  constructor
  · rintro (h | ⟨nd', hm, rfl⟩)
    · cases h
    · obtain ⟨nd, hnd, e⟩ := forall₂_mem_right hF hm
      have hnd := (mem_values hg.inv.toNWF nd).1 hnd
      obtain ⟨j, e1, e2⟩ := (hnew _ _).1 (reorderNode_ok.1 e).1
      exact ⟨nd.id, j, (hasNode_iff _ _).2 ⟨nd, hnd⟩, e1, e2⟩
  · rintro ⟨n, j, hn, e1, e2⟩
    obtain ⟨nd, hnd⟩ := (hasNode_iff _ _).1 hn
    obtain rfl := hg.inv.ids n nd hnd
    obtain ⟨nd', hm, e⟩ := forall₂_mem_left hF ((mem_values hg.inv.toNWF nd).2 hnd)
    refine .inr ⟨nd', hm, ?_⟩
    have h5 := (reorderNode_ok.1 e).1
    have h6 := (hnew nd.id x).2 ⟨j, e1, e2⟩
    exact Except.ok.inj (h5.symm.trans h6)

/-- **C134.** A map with more entries than there are ids can merge nodes: here node 1 comes third and there are
two ids. The edge count stays. -/
theorem c134_merges : ∃ g h : GraphMap 1 3 String String,
    (withLabelMap true SetMap.empty SetMap.empty).exec [.addNode 0 none, .addEdge 0 1 none] = .ok g ∧
    g.reorderIdWithVec (some (.withData [0, 0, 1])) none none = .ok h ∧
    g.nodeCount = 2 ∧ h.nodeCount = 1 ∧ h.hasNode 1 = false ∧ h.edgeCount = 1 ∧ h.hasEdge 0 0 = false ∧
    h.edgeIndices = [] := by
  obtain ⟨g, hg⟩ : ∃ g, (withLabelMap true SetMap.empty SetMap.empty : GraphMap 1 3 String String).exec
    [.addNode 0 none, .addEdge 0 1 none] = .ok g := ⟨_, rfl⟩
  obtain ⟨h, hh⟩ : ∃ h, g.reorderIdWithVec (some (.withData [0, 0, 1])) none none = .ok h := by
    cases hg; exact ⟨_, rfl⟩
  refine ⟨g, h, hg, hh, ?_⟩
  cases hg; cases hh; decide

/-- The hypotheses of `c134_isomorphism` are met: repeats leave gaps among the new ids. -/
example : Reachable star ∧ ∃ h, star.reorderIdWithVec (some (.withData [2, 2, 9, 5, 9, 7])) none none = .ok h ∧
    h.hasNode 0 = true ∧ h.hasNode 1 = false ∧ h.hasEdge 3 0 = true ∧ h.getEdgeLabel 0 3 = .ok (some "y") ∧
    h.maxSeenId = some 5 :=
  ⟨star_run.reachable List.nodup_nil List.nodup_nil, by
    obtain ⟨h, hh⟩ : ∃ h, star.reorderIdWithVec (some (.withData [2, 2, 9, 5, 9, 7])) none none = .ok h :=
      ⟨_, rfl⟩
    refine ⟨h, hh, ?_⟩
    cases hh; decide⟩

/-- Repeats in a label map make it panic, as `c134_total` says. -/
example : star.reorderIdWithVec none (some (.withData [1, 0])) none ≠ .error .unwrapNone ∧
    star.reorderIdWithVec none (some (.withData [1, 0, 1])) none = .error .unwrapNone := by decide

end Verif.Props
