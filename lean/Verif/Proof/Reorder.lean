import Verif.Proof.Counting
import Verif.Model.Reorder

/-! `reorder_id_with` as a renaming. -/

namespace Verif

open Spec

theorem Id_new_lt {m x : Nat} (h : x ≤ m) : (Id.new x : Id m).val = x := by
  simp [Id.new, Fin.ofNat, Nat.mod_eq_of_lt (Nat.lt_succ_of_le h)]

theorem SetMap.len_le {m : Nat} {s : SetMap (Id m)} (hs : s.labels.Nodup) : s.len ≤ m + 1 := by
  have := hs.length_le_card
  simpa [SetMap.len] using this

theorem SetMap.findIndex_lt {X : Type} [DecidableEq X] {s : SetMap X} {x : X} {j : Nat}
    (h : s.findIndex x = some j) : s.getItem j = some x ∧ j < s.len := by
  unfold findIndex at h
  by_cases hx : x ∈ s.labels
  · rw [idxOf?_of_mem hx] at h
    cases h
    exact ⟨by simp [getItem, hx], List.idxOf_lt_length_iff.2 hx⟩
  · rw [List.idxOf?_eq_none_iff.2 hx] at h; cases h

/-- The answer of `newId` with a map without repeats. -/
theorem newId_some {m : Nat} {s : SetMap (Id m)} (hs : s.labels.Nodup) (i j : Id m) :
    newId (some s) i = .ok j ↔ s.getItem j.val = some i := by
  rw [← SetMap.findIndex_iff hs]
  have e : newId (some s) i = (unwrap (s.findIndex i) >>= fun j => pure (Id.new j)) := rfl
  rw [e]
  cases h : s.findIndex i with
  | none => simp [unwrap]
  | some x =>
    have hx := (SetMap.findIndex_lt h).2
    have hl := SetMap.len_le hs
    have hv : (Id.new x : Id m).val = x := Id_new_lt (by omega)
    simp only [unwrap, bind_ok, pure_ok, Except.ok.injEq, Option.some.injEq]
    constructor
    · rintro rfl; exact hv.symm
    · rintro rfl; exact Fin.ext hv

theorem newId_none {m : Nat} (i j : Id m) : newId none i = .ok j ↔ i = j := by
  simp [newId, pure_ok]

/-- The answer of `newId` with a map that may have repeats but is not longer than the id type. -/
theorem newId_first {m : Nat} {s : SetMap (Id m)} (hs : s.len ≤ m + 1) (i j : Id m) :
    newId (some s) i = .ok j ↔ s.findIndex i = some j.val := by
  have e : newId (some s) i = (unwrap (s.findIndex i) >>= fun j => pure (Id.new j)) := rfl
  rw [e]
  cases h : s.findIndex i with
  | none => simp [unwrap]
  | some x =>
    have hx := (SetMap.findIndex_lt h).2
    have hv : (Id.new x : Id m).val = x := Id_new_lt (by omega)
    simp only [unwrap, bind_ok, pure_ok, Except.ok.injEq, Option.some.injEq]
    constructor
    · rintro rfl; exact hv.symm
    · rintro rfl; exact Fin.ext hv

theorem newId_inj {m : Nat} {map : Option (SetMap (Id m))} (hs : ∀ s, map = some s → s.len ≤ m + 1)
    {a b c : Id m} (h1 : newId map a = .ok c) (h2 : newId map b = .ok c) : a = b := by
  cases map with
  | none => rw [newId_none] at h1 h2; rw [h1, h2]
  | some s =>
    rw [newId_first (hs s rfl)] at h1 h2
    have h1 := (SetMap.findIndex_lt h1).1
    have h2 := (SetMap.findIndex_lt h2).1
    rw [h1] at h2; exact Option.some.inj h2

theorem newId_total {m : Nat} {s : SetMap (Id m)} (i : Id m) :
    (∃ j, newId (some s) i = .ok j) ↔ i ∈ s.items := by
  unfold newId SetMap.items SetMap.findIndex
  by_cases h : i ∈ s.labels
  · simp [SetMap.idxOf?_of_mem h, unwrap, bind_ok, pure_ok, h]
  · simp [List.idxOf?_eq_none_iff.2 h, unwrap, h]

theorem foldl_binsert {K V : Type} [LinearOrder K] (l acc : List (K × V))
    (hacc : (AL.keys acc).Pairwise (· < ·)) (hn : (AL.keys l).Nodup) :
    (AL.keys (l.foldl (fun acc p => AL.binsert acc p.1 p.2) acc)).Pairwise (· < ·) ∧
    ∀ x, AL.get (l.foldl (fun acc p => AL.binsert acc p.1 p.2) acc) x =
      (AL.get l x).or (AL.get acc x) := by
  induction l generalizing acc with
  | nil => exact ⟨hacc, fun x => by simp [AL.get]⟩
  | cons p l ih =>
    obtain ⟨a, v⟩ := p
    have hn' : a ∉ AL.keys l ∧ (AL.keys l).Nodup := by simpa [AL.keys] using hn
    obtain ⟨h1, h2⟩ := ih (AL.binsert acc a v) (AL.sorted_binsert hacc a v) hn'.2
    refine ⟨h1, fun x => ?_⟩
    rw [List.foldl_cons, h2, AL.get_binsert]
    simp only [AL.get]
    have hna : AL.get l a = none := (AL.get_eq_none_iff l a).2 hn'.1
    by_cases hx : a = x
    · subst hx; simp [hna]
    · simp [hx]

theorem foldl_sinsert {K : Type} [LinearOrder K] (l acc : List K) (hacc : acc.Pairwise (· < ·)) :
    (l.foldl BSet.sinsert acc).Pairwise (· < ·) ∧
    ∀ x, x ∈ l.foldl BSet.sinsert acc ↔ x ∈ l ∨ x ∈ acc := by
  induction l generalizing acc with
  | nil => exact ⟨hacc, fun x => by simp⟩
  | cons a l ih =>
    obtain ⟨h1, h2⟩ := ih (BSet.sinsert acc a) (BSet.sorted_sinsert hacc a)
    refine ⟨h1, fun x => ?_⟩
    rw [List.foldl_cons, h2, BSet.mem_sinsert, List.mem_cons]
    tauto

theorem foldl_hinsert {K V W : Type} [DecidableEq K] (key : W → K) (val : W → V) (l : List W)
    (acc : List (K × V)) (hn : (AL.keys acc ++ l.map key).Nodup) :
    l.foldl (fun nm w => AL.hinsert nm (key w) (val w)) acc =
      acc ++ l.map (fun w => (key w, val w)) := by
  induction l generalizing acc with
  | nil => simp
  | cons a l ih =>
    rw [List.foldl_cons]
    have hk : key a ∉ AL.keys acc := by
      rw [List.nodup_append'] at hn
      intro h
      exact hn.2.2 h (by simp)
    have hnone : AL.get acc (key a) = none := (AL.get_eq_none_iff _ _).2 hk
    have hi : AL.hinsert acc (key a) (val a) = acc ++ [(key a, val a)] := by
      simp [AL.hinsert, hnone]
    rw [hi, ih]
    · simp
    · have : AL.keys (acc ++ [(key a, val a)]) ++ l.map key = AL.keys acc ++ (a :: l).map key := by
        simp [AL.keys]
      rw [this]; exact hn

theorem forall₂_mem_left {α β : Type} {R : α → β → Prop} {l : List α} {r : List β}
    (h : List.Forall₂ R l r) {a : α} (ha : a ∈ l) : ∃ b ∈ r, R a b := by
  induction h with
  | nil => cases ha
  | cons h1 h2 ih =>
    rcases List.mem_cons.1 ha with rfl | ha
    · exact ⟨_, by simp, h1⟩
    · obtain ⟨b, hb, hR⟩ := ih ha; exact ⟨b, by simp [hb], hR⟩

theorem forall₂_mem_right {α β : Type} {R : α → β → Prop} {l : List α} {r : List β}
    (h : List.Forall₂ R l r) {b : β} (hb : b ∈ r) : ∃ a ∈ l, R a b := by
  induction h with
  | nil => cases hb
  | cons h1 h2 ih =>
    rcases List.mem_cons.1 hb with rfl | hb
    · exact ⟨_, by simp, h1⟩
    · obtain ⟨a, ha, hR⟩ := ih hb; exact ⟨a, by simp [ha], hR⟩

/-- Distinctness passes along a relation that reads off an injective renaming. -/
theorem forall₂_nodup {α β K : Type} {R : α → β → Prop} {l : List α} {r : List β}
    (ka : α → K) (kb : β → K) (h : List.Forall₂ R l r)
    (inj : ∀ a a' b b', R a b → R a' b' → kb b = kb b' → ka a = ka a')
    (hn : (l.map ka).Nodup) : (r.map kb).Nodup := by
  induction h with
  | nil => simp
  | @cons a b l r h1 h2 ih =>
    rw [List.map_cons, List.nodup_cons] at hn
    rw [List.map_cons, List.nodup_cons]
    refine ⟨fun hb => ?_, ih hn.2⟩
    obtain ⟨b', hb', he⟩ := List.mem_map.1 hb
    obtain ⟨a', ha', hR⟩ := forall₂_mem_right h2 hb'
    exact hn.1 (List.mem_map.2 ⟨a', ha', (inj _ _ _ _ h1 hR he.symm).symm⟩)

namespace GraphMap

variable {m k : Nat} {NL EL : Type}

theorem reorderArc_ok {idm : Option (SetMap (Id m))} {elm : Option (SetMap (Id k))} {t l t' l'} :
    reorderArc idm elm (t, l) = .ok (t', l') ↔ newId idm t = .ok t' ∧ newLabel elm l = .ok l' := by
  unfold reorderArc
  constructor
  · intro h
    obtain ⟨a, h1, h⟩ := bind_eq_ok h
    obtain ⟨b, h2, h⟩ := bind_eq_ok h
    cases h; exact ⟨h1, h2⟩
  · rintro ⟨h1, h2⟩
    simp only [h1, h2, bind_ok, pure_ok]

theorem newLabel_none {k : Nat} (l l' : Option (Id k)) : newLabel none l = .ok l' ↔ l = l' := by
  cases l <;> simp [newLabel, newId, bind_ok, pure_ok]

theorem reorderNeighbors_spec {idm : Option (SetMap (Id m))} {elm : Option (SetMap (Id k))}
    (hid : ∀ s, idm = some s → s.len ≤ m + 1) {l r}
    (hl : (AL.keys l).Pairwise (· < ·)) (h : reorderNeighbors idm elm l = .ok r) :
    (AL.keys r).Pairwise (· < ·) ∧
    (∀ t' l', AL.get r t' = some l' ↔
      ∃ t lb, AL.get l t = some lb ∧ newId idm t = .ok t' ∧ newLabel elm lb = .ok l') ∧
    (∀ t lb, AL.get l t = some lb → ∃ t' l', newId idm t = .ok t' ∧ newLabel elm lb = .ok l') := by
  unfold reorderNeighbors at h
  split at h
  · obtain ⟨arcs, h1, h⟩ := bind_eq_ok h
    cases h
    have h2 := mapM_eq_ok h1
    have hn : (AL.keys arcs).Nodup := by
      apply forall₂_nodup Prod.fst Prod.fst h2 _ (sorted_nodup hl)
      rintro ⟨a, la⟩ ⟨a', la'⟩ ⟨b, lb⟩ ⟨b', lb'⟩ e1 e2 (rfl : b = b')
      exact newId_inj hid (reorderArc_ok.1 e1).1 (reorderArc_ok.1 e2).1
    obtain ⟨s1, s2⟩ := foldl_binsert arcs [] (by simp [AL.keys]) hn
    refine ⟨s1, fun t' l' => ?_, fun t lb ht => ?_⟩
    · unfold collectMap
      rw [s2]
      simp only [AL.get, Option.or_none]
      rw [← AL.mem_iff_get hn]
      constructor
      · intro hm
        obtain ⟨⟨t, lb⟩, hm, hR⟩ := forall₂_mem_right h2 hm
        exact ⟨t, lb, AL.get_eq_of_mem (sorted_nodup hl) hm, reorderArc_ok.1 hR⟩
      · rintro ⟨t, lb, hm, hR⟩
        obtain ⟨⟨t1, l1⟩, hm, hR'⟩ := forall₂_mem_left h2 (AL.get_mem hm)
        rw [reorderArc_ok.2 hR] at hR'
        cases hR'; exact hm
    · obtain ⟨⟨t1, l1⟩, hm, hR⟩ := forall₂_mem_left h2 (AL.get_mem ht)
      exact ⟨t1, l1, reorderArc_ok.1 hR⟩
  · rename_i hc
    cases h
    have h1 : idm = none := by cases idm <;> simp_all
    have h2 : elm = none := by cases elm <;> simp_all
    subst h1 h2
    refine ⟨hl, fun t' l' => ?_, fun t lb _ => ⟨t, lb, (newId_none _ _).2 rfl, (newLabel_none _ _).2 rfl⟩⟩
    simp [newId_none, newLabel_none]

theorem reorderIn_spec {idm : Option (SetMap (Id m))} {l r}
    (hl : l.Pairwise (· < ·)) (h : reorderIn idm l = .ok r) :
    r.Pairwise (· < ·) ∧ (∀ x', x' ∈ r ↔ ∃ x ∈ l, newId idm x = .ok x') ∧
    (∀ x ∈ l, ∃ x', newId idm x = .ok x') := by
  unfold reorderIn at h
  split at h
  · obtain ⟨xs, h1, h⟩ := bind_eq_ok h
    cases h
    have h2 := mapM_eq_ok h1
    obtain ⟨s1, s2⟩ := foldl_sinsert xs [] List.Pairwise.nil
    refine ⟨s1, fun x' => ?_, fun x hx => ?_⟩
    · unfold collectSet
      rw [s2]
      simp only [List.not_mem_nil, or_false]
      constructor
      · intro hm; exact forall₂_mem_right h2 hm
      · rintro ⟨x, hx, hR⟩
        obtain ⟨y, hy, hR'⟩ := forall₂_mem_left h2 hx
        rw [hR] at hR'; cases hR'; exact hy
    · obtain ⟨y, _, hR⟩ := forall₂_mem_left h2 hx
      exact ⟨y, hR⟩
  · rename_i hc
    cases h
    have h1 : idm = none := by cases idm <;> simp_all
    subst h1
    refine ⟨hl, fun x' => ?_, fun x _ => ⟨x, (newId_none _ _).2 rfl⟩⟩
    simp [newId_none]

theorem reorderNode_ok {idm : Option (SetMap (Id m))} {nlm elm : Option (SetMap (Id k))}
    {nd nd' : NodeMap m k} :
    reorderNode idm nlm elm nd = .ok nd' ↔ newId idm nd.id = .ok nd'.id ∧
      newLabel nlm nd.label = .ok nd'.label ∧
      reorderNeighbors idm elm nd.neighbors = .ok nd'.neighbors ∧
      reorderIn idm nd.inNeighbors = .ok nd'.inNeighbors := by
  unfold reorderNode
  constructor
  · intro h
    obtain ⟨a, h1, h⟩ := bind_eq_ok h
    obtain ⟨b, h2, h⟩ := bind_eq_ok h
    obtain ⟨c, h3, h⟩ := bind_eq_ok h
    obtain ⟨d, h4, h⟩ := bind_eq_ok h
    cases h; exact ⟨h1, h2, h3, h4⟩
  · rintro ⟨h1, h2, h3, h4⟩
    simp only [h1, h2, h3, h4, bind_ok, pure_ok]

/-- `h` is `g` with node ids renamed by `idm` and label ids renamed by `nlm`, `elm`. -/
structure Renamed (g h : GraphMap m k NL EL) (idm : Option (SetMap (Id m)))
    (nlm elm : Option (SetMap (Id k))) : Prop where
  dir : h.directed = g.directed
  cnt : h.numEdges = g.numEdges
  nodeTotal : ∀ n l, g.labE n = some l → ∃ n' l', newId idm n = .ok n' ∧ newLabel nlm l = .ok l'
  arcTotal : ∀ s t l, g.outE s t = some l → ∃ t' l', newId idm t = .ok t' ∧ newLabel elm l = .ok l'
  node : ∀ n' l', h.labE n' = some l' ↔
    ∃ n l, g.labE n = some l ∧ newId idm n = .ok n' ∧ newLabel nlm l = .ok l'
  arc : ∀ s' t' l', h.outE s' t' = some l' ↔
    ∃ s t l, g.outE s t = some l ∧ newId idm s = .ok s' ∧ newId idm t = .ok t' ∧
      newLabel elm l = .ok l'
  inArc : ∀ t' s', h.inE t' s' ↔ ∃ t s, g.inE t s ∧ newId idm t = .ok t' ∧ newId idm s = .ok s'

variable [DecidableEq NL] [DecidableEq EL]

/-- The parts of a successful `reorder_id_with`. -/
theorem reorderIdWith_spec {g h : GraphMap m k NL EL} (hg : g.NWF)
    {idm : Option (SetMap (Id m))} {nlm elm : Option (SetMap (Id k))}
    (hid : ∀ s, idm = some s → s.len ≤ m + 1) (hh : g.reorderIdWith idm nlm elm = .ok h)
    (hsome : ¬ (idm.isNone && nlm.isNone && elm.isNone) = true) :
    h.NWF ∧ Renamed g h idm nlm elm ∧ newLabelMap nlm g.nodeLabels = .ok h.nodeLabels ∧
      newLabelMap elm g.edgeLabels = .ok h.edgeLabels ∧ h.maxId = h.nodeIndices.max? ∧
      h.nodeIndices.length = g.nodeIndices.length := by
  unfold reorderIdWith at hh
  rw [if_neg hsome] at hh
  obtain ⟨nodes, h1, hh⟩ := bind_eq_ok hh
  obtain ⟨nl, h2, hh⟩ := bind_eq_ok hh
  obtain ⟨el, h3, hh⟩ := bind_eq_ok hh
  cases hh
  have hF := mapM_eq_ok h1
  have hn : (nodes.map (·.id)).Nodup := by
    apply forall₂_nodup (fun nd : NodeMap m k => nd.id) (fun nd : NodeMap m k => nd.id) hF
    · intro a a' b b' e1 e2 e
      have e1 := (reorderNode_ok.1 e1).1
      have e2 := (reorderNode_ok.1 e2).1
      rw [← e] at e2
      exact newId_inj hid e1 e2
    · exact List.pairwise_map.2 (values_pairwise hg)
  have hnm := foldl_hinsert (fun nd : NodeMap m k => nd.id) (fun nd : NodeMap m k => nd) nodes []
    (by simpa [AL.keys] using hn)
  simp only [List.nil_append] at hnm
  rw [hnm]
  have hkeys : AL.keys (nodes.map (fun nd => (nd.id, nd))) = nodes.map (·.id) := by
    simp [AL.keys]
  -- the node table
  have hget : ∀ n' nd', AL.get (nodes.map (fun nd => (nd.id, nd))) n' = some nd' ↔
      nd'.id = n' ∧ ∃ n nd, g.getNode n = some nd ∧ reorderNode idm nlm elm nd = .ok nd' := by
    intro n' nd'
    rw [← AL.mem_iff_get (by rw [hkeys]; exact hn)]
    constructor
    · intro hm
      obtain ⟨nd1, hm1, he⟩ := List.mem_map.1 hm
      simp only [Prod.mk.injEq] at he
      obtain ⟨rfl, rfl⟩ := he
      obtain ⟨nd, hnd, hR⟩ := forall₂_mem_right hF hm1
      exact ⟨rfl, nd.id, nd, (mem_values hg nd).1 hnd, hR⟩
    · rintro ⟨rfl, n, nd, hnd, hR⟩
      have hnid := hg.ids n nd hnd
      subst hnid
      obtain ⟨nd1, hm, hR'⟩ := forall₂_mem_left hF ((mem_values hg nd).2 hnd)
      rw [hR] at hR'; cases hR'
      exact List.mem_map.2 ⟨_, hm, rfl⟩
  have htot : ∀ n nd, g.getNode n = some nd → ∃ nd', reorderNode idm nlm elm nd = .ok nd' := by
    intro n nd hnd
    have hnid := hg.ids n nd hnd
    subst hnid
    obtain ⟨nd1, _, hR'⟩ := forall₂_mem_left hF ((mem_values hg nd).2 hnd)
    exact ⟨nd1, hR'⟩
  refine ⟨⟨?_, ?_, ?_, ?_⟩, ⟨rfl, rfl, ?_, ?_, ?_, ?_, ?_⟩, h2, h3, rfl, ?_⟩
  · rw [hkeys]; exact hn
  · intro n nd hnd; exact ((hget n nd).1 hnd).1
  · intro n nd hnd
    obtain ⟨_, n0, nd0, hnd0, hR⟩ := (hget n nd).1 hnd
    exact (reorderNeighbors_spec hid (hg.sortedOut _ _ hnd0) (reorderNode_ok.1 hR).2.2.1).1
  · intro n nd hnd
    obtain ⟨_, n0, nd0, hnd0, hR⟩ := (hget n nd).1 hnd
    exact (reorderIn_spec (hg.sortedIn _ _ hnd0) (reorderNode_ok.1 hR).2.2.2).1
  · intro n l hl
    obtain ⟨nd, hnd, rfl⟩ := Option.map_eq_some_iff.1 hl
    obtain ⟨nd', hR⟩ := htot n nd hnd
    have := reorderNode_ok.1 hR
    rw [hg.ids n nd hnd] at this
    exact ⟨_, _, this.1, this.2.1⟩
  · intro s t l hl
    obtain ⟨nd, hnd, hl⟩ := Option.bind_eq_some_iff.1 hl
    obtain ⟨nd', hR⟩ := htot s nd hnd
    exact (reorderNeighbors_spec hid (hg.sortedOut _ _ hnd) (reorderNode_ok.1 hR).2.2.1).2.2 t l hl
  · intro n' l'
    constructor
    · intro hl
      obtain ⟨nd', hnd', rfl⟩ := Option.map_eq_some_iff.1 hl
      obtain ⟨rfl, n, nd, hnd, hR⟩ := (hget _ _).1 hnd'
      have := reorderNode_ok.1 hR
      rw [hg.ids n nd hnd] at this
      exact ⟨n, nd.label, by simp [labE, hnd], this.1, this.2.1⟩
    · rintro ⟨n, l, hl, e1, e2⟩
      obtain ⟨nd, hnd, rfl⟩ := Option.map_eq_some_iff.1 hl
      obtain ⟨nd', hR⟩ := htot n nd hnd
      have := reorderNode_ok.1 hR
      rw [hg.ids n nd hnd, e1] at this
      have hid' : nd'.id = n' := by have := this.1; cases this; rfl
      have hl' : l' = nd'.label := by have := this.2.1; rw [e2] at this; cases this; rfl
      refine Option.map_eq_some_iff.2 ⟨nd', (hget _ _).2 ⟨hid', n, nd, hnd, hR⟩, hl'.symm⟩
  · intro s' t' l'
    constructor
    · intro hl
      obtain ⟨nd', hnd', hl1⟩ := Option.bind_eq_some_iff.1 hl
      obtain ⟨rfl, n, nd, hnd, hR⟩ := (hget _ _).1 hnd'
      have := reorderNode_ok.1 hR
      rw [hg.ids n nd hnd] at this
      obtain ⟨t, lb, h4, h5, h6⟩ :=
        ((reorderNeighbors_spec hid (hg.sortedOut _ _ hnd) this.2.2.1).2.1 t' l').1 hl1
      exact ⟨n, t, lb, by rw [outE_of_get hnd]; exact h4, this.1, h5, h6⟩
    · rintro ⟨s, t, l, hl, e1, e2, e3⟩
      obtain ⟨nd, hnd, hl⟩ := Option.bind_eq_some_iff.1 hl
      obtain ⟨nd', hR⟩ := htot s nd hnd
      have := reorderNode_ok.1 hR
      rw [hg.ids s nd hnd, e1] at this
      have hid' : nd'.id = s' := by have := this.1; cases this; rfl
      refine Option.bind_eq_some_iff.2 ⟨nd', (hget _ _).2 ⟨hid', s, nd, hnd, hR⟩, ?_⟩
      exact ((reorderNeighbors_spec hid (hg.sortedOut _ _ hnd) this.2.2.1).2.1 t' l').2
        ⟨t, l, hl, e2, e3⟩
  · intro t' s'
    constructor
    · rintro ⟨nd', hnd', hl⟩
      obtain ⟨rfl, n, nd, hnd, hR⟩ := (hget _ _).1 hnd'
      have := reorderNode_ok.1 hR
      rw [hg.ids n nd hnd] at this
      obtain ⟨x, h4, h5⟩ := ((reorderIn_spec (hg.sortedIn _ _ hnd) this.2.2.2).2.1 s').1 hl
      exact ⟨n, x, ⟨nd, hnd, h4⟩, this.1, h5⟩
    · rintro ⟨t, s, ⟨nd, hnd, hl⟩, e1, e2⟩
      obtain ⟨nd', hR⟩ := htot t nd hnd
      have := reorderNode_ok.1 hR
      rw [hg.ids t nd hnd, e1] at this
      have hid' : nd'.id = t' := by have := this.1; cases this; rfl
      refine ⟨nd', (hget _ _).2 ⟨hid', t, nd, hnd, hR⟩, ?_⟩
      exact ((reorderIn_spec (hg.sortedIn _ _ hnd) this.2.2.2).2.1 s').2 ⟨s, hl, e2⟩
  · simp only [nodeIndices, hkeys, List.length_map]
    rw [← hF.length_eq]
    simp [AL.values, AL.keys]

/-- Without any map nothing changes. -/
theorem reorderIdWith_none (g : GraphMap m k NL EL) : g.reorderIdWith none none none = .ok g := by
  simp [reorderIdWith, pure_ok]

omit [DecidableEq NL] [DecidableEq EL] in
theorem renamed_refl (g : GraphMap m k NL EL) : Renamed g g none none none := by
  refine ⟨rfl, rfl, ?_, ?_, ?_, ?_, ?_⟩ <;> simp [newId_none, newLabel_none]

end GraphMap

/-! ### `reorder_label_map` -/

section LabelMaps

variable {k : Nat} {X : Type} [DecidableEq X]

/-- The state of `reorder_label_map` after the ids `done`. -/
structure TakeState (old : List X) (done : List (Id k)) (st : List (Option X) × SetMap X) : Prop where
  vec : ∀ i : Nat, st.1[i]? = old[i]?.map (fun x => if i ∈ done.map Fin.val then none else some x)
  res : st.2.labels = done.filterMap (fun i => old[i.val]?)

theorem takeLabel_ok {old : List X} (hold : old.Nodup) {done : List (Id k)} {st}
    (hst : TakeState old done st) {i : Id k} (hi : i ∉ done) (hlt : i.val < old.length) :
    ∃ st', takeLabel st i = .ok st' ∧ TakeState old (done ++ [i]) st' := by
  have hv : i.val ∉ done.map Fin.val := by
    intro h
    obtain ⟨j, hj, he⟩ := List.mem_map.1 h
    exact hi (Fin.ext he ▸ hj)
  have h1 : st.1[i.val]? = some (some old[i.val]) := by
    rw [hst.vec, List.getElem?_eq_getElem hlt]; simp only [Option.map_some, if_neg hv]
  have hnm : old[i.val] ∉ st.2.labels := by
    rw [hst.res]
    intro h
    obtain ⟨j, hj, he⟩ := List.mem_filterMap.1 h
    obtain ⟨hj', he⟩ := List.getElem?_eq_some_iff.1 he
    exact hv (List.mem_map.2 ⟨j, hj, (hold.getElem_inj_iff).1 he⟩)
  refine ⟨(st.1.set i.val none, ⟨st.2.labels ++ [old[i.val]]⟩), ?_, ?_, ?_⟩
  · simp only [takeLabel, takeLabel.index', h1, pure_ok, bind_ok, unwrap, SetMap.addItem_not_mem hnm]
  · intro j
    simp only [List.getElem?_set]
    by_cases hj : i.val = j
    · subst hj
      have : i.val < st.1.length := by
        exact (List.getElem?_eq_some_iff.1 h1).1
      simp [this, hlt]
    · rw [if_neg hj, hst.vec]
      congr 1
      funext x
      have : (j ∈ (done ++ [i]).map Fin.val) ↔ j ∈ done.map Fin.val := by
        simp only [List.map_append, List.map_cons, List.map_nil, List.mem_append, List.mem_singleton]
        exact ⟨fun h => h.resolve_right (fun e => hj e.symm), Or.inl⟩
      simp only [this]
  · simp only [hst.res, List.filterMap_append, List.filterMap_cons, List.filterMap_nil,
      List.getElem?_eq_getElem hlt]

theorem takeLabel_error {old : List X} {done : List (Id k)} {st}
    (hst : TakeState old done st) {i : Id k} (hi : i ∈ done ∨ old.length ≤ i.val) :
    ∀ st', takeLabel st i ≠ .ok st' := by
  intro st' h
  unfold takeLabel at h
  obtain ⟨x, h1, h⟩ := bind_eq_ok h
  obtain ⟨y, h2, h⟩ := bind_eq_ok h
  unfold takeLabel.index' at h1
  rw [hst.vec] at h1
  rcases Nat.lt_or_ge i.val old.length with hlt | hge
  · have hi : i.val ∈ done.map Fin.val := List.mem_map.2 ⟨i, hi.resolve_right (by omega), rfl⟩
    rw [List.getElem?_eq_getElem hlt] at h1
    simp only [Option.map_some, if_pos hi, pure_ok] at h1
    cases h1; cases h2
  · rw [List.getElem?_eq_none hge] at h1
    cases h1

theorem takeLabels {old : List X} (hold : old.Nodup) (is : List (Id k)) {done : List (Id k)} {st}
    (hst : TakeState old done st) :
    (∀ st', is.foldlM takeLabel st = .ok st' →
      st'.2.labels = (done ++ is).filterMap (fun i => old[i.val]?)) ∧
    ((∃ st', is.foldlM takeLabel st = .ok st') ↔
      is.Nodup ∧ (∀ i ∈ is, i ∉ done) ∧ ∀ i ∈ is, i.val < old.length) := by
  induction is generalizing done st with
  | nil =>
    refine ⟨?_, by simp [List.foldlM_nil, pure_ok]⟩
    intro st' h; cases h; simpa using hst.res
  | cons i is ih =>
    rw [List.foldlM_cons]
    by_cases hi : i ∈ done ∨ old.length ≤ i.val
    · have he := takeLabel_error hst hi
      refine ⟨fun st' h => ?_, ⟨?_, ?_⟩⟩
      · obtain ⟨a, h1, _⟩ := bind_eq_ok h; exact absurd h1 (he a)
      · rintro ⟨st', h⟩
        obtain ⟨a, h1, _⟩ := bind_eq_ok h; exact absurd h1 (he a)
      · rintro ⟨_, h1, h2⟩
        rcases hi with hi | hi
        · exact absurd hi (h1 i (by simp))
        · have := h2 i (by simp); omega
    · obtain ⟨hi1, hi2⟩ := not_or.1 hi
      obtain ⟨st1, e1, hst1⟩ := takeLabel_ok hold hst hi1 (by omega)
      rw [e1, bind_ok]
      obtain ⟨j1, j2⟩ := ih hst1
      refine ⟨fun st' h => by simpa using j1 st' h, ?_⟩
      rw [j2]
      simp only [List.nodup_cons, List.mem_cons, List.mem_append, forall_eq_or_imp, not_or]
      constructor
      · rintro ⟨h1, h2, h3⟩
        exact ⟨⟨fun h => (h2 i h).2.1 rfl, h1⟩, ⟨hi1, fun a ha => (h2 a ha).1⟩, by omega, h3⟩
      · rintro ⟨⟨h1, h2⟩, ⟨_, h3⟩, _, h4⟩
        exact ⟨h2, fun a ha => ⟨h3 a ha, fun e => h1 (e ▸ ha), by simp⟩, h4⟩

theorem reorderLabelMap_spec {s : SetMap (Id k)} {old : SetMap X} (hold : old.labels.Nodup) :
    (∀ r, reorderLabelMap s old = .ok r →
      r.labels = s.labels.filterMap (fun i => old.labels[i.val]?)) ∧
    ((∃ r, reorderLabelMap s old = .ok r) ↔
      s.labels.Nodup ∧ ∀ i ∈ s.labels, i.val < old.len) := by
  have h0 : TakeState (k := k) old.labels [] (old.items.map some, SetMap.empty) := by
    refine ⟨fun i => ?_, rfl⟩
    rw [List.getElem?_map]
    simp [SetMap.items]
  obtain ⟨h1, h2⟩ := takeLabels hold s.labels h0
  unfold reorderLabelMap
  constructor
  · intro r h
    obtain ⟨st, e1, h⟩ := bind_eq_ok h
    cases h
    simpa using h1 st e1
  · constructor
    · rintro ⟨r, h⟩
      obtain ⟨st, e1, _⟩ := bind_eq_ok h
      have := h2.1 ⟨st, e1⟩
      exact ⟨this.1, this.2.2⟩
    · rintro ⟨e1, e2⟩
      obtain ⟨st, e⟩ := h2.2 ⟨e1, by simp, e2⟩
      refine ⟨st.2, ?_⟩
      show (s.labels.foldlM takeLabel (old.items.map some, SetMap.empty) >>= _) = _
      rw [e]; rfl

theorem filterMap_eq_map_of {α β : Type} {f : α → Option β} {l : List α}
    (h : ∀ a ∈ l, (f a).isSome) : (l.filterMap f).length = l.length ∧
      ∀ i : Nat, (l.filterMap f)[i]? = l[i]?.bind f := by
  induction l with
  | nil => simp
  | cons a l ih =>
    obtain ⟨b, hb⟩ := Option.isSome_iff_exists.1 (h a (by simp))
    obtain ⟨h1, h2⟩ := ih (fun x hx => h x (by simp [hx]))
    rw [List.filterMap_cons_some hb]
    refine ⟨by simp [h1], fun i => ?_⟩
    cases i with
    | zero => simp [hb]
    | succ i => simp [h2]

/-- The new label map lists the chosen old labels. -/
theorem reorderLabelMap_getItem {s : SetMap (Id k)} {old r : SetMap X} (hold : old.labels.Nodup)
    (h : reorderLabelMap s old = .ok r) :
    r.labels.Nodup ∧ r.len = s.len ∧
      ∀ j : Nat, r.getItem j = (s.getItem j).bind (fun i => old.getItem i.val) := by
  obtain ⟨h1, h2⟩ := reorderLabelMap_spec (s := s) hold
  have hl := h1 r h
  obtain ⟨hs, hlt⟩ := h2.1 ⟨r, h⟩
  have := filterMap_eq_map_of (f := fun i : Id k => old.labels[i.val]?) (l := s.labels)
    (fun i hi => by rw [List.getElem?_eq_getElem (hlt i hi)]; rfl)
  refine ⟨?_, ?_, ?_⟩
  · rw [hl]
    apply List.Nodup.filterMap _ hs
    intro a b c ha hb
    obtain ⟨_, ha⟩ := List.getElem?_eq_some_iff.1 (Option.mem_def.1 ha)
    obtain ⟨_, hb⟩ := List.getElem?_eq_some_iff.1 (Option.mem_def.1 hb)
    exact Fin.ext ((hold.getElem_inj_iff).1 (ha.trans hb.symm))
  · unfold SetMap.len; rw [hl, this.1]
  · intro j; unfold SetMap.getItem; rw [hl, this.2]

end LabelMaps

namespace GraphMap

variable {m k : Nat} {NL EL : Type}

/-! ### The invariant -/

/-- The renaming as a function. -/
def ren (idm : Option (SetMap (Id m))) (n : Id m) : Id m :=
  match newId idm n with
  | .ok j => j
  | .error _ => n

theorem newId_ren {idm : Option (SetMap (Id m))} {n n' : Id m} (h : newId idm n = .ok n') :
    ren idm n = n' := by
  unfold ren; rw [h]

namespace Renamed

variable {g h : GraphMap m k NL EL} {idm : Option (SetMap (Id m))} {nlm elm : Option (SetMap (Id k))}

theorem hasNode (H : Renamed g h idm nlm elm) (n' : Id m) :
    h.hasNode n' = true ↔ ∃ n, g.hasNode n = true ∧ newId idm n = .ok n' := by
  simp only [hasNode_eq_labE, Option.isSome_iff_exists, H.node]
  constructor
  · rintro ⟨l', n, l, h1, h2, _⟩; exact ⟨n, ⟨l, h1⟩, h2⟩
  · rintro ⟨n, ⟨l, h1⟩, h2⟩
    obtain ⟨_, l', _, h3⟩ := H.nodeTotal n l h1
    exact ⟨l', n, l, h1, h2, h3⟩

theorem outE (H : Renamed g h idm nlm elm) (s' t' : Id m) :
    (h.outE s' t').isSome ↔ ∃ s t, (g.outE s t).isSome ∧ newId idm s = .ok s' ∧
      newId idm t = .ok t' := by
  simp only [Option.isSome_iff_exists, H.arc]
  constructor
  · rintro ⟨l', s, t, l, h1, h2, h3, _⟩; exact ⟨s, t, ⟨l, h1⟩, h2, h3⟩
  · rintro ⟨s, t, ⟨l, h1⟩, h2, h3⟩
    obtain ⟨_, l', _, h4⟩ := H.arcTotal s t l h1
    exact ⟨l', s, t, l, h1, h2, h3, h4⟩

theorem ren_ok (H : Renamed g h idm nlm elm) {n : Id m} (hn : g.hasNode n = true) :
    newId idm n = .ok (ren idm n) := by
  rw [hasNode_eq_labE] at hn
  obtain ⟨l, hl⟩ := Option.isSome_iff_exists.1 hn
  obtain ⟨n', _, h1, _⟩ := H.nodeTotal n l hl
  rw [newId_ren h1]; exact h1

/-- Counting renamed arcs. -/
theorem card_arcs (H : Renamed g h idm nlm elm) (hid : ∀ s, idm = some s → s.len ≤ m + 1)
    (ht : ∀ s t, (g.outE s t).isSome → g.hasNode t = true) (p p' : Id m → Id m → Prop)
    [DecidableRel p] [DecidableRel p'] (hp : ∀ s t, p s t → (g.outE s t).isSome)
    (hpp : ∀ s' t', p' s' t' ↔ ∃ s t, p s t ∧ newId idm s = .ok s' ∧ newId idm t = .ok t') :
    (Finset.univ.filter (fun q : Id m × Id m => p q.1 q.2)).card =
      (Finset.univ.filter (fun q : Id m × Id m => p' q.1 q.2)).card := by
  have ok : ∀ s t, p s t → newId idm s = .ok (ren idm s) ∧ newId idm t = .ok (ren idm t) :=
    fun s t h => ⟨H.ren_ok (outE_hasNode (hp _ _ h)), H.ren_ok (ht _ _ (hp _ _ h))⟩
  apply Finset.card_bij (fun q _ => (ren idm q.1, ren idm q.2))
  · rintro ⟨s, t⟩ hq
    simp only [Finset.mem_filter, Finset.mem_univ, true_and] at hq ⊢
    exact (hpp _ _).2 ⟨s, t, hq, ok s t hq⟩
  · rintro ⟨s, t⟩ hq ⟨s1, t1⟩ hq1 e
    simp only [Finset.mem_filter, Finset.mem_univ, true_and] at hq hq1
    simp only [Prod.mk.injEq] at e
    have e1 := ok s t hq
    have e2 := ok s1 t1 hq1
    rw [← e.1, ← e.2] at e2
    exact Prod.ext (newId_inj hid e1.1 e2.1) (newId_inj hid e1.2 e2.2)
  · rintro ⟨s', t'⟩ hq
    simp only [Finset.mem_filter, Finset.mem_univ, true_and] at hq
    obtain ⟨s, t, h1, h2, h3⟩ := (hpp _ _).1 hq
    exact ⟨(s, t), by simpa using h1, by rw [newId_ren h2, newId_ren h3]⟩

theorem card_loops (H : Renamed g h idm nlm elm) (hid : ∀ s, idm = some s → s.len ≤ m + 1)
    (p p' : Id m → Id m → Prop) [DecidableRel p] [DecidableRel p']
    (hp : ∀ s t, p s t → (g.outE s t).isSome)
    (hpp : ∀ s' t', p' s' t' ↔ ∃ s t, p s t ∧ newId idm s = .ok s' ∧ newId idm t = .ok t') :
    (Finset.univ.filter (fun n : Id m => p n n)).card =
      (Finset.univ.filter (fun n : Id m => p' n n)).card := by
  have ok : ∀ s, p s s → newId idm s = .ok (ren idm s) :=
    fun s h => H.ren_ok (outE_hasNode (hp _ _ h))
  apply Finset.card_bij (fun q _ => ren idm q)
  · intro s hq
    simp only [Finset.mem_filter, Finset.mem_univ, true_and] at hq ⊢
    exact (hpp _ _).2 ⟨s, s, hq, ok s hq, ok s hq⟩
  · intro s hq s1 hq1 e
    simp only [Finset.mem_filter, Finset.mem_univ, true_and] at hq hq1
    have e2 := ok s1 hq1
    rw [← e] at e2
    exact newId_inj hid (ok s hq) e2
  · intro s' hq
    simp only [Finset.mem_filter, Finset.mem_univ, true_and] at hq
    obtain ⟨s, t, h1, h2, h3⟩ := (hpp _ _).1 hq
    obtain rfl := newId_inj hid h2 h3
    exact ⟨s, by simpa using h1, newId_ren h2⟩

/-- Counting renamed undirected edges: the orientation `start ≤ target` may be chosen anew. -/
theorem card_half (H : Renamed g h idm nlm elm) (hid : ∀ s, idm = some s → s.len ≤ m + 1)
    (ht : ∀ s t, (g.outE s t).isSome → g.hasNode t = true) (p p' : Id m → Id m → Prop)
    [DecidableRel p] [DecidableRel p'] (hp : ∀ s t, p s t → (g.outE s t).isSome)
    (hpp : ∀ s' t', p' s' t' ↔ ∃ s t, p s t ∧ newId idm s = .ok s' ∧ newId idm t = .ok t')
    (hs : ∀ s t, p s t → p t s) :
    (Finset.univ.filter (fun q : Id m × Id m => p q.1 q.2 ∧ q.1 ≤ q.2)).card =
      (Finset.univ.filter (fun q : Id m × Id m => p' q.1 q.2 ∧ q.1 ≤ q.2)).card := by
  have h1 := undirected_count p hs
  have h2 := undirected_count p' (fun a b h => by
    obtain ⟨s, t, e1, e2, e3⟩ := (hpp _ _).1 h
    exact (hpp _ _).2 ⟨t, s, hs _ _ e1, e3, e2⟩)
  have h3 := H.card_arcs hid ht p p' hp hpp
  have h4 := H.card_loops hid p p' hp hpp
  omega

theorem edgeNum (H : Renamed g h idm nlm elm) (hg : g.Inv)
    (hid : ∀ s, idm = some s → s.len ≤ m + 1) : h.edgeNum = g.edgeNum := by
  cases hd : g.directed with
  | true =>
    rw [edgeNum_directed hd, edgeNum_directed (H.dir.trans hd)]
    exact (H.card_arcs hid hg.target (fun s t => (g.outE s t).isSome) (fun s t => (h.outE s t).isSome)
      (fun _ _ h => h) H.outE).symm
  | false =>
    rw [edgeNum_undirected hd, edgeNum_undirected (H.dir.trans hd)]
    exact (H.card_half hid hg.target (fun s t => (g.outE s t).isSome) (fun s t => (h.outE s t).isSome)
      (fun _ _ h => h) H.outE (hg.sym hd)).symm

end Renamed

variable [DecidableEq NL] [DecidableEq EL]

theorem newLabelMap_nodup {X : Type} [DecidableEq X] {map : Option (SetMap (Id k))} {old r : SetMap X}
    (hold : old.labels.Nodup) (h : newLabelMap map old = .ok r) : r.labels.Nodup := by
  cases map with
  | none => cases h; exact hold
  | some s => exact (reorderLabelMap_getItem hold h).1

theorem inv_reorder {g h : GraphMap m k NL EL} (hg : g.Inv)
    {idm : Option (SetMap (Id m))} {nlm elm : Option (SetMap (Id k))}
    (hid : ∀ s, idm = some s → s.len ≤ m + 1) (hh : g.reorderIdWith idm nlm elm = .ok h) : h.Inv := by
  by_cases hc : (idm.isNone && nlm.isNone && elm.isNone) = true
  · rw [reorderIdWith, if_pos hc] at hh
    cases hh; exact hg
  · obtain ⟨h1, H, h3, h4, h5, h6⟩ := reorderIdWith_spec hg.toNWF hid hh hc
    refine { h1 with target := ?_, inSpec := ?_, inNil := ?_, sym := ?_, count := ?_, nlNodup := ?_, elNodup := ?_, maxBound := ?_ }
    · intro s' t' ho
      obtain ⟨s, t, e1, e2, e3⟩ := (H.outE s' t').1 ho
      exact (H.hasNode t').2 ⟨t, hg.target s t e1, e3⟩
    · intro hd s' t'
      rw [H.dir] at hd
      rw [H.inArc, H.outE]
      constructor
      · rintro ⟨t, s, e1, e2, e3⟩; exact ⟨s, t, (hg.inSpec hd s t).1 e1, e3, e2⟩
      · rintro ⟨s, t, e1, e2, e3⟩; exact ⟨t, s, (hg.inSpec hd s t).2 e1, e3, e2⟩
    · intro hd t' s' hi
      rw [H.dir] at hd
      obtain ⟨t, s, e1, _, _⟩ := (H.inArc t' s').1 hi
      exact hg.inNil hd t s e1
    · intro hd s' t' ho
      rw [H.dir] at hd
      obtain ⟨s, t, e1, e2, e3⟩ := (H.outE s' t').1 ho
      exact (H.outE t' s').2 ⟨t, s, hg.sym hd s t e1, e3, e2⟩
    · rw [H.edgeNum hg hid, H.cnt]; exact hg.count
    · exact newLabelMap_nodup hg.nlNodup h3
    · exact newLabelMap_nodup hg.elNodup h4
    · intro n hn
      rw [← mem_nodeIndices] at hn
      rw [h5]
      cases hm : h.nodeIndices.max? with
      | none => rw [List.max?_eq_none_iff.1 hm] at hn; cases hn
      | some M => exact ⟨M, rfl, (List.max?_eq_some_iff.1 hm).2 n hn⟩

end GraphMap

end Verif
