import Verif.Proof.Undo
import Verif.Props.Reorder
import Mathlib.Logic.Equiv.Fintype

/-! C182: reordering more than once, and undoing it. -/

namespace Verif.Props

open GraphMap Spec

variable {m k : Nat} {NL EL X : Type}

/-- Looking up in `t` first and the answer in `s`: the map that does what `s` and then `t` do. -/
def through (s t : SetMap (Id m)) : SetMap (Id m) := ⟨t.items.filterMap (fun i => s.getItem i.val)⟩

/-- The same with maps that may be left out. -/
def inTurn : Option (SetMap (Id m)) → Option (SetMap (Id m)) → Option (SetMap (Id m))
  | some s, some t => some (through s t)
  | some s, none => some s
  | none, o => o

/-- The same graph: everything is the same but the order of the hash map, which no call shows, and `max_seen_id`. -/
def SameButMax (g h : GraphMap m k NL EL) : Prop :=
  h.directed = g.directed ∧ g.nodeMap.Perm h.nodeMap ∧ h.numEdges = g.numEdges ∧ h.nodeLabels = g.nodeLabels ∧
    h.edgeLabels = g.edgeLabels

/-- Every entry of `t` is an index of `s`. -/
def Within (s t : SetMap (Id m)) : Prop := ∀ i ∈ t.items, i.val < s.len

theorem through_items {s t : SetMap (Id m)} (h : Within s t) (j : Nat) :
    (through s t).getItem j = (t.getItem j).bind (fun i => s.getItem i.val) := by
  have := filterMap_eq_map_of (f := fun i : Id m => s.getItem i.val) (l := t.labels)
    (fun i hi => by
      have hi' : i.val < s.labels.length := h i hi
      show (s.labels[i.val]?).isSome
      rw [List.getElem?_eq_getElem hi']; rfl)
  exact this.2 j

theorem through_nodup {s t : SetMap (Id m)} (hs : s.labels.Nodup) (ht : t.labels.Nodup) :
    (through s t).labels.Nodup := by
  refine List.Nodup.filterMap (fun a b c ha hb => ?_) ht
  obtain ⟨_, ha⟩ := List.getElem?_eq_some_iff.1 (Option.mem_def.1 ha)
  obtain ⟨_, hb⟩ := List.getElem?_eq_some_iff.1 (Option.mem_def.1 hb)
  exact Fin.ext ((hs.getElem_inj_iff).1 (ha.trans hb.symm))

theorem in_turn_id {a b : Option (SetMap (Id m))} (ha : ∀ s, a = some s → s.labels.Nodup)
    (hb : ∀ s, b = some s → s.labels.Nodup) (hw : ∀ s t, a = some s → b = some t → Within s t) (n n' : Id m) :
    newId (inTurn a b) n = .ok n' ↔ ∃ x, newId a n = .ok x ∧ newId b x = .ok n' := by
  cases a with
  | none => simp only [inTurn, newId_none]; exact ⟨fun h => ⟨n, rfl, h⟩, fun ⟨x, h1, h2⟩ => h1 ▸ h2⟩
  | some s =>
    cases b with
    | none => simp only [inTurn, newId_none]; exact ⟨fun h => ⟨n', h, rfl⟩, fun ⟨x, h1, h2⟩ => h2 ▸ h1⟩
    | some t =>
      have hs := ha s rfl
      have ht := hb t rfl
      simp only [inTurn, newId_some (through_nodup hs ht), newId_some hs, newId_some ht,
        through_items (hw s t rfl rfl), Option.bind_eq_some_iff]
      exact ⟨fun ⟨x, h1, h2⟩ => ⟨x, h2, h1⟩, fun ⟨x, h1, h2⟩ => ⟨x, h2, h1⟩⟩

theorem newLabel_some_ok (a : Option (SetMap (Id k))) (x : Id k) (l' : Option (Id k)) :
    newLabel a (some x) = .ok l' ↔ ∃ y, newId a x = .ok y ∧ l' = some y := by
  show (newId a x >>= fun j => pure (some j)) = _ ↔ _
  cases newId a x with
  | error p => simp [bind_error]
  | ok y => simp [bind_ok, pure_ok, eq_comm]

theorem newLabel_none_ok (a : Option (SetMap (Id k))) (l' : Option (Id k)) : newLabel a none = .ok l' ↔ l' = none := by
  show pure none = _ ↔ _
  simp [pure_ok, eq_comm]

theorem in_turn_label {a b : Option (SetMap (Id k))} (ha : ∀ s, a = some s → s.labels.Nodup)
    (hb : ∀ s, b = some s → s.labels.Nodup) (hw : ∀ s t, a = some s → b = some t → Within s t)
    (l l' : Option (Id k)) :
    newLabel (inTurn a b) l = .ok l' ↔ ∃ x, newLabel a l = .ok x ∧ newLabel b x = .ok l' := by
  cases l with
  | none =>
    simp only [newLabel_none_ok]
    constructor
    · rintro rfl; exact ⟨none, rfl, (newLabel_none_ok _ _).2 rfl⟩
    · rintro ⟨x, rfl, h⟩; exact (newLabel_none_ok _ _).1 h
  | some y =>
    simp only [newLabel_some_ok, in_turn_id ha hb hw]
    constructor
    · rintro ⟨z, ⟨x, h1, h2⟩, rfl⟩
      exact ⟨some x, ⟨x, h1, rfl⟩, (newLabel_some_ok _ _ _).2 ⟨z, h2, rfl⟩⟩
    · rintro ⟨_, ⟨x, h1, rfl⟩, h⟩
      obtain ⟨z, h2, rfl⟩ := (newLabel_some_ok _ _ _).1 h
      exact ⟨z, ⟨x, h1, h2⟩, rfl⟩

theorem table_ext {a b : SetMap X} (h : ∀ j : Nat, a.getItem j = b.getItem j) : a = b := by
  cases a; cases b
  congr 1
  exact List.ext_getElem? h

theorem in_turn_table [DecidableEq X] {a b : Option (SetMap (Id k))} {old x y : SetMap X} (hold : old.labels.Nodup)
    (h1 : newLabelMap a old = .ok x) (h2 : newLabelMap b x = .ok y) :
    newLabelMap (inTurn a b) old = .ok y ∧ (∀ s, a = some s → s.labels.Nodup) ∧ (∀ s, b = some s → s.labels.Nodup) ∧
      ∀ s t, a = some s → b = some t → Within s t := by
  have c1 := (newLabelMap_ok hold).1 ⟨_, h1⟩
  cases a with
  | none =>
    cases h1
    exact ⟨h2, by simp, fun s e => ((newLabelMap_ok hold).1 ⟨_, h2⟩ s e).1, by simp⟩
  | some s =>
    obtain ⟨n1, n2, n3⟩ := reorderLabelMap_getItem hold h1
    have c2 := (newLabelMap_ok n1).1 ⟨_, h2⟩
    cases b with
    | none => cases h2; exact ⟨h1, fun s e => (c1 s e).1, by simp, by simp⟩
    | some t =>
      have hw : Within s t := by intro i hi; have := (c2 t rfl).2 i hi; rwa [n2] at this
      refine ⟨?_, fun s e => (c1 s e).1, fun s e => (c2 s e).1, by rintro _ _ ⟨⟩ ⟨⟩; exact hw⟩
      have : ∃ r, newLabelMap (inTurn (some s) (some t)) old = .ok r := by
        rw [newLabelMap_ok hold]
        rintro _ ⟨⟩
        refine ⟨through_nodup (c1 s rfl).1 (c2 t rfl).1, fun i hi => ?_⟩
        obtain ⟨j, -, hj⟩ := List.mem_filterMap.1 hi
        exact (c1 s rfl).2 i (List.mem_of_getElem? hj)
      obtain ⟨r, hr⟩ := this
      obtain ⟨-, -, r3⟩ := reorderLabelMap_getItem hold hr
      obtain ⟨-, -, y3⟩ := reorderLabelMap_getItem n1 h2
      rw [hr]
      congr 1
      refine table_ext fun j => ?_
      rw [r3, y3, through_items hw]
      cases t.getItem j with
      | none => rfl
      | some i => simp only [Option.bind_some, n3]

variable [DecidableEq NL] [DecidableEq EL]

theorem listed_of_newId {a : Option (SetMap (Id m))} {n n' : Id m} (h : newId a n = .ok n') {s : SetMap (Id m)}
    (e : a = some s) (hs : s.labels.Nodup) : n ∈ s.items := by
  subst e
  exact List.mem_of_getElem? ((newId_some hs _ _).1 h)

/-- After a reordering `max_seen_id` is the largest id there is. -/
theorem reordered_max {g h : GraphMap m k NL EL} (hg : g.Inv) {i : Option (SetMap (Id m))}
    {n e : Option (SetMap (Id k))} (hi : ∀ s, i = some s → s.len ≤ m + 1) (hh : g.reorderIdWith i n e = .ok h) :
    (i = none ∧ n = none ∧ e = none ∧ h = g) ∨ h.maxId = h.nodeIndices.max? := by
  by_cases hcase : (i.isNone && n.isNone && e.isNone) = true
  · left
    simp only [Bool.and_eq_true, Option.isNone_iff_eq_none] at hcase
    obtain ⟨⟨rfl, rfl⟩, rfl⟩ := hcase
    rw [reorderIdWith_none] at hh
    exact ⟨rfl, rfl, rfl, (Except.ok.inj hh).symm⟩
  · right
    exact (reorderIdWith_spec hg.toNWF hi hh hcase).2.2.2.2.1

theorem max_perm {g h : GraphMap m k NL EL} (hp : g.nodeMap.Perm h.nodeMap) :
    g.nodeIndices.max? = h.nodeIndices.max? := by
  have : g.nodeIndices.Perm h.nodeIndices := hp.map _
  refine Option.ext fun x => ?_
  rw [List.max?_eq_some_iff, List.max?_eq_some_iff, this.mem_iff]
  refine and_congr Iff.rfl ⟨fun h b hb => h b (this.mem_iff.2 hb), fun h b hb => h b (this.mem_iff.1 hb)⟩

/-- **C182.** Reordering twice is reordering once, by looking up every entry of the second map in the first: if both
succeed so does the one, and the results agree in everything but the order of the hash map. The id maps are to be
without repeats and the second one to list ids the first one gives; for label maps that is so if they do not panic. -/
theorem c182_compose {g h j : GraphMap m k NL EL} (hg : Reachable g) {i i' : Option (SetMap (Id m))}
    {n n' e e' : Option (SetMap (Id k))} (hi : ∀ s, i = some s → s.labels.Nodup)
    (hi' : ∀ s, i' = some s → s.labels.Nodup) (hw : ∀ s t, i = some s → i' = some t → Within s t)
    (h1 : g.reorderIdWith i n e = .ok h) (h2 : h.reorderIdWith i' n' e' = .ok j) :
    ∃ x, g.reorderIdWith (inTurn i i') (inTurn n n') (inTurn e e') = .ok x ∧ SameButMax j x ∧ x.maxId = j.maxId := by
  have len : ∀ {o : Option (SetMap (Id m))}, (∀ s, o = some s → s.labels.Nodup) → ∀ s, o = some s → s.len ≤ m + 1 :=
    fun ho s e => SetMap.len_le (ho s e)
  obtain ⟨a1, a2, a3, a4, -⟩ := reorderIdWith_all hg.inv (len hi) h1
  obtain ⟨b1, b2, b3, b4, -⟩ := reorderIdWith_all a1 (len hi') h2
  obtain ⟨t1, t2, t3, t4⟩ := in_turn_table hg.inv.nlNodup a3 b3
  obtain ⟨u1, u2, u3, u4⟩ := in_turn_table hg.inv.elNodup a4 b4
  have hI : ∀ s, inTurn i i' = some s → s.labels.Nodup := by
    intro s es
    cases i with
    | none => exact hi' s es
    | some x =>
      cases i' with
      | none => exact hi s es
      | some y => cases es; exact through_nodup (hi _ rfl) (hi' _ rfl)
  have hN : ∀ s, inTurn n n' = some s → s.labels.Nodup := fun s es =>
    ((newLabelMap_ok hg.inv.nlNodup).1 ⟨_, t1⟩ s es).1
  have hE : ∀ s, inTurn e e' = some s → s.labels.Nodup := fun s es =>
    ((newLabelMap_ok hg.inv.elNodup).1 ⟨_, u1⟩ s es).1
  have M := a2.moved.trans b2.moved
  have hid := in_turn_id hi hi' hw
  have hnl := in_turn_label t2 t3 t4
  have hel := in_turn_label u2 u3 u4
  have hcov : Covers g (inTurn i i') (inTurn n n') (inTurn e e') := by
    have lab : ∀ {a b : Option (SetMap (Id k))} {l y : Option (Id k)} {x : Id k}, l = some x →
        newLabel (inTurn a b) l = .ok y → ∀ s, inTurn a b = some s → s.labels.Nodup → x ∈ s.items := by
      rintro a b l y x rfl hy s es hs
      obtain ⟨z, hz, -⟩ := (newLabel_some_ok _ _ _).1 hy
      exact listed_of_newId hz es hs
    refine ⟨fun s es v hv => ?_, fun s es v l hl => ?_, fun s es v w l hl => ?_,
      (newLabelMap_ok hg.inv.nlNodup).1 ⟨_, t1⟩, (newLabelMap_ok hg.inv.elNodup).1 ⟨_, u1⟩⟩
    · have r1 := a2.ren_ok hv
      have r2 := b2.ren_ok ((a2.hasNode _).2 ⟨v, hv, r1⟩)
      exact listed_of_newId ((hid _ _).2 ⟨_, r1, r2⟩) es (hI s es)
    · obtain ⟨v', l', r1, r2⟩ := a2.nodeTotal v _ hl
      obtain ⟨v'', l'', r3, r4⟩ := b2.nodeTotal v' l' ((a2.node _ _).2 ⟨v, _, hl, r1, r2⟩)
      exact lab rfl ((hnl _ _).2 ⟨_, r2, r4⟩) s es (hN s es)
    · obtain ⟨w', l', r1, r2⟩ := a2.arcTotal v w _ hl
      have r0 := a2.ren_ok (outE_hasNode (show (g.outE v w).isSome by rw [hl]; rfl))
      obtain ⟨w'', l'', r3, r4⟩ := b2.arcTotal _ w' l' ((a2.arc _ _ _).2 ⟨v, w, _, hl, r0, r1, r2⟩)
      exact lab rfl ((hel _ _).2 ⟨_, r2, r4⟩) s es (hE s es)
  obtain ⟨x, hx⟩ := (reorderIdWith_total hg.inv).2 hcov
  obtain ⟨c1, c2, c3, c4, -⟩ := reorderIdWith_all hg.inv (len hI) hx
  have hp : j.nodeMap.Perm x.nodeMap :=
    M.perm c2.moved b1.toNWF c1.toNWF hg.inv (fun v _ v' => (hid v v').symm) (fun _ l _ l' => (hnl l l').symm)
      (fun _ _ l _ l' => (hel l l').symm)
  refine ⟨x, hx, ⟨?_, hp, ?_, ?_, ?_⟩, ?_⟩
  · rw [c2.dir, b2.dir, a2.dir]
  · rw [c2.cnt, b2.cnt, a2.cnt]
  · exact Except.ok.inj (c3.symm.trans t1)
  · exact Except.ok.inj (c4.symm.trans u1)
  · rcases reordered_max hg.inv (len hI) hx with ⟨p1, p2, p3, p4⟩ | p
    · have nn : ∀ {l : Nat} {a b : Option (SetMap (Id l))}, inTurn a b = none → a = none ∧ b = none := by
        intro l a b h
        cases a with
        | none => exact ⟨rfl, h⟩
        | some s => cases b <;> cases h
      obtain ⟨rfl, rfl⟩ := nn p1
      obtain ⟨rfl, rfl⟩ := nn p2
      obtain ⟨rfl, rfl⟩ := nn p3
      rw [reorderIdWith_none] at h1 h2
      cases h1; cases h2
      rw [p4]
    · rw [p, ← max_perm hp]
      rcases reordered_max a1 (len hi') h2 with ⟨rfl, rfl, rfl, rfl⟩ | q
      · rcases reordered_max hg.inv (len hi) h1 with ⟨rfl, rfl, rfl, rfl⟩ | q
        · unfold inTurn at hx
          rw [reorderIdWith_none] at hx
          cases hx
          rw [p]
        · exact q.symm
      · exact q.symm

/-- A label map that drops no label can be turned round. -/
theorem turned {s : SetMap (Id k)} (hs : s.labels.Nodup) (hr : ∀ i ∈ s.items, i.val < s.len) :
    ∃ t : SetMap (Id k), t.labels.Nodup ∧ t.len = s.len ∧ (∀ i ∈ t.items, i.val < s.len) ∧
      ∀ i j : Id k, t.getItem j.val = some i ↔ s.getItem i.val = some j := by
  have hlen : s.labels.length ≤ k + 1 := SetMap.len_le hs
  have hp : (s.labels.map (·.val)).Perm (List.range s.labels.length) := by
    refine List.Subperm.perm_of_length_le ?_ (by simp)
    refine List.subperm_of_subset (hs.map Fin.val_injective) fun x hx => ?_
    obtain ⟨y, hy, rfl⟩ := List.mem_map.1 hx
    exact List.mem_range.2 (hr y hy)
  have hmem : ∀ j : Id k, j.val < s.labels.length → j ∈ s.labels := by
    intro j hj
    have := hp.mem_iff.2 (List.mem_range.2 hj)
    obtain ⟨y, hy, e⟩ := List.mem_map.1 this
    obtain rfl := Fin.ext e
    exact hy
  let t : SetMap (Id k) := ⟨(List.range s.labels.length).map (fun j => Id.new (s.labels.idxOf (Id.new j)))⟩
  have hget : ∀ j : Nat, t.getItem j = if j < s.labels.length then some (Id.new (s.labels.idxOf (Id.new j))) else none := by
    intro j
    show ((List.range s.labels.length).map _)[j]? = _
    rw [List.getElem?_map]
    by_cases hj : j < s.labels.length
    · rw [List.getElem?_range hj, if_pos hj]; rfl
    · rw [List.getElem?_eq_none (by simpa using hj), if_neg hj]; rfl
  have hidx : ∀ j : Nat, j < s.labels.length → s.labels.idxOf (Id.new j : Id k) < s.labels.length ∧
      (Id.new (s.labels.idxOf (Id.new j : Id k)) : Id k).val = s.labels.idxOf (Id.new j : Id k) := by
    intro j hj
    have := List.idxOf_lt_length_iff.2 (hmem (Id.new j) (by rw [Id_new_lt (by omega)]; exact hj))
    exact ⟨this, Id_new_lt (by omega)⟩
  have key : ∀ i j : Id k, t.getItem j.val = some i ↔ s.getItem i.val = some j := by
    intro i j
    rw [hget]
    have hj' : (Id.new j.val : Id k) = j := Fin.ext (Id_new_lt (Nat.le_of_lt_succ j.isLt))
    constructor
    · intro h
      by_cases hj : j.val < s.labels.length
      · rw [if_pos hj] at h
        obtain ⟨q1, q2⟩ := hidx j.val hj
        rw [← Option.some.inj h, q2, hj']
        rw [hj'] at q1
        show s.labels[s.labels.idxOf j]? = some j
        rw [List.getElem?_eq_getElem q1, List.getElem_idxOf]
      · rw [if_neg hj] at h; cases h
    · intro h
      have hjm : j ∈ s.labels := List.mem_of_getElem? h
      have hj : j.val < s.labels.length := hr j hjm
      rw [if_pos hj, hj']
      congr 1
      apply Fin.ext
      obtain ⟨hi, he⟩ := List.getElem?_eq_some_iff.1 h
      have hx : s.labels.idxOf j = i.val := by
        have q := List.idxOf_lt_length_iff.2 hjm
        have q2 : s.labels[s.labels.idxOf j] = j := List.getElem_idxOf q
        exact (hs.getElem_inj_iff).1 (q2.trans he.symm)
      rw [hx]
      exact Id_new_lt (Nat.le_of_lt_succ i.isLt)
  refine ⟨t, ?_, ?_, ?_, key⟩
  · refine List.nodup_iff_getElem?_ne_getElem?.2 fun a b hab hb e => ?_
    have hb' : b < s.labels.length := by simpa [t] using hb
    change t.getItem a = t.getItem b at e
    rw [hget, hget, if_pos (by omega), if_pos hb'] at e
    obtain ⟨p1, p2⟩ := hidx a (by omega)
    obtain ⟨q1, q2⟩ := hidx b hb'
    have e' := congrArg Fin.val (Option.some.inj e)
    rw [p2, q2] at e'
    have r1 : s.labels[s.labels.idxOf (Id.new a : Id k)] = Id.new a := List.getElem_idxOf p1
    have r2 : s.labels[s.labels.idxOf (Id.new b : Id k)] = Id.new b := List.getElem_idxOf q1
    have r3 : (Id.new a : Id k) = Id.new b := by
      rw [← r1, ← r2]; congr 1
    have := congrArg Fin.val r3
    rw [Id_new_lt (by omega), Id_new_lt (by omega)] at this
    omega
  · show ((List.range s.labels.length).map _).length = _
    simp [SetMap.len]
  · intro i hi
    obtain ⟨j, hj, rfl⟩ := List.mem_map.1 hi
    obtain ⟨p1, p2⟩ := hidx j (List.mem_range.1 hj)
    show _ < s.labels.length
    omega

/-- `b` takes everything back that `a` has done. -/
structure TakesBack (a b : Option (SetMap (Id k))) (old new : SetMap X) [DecidableEq X] : Prop where
  table : newLabelMap b new = .ok old
  label : ∀ l l', newLabel a l = .ok l' → ∀ l'', newLabel b l' = .ok l'' ↔ l = l''

theorem takes_back [DecidableEq X] {a : Option (SetMap (Id k))} {old new : SetMap X} (hold : old.labels.Nodup)
    (h : newLabelMap a old = .ok new) (hl : ∀ s, a = some s → s.len = old.len) : ∃ b, TakesBack a b old new := by
  cases a with
  | none =>
    cases h
    refine ⟨none, rfl, fun l l' e l'' => ?_⟩
    rw [newLabel_none] at e ⊢
    rw [e]
  | some s =>
    obtain ⟨c1, c2⟩ := (newLabelMap_ok hold).1 ⟨_, h⟩ s rfl
    obtain ⟨n1, n2, n3⟩ := reorderLabelMap_getItem hold h
    obtain ⟨t, t1, t2, t3, t4⟩ := turned c1 (fun i hi => by rw [hl s rfl]; exact c2 i hi)
    refine ⟨some t, ?_, fun l l' e l'' => ?_⟩
    · obtain ⟨r, hr⟩ := (newLabelMap_ok (map := some t) n1).2 (by
        rintro _ ⟨⟩
        exact ⟨t1, fun i hi => by rw [n2]; exact t3 i hi⟩)
      rw [hr]
      congr 1
      obtain ⟨-, r2, r3⟩ := reorderLabelMap_getItem n1 hr
      refine table_ext fun j => ?_
      rw [r3]
      by_cases hj : j < s.len
      · have hlen : s.len ≤ k + 1 := SetMap.len_le c1
        have : ∃ i, t.getItem j = some i := by
          have : j < t.labels.length := by have : t.len = s.len := t2; unfold SetMap.len at *; omega
          exact ⟨_, List.getElem?_eq_getElem this⟩
        obtain ⟨i, hi⟩ := this
        rw [hi, Option.bind_some, n3]
        have hv : (Id.new j : Id k).val = j := Id_new_lt (by omega)
        have := (t4 i (Id.new j)).1 (by rw [hv]; exact hi)
        rw [this, Option.bind_some, hv]
      · have e1 : t.getItem j = none := by
          have : t.len = s.len := t2
          exact List.getElem?_eq_none (by unfold SetMap.len at *; omega)
        have e2 : old.getItem j = none := by
          have := hl s rfl
          exact List.getElem?_eq_none (by unfold SetMap.len at *; omega)
        rw [e1, e2]; rfl
    · cases l with
      | none =>
        obtain rfl := (newLabel_none_ok _ _).1 e
        rw [newLabel_none_ok, eq_comm]
      | some x =>
        obtain ⟨y, e1, rfl⟩ := (newLabel_some_ok _ _ _).1 e
        rw [newLabel_some_ok]
        rw [newId_some c1] at e1
        constructor
        · rintro ⟨z, e2, rfl⟩
          rw [newId_some t1, t4] at e2
          rw [e1] at e2
          exact e2
        · rintro rfl
          exact ⟨x, (newId_some t1 _ _).2 ((t4 _ _).2 e1), rfl⟩

/-- **C182.** Any reordering can be undone, provided no label is dropped by the label maps: there are maps that lead back
to the same graph. The id map among them has the new id of a node at the place of the old one. Only `max_seen_id` may
differ: it is then the largest id in use. -/
theorem c182_undo {g h : GraphMap m k NL EL} (hg : Reachable g) {i : Option (SetMap (Id m))}
    {n e : Option (SetMap (Id k))} (hi : ∀ s, i = some s → s.labels.Nodup) (hh : g.reorderIdWith i n e = .ok h)
    (hn : ∀ s, n = some s → s.len = g.nodeLabels.len) (he : ∀ s, e = some s → s.len = g.edgeLabels.len) :
    ∃ i' n' e' x, h.reorderIdWith i' n' e' = .ok x ∧ SameButMax g x ∧
      (x.maxId = g.maxId ∨ x.maxId = g.nodeIndices.max?) ∧ (∀ s, i' = some s → s.labels.Nodup) ∧
      ∀ s t, i = some s → i' = some t → ∀ a b, g.hasNode a = true → s.getItem b.val = some a →
        t.getItem a.val = some b := by
  have len : ∀ {o : Option (SetMap (Id m))}, (∀ s, o = some s → s.labels.Nodup) → ∀ s, o = some s → s.len ≤ m + 1 :=
    fun ho s e => SetMap.len_le (ho s e)
  obtain ⟨a1, a2, a3, a4, -⟩ := reorderIdWith_all hg.inv (len hi) hh
  obtain ⟨n', B⟩ := takes_back hg.inv.nlNodup a3 hn
  obtain ⟨e', C⟩ := takes_back hg.inv.elNodup a4 he
  obtain ⟨i', I1, I2, I3⟩ : ∃ i' : Option (SetMap (Id m)), (∀ s, i' = some s → s.labels.Nodup) ∧
      (∀ a, g.hasNode a = true → ∀ b, newId i a = .ok b → ∀ c, newId i' b = .ok c ↔ a = c) ∧
      ∀ s t, i = some s → i' = some t → ∀ a b : Id m, g.hasNode a = true → s.getItem b.val = some a →
        t.getItem a.val = some b := by
    cases i with
    | none =>
      refine ⟨none, by simp, fun a _ b hb c => ?_, by simp⟩
      rw [newId_none] at hb ⊢
      rw [hb]
    | some s =>
      classical
      have hs := hi s rfl
      have bij := a2.bijOn (len hi)
      let q : {a // g.hasNode a = true} ≃ {a // h.hasNode a = true} := bij.equiv _
      let π : Equiv.Perm (Id m) := q.extendSubtype
      have hπ : ∀ a, g.hasNode a = true → π a = ren (some s) a := by
        intro a ha
        exact Equiv.extendSubtype_apply_of_mem q a ha
      have hget : ∀ a : Id m, (⟨(List.finRange (m + 1)).map π⟩ : SetMap (Id m)).getItem a.val = some (π a) := by
        intro a
        show ((List.finRange (m + 1)).map π)[a.val]? = _
        rw [List.getElem?_map, List.getElem?_eq_getElem (by simp)]
        simp
      have hnd : ((List.finRange (m + 1)).map π).Nodup := (List.nodup_finRange _).map π.injective
      refine ⟨some ⟨(List.finRange (m + 1)).map π⟩, by rintro _ ⟨⟩; exact hnd, fun a ha b hb c => ?_, ?_⟩
      · rw [newId_some hnd, hget]
        have hb' : b = π a := by rw [hπ a ha]; exact (newId_ren hb).symm
        rw [hb']
        simp only [Option.some.injEq]
        exact ⟨fun h => (π.injective h).symm, fun h => h ▸ rfl⟩
      · rintro _ _ ⟨⟩ ⟨⟩ a b ha hb
        rw [hget, hπ a ha, newId_ren ((newId_some hs _ _).2 hb)]
  have hcov : Covers h i' n' e' := by
    have lab : ∀ {a b : Option (SetMap (Id k))} (hnd : ∀ s, b = some s → s.labels.Nodup) {l y : Option (Id k)}
        {x : Id k}, l = some x → newLabel b l = .ok y → ∀ s, b = some s → x ∈ s.items := by
      rintro a b hnd l y x rfl hy s es
      obtain ⟨z, hz, -⟩ := (newLabel_some_ok _ _ _).1 hy
      exact listed_of_newId hz es (hnd s es)
    refine ⟨fun s es v hv => ?_, fun s es v l hl => ?_, fun s es v w l hl => ?_,
      (newLabelMap_ok a1.nlNodup).1 ⟨_, B.table⟩, (newLabelMap_ok a1.elNodup).1 ⟨_, C.table⟩⟩
    · obtain ⟨u, hu, e1⟩ := (a2.hasNode v).1 hv
      exact listed_of_newId ((I2 u hu v e1 u).2 rfl) es (I1 s es)
    · obtain ⟨u, l0, e1, e2, e3⟩ := (a2.node _ _).1 hl
      exact lab (a := n) (fun s es => ((newLabelMap_ok a1.nlNodup).1 ⟨_, B.table⟩ s es).1) rfl
        ((B.label _ _ e3 l0).2 rfl) s es
    · obtain ⟨u, w0, l0, e1, e2, e3, e4⟩ := (a2.arc _ _ _).1 hl
      exact lab (a := e) (fun s es => ((newLabelMap_ok a1.elNodup).1 ⟨_, C.table⟩ s es).1) rfl
        ((C.label _ _ e4 l0).2 rfl) s es
  obtain ⟨x, hx⟩ := (reorderIdWith_total a1).2 hcov
  obtain ⟨c1, c2, c3, c4, -⟩ := reorderIdWith_all a1 (len I1) hx
  have M := a2.moved.trans c2.moved
  have hp : x.nodeMap.Perm g.nodeMap := by
    refine M.perm (moved_refl g) c1.toNWF hg.inv.toNWF hg.inv ?_ ?_ ?_
    · intro v hv v'
      constructor
      · rintro ⟨b, e1, e2⟩; exact (I2 v hv b e1 v').1 e2
      · rintro rfl; exact ⟨_, a2.ren_ok hv, (I2 v hv _ (a2.ren_ok hv) v).2 rfl⟩
    · intro v l hl l'
      constructor
      · rintro ⟨b, e1, e2⟩; exact (B.label l b e1 l').1 e2
      · rintro rfl
        obtain ⟨_, b, -, e1⟩ := a2.nodeTotal v l hl
        exact ⟨b, e1, (B.label l b e1 l).2 rfl⟩
    · intro s t l hl l'
      constructor
      · rintro ⟨b, e1, e2⟩; exact (C.label l b e1 l').1 e2
      · rintro rfl
        obtain ⟨_, b, -, e1⟩ := a2.arcTotal s t l hl
        exact ⟨b, e1, (C.label l b e1 l).2 rfl⟩
  refine ⟨i', n', e', x, hx, ⟨?_, hp.symm, ?_, ?_, ?_⟩, ?_, I1, I3⟩
  · rw [c2.dir, a2.dir]
  · rw [c2.cnt, a2.cnt]
  · exact Except.ok.inj (c3.symm.trans B.table)
  · exact Except.ok.inj (c4.symm.trans C.table)
  · rcases reordered_max a1 (len I1) hx with ⟨-, -, -, rfl⟩ | q
    · rcases reordered_max hg.inv (len hi) hh with ⟨-, -, -, rfl⟩ | q
      · exact .inl rfl
      · rw [q]; exact .inr (max_perm hp)
    · rw [q]; exact .inr (max_perm hp)

/-- **C182.** A map that has every node at its own place changes nothing, except that `max_seen_id` becomes the largest
id in use. -/
theorem c182_identity {g : GraphMap m k NL EL} (hg : Reachable g) {s : SetMap (Id m)} (hs : s.labels.Nodup)
    (h : ∀ n : Id m, g.hasNode n = true → s.getItem n.val = some n) :
    ∃ x, g.reorderIdWith (some s) none none = .ok x ∧ SameButMax g x ∧ x.maxId = g.nodeIndices.max? := by
  have hnd : ∀ t, some s = some t → t.labels.Nodup := by rintro _ ⟨⟩; exact hs
  have len : ∀ t, some s = some t → t.len ≤ m + 1 := fun t e => SetMap.len_le (hnd t e)
  have hcov : Covers g (some s) none none := by
    refine ⟨?_, by simp, by simp, by simp, by simp⟩
    rintro _ ⟨⟩ n hn
    exact List.mem_of_getElem? (h n hn)
  obtain ⟨x, hx⟩ := (reorderIdWith_total hg.inv).2 hcov
  obtain ⟨c1, c2, c3, c4, -⟩ := reorderIdWith_all hg.inv len hx
  have hp : x.nodeMap.Perm g.nodeMap := by
    refine c2.moved.perm (moved_refl g) c1.toNWF hg.inv.toNWF hg.inv ?_ ?_ ?_
    · intro v hv v'
      have := (newId_some hs v v).2 (h v hv)
      rw [this]
      exact ⟨fun e => Except.ok.inj e, fun e => congrArg _ e⟩
    · intro v l _ l'; exact newLabel_none l l'
    · intro a b l _ l'; exact newLabel_none l l'
  refine ⟨x, hx, ⟨c2.dir, hp.symm, c2.cnt, (Except.ok.inj c3).symm, (Except.ok.inj c4).symm⟩, ?_⟩
  rcases reordered_max hg.inv len hx with ⟨q, -⟩ | q
  · cases q
  · rw [q, max_perm hp]

theorem reordered_tables {g h : GraphMap m k NL EL} {i : Option (SetMap (Id m))} {n e : Option (SetMap (Id k))}
    (hh : g.reorderIdWith i n e = .ok h) :
    newLabelMap n g.nodeLabels = .ok h.nodeLabels ∧ newLabelMap e g.edgeLabels = .ok h.edgeLabels := by
  unfold reorderIdWith at hh
  split at hh
  · rename_i hc
    simp only [Bool.and_eq_true, Option.isNone_iff_eq_none] at hc
    obtain ⟨⟨rfl, rfl⟩, rfl⟩ := hc
    cases hh
    exact ⟨rfl, rfl⟩
  · obtain ⟨_, -, hh⟩ := bind_eq_ok hh
    obtain ⟨_, h1, hh⟩ := bind_eq_ok hh
    obtain ⟨_, h2, hh⟩ := bind_eq_ok hh
    cases hh
    exact ⟨h1, h2⟩

theorem shorter [DecidableEq X] {a : Option (SetMap (Id k))} {old new : SetMap X} (hold : old.labels.Nodup)
    (h : newLabelMap a old = .ok new) :
    new.labels.Nodup ∧ new.len ≤ old.len ∧ ∀ s, a = some s → new.len = s.len := by
  cases a with
  | none => cases h; exact ⟨hold, le_refl _, by simp⟩
  | some s =>
    obtain ⟨c1, c2⟩ := (newLabelMap_ok hold).1 ⟨_, h⟩ s rfl
    obtain ⟨n1, n2, -⟩ := reorderLabelMap_getItem hold h
    refine ⟨n1, ?_, by rintro _ ⟨⟩; exact n2⟩
    rw [n2]
    have : (s.labels.map (·.val)).Subperm (List.range old.len) :=
      List.subperm_of_subset (c1.map Fin.val_injective) fun x hx => by
        obtain ⟨y, hy, rfl⟩ := List.mem_map.1 hx
        exact List.mem_range.2 (c2 y hy)
    have := this.length_le
    simpa [SetMap.len] using this

/-- **C182.** So the condition is needed: once a label has been dropped no reordering brings the table back. -/
theorem c182_lost {g h : GraphMap m k NL EL} (hg : Reachable g) {i : Option (SetMap (Id m))}
    {n e : Option (SetMap (Id k))} (hh : g.reorderIdWith i n e = .ok h)
    (hl : (∃ s, n = some s ∧ s.len ≠ g.nodeLabels.len) ∨ ∃ s, e = some s ∧ s.len ≠ g.edgeLabels.len)
    {i' : Option (SetMap (Id m))} {n' e' : Option (SetMap (Id k))} {x : GraphMap m k NL EL}
    (hx : h.reorderIdWith i' n' e' = .ok x) : ¬ SameButMax g x := by
  rintro ⟨-, -, -, x1, x2⟩
  obtain ⟨a1, a2⟩ := reordered_tables hh
  obtain ⟨b1, b2⟩ := reordered_tables hx
  obtain ⟨p1, p2, p3⟩ := shorter hg.inv.nlNodup a1
  obtain ⟨q1, q2, q3⟩ := shorter hg.inv.elNodup a2
  obtain ⟨-, r2, -⟩ := shorter p1 b1
  obtain ⟨-, s2, -⟩ := shorter q1 b2
  rw [x1] at r2
  rw [x2] at s2
  rcases hl with ⟨s, rfl, hs⟩ | ⟨s, rfl, hs⟩
  · have := p3 s rfl; omega
  · have := q3 s rfl; omega

/-! ### Instances -/

/-- A graph, maps that move its ids and turn its node labels round, and maps that lead back. -/
example : Reachable star ∧
    (do let h ← star.reorderIdWith (some ⟨[7, 2, 9, 5]⟩) (some ⟨[1, 0]⟩) none
        h.reorderIdWith (some ⟨[4, 5, 1, 6, 7, 3, 8, 0, 9, 2]⟩) (some ⟨[1, 0]⟩) none : Res _) = .ok star ∧
    (do let h ← star.reorderIdWith (some ⟨[7, 2, 9, 5]⟩) (some ⟨[1, 0]⟩) none
        pure (h.nodeLabels, h.hasEdge 3 0, h.maxId) : Res _) = .ok (⟨["leaf", "hub"]⟩, true, some 3) :=
  ⟨star_run.reachable List.nodup_nil List.nodup_nil, by decide +kernel, by decide +kernel⟩

/-- The largest id ever seen does not come back: node 9 was there and was removed, and the map has every node left at
its own place. -/
theorem c182_max : ∃ (g x : GraphMap 9 3 String String) (s : SetMap (Id 9)), Reachable g ∧ s.labels.Nodup ∧
    (∀ n : Id 9, g.hasNode n = true → s.getItem n.val = some n) ∧ g.reorderIdWith (some s) none none = .ok x ∧
    g.maxId = some 9 ∧ x.maxId = some 1 := by
  have hr : ∀ g, (withLabelMap (m := 9) (k := 3) (NL := String) (EL := String) false SetMap.empty SetMap.empty).exec
      [.addNode 1 none, .addNode 9 none, .removeNode 9] = .ok g → Reachable g :=
    fun g h => (GraphMap.exec_run h).reachable List.nodup_nil List.nodup_nil
  exact ⟨⟨false, [(1, ⟨1, none, [], []⟩)], 0, ⟨[]⟩, ⟨[]⟩, some 9⟩,
    ⟨false, [(1, ⟨1, none, [], []⟩)], 0, ⟨[]⟩, ⟨[]⟩, some 1⟩, ⟨[0, 1]⟩, hr _ (by decide +kernel),
    by decide, by decide, by decide +kernel, rfl, rfl⟩

/-- A dropped label: the node label of no node left is missing from the map, and the call goes through. -/
theorem c182_dropped : ∃ g h : GraphMap 9 3 String String, Reachable g ∧
    g.reorderIdWith none (some ⟨[1]⟩) none = .ok h ∧ g.nodeLabels = ⟨["a", "b"]⟩ ∧ h.nodeLabels = ⟨["b"]⟩ ∧
    h.getNodeLabel 2 = some "b" := by
  have hr : ∀ g, (withLabelMap (m := 9) (k := 3) (NL := String) (EL := String) false SetMap.empty SetMap.empty).exec
      [.addNode 1 (some "a"), .addNode 2 (some "b"), .removeNode 1] = .ok g → Reachable g :=
    fun g h => (GraphMap.exec_run h).reachable List.nodup_nil List.nodup_nil
  exact ⟨⟨false, [(2, ⟨2, some 1, [], []⟩)], 0, ⟨["a", "b"]⟩, ⟨[]⟩, some 2⟩,
    ⟨false, [(2, ⟨2, some 0, [], []⟩)], 0, ⟨["b"]⟩, ⟨[]⟩, some 2⟩, hr _ (by decide +kernel),
    by decide +kernel, rfl, rfl, by decide +kernel⟩

end Verif.Props
