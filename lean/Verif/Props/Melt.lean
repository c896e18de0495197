import Verif.Proof.Melt
import Verif.Proof.Makeable
import Verif.Props.AnySets

/-! Property theorems about which frozen graphs `into_static` gives: C160. -/

namespace Verif.Props

open Verif.GraphMap Verif.Spec

variable {m k : Nat} {NL EL : Type} [DecidableEq NL] [DecidableEq EL]

omit [DecidableEq NL] [DecidableEq EL] in
theorem frozen_row {g : GraphMap m k NL EL} {M : Id m} {r : StaticGraph m k NL EL} (hr : FrozenAs g M r) {n : Nat}
    (hn : n < M.val + 1) : Spec.rowOf r.edgeVec n = (g.rowOf n).map Prod.fst := by
  rw [EdgeVec.encodes_rowOf hr.out (by simpa using hn), rows_getElem]

omit [DecidableEq NL] [DecidableEq EL] in
theorem frozen_meltable {g : GraphMap m k NL EL} (hg : g.Inv) {M : Id m} {r : StaticGraph m k NL EL}
    (hmax : g.nodeIndices.max? = some M) (hlt : M.val < m) (hr : FrozenAs g M r) : Meltable r (M.val + 1) := by
  have hM := (max_spec hmax).2
  have hrow : ∀ n, n < M.val + 1 → Spec.rowOf r.edgeVec n = (g.rowOf n).map Prod.fst := fun n hn => frozen_row hr hn
  have hbeyond : ∀ ev : EdgeVec m k, ev.offsets.length = M.val + 2 → ∀ n, ¬ n < M.val + 1 → Spec.rowOf ev n = [] :=
    fun ev h n hn => EdgeVec.rowOf_beyond (by omega)
  have hlen : r.edgeVec.offsets.length = M.val + 2 := by rw [hr.out.offsets, offsetsOf_length, rows_length]
  have hout : ∀ s t : Id m, t ∈ Spec.rowOf r.edgeVec s.val ↔ (g.outE s t).isSome := by
    intro s t
    by_cases hs : s.val < M.val + 1
    · rw [hrow _ hs, outE_rows]
    · rw [hbeyond _ hlen _ hs]
      simp only [List.not_mem_nil, false_iff]
      intro h
      have := hM s (outE_hasNode h)
      rw [Fin.le_def] at this
      omega
  have hinn : g.directed = true → ∃ iv, r.inEdgeVec = some iv ∧ iv.labels = none ∧ Packed iv (M.val + 1) ∧
      (∀ n, n < M.val + 1 → Spec.rowOf iv n = (g.inRowOf n).map Prod.fst) ∧
      ∀ s t : Id m, s ∈ Spec.rowOf iv t.val ↔ (g.outE s t).isSome := by
    intro hd
    obtain ⟨iv, h1, h2⟩ := hr.inn hd
    have hil : iv.offsets.length = M.val + 2 := by rw [h2.offsets, offsetsOf_length, inRows_length]
    have hir : ∀ n, n < M.val + 1 → Spec.rowOf iv n = (g.inRowOf n).map Prod.fst := fun n hn => by
      rw [EdgeVec.encodes_rowOf h2 (by simpa using hn), inRows_getElem]
    have hmem : ∀ s t : Id m, s ∈ Spec.rowOf iv t.val ↔ (g.outE s t).isSome := by
      intro s t
      rw [← hg.inSpec hd]
      by_cases ht : t.val < M.val + 1
      · rw [hir _ ht, inRowOf_fst]
        unfold inE
        cases h : g.getNode t with
        | none => simp
        | some nd => simp [NodeMap.inNeighborIds]
      · rw [hbeyond _ hil _ ht]
        simp only [List.not_mem_nil, false_iff]
        rintro ⟨nd, h, -⟩
        have := hM t ((hasNode_iff _ _).2 ⟨nd, h⟩)
        rw [Fin.le_def] at this
        omega
    refine ⟨iv, h1, by rw [h2.labels]; rfl, ?_, hir, hmem⟩
    have := EdgeVec.packed_of_encodes h2 (by
      intro row hrow' p hp
      rw [inRows_length]
      obtain ⟨i, hi, rfl⟩ := List.mem_map.1 hrow'
      have hi' : i < M.val + 1 := by simpa using hi
      have hpi : p.1 ∈ Spec.rowOf iv i := by rw [hir i hi']; exact List.mem_map_of_mem hp
      have he : (g.outE p.1 (Id.new i)).isSome := by
        rw [← hmem, EdgeIter.Id_new_val (by omega)]; exact hpi
      have := hM _ (outE_hasNode he)
      rw [Fin.le_def] at this
      omega)
    rwa [inRows_length] at this
  have hpacked : Packed r.edgeVec (M.val + 1) := by
    have := EdgeVec.packed_of_encodes hr.out (rows_closed hg hM)
    rwa [rows_length] at this
  have hnode : ∀ n, n < M.val + 1 → Marked r (M.val + 1) n → g.hasNode (Id.new n) = true := by
    intro n hn hmk
    have hv : (Id.new n : Id m).val = n := EdgeIter.Id_new_val (by omega)
    by_contra hcon
    have hnone : g.getNode (Id.new n) = none := by
      cases hx : g.getNode (Id.new n) with
      | none => rfl
      | some nd => exact absurd ((hasNode_iff _ _).2 ⟨nd, hx⟩) hcon
    rcases hmk with h | h | ⟨iv, h, h'⟩ | ⟨ls, l, h, h', h''⟩
    · apply hcon
      have : (Id.new n : Id m) = M := Fin.ext (by rw [hv]; omega)
      rw [this]; exact (max_spec hmax).1
    · apply h
      rw [hrow n hn]
      unfold GraphMap.rowOf
      rw [hnone]; rfl
    · cases hd : g.directed with
      | true =>
        obtain ⟨iv', h1, -, -, h2, -⟩ := hinn hd
        rw [h] at h1; cases h1
        apply h'
        rw [h2 n hn]
        unfold GraphMap.inRowOf
        rw [hnone]; rfl
      | false => rw [hr.noIn hd] at h; cases h
    · rw [hr.labels] at h
      split at h
      · cases h
        rw [List.getElem?_map, List.getElem?_range hn] at h'
        apply h''
        cases h'
        unfold lidOf
        rw [hnone]; rfl
      · cases h
  have hhead : ∀ {X : Type} (l : List X), l.head?.isSome = true ↔ l ≠ [] := by
    intro X l; cases l <;> simp
  refine ⟨by omega, by omega, hpacked, ?_, ?_, ?_, ?_, ?_, ?_, ⟨?_, ?_⟩, ?_⟩
  · intro hd
    rw [hr.directed] at hd
    obtain ⟨iv, h1, h2, h3, -, h4⟩ := hinn hd
    exact ⟨iv, h1, h2, h3, fun s t => by rw [h4, hout]⟩
  · intro hd
    rw [hr.directed] at hd
    refine ⟨hr.noIn hd, fun s t => ?_⟩
    rw [hout, hout]
    exact ⟨hg.sym hd t s, hg.sym hd s t⟩
  · have hl := hr.labels
    rw [show g.view.hasNodeLabels = g.nodeLabels.items.head?.isSome from rfl, ← hr.nodeLabels] at hl
    split
    · rename_i h; rw [h] at hl; exact hl
    · rename_i h
      rw [if_pos ((hhead _).2 h)] at hl
      exact ⟨_, hl, by simp⟩
  · have hl := hr.out.labels
    rw [show g.view.hasEdgeLabels = g.edgeLabels.items.head?.isSome from rfl, ← hr.edgeLabels] at hl
    split
    · rename_i h; rw [h] at hl; exact hl
    · rename_i h
      rw [if_pos ((hhead _).2 h)] at hl
      exact ⟨_, hl, by rw [hr.out.edges, List.length_map, List.length_map]⟩
  · rw [hr.nodeLabels]; exact hg.nlNodup
  · rw [hr.edgeLabels]; exact hg.elNodup
  · have hsub : {n | n < M.val + 1 ∧ Marked r (M.val + 1) n} ⊆ ((g.nodeIndices.map Fin.val).toFinset : Set Nat) := by
      rintro n ⟨hn, hmk⟩
      have := hnode n hn hmk
      rw [← mem_nodeIndices] at this
      simp only [List.coe_toFinset, List.mem_map, Set.mem_setOf_eq]
      exact ⟨_, this, EdgeIter.Id_new_val (by omega)⟩
    refine (Set.ncard_le_ncard hsub (Finset.finite_toSet _)).trans ?_
    rw [Set.ncard_coe_finset, hr.numNodes, ← nodeIndices_length]
    refine (List.toFinset_card_le _).trans ?_
    rw [List.length_map]
  · rw [hr.numNodes]; exact nodeCount_le hg.toNWF hM
  · rw [frozen_pairs hg.toNWF hM hlt hr, hr.numEdges]; exact hg.count

omit [DecidableEq NL] [DecidableEq EL] in
theorem meltable_frozen {r : StaticGraph m k NL EL} {c : Nat} (h : Meltable r c) :
    ∃ g : GraphMap m k NL EL, g.Inv ∧ g.intoStatic = .ok r := by
  classical
  -- the nodes
  obtain ⟨P, hP1, hP2, hP3⟩ := Finset.exists_subsuperset_card_eq
    (s := (Finset.range c).filter (Marked r c)) (t := Finset.range c) (n := r.numNodes)
    (Finset.filter_subset _ _) (by
      have := h.nodes.1
      rw [← Set.ncard_coe_finset]
      convert this using 2
      ext n; simp) (by rw [Finset.card_range]; exact h.nodes.2)
  obtain ⟨ids, hn, hids⟩ : ∃ ids : List Nat, ids.Nodup ∧ ids.toFinset = P :=
    ⟨P.toList, P.nodup_toList, P.toList_toFinset⟩
  have hmem : ∀ n, n ∈ ids → n < c := by
    intro n hx
    have : n ∈ P := by rw [← hids]; simpa using hx
    simpa using hP2 this
  have hmark : ∀ n, n < c → Marked r c n → n ∈ ids := by
    intro n hc hmk
    have : n ∈ P := hP1 (by simp [hc, hmk])
    rw [← hids] at this
    simpa using this
  have hlenids : ids.length = r.numNodes := by
    rw [← hP3, ← hids, List.toFinset_card_of_nodup hn]
  have hcm := h.free
  have hc0 := h.nonempty
  have hle : ∀ n ∈ ids, n ≤ m := fun n hx => by have := hmem n hx; omega
  have hfull : r.edgeVec.Full := by
    intro ls hls
    have := h.edgeLabels
    split at this
    · rw [hls] at this; cases this
    · obtain ⟨ls', h1, h2⟩ := this
      rw [hls] at h1; cases h1; exact h2
  have hlast : c - 1 ∈ ids := hmark _ (by omega) (.inl (by omega))
  let g := melt r c ids
  have hget : ∀ n : Id m, g.getNode n = if n.val ∈ ids then some (meltNode r n.val) else none := melt_node hn hle
  have hgetN : ∀ n, n < c → g.getNode (Id.new n) = if n ∈ ids then some (meltNode r n) else none := by
    intro n hc
    rw [hget, EdgeIter.Id_new_val (by omega)]
  have hrowlen : ∀ n, ¬ n < c → Spec.rowOf r.edgeVec n = [] := fun n hx =>
    EdgeVec.rowOf_beyond (by rw [h.out.rows]; omega)
  have hkeys : ∀ n, AL.keys (meltNode r n).neighbors = Spec.rowOf r.edgeVec n := by
    intro n
    unfold AL.keys meltNode
    simp only [List.map_map]
    rw [← EdgeVec.cut_fst hfull]
    rfl
  have hempty : ∀ n, n < c → n ∉ ids → Spec.rowOf r.edgeVec n = [] := by
    intro n hc hx
    by_contra hcon
    exact hx (hmark n hc (.inr (.inl hcon)))
  -- its parts
  have hwf : g.NWF := by
    refine ⟨melt_keys hn hle, ?_, ?_, ?_⟩
    · intro n nd hnd
      rw [hget] at hnd
      split at hnd
      · cases hnd; exact Id_new_self n
      · cases hnd
    · intro n nd hnd
      rw [hget] at hnd
      split at hnd
      · rename_i hx
        cases hnd
        rw [hkeys]
        exact h.out.sorted _ (hmem _ hx)
      · cases hnd
    · intro n nd hnd
      rw [hget] at hnd
      split at hnd
      · rename_i hx
        cases hnd
        unfold meltNode
        simp only
        cases hd : r.directed with
        | true =>
          obtain ⟨iv, h1, -, h3, -⟩ := h.inn hd
          rw [h1]; exact h3.sorted _ (hmem _ hx)
        | false => rw [(h.noIn hd).1]; exact .nil
      · cases hnd
  have hrow : ∀ n, n < c → g.rowOf n = r.edgeVec.cutRow n := by
    intro n hc
    unfold GraphMap.rowOf
    rw [hgetN n hc]
    split_ifs with hx
    · unfold meltNode
      simp only [List.map_map]
      conv_rhs => rw [← List.map_id (r.edgeVec.cutRow n)]
      apply List.map_congr_left
      rintro ⟨a, b⟩ -
      simp only [Function.comp_apply, staticLabel_getD, id]
    · have := hempty n hc hx
      rw [← EdgeVec.cut_fst hfull, List.map_eq_nil_iff] at this
      exact this.symm
  have hout : ∀ s t : Id m, (g.outE s t).isSome ↔ t ∈ Spec.rowOf r.edgeVec s.val := by
    intro s t
    by_cases hs : s.val < c
    · rw [← outE_rows, hrow _ hs, EdgeVec.cut_fst hfull]
    · rw [hrowlen _ hs]
      simp only [List.not_mem_nil, iff_false]
      intro he
      unfold outE at he
      rw [hget, if_neg (fun hx => hs (hmem _ hx))] at he
      cases he
  have hhas : ∀ n : Id m, g.hasNode n = true ↔ n.val ∈ ids := by
    intro n
    rw [hasNode_iff, hget]
    split_ifs with hx <;> simp [hx]
  have hM : g.nodeIndices.max? = some (Id.new (c - 1)) := by
    rw [List.max?_eq_some_iff]
    refine ⟨?_, fun n hx => ?_⟩
    · rw [mem_nodeIndices, hhas, EdgeIter.Id_new_val (by omega)]; exact hlast
    · rw [mem_nodeIndices, hhas] at hx
      have := hmem _ hx
      rw [Fin.le_def, EdgeIter.Id_new_val (by omega)]
      omega
  have hcount : g.nodeCount = r.numNodes := by
    show (ids.map (fun n => (Id.new n, meltNode r n))).length = _
    rw [List.length_map]; exact hlenids
  have hMv : (Id.new (c - 1) : Id m).val = c - 1 := EdgeIter.Id_new_val (by omega)
  obtain ⟨r', hr', hf⟩ := intoStatic_ok hwf hM (by omega)
  have hc1 : (Id.new (c - 1) : Id m).val + 1 = c := by omega
  have hhead : ∀ {X : Type} (l : List X), l.head?.isSome = !decide (l = []) := by
    intro X l; cases l <;> simp
  have heq : r' = r := by
    obtain ⟨f1, f2, f3, f4, f5, f6, f7, f8, f9⟩ := hf
    rw [hc1] at f4 f5 f7
    have e4 : r'.edgeVec = r.edgeVec := by
      have hrows : g.rows c = (List.range c).map r.edgeVec.cutRow := by
        unfold GraphMap.rows
        apply List.map_congr_left
        intro n hx
        exact hrow n (by simpa using hx)
      have hlab : g.view.hasEdgeLabels = r.edgeVec.labels.isSome := by
        show r.edgeLabels.items.head?.isSome = _
        rw [hhead]
        have := h.edgeLabels
        split at this
        · rename_i hx; rw [this, hx]; rfl
        · rename_i hx
          obtain ⟨ls, h1, -⟩ := this
          rw [h1]; simp [hx]
      rw [hrows, hlab] at f4
      exact encodes_ext f4 (EdgeVec.cut_encodes h.out hfull)
    have e5 : r'.inEdgeVec = r.inEdgeVec := by
      cases hd : r.directed with
      | false => rw [f6 hd, (h.noIn hd).1]
      | true =>
        obtain ⟨iv', h1, h2⟩ := f5 hd
        obtain ⟨iv, k1, k2, k3, k4⟩ := h.inn hd
        have hifull : iv.Full := by intro ls hls; rw [k2] at hls; cases hls
        have hrows : g.inRows c = (List.range c).map iv.cutRow := by
          unfold GraphMap.inRows
          apply List.map_congr_left
          intro n hx
          have hx : n < c := by simpa using hx
          unfold GraphMap.inRowOf
          rw [hgetN n hx, EdgeVec.cut_plain k2]
          split_ifs with hi
          · unfold meltNode
            simp only [k1]
          · have : Spec.rowOf iv n = [] := by
              by_contra hcon
              exact hi (hmark n hx (.inr (.inr (.inl ⟨iv, k1, hcon⟩))))
            rw [this]; rfl
        have h3 := EdgeVec.cut_encodes k3 hifull
        rw [← hrows, k2] at h3
        rw [h1, k1, encodes_ext h2 h3]
    have e7 : r'.labels = r.labels := by
      rw [f7]
      have hv : g.view.hasNodeLabels = !decide (r.nodeLabels.items = []) := hhead _
      rw [hv]
      have hl := h.labels
      by_cases hx : r.nodeLabels.items = []
      · rw [if_pos hx] at hl
        simp [hx, hl]
      · rw [if_neg hx] at hl
        obtain ⟨ls, h1, h2⟩ := hl
        simp only [hx, decide_false, Bool.not_false, if_true]
        rw [h1]
        congr 1
        apply List.ext_getElem
        · simp [h2]
        · intro n a1 a2
          have hnc : n < c := by omega
          rw [List.getElem_map, List.getElem_range]
          unfold lidOf
          rw [hgetN n hnc]
          have hls : ls[n]? = some ls[n] := List.getElem?_eq_getElem a2
          split_ifs with hi
          · show (((r.labels.bind (fun ls => ls[n]?)).bind staticLabel)).getD _ = _
            rw [h1]
            simp only [Option.bind_some, hls]
            exact staticLabel_getD _
          · by_contra hcon
            exact hi (hmark n hnc (.inr (.inr (.inr ⟨ls, ls[n], h1, hls, fun e => hcon e.symm⟩))))
    obtain ⟨a1, a2, a3, a4, a5, a6, a7, a8⟩ := r'
    obtain ⟨b1, b2, b3, b4, b5, b6, b7, b8⟩ := r
    simp only [StaticGraph.mk.injEq]
    refine ⟨f1, ?_, f3, e4, e5, e7, f8, f9⟩
    exact f2.trans hcount
  subst heq
  refine ⟨g, ⟨hwf, ?_, ?_, ?_, ?_, ?_, h.nodeTable, h.edgeTable, ?_⟩, hr'⟩
  · intro s t he
    rw [hout] at he
    rw [hhas]
    have hs : s.val < c := by
      by_contra hcon
      rw [hrowlen _ hcon] at he
      simp at he
    have ht : t.val < c := h.out.inside t (List.mem_of_mem_take (List.mem_of_mem_drop he))
    apply hmark _ ht
    cases hd : r'.directed with
    | true =>
      obtain ⟨iv, k1, -, -, k4⟩ := h.inn hd
      exact .inr (.inr (.inl ⟨iv, k1, List.ne_nil_of_mem ((k4 s t).2 he)⟩))
    | false => exact .inr (.inl (List.ne_nil_of_mem (((h.noIn hd).2 s t).2 he)))
  · intro hd s t
    obtain ⟨iv, k1, -, k3, k4⟩ := h.inn hd
    rw [hout, ← k4]
    unfold inE
    rw [hget]
    constructor
    · rintro ⟨nd, hnd, hmem⟩
      split at hnd
      · cases hnd
        unfold meltNode at hmem
        simpa only [k1] using hmem
      · cases hnd
    · intro hin
      have ht : t.val < c := by
        by_contra hcon
        rw [EdgeVec.rowOf_beyond (by rw [k3.rows]; omega)] at hin
        simp at hin
      rw [if_pos (hmark _ ht (.inr (.inr (.inl ⟨iv, k1, List.ne_nil_of_mem hin⟩))))]
      refine ⟨_, rfl, ?_⟩
      unfold meltNode
      simpa only [k1] using hin
  · rintro hd t s ⟨nd, hnd, hin⟩
    rw [hget] at hnd
    split at hnd
    · cases hnd
      unfold meltNode at hin
      simp only [(h.noIn hd).1] at hin
      simp at hin
    · cases hnd
  · intro hd s t he
    have he : (g.outE s t).isSome := he
    show (g.outE t s).isSome
    rw [hout] at he ⊢
    exact ((h.noIn hd).2 s t).2 he
  · rw [← frozen_pairs hwf (max_spec hM).2 (by omega) hf]
    exact h.edges
  · intro n hx
    exact ⟨_, rfl, (max_spec hM).2 n hx⟩

/-- **C160.** The frozen graphs that `into_static` gives for graphs made by calls are exactly those whose arrays hold
at least one sorted row for ids below the largest, packed, with entries that are rows; whose in-rows (directed) hold
the sources, or whose entries (undirected) are there both ways; whose labels are stored exactly if there is a table of
them, one for every row or entry; whose tables have no label twice; and whose counts cover the marked ids and listed
edges, the one of nodes not above the number of rows. -/
theorem c160_frozen (r : StaticGraph m k NL EL) :
    (∃ g : GraphMap m k NL EL, Reachable g ∧ g.intoStatic = .ok r) ↔ ∃ c, Meltable r c := by
  constructor
  · rintro ⟨g, hg, hr⟩
    obtain ⟨h0, h1⟩ : g.nodeCount ≠ 0 ∧ g.hasNode Id.maxValue = false := by
      constructor
      · intro h0
        rw [intoStatic_empty (List.length_eq_zero_iff.1 h0)] at hr
        cases hr
      · cases hmax : g.hasNode Id.maxValue with
        | false => rfl
        | true => rw [intoStatic_max hmax] at hr; cases hr
    obtain ⟨M, hM, hlt⟩ := exists_max h0 h1
    obtain ⟨r', hr', hf⟩ := intoStatic_ok hg.inv.toNWF hM hlt
    rw [hr] at hr'; cases hr'
    exact ⟨_, frozen_meltable hg.inv hM hlt hf⟩
  · rintro ⟨c, h⟩
    obtain ⟨g, h1, h2⟩ := meltable_frozen h
    exact ⟨g, (reachable_iff g).2 h1, h2⟩

/-- One directed edge `2 -> 0` with a label, no node labels; three rows of which one is no node's, five edges counted. -/
def oneArc : StaticGraph 9 3 String String :=
  ⟨true, 2, 5, ⟨[0, 0, 0, 1], [0], some [1]⟩, some ⟨[0, 1, 1, 1], [2], none⟩, none, ⟨[]⟩, ⟨["x", "y"]⟩⟩

theorem oneArc_marked : {n | n < 3 ∧ Marked oneArc 3 n}.ncard ≤ 2 := by
  have : {n | n < 3 ∧ Marked oneArc 3 n} ⊆ (({0, 2} : Finset Nat) : Set Nat) := by
    rintro n ⟨hn, hm⟩
    by_contra hcon
    obtain rfl : n = 1 := by simp at hcon; omega
    rcases hm with h | h | ⟨iv, h1, h2⟩ | ⟨ls, l, h1, -⟩
    · omega
    · exact h (by decide)
    · cases h1; exact h2 (by decide)
    · cases h1
  refine (Set.ncard_le_ncard this (Finset.finite_toSet _)).trans ?_
  rw [Set.ncard_coe_finset]; decide

/-- **C160.** Such a graph, and so one that a program can have; and the graphs of C158 and C159, which it can not. -/
theorem c160_cases : (∃ g : GraphMap 9 3 String String, Reachable g ∧ g.intoStatic = .ok oneArc) ∧
    (¬ ∃ g : GraphMap 9 3 String String, Reachable g ∧ g.intoStatic = .ok lopsided) ∧
    ¬ ∃ g : GraphMap 9 3 String String, Reachable g ∧ g.intoStatic = .ok halfNamed := by
  refine ⟨(c160_frozen _).2 ⟨3, ?_⟩, fun h => ?_, fun h => ?_⟩
  · refine ⟨by decide, by decide, ⟨rfl, rfl, rfl, by decide, ?_, by decide⟩, fun _ => ⟨_, rfl, rfl,
      ⟨rfl, rfl, rfl, by decide, ?_, by decide⟩, by decide⟩, fun h => (by cases h), rfl, ⟨_, rfl, rfl⟩, by decide,
      by decide, ⟨oneArc_marked, by decide⟩, by decide⟩
    · intro n hn
      obtain rfl | rfl | rfl : n = 0 ∨ n = 1 ∨ n = 2 := by omega
      all_goals decide
    · intro n hn
      obtain rfl | rfl | rfl : n = 0 ∨ n = 1 ∨ n = 2 := by omega
      all_goals decide
  · obtain ⟨c, hc⟩ := (c160_frozen _).1 h
    obtain ⟨ls, h1, h2⟩ := hc.edgeLabels
    cases h1
    exact absurd h2 (by decide)
  · obtain ⟨c, hc⟩ := (c160_frozen _).1 h
    have := hc.labels
    exact absurd (show halfNamed.labels = none from this) (by decide)

end Verif.Props
