import Verif.Spec.Hosts
import Verif.Props.Reread

/-! C183: mapped files on machines with another `usize`. -/

namespace Verif.Props

open Spec

variable {m k m' k' : Nat} {NL EL : Type} {u u' w v w' v' : Nat}

theorem aux_fits [DecidableEq NL] [DecidableEq EL] {nl : Codec NL} {el : Codec EL} {bs : List Byte}
    {a : Aux NL EL} {r : List Byte} (h : (Codec.aux nl el).get bs = some (a, r)) :
    a.numNodes < 256 ^ 8 ∧ a.numEdges < 256 ^ 8 := by
  have hi : ∀ {bs : List Byte} {p}, getInt 8 bs = some p → p.1 < 256 ^ 8 := by
    intro bs p h
    unfold getInt at h
    split at h
    · cases h
    · cases h
      have := Codec.ofLe_lt (bs.take 8)
      rw [List.length_take] at this
      exact lt_of_lt_of_le this (Nat.pow_le_pow_right (by decide) (by omega))
  unfold Codec.aux at h
  simp only [Option.bind_eq_bind, Option.bind_eq_some_iff, Option.pure_def, Option.some.injEq] at h
  obtain ⟨p, h1, q, h2, c, h3, d, h4, h5⟩ := h
  cases h5
  exact ⟨hi h1, hi h2⟩

/-- **C183.** `usize` of 8 bytes is what the other theorems are about. -/
theorem c183_same [DecidableEq NL] [DecidableEq EL] (nl : Codec NL) (el : Codec EL) (pre : String) (x : World)
    (ev : EdgeVec m k) :
    ev.dumpMmapAt 8 w v pre x = ev.dumpMmap w v pre x ∧
    (EdgeVec.openMmapAt 8 w v pre x : Res (EdgeVec m k)) = EdgeVec.openMmap w v pre x ∧
    (MmapGraph.newAt 8 w v nl el pre x : Res (MmapGraph m k NL EL)) = MmapGraph.new w v nl el pre x := by
  refine ⟨rfl, rfl, ?_⟩
  have h : ∀ (e : EdgeVec m k) d p, (MmapGraph.loadAuxAt 8 nl el e d p x : Res (Aux NL EL)) =
      MmapGraph.loadAux nl el e d p x := by
    intro e d p
    unfold MmapGraph.loadAuxAt MmapGraph.loadAux
    split
    · cases hi : x.import (Codec.aux nl el) p with
      | none => rfl
      | some a =>
        have : a.numNodes < 256 ^ 8 ∧ a.numEdges < 256 ^ 8 := by
          unfold World.import at hi
          simp only [Option.bind_eq_bind, Option.bind_eq_some_iff, Option.pure_def, Option.some.injEq] at hi
          obtain ⟨bs, -, q, h1, h2⟩ := hi
          rw [← h2]
          exact aux_fits (a := q.1) (r := q.2) h1
        show (if _ then _ else _) = _
        rw [if_pos this]; rfl
    · rfl
  unfold MmapGraph.newAt MmapGraph.new
  simp only [h]
  rfl

/-- Opening on another machine cuts the offsets otherwise and is the same in all else. -/
theorem openAt_of_open (hu : 0 < u) (hu' : 0 < u') {pre : String} {x : World} {ev : EdgeVec m k} {l : List Nat}
    (hl : ∀ o ∈ l, o < 256 ^ u) (hne : l ≠ []) (hf : x.files (pre ++ ".offsets") = some (typedBytes u l))
    (h : EdgeVec.openMmapAt u w v pre x = .ok ev) :
    EdgeVec.openMmapAt u' w v pre x = .ok (⟨reread u u' l, ev.edges, ev.labels⟩ : EdgeVec m k) := by
  unfold EdgeVec.openMmapAt at h ⊢
  rw [new_reread hu hu hne hf, bind_ok] at h
  rw [new_reread hu hu' hne hf, bind_ok]
  obtain ⟨e, h1, h⟩ := bind_eq_ok h
  obtain ⟨ls, h2, h⟩ := bind_eq_ok h
  rw [h1, bind_ok, h2, bind_ok]
  cases h
  show Except.ok _ = _
  congr 2
  exact read_reread hl

theorem ids_back (l : List (Id m)) : (l.map (·.val)).map Id.new = l := by
  rw [List.map_map]
  conv_rhs => rw [← List.map_id l]
  refine List.map_congr_left (fun i _ => ?_)
  exact Fin.ext (Nat.mod_eq_of_lt i.isLt)

/-- The files of a dump that reported success. -/
theorem dumpedAt (ev : EdgeVec m k) (pre : String) (x : World) (hd : (ev.dumpMmapAt u w v pre x).1 = true) :
    (ev.dumpMmapAt u w v pre x).2.files (pre ++ ".offsets") = some (typedBytes u ev.offsets) ∧
    (ev.dumpMmapAt u w v pre x).2.files (pre ++ ".edges") = some (typedBytes w (ev.edges.map (·.val))) ∧
    (ev.dumpMmapAt u w v pre x).2.files (pre ++ ".labels") = if ev.getLabels = [] then x.files (pre ++ ".labels")
      else some (typedBytes v (ev.getLabels.map (·.val))) := by
  have h0 : World.Did x ((if ev.getLabels = [] then [] else
      [(pre ++ ".labels", typedBytes v (ev.getLabels.map (·.val)))]) ++
      [(pre ++ ".edges", typedBytes w (ev.edges.map (·.val)))] ++ [(pre ++ ".offsets", typedBytes u ev.offsets)])
      (ev.dumpMmapAt u w v pre x) := by
    unfold EdgeVec.dumpMmapAt
    refine World.Did.andThen (World.did_dump _ _ x) (fun y => World.Did.andThen (World.did_dump _ _ y) (fun z => ?_))
    by_cases hl : ev.getLabels = []
    · rw [if_pos hl, if_pos hl]; exact World.Did.nil z
    · rw [if_neg hl, if_neg hl]; exact World.did_dump _ _ z
  rw [h0.done hd]
  have h1 : (".labels" : String) ≠ ".edges" := by decide
  have h2 : (".labels" : String) ≠ ".offsets" := by decide
  have h3 : (".edges" : String) ≠ ".offsets" := by decide
  by_cases hl : ev.getLabels = []
  · simp only [if_pos hl, World.get_append, World.look, AL.get, prefix_inj, Option.none_or,
      h1.symm, h2.symm, h3, h3.symm, if_true, if_false, and_self, Option.some_or]
  · simp only [if_neg hl, World.get_append, World.look, AL.get, prefix_inj, Option.none_or,
      h1, h2, h3, h3.symm, if_true, if_false, and_self, Option.some_or]

/-- **C183.** Arrays dumped where `usize` has `u` bytes and opened where it has `u'`: the ids and labels are right,
the offsets are the same bytes cut otherwise. -/
theorem c183_arrays (hu : 0 < u) (hu' : 0 < u') (hw : 0 < w) (hv : 0 < v) (hwm : m + 1 = 256 ^ w)
    (hvk : k + 1 = 256 ^ v) {ev : EdgeVec m k} (ho : ev.offsets ≠ []) (he : ev.edges ≠ [])
    (hs : ∀ o ∈ ev.offsets, o < 256 ^ u) (pre : String) (x : World)
    (hold : ev.getLabels = [] → x.files (pre ++ ".labels") = none)
    (hd : (ev.dumpMmapAt u w v pre x).1 = true) :
    EdgeVec.openMmapAt u' w v pre (ev.dumpMmapAt u w v pre x).2 = .ok (hostVec u u' ev.stored) := by
  obtain ⟨f1, f2, f3⟩ := dumpedAt ev pre x hd
  generalize (ev.dumpMmapAt u w v pre x).2 = y at f1 f2 f3
  unfold EdgeVec.openMmapAt
  rw [new_reread hu hu' ho f1, bind_ok, new_reread hw hw (by simpa using he) f2, bind_ok]
  simp only [TypedMap.full]
  rw [read_reread hs, ids_reread hwm, reread_same hw (ids_below hwm _), ids_back]
  unfold mapIfPresent hostVec EdgeVec.stored
  by_cases hl : ev.getLabels = []
  · rw [f3, if_pos hl, if_pos hl, hold hl]
    rfl
  · rw [if_neg hl] at f3 ⊢
    rw [f3]
    simp only [Option.isSome_some, if_true]
    rw [new_reread hv hv (by simpa using hl) f3, bind_ok]
    simp only [pure_ok, bind_ok, Option.map_some, ids_reread hvk]
    rw [reread_same hv (ids_below hvk _), ids_back]

/-- **C183.** A graph dumped where `usize` has 8 bytes, as on the usual machines, is opened where it has `u'` without
complaint as long as its counts fit, whatever id types it is opened with. -/
theorem c183_loads [DecidableEq NL] [DecidableEq EL] {nl : Codec NL} {el : Codec EL} {g : StaticGraph m k NL EL}
    (hu' : 0 < u') (hw : 0 < w) (hv : 0 < v) (hw' : 0 < w') (hv' : 0 < v') (hwm : m + 1 = 256 ^ w)
    (hvk : k + 1 = 256 ^ v)
    (hnl : ∀ y ∈ g.nodeLabels.labels, nl.RoundTrips y) (hel : ∀ y ∈ g.edgeLabels.labels, el.RoundTrips y)
    (hg : g.Mappable) (pre : String) (x : World) (hfresh : g.NoLeftovers pre x.files)
    (hroom : g.dumpRoom w v nl el ≤ x.room) :
    MmapGraph.newAt u' w' v' nl el pre (g.dumpMmap w v nl el pre x).2 =
      if g.numNodes < 256 ^ u' ∧ g.numEdges < 256 ^ u' then .ok (hostGraph 8 u' (graphReread w v w' v' m' k' g))
      else .error .unwrapNone := by
  have hnew := (c175_loads (m' := m') (k' := k') hw hv hw' hv' hwm hvk hnl hel hg pre x hfresh hroom).2
  obtain ⟨-, h1, n, h2, h5⟩ := Sizes.dump_done (w := w) (v := v) (nl := nl) (el := el) pre hroom
  generalize (g.dumpMmap w v nl el pre x).2 = y at h1 h2 hnew
  have haux : ∀ (e : EdgeVec m' k') d, (MmapGraph.loadAuxAt u' nl el e d (pre ++ "_aux.bin") y : Res (Aux NL EL)) =
      if g.numNodes < 256 ^ u' ∧ g.numEdges < 256 ^ u' then
        .ok ⟨g.numNodes, g.numEdges, g.nodeLabels, g.edgeLabels⟩ else .error .unwrapNone := by
    intro e d
    have hrt := StaticGraph.auxBytes_round hnl hel hg (nl := nl) (el := el) []
    rw [List.append_nil] at hrt
    unfold MmapGraph.loadAuxAt World.import
    rw [h2, List.take_of_length_le h5]
    simp only [Option.isSome_some, if_true, Option.bind_eq_bind, Option.bind_some]
    rw [hrt]; rfl
  obtain ⟨f1, -, -, f4, -, -, -, -⟩ := StaticGraph.look_files w v g pre x.files
  have path : ∀ a b : String, pre ++ a ++ b = pre ++ (a ++ b) := fun a b => String.append_assoc
  rw [← h1 _ (by rw [path, Ne, prefix_inj]; decide)] at f1 f4
  unfold MmapGraph.new at hnew
  obtain ⟨e1, a1, hnew⟩ := bind_eq_ok hnew
  obtain ⟨e2, a2, hnew⟩ := bind_eq_ok hnew
  obtain ⟨ls, a3, hnew⟩ := bind_eq_ok hnew
  obtain ⟨a, a4, hnew⟩ := bind_eq_ok hnew
  have hnew := Except.ok.inj hnew
  have b1 : e1 = vecReread w v w' v' m' k' g.edgeVec := congrArg MmapGraph.edges hnew
  have b2 : e2 = g.inEdgeVec.map (vecReread w v w' v' m' k') := congrArg MmapGraph.inEdges hnew
  have b3 : ls.map TypedMap.ids = _ := congrArg MmapGraph.labels hnew
  unfold MmapGraph.newAt
  rw [openAt_of_open (u := 8) (by decide) hu' hg.out.small hg.out.offsets f1 a1, bind_ok]
  have hins : (if (y.files (pre ++ "_IN" ++ ".offsets")).isSome then do
      let e ← EdgeVec.openMmapAt u' w' v' (pre ++ "_IN") y
      pure (some e)
    else pure none) = (.ok (g.inEdgeVec.map fun e => hostVec 8 u' (vecReread w v w' v' m' k' e)) :
      Res (Option (EdgeVec m' k'))) := by
    cases hi : g.inEdgeVec with
    | none => rw [f4, hi, hfresh.ins hi]; rfl
    | some e =>
      rw [hi] at f4 b2
      simp only [Option.map_some, Option.some_or] at f4 b2
      rw [f4] at a2 ⊢
      simp only [Option.isSome_some, if_true] at a2 ⊢
      obtain ⟨e', a5, a6⟩ := bind_eq_ok a2
      cases a6
      cases b2
      rw [openAt_of_open (u := 8) (by decide) hu' (hg.ins e hi).small (hg.ins e hi).offsets f4 a5, bind_ok]
      rfl
  rw [hins, bind_ok, a3, bind_ok, haux, b3, b1]
  split
  · simp only [bind_ok, hostGraph, graphReread, Option.map_map]
    rfl
  · rfl

/-! ### Half as wide -/

theorem halves {l : List Nat} (hu' : 0 < u') (h : ∀ o ∈ l, o < 256 ^ u') :
    reread (2 * u') u' l = l.flatMap (fun o => [o, 0]) := by
  rw [c175_narrow hu' (fun o ho => lt_of_lt_of_le (h o ho) (Nat.pow_le_pow_right (by decide) (by omega)))]
  refine List.flatMap_congr (fun o ho => ?_)
  have := h o ho
  simp [List.range_succ, Nat.mod_eq_of_lt this, Nat.div_eq_of_lt this]

theorem spaced (l : List Nat) : ∀ j, (l.flatMap (fun o => [o, 0]))[2 * j]? = l[j]? ∧
    (l.flatMap (fun o => [o, 0]))[2 * j + 1]? = l[j]?.map (fun _ => 0) := by
  induction l with
  | nil => simp
  | cons a l ih =>
    intro j
    cases j with
    | zero => simp
    | succ j => simpa [Nat.mul_succ] using ih j

theorem getD_there {l : List Nat} {j : Nat} (h : j < l.length) : l.getD j 0 = l[j] := by
  rw [List.getD_eq_getElem?_getD, List.getElem?_eq_getElem h, Option.getD_some]

theorem rows_before {ev : EdgeVec m k} {c : Nat} (h : Packed ev c) : ∀ j, j ≤ c →
    ev.edges.take (ev.offsets.getD j 0) = (List.range j).flatMap (rowOf ev)
  | 0, _ => by
    rw [List.getD_eq_getElem?_getD, h.first]; rfl
  | j + 1, hj => by
    rw [List.range_succ, List.flatMap_append, ← rows_before h j (by omega), List.flatMap_singleton]
    unfold rowOf
    have h1 : j < ev.offsets.length := by rw [h.rows]; omega
    have h2 : j + 1 < ev.offsets.length := by rw [h.rows]; omega
    have := List.pairwise_iff_getElem.1 h.rising j (j + 1) h1 h2 (by omega)
    rw [getD_there h1, getD_there h2]
    conv_lhs => rw [← List.take_append_drop ev.offsets[j] (ev.edges.take ev.offsets[j + 1])]
    rw [List.take_take, Nat.min_eq_left this]

theorem bounded {ev : EdgeVec m k} {c : Nat} (h : Packed ev c) {j o : Nat} (ho : ev.offsets[j]? = some o) :
    o ≤ ev.edges.length := by
  obtain ⟨h1, rfl⟩ := List.getElem?_eq_some_iff.1 ho
  have h2 : c < ev.offsets.length := by rw [h.rows]; omega
  have h3 : ev.offsets[c] = ev.edges.length := by
    have := h.last
    rw [List.getElem?_eq_getElem h2] at this
    exact Option.some.inj this
  rw [← h3]
  rcases Nat.lt_or_ge j c with hjc | hjc
  · exact List.pairwise_iff_getElem.1 h.rising j c h1 h2 hjc
  · have : j = c := by rw [h.rows] at h1; omega
    subst this; exact le_refl _

/-- **C183**, a `usize` half as wide: nodes of even number have no neighbours before the first edge, and panic from
there on; nodes of odd number have those of all nodes up to the one of half the number. -/
theorem c183_narrow (hu' : 0 < u') {ev : EdgeVec m k} {c : Nat} (h : Packed ev c)
    (hs : ∀ o ∈ ev.offsets, o < 256 ^ u') (n : Id m) :
    (∀ j, n.val = 2 * j + 1 → j < c →
      (hostVec (2 * u') u' ev).neighbors n = .ok ((List.range (j + 1)).flatMap (rowOf ev))) ∧
    (∀ j, n.val = 2 * j → j ≤ c → (hostVec (2 * u') u' ev).neighbors n =
      if (List.range j).flatMap (rowOf ev) = [] then .ok [] else .error .indexOutOfBounds) ∧
    (2 * c < n.val → (hostVec (2 * u') u' ev).neighbors n = .error .explicit) := by
  have e : (hostVec (2 * u') u' ev).offsets = ev.offsets.flatMap (fun o => [o, 0]) := halves hu' hs
  have elen : (hostVec (2 * u') u' ev).offsets.length = 2 * (c + 1) := by
    rw [e, List.length_flatMap]; simp [h.rows]; omega
  have ee : (hostVec (2 * u') u' ev).edges = ev.edges := rfl
  obtain ⟨q1, -, q3, q4⟩ := c156_neighbors (hostVec (2 * u') u' ev) n
  refine ⟨fun j hn hj => ?_, fun j hn hj => ?_, fun hn => ?_⟩
  · have hj1 : j < ev.offsets.length := by rw [h.rows]; omega
    have hj2 : j + 1 < ev.offsets.length := by rw [h.rows]; omega
    have s1 := (spaced ev.offsets j).2
    have s2 := (spaced ev.offsets (j + 1)).1
    rw [List.getElem?_eq_getElem hj1, Option.map_some, ← hn, ← e] at s1
    rw [List.getElem?_eq_getElem hj2, show 2 * (j + 1) = n.val + 1 by omega, ← e] at s2
    have hb := bounded h (List.getElem?_eq_getElem hj2)
    have hB : Bounds (hostVec (2 * u') u' ev) n.val 0 ev.offsets[j + 1] := ⟨s1, s2⟩
    refine (q1 _).2 ⟨⟨_, _, hB, Nat.zero_le _, hb⟩, ?_⟩
    rw [(row_there_eq hB (Nat.zero_le _) hb).1, ← rows_before h (j + 1) (by omega),
      getD_there hj2]
    rfl
  · have hj1 : j < ev.offsets.length := by rw [h.rows]; omega
    have s1 := (spaced ev.offsets j).1
    have s2 := (spaced ev.offsets j).2
    rw [List.getElem?_eq_getElem hj1, ← hn, ← e] at s1
    rw [List.getElem?_eq_getElem hj1, Option.map_some, ← hn, ← e] at s2
    have hb := bounded h (List.getElem?_eq_getElem hj1)
    rw [← rows_before h j hj, getD_there hj1]
    have hB : Bounds (hostVec (2 * u') u' ev) n.val ev.offsets[j] 0 := ⟨s1, s2⟩
    by_cases h0 : ev.offsets[j] = 0
    · rw [h0] at hB ⊢
      rw [if_pos (by simp)]
      refine (q1 _).2 ⟨⟨_, _, hB, le_refl _, Nat.zero_le _⟩, ?_⟩
      rw [(row_there_eq hB (le_refl _) (Nat.zero_le _)).1]; rfl
    · rw [if_neg (fun hc => by
        have := congrArg List.length hc
        rw [List.length_take, List.length_nil] at this
        omega)]
      refine q4.2 ⟨by rw [elen]; omega, ?_⟩
      rintro ⟨a, b, ⟨t1, t2⟩, hab, -⟩
      rw [s1] at t1; rw [s2] at t2
      cases t1; cases t2
      omega
  · refine q3.2 ⟨fun hc => by rw [hc] at elen; simp at elen, by rw [elen]; omega⟩

/-- **C183.** So the first node that has neighbours is given none. -/
theorem c183_first (hu' : 0 < u') {ev : EdgeVec m k} {c : Nat} (h : Packed ev c)
    (hs : ∀ o ∈ ev.offsets, o < 256 ^ u') {n : Id m} (hn : n.val < c) (hf : ∀ j, j < n.val → rowOf ev j = [])
    (hr : rowOf ev n.val ≠ []) :
    ev.neighbors n = .ok (rowOf ev n.val) ∧ (hostVec (2 * u') u' ev).neighbors n = .ok [] := by
  obtain ⟨q1, q2, -⟩ := c183_narrow hu' h hs n
  have none : ∀ j, j ≤ n.val → (List.range j).flatMap (rowOf ev) = [] := by
    intro j hj
    rw [List.flatMap_eq_nil_iff]
    intro i hi
    exact hf i (by have := List.mem_range.1 hi; omega)
  constructor
  · have h1 : n.val < ev.offsets.length := by rw [h.rows]; omega
    have h2 : n.val + 1 < ev.offsets.length := by rw [h.rows]; omega
    exact ((c156_neighbors ev n).1 _).2 ⟨⟨_, _, ⟨List.getElem?_eq_getElem h1, List.getElem?_eq_getElem h2⟩,
      List.pairwise_iff_getElem.1 h.rising _ _ h1 h2 (by omega), bounded h (List.getElem?_eq_getElem h2)⟩, rfl⟩
  · rcases Nat.even_or_odd' n.val with ⟨j, hj | hj⟩
    · rw [q2 j hj (by omega), if_pos (none j (by omega))]
    · rw [q1 j hj (by omega), none (j + 1) (by omega)]

/-! ### Twice as wide -/

theorem paired {l : List Nat} (hu : 0 < u) (h : ∀ o ∈ l, o < 256 ^ u) :
    (reread u (u * 2) l).length = l.length / 2 ∧
    ∀ j a b, l[2 * j]? = some a → l[2 * j + 1]? = some b →
      (reread u (u * 2) l)[j]? = some (a + 256 ^ u * b) := by
  rw [c175_wide hu h]
  refine ⟨by simp, fun j a b ha hb => ?_⟩
  obtain ⟨h1, rfl⟩ := List.getElem?_eq_some_iff.1 ha
  obtain ⟨h2, rfl⟩ := List.getElem?_eq_some_iff.1 hb
  have hj : j < l.length / 2 := by omega
  rw [List.getElem?_map, List.getElem?_range hj, Option.map_some, Nat.mul_comm j 2,
    List.drop_eq_getElem_cons h1, List.drop_eq_getElem_cons h2]
  simp only [List.take_succ_cons, List.take_zero, Nat.ofDigits_cons, Nat.ofDigits_nil, Nat.cast_id, Nat.mul_zero,
    Nat.add_zero]

/-- **C183**, a `usize` twice as wide: no node is given a neighbour. The node of number `n` is given none if there is
no edge before row `2 * n + 3`, and panics otherwise; about half of the nodes are not there. -/
theorem c183_wide (hu : 0 < u) {ev : EdgeVec m k} {c : Nat} (h : Packed ev c) (hc : 0 < c)
    (hs : ev.edges.length < 256 ^ u) (n : Id m) :
    (2 * n.val + 3 ≤ c → (hostVec u (u * 2) ev).neighbors n =
      if (List.range (2 * n.val + 3)).flatMap (rowOf ev) = [] then .ok [] else .error .indexOutOfBounds) ∧
    (c < 2 * n.val + 3 → (hostVec u (u * 2) ev).neighbors n = .error .explicit) := by
  have hs' : ∀ o ∈ ev.offsets, o < 256 ^ u := by
    intro o ho
    obtain ⟨j, hj⟩ := List.mem_iff_getElem?.1 ho
    exact lt_of_le_of_lt (bounded h hj) hs
  obtain ⟨elen, ep⟩ := paired hu hs'
  have e : (hostVec u (u * 2) ev).offsets = reread u (u * 2) ev.offsets := rfl
  have ee : (hostVec u (u * 2) ev).edges = ev.edges := rfl
  rw [← e] at elen ep
  have hrows := h.rows
  obtain ⟨q1, -, q3, q4⟩ := c156_neighbors (hostVec u (u * 2) ev) n
  refine ⟨fun hn => ?_, fun hn => ?_⟩
  · have i0 : 2 * n.val < ev.offsets.length := by omega
    have i1 : 2 * n.val + 1 < ev.offsets.length := by omega
    have i2 : 2 * (n.val + 1) < ev.offsets.length := by omega
    have i3 : 2 * (n.val + 1) + 1 < ev.offsets.length := by omega
    have s1 := ep n.val _ _ (List.getElem?_eq_getElem i0) (List.getElem?_eq_getElem i1)
    have s2 := ep (n.val + 1) _ _ (List.getElem?_eq_getElem i2) (List.getElem?_eq_getElem i3)
    have r := List.pairwise_iff_getElem.1 h.rising
    have r0 := r _ _ i0 i3 (by omega)
    have r1 := r _ _ i1 i3 (by omega)
    have r2 := r _ _ i2 i3 (by omega)
    have hb := bounded h (List.getElem?_eq_getElem i3)
    rw [← rows_before h (2 * n.val + 3) hn]
    have e3 : ev.offsets.getD (2 * n.val + 3) 0 = ev.offsets[2 * (n.val + 1) + 1] := getD_there i3
    rw [e3]
    generalize ev.offsets[2 * n.val] = a0 at *
    generalize ev.offsets[2 * n.val + 1] = a1 at *
    generalize ev.offsets[2 * (n.val + 1)] = a2 at *
    generalize ev.offsets[2 * (n.val + 1) + 1] = a3 at *
    by_cases h0 : a3 = 0
    · obtain rfl : a0 = 0 := by omega
      obtain rfl : a1 = 0 := by omega
      obtain rfl : a2 = 0 := by omega
      subst h0
      rw [if_pos (by simp)]
      have hB : Bounds (hostVec u (u * 2) ev) n.val 0 0 := ⟨s1, s2⟩
      refine (q1 _).2 ⟨⟨_, _, hB, le_refl _, Nat.zero_le _⟩, ?_⟩
      rw [(row_there_eq hB (le_refl _) (Nat.zero_le _)).1]; rfl
    · rw [if_neg (fun hc => by
        have := congrArg List.length hc
        rw [List.length_take, List.length_nil] at this
        omega)]
      refine q4.2 ⟨by omega, ?_⟩
      rintro ⟨a, b, ⟨-, t2⟩, -, hb'⟩
      rw [s2] at t2
      cases t2
      rw [ee] at hb'
      have : 256 ^ u * 1 ≤ 256 ^ u * a3 := Nat.mul_le_mul_left _ (by omega)
      omega
  · refine q3.2 ⟨fun hc' => ?_, by omega⟩
    rw [hc'] at elen
    simp at elen
    omega

/-! ### Instances -/

/-- **C183.** The graph of two edges from node 0, dumped with a `usize` of 8 bytes and opened with one of 4: node 0 seems
to have no neighbour, node 1 those of node 0, and node 2 panics; the counts are right. -/
theorem c183_misread :
    (wordGraph.dumpMmap 2 1 text text "g" (blank 1000)).1 = true ∧
    ∃ h : MmapGraph 65535 255 (List Byte) (List Byte), MmapGraph.newAt 4 2 1 text text "g"
        (wordGraph.dumpMmap 2 1 text text "g" (blank 1000)).2 = .ok h ∧
      h.neighbors 0 = .ok [] ∧ h.neighbors 1 = .ok [1, 2] ∧ h.neighbors 2 = .error .indexOutOfBounds ∧
      h.numNodes = 3 ∧ h.numEdges = 2 := by
  refine ⟨rfl, _, rfl, ?_, ?_, ?_, ?_, ?_⟩ <;> rfl

/-- The conditions of the theorems can be met. -/
example : Packed wordGraph.edgeVec 3 ∧ (∀ o ∈ wordGraph.edgeVec.offsets, o < 256 ^ 4) ∧
    wordGraph.edgeVec.edges.length < 256 ^ 4 := by
  refine ⟨⟨rfl, rfl, rfl, by decide, ?_, ?_⟩, by decide, by decide⟩
  · decide
  · rintro t (_ | ⟨_, _ | ⟨_, h⟩⟩)
    · decide
    · decide
    · cases h

end Verif.Props
