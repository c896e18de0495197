import Verif.Proof.Endian
import Verif.Props.Hosts

/-! C187: mapped files on machines with another byte order. -/

namespace Verif.Props

open Spec

variable {m k : Nat} {NL EL : Type} {w v : Nat}

/-! ### Numbers -/

/-- **C187.** Turning the bytes of a number around twice gives it back; no other number is turned into the same. -/
theorem c187_twice {n : Nat} (h : n < 256 ^ w) :
    turned w n < 256 ^ w ∧ turned w (turned w n) = n ∧ ∀ n' < 256 ^ w, turned w n' = turned w n → n' = n := by
  refine ⟨turned_lt w n, turned_turned h, fun n' h' e => ?_⟩
  rw [← turned_turned h', e, turned_turned h]

theorem turned_zero (w : Nat) : turned w 0 = 0 := by
  unfold turned
  exact Finset.sum_eq_zero (fun i _ => by simp)

theorem turned_short (c : Nat) : ∀ d n, n < 256 ^ c → turned (c + d) n = 256 ^ d * turned c n
  | 0, n, _ => by simp
  | d + 1, n, h => by
    unfold turned
    rw [← Nat.add_assoc, Finset.sum_range_succ, Finset.mul_sum,
      Nat.div_eq_of_lt (lt_of_lt_of_le h (Nat.pow_le_pow_right (by decide) (by omega)))]
    have := turned_short c d n h
    unfold turned at this
    rw [Finset.mul_sum] at this
    simp only [Nat.zero_mod, Nat.zero_mul, Nat.add_zero]
    have e : ∀ i ∈ Finset.range (c + d), n / 256 ^ i % 256 * 256 ^ (c + d + 1 - 1 - i) =
        256 * (n / 256 ^ i % 256 * 256 ^ (c + d - 1 - i)) := by
      intro i hi
      have hi := Finset.mem_range.1 hi
      rw [show c + d + 1 - 1 - i = c + d - 1 - i + 1 by omega, Nat.pow_succ]
      ring
    rw [Finset.sum_congr rfl e, ← Finset.mul_sum, this, Finset.mul_sum]
    refine Finset.sum_congr rfl (fun i _ => ?_)
    rw [Nat.pow_succ]
    ring

/-- **C187.** A number other than 0 that fits `c` bytes becomes one of at least `256 ^ (w - c)`. -/
theorem c187_large {c n : Nat} (hc : c ≤ w) (h : n < 256 ^ c) (h0 : n ≠ 0) : 256 ^ (w - c) ≤ turned w n := by
  have e := turned_short c (w - c) n h
  rw [Nat.add_sub_cancel' hc] at e
  rw [e]
  refine Nat.le_mul_of_pos_right _ (Nat.pos_of_ne_zero fun hz => h0 ?_)
  rw [← turned_turned h, hz, turned_zero]

/-- **C187.** 0, numbers of one byte and the largest number are their own. -/
theorem c187_fixed : turned w 0 = 0 ∧ (∀ n < 256, turned 1 n = n) ∧ turned w (256 ^ w - 1) = 256 ^ w - 1 := by
  refine ⟨turned_zero w, fun n h => by simp [turned, Nat.mod_eq_of_lt h], ?_⟩
  have : ∀ w, turned w (256 ^ w - 1) = 256 ^ w - 1 := by
    intro w
    induction w with
    | zero => rfl
    | succ w ih =>
      have hp : 0 < 256 ^ w := Nat.pow_pos (by decide)
      have e1 : (256 ^ (w + 1) - 1) / 256 = 256 ^ w - 1 := by rw [Nat.pow_succ]; omega
      have e2 : (256 ^ (w + 1) - 1) % 256 = 255 := by rw [Nat.pow_succ]; omega
      rw [turned_succ, e1, e2, ih, Nat.pow_succ]; omega
  exact this w

/-! ### Files -/

/-- **C187.** Machines that keep the least significant byte first are those of the other theorems. -/
theorem c187_little [DecidableEq NL] [DecidableEq EL] (nl : Codec NL) (el : Codec EL) (g : StaticGraph m k NL EL)
    (pre : String) (x : World) :
    g.dumpMmapOn false w v nl el pre x = g.dumpMmap w v nl el pre x ∧
    (MmapGraph.newOn false w v nl el pre x : Res (MmapGraph m k NL EL)) = MmapGraph.new w v nl el pre x :=
  ⟨rfl, rfl⟩

theorem same_counts [DecidableEq NL] [DecidableEq EL] (nl : Codec NL) (el : Codec EL) (ev : EdgeVec m k) (d : Bool)
    (path : String) (x : World) :
    (MmapGraph.loadAux nl el (turnedVec w v ev) d path x : Res (Aux NL EL)) = MmapGraph.loadAux nl el ev d path x := by
  unfold MmapGraph.loadAux EdgeVec.numNodes EdgeVec.numEdges turnedVec
  simp only [List.length_map]

/-- **C187.** Whatever the files hold, on the two kinds of machines they are opened or refused alike, with the same
counts and label tables; the numbers of the arrays have their bytes turned around. -/
theorem c187_open [DecidableEq NL] [DecidableEq EL] (hwm : m + 1 = 256 ^ w) (hvk : k + 1 = 256 ^ v) (nl : Codec NL)
    (el : Codec EL) (pre : String) (x : World) :
    (MmapGraph.newOn true w v nl el pre x : Res (MmapGraph m k NL EL)) =
      (MmapGraph.new w v nl el pre x).map (turnedMap w v) := by
  unfold MmapGraph.newOn MmapGraph.new
  rw [openMmap_turned hwm hvk, openMmap_turned hwm hvk]
  cases h1 : (EdgeVec.openMmap w v (pre ++ "_OUT") x : Res (EdgeVec m k)) with
  | error p => rfl
  | ok e =>
    have step : ∀ o : Option (EdgeVec m k), (do
        let labels ← mapIfPresent v (pre ++ ".labels") x
        let aux ← MmapGraph.loadAux nl el (turnedVec w v e) (o.map (turnedVec w v)).isSome (pre ++ "_aux.bin") x
        pure (⟨turnedVec w v e, o.map (turnedVec w v), labels.map (TypedMap.idsOn true), aux.numNodes, aux.numEdges,
          aux.nodeLabels, aux.edgeLabels⟩ : MmapGraph m k NL EL) : Res (MmapGraph m k NL EL)) =
        Except.map (turnedMap w v) (do
          let labels ← mapIfPresent v (pre ++ ".labels") x
          let aux ← MmapGraph.loadAux nl el e o.isSome (pre ++ "_aux.bin") x
          pure ⟨e, o, labels.map TypedMap.ids, aux.numNodes, aux.numEdges, aux.nodeLabels, aux.edgeLabels⟩) := by
      intro o
      rw [same_counts, Option.isSome_map]
      cases h3 : mapIfPresent v (pre ++ ".labels") x with
      | error p => rfl
      | ok ls =>
        simp only [bind_ok]
        rw [mapIfPresent_turned hvk h3]
        cases (MmapGraph.loadAux nl el e o.isSome (pre ++ "_aux.bin") x : Res (Aux NL EL)) <;> rfl
    by_cases h2 : (x.files (pre ++ "_IN" ++ ".offsets")).isSome = true
    · simp only [h2, if_true]
      cases h4 : (EdgeVec.openMmap w v (pre ++ "_IN") x : Res (EdgeVec m k)) with
      | error p => rfl
      | ok e' => exact step (some e')
    · simp only [h2]
      exact step none

/-- **C187.** Dumping a graph on such a machine writes the files that dumping the turned graph on the other kind does,
also if the disk is full. -/
theorem c187_dump [DecidableEq NL] [DecidableEq EL] (hwm : m + 1 = 256 ^ w) (hvk : k + 1 = 256 ^ v) (nl : Codec NL)
    (el : Codec EL) (g : StaticGraph m k NL EL) (pre : String) (x : World) :
    g.dumpMmapOn true w v nl el pre x = (turnedGraph w v g).dumpMmap w v nl el pre x := by
  have hin : (fun e : EdgeVec m k => e.dumpMmapOn true w v (pre ++ "_IN")) =
      fun e => (turnedVec w v e).dumpMmap w v (pre ++ "_IN") := by
    funext e y
    exact dumpVec_turned hwm hvk e _ y
  unfold StaticGraph.dumpMmapOn StaticGraph.dumpMmap turnedGraph
  rw [hin]
  simp only [dumpVec_turned hwm hvk, typedBytes_turnedIds hvk]
  cases g.inEdgeVec <;> cases g.labels <;> rfl

theorem labels_turned (ev : EdgeVec m k) : (turnedVec w v ev).getLabels = ev.getLabels.map (turnedId v) := by
  unfold EdgeVec.getLabels turnedVec
  cases ev.labels <;> rfl

theorem word_bytes : 256 ^ 8 = 2 ^ 64 := by norm_num

theorem vec_twice (hwm : m + 1 = 256 ^ w) (hvk : k + 1 = 256 ^ v) {ev : EdgeVec m k} (h : ∀ o ∈ ev.offsets, o < 2 ^ 64) :
    turnedVec w v (turnedVec w v ev) = ev := by
  have ids : ∀ {n u : Nat} (_ : n + 1 = 256 ^ u) (l : List (Id n)), (l.map (turnedId u)).map (turnedId u) = l := by
    intro n u hn l
    rw [List.map_map]
    conv_rhs => rw [← List.map_id l]
    exact List.map_congr_left fun i _ => turnedId_turnedId hn i
  have ho : (ev.offsets.map (turned 8)).map (turned 8) = ev.offsets := by
    rw [List.map_map]
    conv_rhs => rw [← List.map_id ev.offsets]
    refine List.map_congr_left fun o ho => ?_
    have := h o ho
    rw [← word_bytes] at this
    rw [Function.comp_apply, turned_turned this, id]
  obtain ⟨o, e, l⟩ := ev
  unfold turnedVec
  simp only at ho
  rw [ho, ids hwm]
  cases l with
  | none => rfl
  | some l => simp only [Option.map_some, ids hvk]

theorem mappable_turned {g : StaticGraph m k NL EL} (hg : g.Mappable) : (turnedGraph w v g).Mappable := by
  have hv : ∀ {ev : EdgeVec m k}, ev.Mappable → (turnedVec w v ev).Mappable := by
    intro ev h
    refine ⟨by simpa [turnedVec] using h.offsets, by simpa [turnedVec] using h.edges, ?_⟩
    intro o ho
    obtain ⟨n, -, rfl⟩ := List.mem_map.1 ho
    have := turned_lt 8 n
    rwa [word_bytes] at this
  refine ⟨hv hg.out, ?_, ?_, hg.numNodes, hg.numEdges, hg.nodeLabels, hg.edgeLabels⟩
  · intro e he
    obtain ⟨e', h1, rfl⟩ := Option.map_eq_some_iff.1 he
    exact hv (hg.ins e' h1)
  · intro hc
    obtain ⟨l, h1, h2⟩ := Option.map_eq_some_iff.1 hc
    exact hg.labels (by rw [h1, List.map_eq_nil_iff.1 h2])

theorem fresh_turned {g : StaticGraph m k NL EL} {pre : String} {f : String → Option (List Byte)}
    (h : g.NoLeftovers pre f) : (turnedGraph w v g).NoLeftovers pre f := by
  refine ⟨fun hl => h.out ?_, fun hi => h.ins ?_, fun e he hl => ?_, fun hl => h.labels ?_⟩
  · exact List.map_eq_nil_iff.1 ((labels_turned g.edgeVec).symm.trans hl)
  · exact Option.map_eq_none_iff.1 hi
  · obtain ⟨e', h1, rfl⟩ := Option.map_eq_some_iff.1 he
    exact h.inLabels e' h1 (List.map_eq_nil_iff.1 ((labels_turned e').symm.trans hl))
  · exact Option.map_eq_none_iff.1 hl

theorem reread_turned (hw : 0 < w) (hv : 0 < v) (hwm : m + 1 = 256 ^ w) (hvk : k + 1 = 256 ^ v)
    (g : StaticGraph m k NL EL) : graphReread w v w v m k (turnedGraph w v g) =
      turnedMap w v (graphReread w v w v m k g) := by
  have ids : ∀ {n u : Nat} (_ : 0 < u) (_ : n + 1 = 256 ^ u) (l : List (Id n)),
      (reread u u (l.map (·.val))).map Id.new = l := by
    intro n u hu hn l
    rw [reread_same hu (ids_below hn l), ids_back]
  have hvec : ∀ ev : EdgeVec m k, vecReread w v w v m k (turnedVec w v ev) =
      turnedVec w v (vecReread w v w v m k ev) := by
    intro ev
    unfold vecReread
    rw [labels_turned, ids hw hwm, ids hw hwm, ids hv hvk, ids hv hvk]
    simp only [List.map_eq_nil_iff]
    unfold turnedVec
    split <;> rfl
  unfold graphReread turnedMap turnedGraph
  simp only [hvec, Option.map_map, MmapGraph.mk.injEq, and_true, true_and]
  refine ⟨?_, ?_⟩
  · congr 1; funext e; exact hvec e
  · congr 1; funext l
    simp only [Function.comp_apply]
    rw [ids hv hvk, ids hv hvk]

/-- **C187.** A graph dumped and opened on machines of one kind is the same as on those of the other. Dumped on one kind
and opened on the other, either way, its arrays have their bytes turned around. -/
theorem c187_loads [DecidableEq NL] [DecidableEq EL] {nl : Codec NL} {el : Codec EL} {g : StaticGraph m k NL EL}
    (hw : 0 < w) (hv : 0 < v) (hwm : m + 1 = 256 ^ w) (hvk : k + 1 = 256 ^ v)
    (hnl : ∀ y ∈ g.nodeLabels.labels, nl.RoundTrips y) (hel : ∀ y ∈ g.edgeLabels.labels, el.RoundTrips y)
    (hg : g.Mappable) (pre : String) (x : World) (hfresh : g.NoLeftovers pre x.files)
    (hroom : g.dumpRoom w v nl el ≤ x.room) :
    ∃ h : MmapGraph m k NL EL, ∀ big big', (g.dumpMmapOn big w v nl el pre x).1 = true ∧
      MmapGraph.newOn big' w v nl el pre (g.dumpMmapOn big w v nl el pre x).2 =
        .ok (if big = big' then h else turnedMap w v h) := by
  have hroom' : (turnedGraph w v g).dumpRoom w v nl el ≤ x.room := by
    refine le_trans (le_of_eq ?_) hroom
    have hvec : ∀ ev : EdgeVec m k, (turnedVec w v ev).dumpRoom w v = ev.dumpRoom w v := by
      intro ev
      unfold EdgeVec.dumpRoom
      rw [labels_turned]
      simp only [turnedVec, List.length_map, List.map_eq_nil_iff]
    unfold StaticGraph.dumpRoom turnedGraph
    rw [hvec, Option.map_map, show (EdgeVec.dumpRoom w v ∘ turnedVec w v : EdgeVec m k → Nat) = EdgeVec.dumpRoom w v
      from funext hvec]
    cases g.labels <;> simp
  obtain ⟨a1, a2⟩ := c175_loads (m' := m) (k' := k) hw hv hw hv hwm hvk hnl hel hg pre x hfresh hroom
  obtain ⟨b1, b2⟩ := c175_loads (g := turnedGraph w v g) (m' := m) (k' := k) hw hv hw hv hwm hvk hnl hel
    (mappable_turned hg) pre x (fresh_turned hfresh) hroom'
  rw [reread_turned hw hv hwm hvk] at b2
  refine ⟨graphReread w v w v m k g, fun big big' => ?_⟩
  have back : turnedMap w v (turnedMap w v (graphReread w v w v m k g)) = graphReread w v w v m k g := by
    have hvec : ∀ {ev : EdgeVec m k}, ev.Mappable →
        turnedVec w v (turnedVec w v (vecReread w v w v m k ev)) = vecReread w v w v m k ev :=
      fun h => vec_twice hwm hvk h.small
    have hl : ∀ l : Option (List (Id k)), (l.map (List.map (turnedId v))).map (List.map (turnedId v)) = l := by
      rintro (_ | l)
      · rfl
      · simp only [Option.map_some, List.map_map]
        conv_rhs => rw [← List.map_id l]
        exact congrArg some (List.map_congr_left fun i _ => turnedId_turnedId hvk i)
    unfold turnedMap
    simp only [graphReread]
    rw [hvec hg.out, hl]
    cases hi : g.inEdgeVec with
    | none => rfl
    | some e => simp only [Option.map_some, hvec (hg.ins e hi)]
  cases big <;> cases big'
  · exact ⟨a1, a2⟩
  · refine ⟨a1, ?_⟩
    rw [c187_open hwm hvk]
    show Except.map _ (MmapGraph.new w v nl el pre (g.dumpMmap w v nl el pre x).2) = _
    rw [a2]; rfl
  · rw [c187_dump hwm hvk]
    exact ⟨b1, b2⟩
  · rw [c187_dump hwm hvk, c187_open hwm hvk, b2]
    refine ⟨b1, ?_⟩
    show Except.ok _ = Except.ok _
    rw [back, if_pos rfl]

/-! ### Answers -/

theorem turned_offset {ev : EdgeVec m k} {c : Nat} (h : Packed ev c) (hs : ev.edges.length < 256 ^ 4) {j o : Nat}
    (ho : ev.offsets[j]? = some o) :
    (turnedVec w v ev).offsets[j]? = some (turned 8 o) ∧ (o ≠ 0 → ev.edges.length < turned 8 o) := by
  constructor
  · show (ev.offsets.map (turned 8))[j]? = _
    rw [List.getElem?_map, ho]; rfl
  · intro h0
    exact lt_of_lt_of_le hs (c187_large (w := 8) (c := 4) (by decide) (lt_of_le_of_lt (bounded h ho) hs) h0)

/-- **C187.** Neighbours on the other kind of machine, with fewer than `2 ^ 32` entries: none, for a node up to which
there is no edge; from the first node with a neighbour on a panic. -/
theorem c187_neighbors {ev : EdgeVec m k} {c : Nat} (h : Packed ev c) (hs : ev.edges.length < 256 ^ 4) (n : Id m) :
    (n.val < c → (turnedVec w v ev).neighbors n =
      if (List.range (n.val + 1)).flatMap (rowOf ev) = [] then .ok [] else .error .indexOutOfBounds) ∧
    (c ≤ n.val → (turnedVec w v ev).neighbors n = .error .explicit) := by
  have hlen : (turnedVec w v ev).offsets.length = c + 1 := by
    show (ev.offsets.map (turned 8)).length = _
    rw [List.length_map, h.rows]
  have elen : (turnedVec w v ev).edges.length = ev.edges.length := List.length_map _
  obtain ⟨q1, -, q3, q4⟩ := c156_neighbors (turnedVec w v ev) n
  refine ⟨fun hn => ?_, fun hn => q3.2 ⟨fun hc => by rw [hc] at hlen; simp at hlen, by omega⟩⟩
  have i1 : n.val < ev.offsets.length := by rw [h.rows]; omega
  have i2 : n.val + 1 < ev.offsets.length := by rw [h.rows]; omega
  obtain ⟨s1, -⟩ := turned_offset (w := w) (v := v) h hs (List.getElem?_eq_getElem i1)
  obtain ⟨s2, s3⟩ := turned_offset (w := w) (v := v) h hs (List.getElem?_eq_getElem i2)
  have hle := List.pairwise_iff_getElem.1 h.rising _ _ i1 i2 (by omega)
  have hb := bounded h (List.getElem?_eq_getElem i2)
  rw [← rows_before h (n.val + 1) (by omega), getD_there i2]
  generalize ev.offsets[n.val] = a at *
  generalize ev.offsets[n.val + 1] = b at *
  by_cases h0 : b = 0
  · obtain rfl : a = 0 := by omega
    subst h0
    rw [turned_zero] at s1 s2
    rw [if_pos (by simp)]
    have hB : Bounds (turnedVec w v ev) n.val 0 0 := ⟨s1, s2⟩
    refine (q1 _).2 ⟨⟨_, _, hB, le_refl _, Nat.zero_le _⟩, ?_⟩
    rw [(row_there_eq hB (le_refl _) (Nat.zero_le _)).1]; rfl
  · rw [if_neg (fun hc => by
      have := congrArg List.length hc
      rw [List.length_take, List.length_nil] at this
      omega)]
    refine q4.2 ⟨by omega, ?_⟩
    rintro ⟨a', b', ⟨-, t2⟩, -, hb'⟩
    rw [s2] at t2
    cases t2
    have := s3 h0
    omega

theorem plain_row {ev : EdgeVec m k} {c : Nat} (h : Packed ev c) {n : Id m} (hn : n.val < c) :
    ev.neighbors n = .ok (rowOf ev n.val) := by
  have h1 : n.val < ev.offsets.length := by rw [h.rows]; omega
  have h2 : n.val + 1 < ev.offsets.length := by rw [h.rows]; omega
  exact ((c156_neighbors ev n).1 _).2 ⟨⟨_, _, ⟨List.getElem?_eq_getElem h1, List.getElem?_eq_getElem h2⟩,
    List.pairwise_iff_getElem.1 h.rising _ _ h1 h2 (by omega), bounded h (List.getElem?_eq_getElem h2)⟩, rfl⟩

/-- **C187.** So no wrong answer about neighbours is given: what is answered is right. -/
theorem c187_right {ev : EdgeVec m k} {c : Nat} (h : Packed ev c) (hs : ev.edges.length < 256 ^ 4) {n : Id m}
    {l : List (Id m)} (hl : (turnedVec w v ev).neighbors n = .ok l) : l = [] ∧ ev.neighbors n = .ok l := by
  obtain ⟨q1, q2⟩ := c187_neighbors (w := w) (v := v) h hs n
  rcases Nat.lt_or_ge n.val c with hn | hn
  · rw [q1 hn] at hl
    split at hl
    · rename_i h0
      cases hl
      rw [plain_row h hn]
      refine ⟨rfl, congrArg _ ?_⟩
      exact List.flatMap_eq_nil_iff.1 h0 n.val (List.mem_range.2 (by omega))
    · cases hl
  · rw [q2 hn] at hl; cases hl

/-- **C187.** The same for edges asked for: if the answer is given it is no, and right. -/
theorem c187_has_edge {g : MmapGraph m k NL EL} {c : Nat} (h : Packed g.edges c) (hs : g.edges.edges.length < 256 ^ 4)
    {s t : Id m} {b : Bool} (hb : (turnedMap w v g).hasEdge s t = .ok b) : b = false ∧ g.hasEdge s t = .ok b := by
  unfold MmapGraph.hasEdge MmapGraph.neighbors at hb ⊢
  obtain ⟨l, h1, h2⟩ := bind_eq_ok hb
  obtain ⟨rfl, h3⟩ := c187_right h hs h1
  cases h2
  rw [h3]
  exact ⟨rfl, rfl⟩

/-- **C187.** The edges of a directed graph can be listed exactly if it has none. -/
theorem c187_edges {ev : EdgeVec m k} {c : Nat} (h : Packed ev c) (hs : ev.edges.length < 256 ^ 4) (hm : c ≤ m) :
    (ev.edges = [] → (turnedVec w v ev).edgeIndices true = .ok []) ∧
    (ev.edges ≠ [] → (turnedVec w v ev).edgeIndices true = .error .underflow ∨
      (turnedVec w v ev).edgeIndices true = .error .indexOutOfBounds) := by
  have hlen : (turnedVec w v ev).offsets.length = c + 1 := by
    show (ev.offsets.map (turned 8)).length = _
    rw [List.length_map, h.rows]
  have elen : (turnedVec w v ev).edges.length = ev.edges.length := List.length_map _
  obtain ⟨q1, q2, q3⟩ := c156_edges (turnedVec w v ev) (fun hc => by rw [hc] at hlen; simp at hlen) (by omega) true
    (.inl rfl) _ (le_refl _)
  rw [q3]
  constructor
  · intro he
    have h0 : ∀ (j o : Nat), ev.offsets[j]? = some o → o = 0 := by
      intro j o ho
      have := bounded h ho
      rw [he] at this
      simpa using this
    refine (q1 _).2 ⟨fun n hn => ?_, ?_⟩
    · have i1 : n < ev.offsets.length := by rw [h.rows]; omega
      have i2 : n + 1 < ev.offsets.length := by rw [h.rows]; omega
      have s1 := (turned_offset (w := w) (v := v) h hs (List.getElem?_eq_getElem i1)).1
      have s2 := (turned_offset (w := w) (v := v) h hs (List.getElem?_eq_getElem i2)).1
      rw [h0 _ _ (List.getElem?_eq_getElem i1)] at s1
      rw [h0 _ _ (List.getElem?_eq_getElem i2)] at s2
      exact ⟨_, _, ⟨s1, s2⟩, le_refl _, .inl rfl⟩
    · have e0 : (turnedVec w v ev).edges = [] := List.length_eq_zero_iff.1 (by rw [elen, he]; rfl)
      unfold rowPairs rowOf
      rw [e0]
      simp
  · intro he
    refine q2 ?_
    -- the first row with an edge
    have hex : ∃ j : Nat, ∃ o, ev.offsets[j]? = some o ∧ o ≠ 0 :=
      ⟨c, _, h.last, fun hc => he (List.length_eq_zero_iff.1 hc)⟩
    classical
    obtain ⟨o, ho, hne⟩ := Nat.find_spec hex
    generalize hj : Nat.find hex = j at ho
    have hmin : ∀ i < j, ∀ o, ev.offsets[i]? = some o → o = 0 := by
      intro i hi o' ho'
      by_contra hc
      exact Nat.find_min hex (by omega) ⟨o', ho', hc⟩
    have hjlt : j < ev.offsets.length := (List.getElem?_eq_some_iff.1 ho).1
    cases j with
    | zero =>
      rw [h.first] at ho
      cases ho
      exact (hne rfl).elim
    | succ j =>
      refine ⟨j, by rw [hlen]; rw [h.rows] at hjlt; omega, ?_⟩
      rintro ⟨a, b, ⟨t1, t2⟩, -, hab⟩
      have i1 : j < ev.offsets.length := by omega
      obtain ⟨s1, -⟩ := turned_offset (w := w) (v := v) h hs (List.getElem?_eq_getElem i1)
      obtain ⟨s2, s3⟩ := turned_offset (w := w) (v := v) h hs ho
      rw [hmin j (by omega) _ (List.getElem?_eq_getElem i1), turned_zero] at s1
      rw [s1] at t1
      rw [s2] at t2
      cases t1
      cases t2
      have := s3 hne
      rw [elen] at hab
      omega

/-! ### Labels -/

theorem static_turned (hvk : k + 1 = 256 ^ v) (l : Id k) :
    staticLabel (turnedId v l) = (staticLabel l).map (turnedId v) := by
  have hmax : turnedId v (Id.maxValue : Id k) = Id.maxValue := by
    refine Fin.ext ?_
    rw [turnedId_val hvk]
    have h1 : (Id.maxValue : Id k).val = 256 ^ v - 1 := by
      rw [← hvk]; rfl
    rw [h1]
    exact (c187_fixed (w := v)).2.2
  unfold staticLabel
  by_cases h : l = Id.maxValue
  · rw [if_pos h, h, hmax, if_pos rfl]; rfl
  · rw [if_neg h, if_neg]
    · rfl
    · intro hc
      refine h ?_
      rw [← turnedId_turnedId hvk l, hc, hmax]

/-- **C187.** Nodes and counts are right, and a node without label has none. Label ids are turned. -/
theorem c187_nodes (hvk : k + 1 = 256 ^ v) (g : MmapGraph m k NL EL) (n : Id m) :
    (turnedMap w v g).numNodes = g.numNodes ∧ (turnedMap w v g).numEdges = g.numEdges ∧
    (turnedMap w v g).isDirected = g.isDirected ∧ (turnedMap w v g).hasNode n = g.hasNode n ∧
    (turnedMap w v g).nodeIndices = g.nodeIndices ∧
    (turnedMap w v g).nodeLid n = (g.nodeLid n).map (Option.map (turnedId v)) := by
  refine ⟨rfl, rfl, by simp [MmapGraph.isDirected, turnedMap], rfl, rfl, ?_⟩
  unfold MmapGraph.nodeLid
  rw [show (turnedMap w v g).hasNode n = g.hasNode n from rfl]
  split
  · rfl
  · show (match g.labels.map (List.map (turnedId v)) with
      | some ls => _
      | none => _) = _
    cases g.labels with
    | none => rfl
    | some ls =>
      simp only [Option.map_some]
      unfold index
      rw [List.getElem?_map]
      cases ls[n.val]? with
      | none => rfl
      | some l =>
        show Except.ok _ = Except.ok _
        rw [static_turned hvk]

/-- **C187.** Of a label table of at most `256 ^ c` labels, where label ids have at least `2 * c` bytes, the label of id 0
is found and no other. With label ids of one byte all are. -/
theorem c187_labels {L : Type} (hvk : k + 1 = 256 ^ v) (T : SetMap L) (l : Id k) (hl : l.val < T.len) :
    (l.val = 0 → T.getItem (turnedId v l).val = T.getItem l.val) ∧
    (v = 1 → T.getItem (turnedId v l).val = T.getItem l.val) ∧
    ∀ c, T.len ≤ 256 ^ c → 2 * c ≤ v → l.val ≠ 0 → T.getItem (turnedId v l).val = none := by
  rw [turnedId_val hvk]
  refine ⟨fun h0 => by rw [h0, turned_zero], ?_, fun c h1 h2 h0 => ?_⟩
  · rintro rfl
    rw [(c187_fixed (w := 1)).2.1 _ (by have := l.isLt; omega)]
  · refine List.getElem?_eq_none ?_
    refine le_trans h1 (le_trans (Nat.pow_le_pow_right (by decide) (by omega)) (c187_large (c := c) ?_ ?_ h0))
    · omega
    · exact lt_of_lt_of_le hl h1

/-! ### Instances -/

/-- **C187.** The graph of two edges from node 0 dumped on one kind of machine and opened on the other: asking node 0 for
its neighbours panics; on the same kind it answers. -/
theorem c187_misread :
    (∃ h : MmapGraph 65535 255 (List Byte) (List Byte), MmapGraph.newOn true 2 1 text text "g"
        (wordGraph.dumpMmapOn false 2 1 text text "g" (blank 1000)).2 = .ok h ∧
      h.neighbors 0 = .error .indexOutOfBounds ∧ h.numNodes = 3 ∧ h.numEdges = 2) ∧
    ∃ h : MmapGraph 65535 255 (List Byte) (List Byte), MmapGraph.newOn true 2 1 text text "g"
        (wordGraph.dumpMmapOn true 2 1 text text "g" (blank 1000)).2 = .ok h ∧ h.neighbors 0 = .ok [1, 2] := by
  refine ⟨⟨_, rfl, ?_, ?_, ?_⟩, _, rfl, ?_⟩ <;> rfl

example : turned 4 0x01020304 = 0x04030201 ∧ turned 8 2 = 2 * 256 ^ 7 := by
  simp [turned, Finset.sum_range_succ]

/-- The conditions of the theorems can be met. -/
example : Packed wordGraph.edgeVec 3 ∧ wordGraph.edgeVec.edges.length < 256 ^ 4 ∧ (65535 + 1 = 256 ^ 2) ∧
    (∃ (T : SetMap Nat) (l : Id 65535), T.len ≤ 256 ^ 1 ∧ l.val < T.len ∧ l.val ≠ 0) := by
  refine ⟨⟨rfl, rfl, rfl, by decide, ?_, ?_⟩, by decide, by decide, ⟨[5, 6]⟩, 1, by decide, by decide, by decide⟩
  · decide
  · rintro t (_ | ⟨_, _ | ⟨_, h⟩⟩)
    · decide
    · decide
    · cases h

end Verif.Props
