import Verif.Props.Serde
import Verif.Proof.Sizes

/-! Property theorems about memory-mapped graphs: C47-C50, C55. -/

namespace Verif.Props

open GraphMap Spec

/-! ### C49 -/

/-- **C49.** `dump` puts exactly the bytes of the slice into the file, if there is room for them, and
otherwise reports an error; it touches no other file. -/
theorem c49_dump (path : String) (bs : List Byte) (x : World) :
    ((x.dump path bs).1 = true → (x.dump path bs).2.files path = some bs) ∧
    (bs.length < x.room → (x.dump path bs).1 = true) ∧
    (∀ p, p ≠ path → (x.dump path bs).2.files p = x.files p) := by
  refine ⟨fun h => ?_, (c74_dump_reports path bs x).2, fun p hp => ?_⟩
  · rw [(World.did_dump path bs x).done h]
    simp [World.look, AL.get]
  · exact (World.did_dump path bs x).frame p (by simpa [AL.keys] using hp)

/-- **C49**: the loop of `dump` never slices past the end, takes something in every turn, and needs one turn for every
10000 bytes and one for the rest. -/
theorem c49_pieces (bs : List Byte) :
    (∀ n, pieceLen n ≤ n ∧ (0 < n → 0 < pieceLen n)) ∧
    (chunks (bs.length + 1) bs).flatten = bs ∧ (∀ p ∈ chunks (bs.length + 1) bs, 0 < p.length ∧ p.length ≤ 10000) ∧
    (chunks (bs.length + 1) bs).length = (bs.length + 9999) / 10000 := by
  refine ⟨fun n => ?_, chunks_flatten _ _ (Nat.lt_succ_self _), chunks_pieces _ _, chunks_length _ _ (Nat.lt_succ_self _)⟩
  unfold pieceLen
  split <;> omega

/-- **C49**: a slice of `w`-byte integers takes `w` bytes per element. -/
theorem c49_bytes (w : Nat) (l : List Nat) : (typedBytes w l).length = l.length * w := typedBytes_length w l

/-- **C49**: mapping any non-empty file gives a full view inside the file, which misses less than one
element. -/
theorem c49_full_inside {w : Nat} (hw : 0 < w) {path : String} {x : World} {bs : List Byte}
    (hx : x.files path = some bs) (hne : bs ≠ []) :
    ∃ t, TypedMap.new w path x = .ok t ∧ t.data = bs ∧ t.width = w ∧ t.Inside t.full ∧
      t.full.offset = 0 ∧ bs.length < (t.full.count + 1) * w := by
  refine ⟨⟨bs, bs.length / w, w⟩, ?_, rfl, rfl, ?_, rfl, ?_⟩
  · unfold TypedMap.new
    have : bs.length ≠ 0 := fun h => hne (List.length_eq_zero_iff.1 h)
    simp only [hx, if_neg this, TypedMap.withMmap, if_neg (Nat.pos_iff_ne_zero.1 hw), pure_ok]
  · simp only [TypedMap.Inside, TypedMap.full, Nat.zero_add]
    exact Nat.div_mul_le_self _ _
  · simp only [TypedMap.full]
    rw [Nat.mul_comm]
    exact Nat.lt_mul_div_succ _ hw

/-- **C49**: what was dumped is read back, by the full view and by every range within the length. -/
theorem c49_round {w : Nat} (hw : 0 < w) {path : String} {x : World} {l : List Nat} (hl : l ≠ [])
    (hlt : ∀ y ∈ l, y < 256 ^ w) (hroom : (typedBytes w l).length < x.room) :
    ∃ t, TypedMap.new w path (x.dump path (typedBytes w l)).2 = .ok t ∧ t.len = l.length ∧
      t.read t.full = l ∧
      (∀ i, i ≤ l.length → ∃ win, t.rangeFrom i = .ok win ∧ t.read win = l.drop i) ∧
      (∀ e, e ≤ l.length → t.read (t.rangeTo e) = l.take e) := by
  have h1 := (c49_dump path (typedBytes w l) x).1 ((c49_dump path (typedBytes w l) x).2.1 hroom)
  have hmod : ∀ l' : List Nat, (∀ y ∈ l', y ∈ l) → l'.map (· % 256 ^ w) = l' := by
    intro l' h'
    conv_rhs => rw [← List.map_id l']
    exact List.map_congr_left fun y hy => Nat.mod_eq_of_lt (hlt y (h' y hy))
  refine ⟨_, TypedMap.new_eq hw hl h1, rfl, TypedMap.read_full w l hlt, ?_, ?_⟩
  · intro i hi
    refine ⟨⟨i * w, l.length - i⟩, ?_, ?_⟩
    · unfold TypedMap.rangeFrom
      simp only
      rw [if_neg (by omega)]; rfl
    · rw [TypedMap.read_eq w l l.length i (l.length - i) (by omega), List.take_of_length_le (by simp)]
      exact hmod _ fun y hy => List.mem_of_mem_drop hy
  · intro e he
    have := TypedMap.read_eq w l l.length 0 e (by omega)
    rw [Nat.zero_mul, List.drop_zero] at this
    unfold TypedMap.rangeTo
    rw [this]
    exact hmod _ fun y hy => List.mem_of_mem_take hy

/-- **C49**: `map[i..]` panics beyond the length and is inside the file otherwise. -/
theorem c49_range_from {w : Nat} (hw : 0 < w) {path : String} {x : World} {t : TypedMap}
    (ht : TypedMap.new w path x = .ok t) (i : Nat) :
    (i ≤ t.len ↔ ∃ win, t.rangeFrom i = .ok win) ∧
    ∀ win, t.rangeFrom i = .ok win → t.Inside win ∧ win.count = t.len - i := by
  have hlen : t.len * t.width ≤ t.data.length := by
    unfold TypedMap.new at ht
    split at ht
    · cases ht
    · split at ht
      · cases ht
      · unfold TypedMap.withMmap at ht
        rw [if_neg (by omega)] at ht
        cases ht
        exact Nat.div_mul_le_self _ _
  unfold TypedMap.rangeFrom
  by_cases h : t.len < i
  · rw [if_pos h]
    exact ⟨⟨fun _ => by omega, fun ⟨_, h'⟩ => by cases h'⟩, fun _ h' => by cases h'⟩
  · rw [if_neg h]
    refine ⟨⟨fun _ => ⟨_, rfl⟩, fun _ => by omega⟩, ?_⟩
    intro win h'
    cases h'
    refine ⟨?_, rfl⟩
    simp only [TypedMap.Inside]
    rw [← Nat.add_mul, Nat.add_sub_cancel' (by omega)]
    exact hlen

/-- **C49**: `map[..e]` is inside the file exactly if `e` is within the length; it is never refused. -/
theorem c49_range_to {w : Nat} (hw : 0 < w) {path : String} {x : World} {t : TypedMap}
    (ht : TypedMap.new w path x = .ok t) (e : Nat) : t.Inside (t.rangeTo e) ↔ e ≤ t.len := by
  have hlen : t.len = t.data.length / t.width ∧ 0 < t.width := by
    unfold TypedMap.new at ht
    split at ht
    · cases ht
    · split at ht
      · cases ht
      · unfold TypedMap.withMmap at ht
        rw [if_neg (by omega)] at ht
        cases ht
        exact ⟨rfl, hw⟩
  simp only [TypedMap.Inside, TypedMap.rangeTo, Nat.zero_add]
  rw [hlen.1, Nat.le_div_iff_mul_le hlen.2]

/-- Five 4-byte integers need 20 bytes and one more effect for creating the file. -/
example : (typedBytes 4 [7, 70000, 0, 1, 4000000000]).length < (blank 21).room ∧
    (∀ y ∈ [7, 70000, 0, 1, 4000000000], y < 256 ^ 4) := by decide

example : (TypedMap.new 4 "f" ((blank 21).dump "f" (typedBytes 4 [7, 70000, 0, 1, 4000000000])).2).map
    (fun t => (t.read t.full, t.read (t.rangeTo 2), (t.rangeFrom 3).map t.read)) =
    .ok ([7, 70000, 0, 1, 4000000000], [7, 70000], .ok [1, 4000000000]) := by rfl

variable {m k w v : Nat} {NL EL : Type}

/-! ### C50 -/

/-- **C50.** The memory-mapped graph over the arrays of a static graph answers every query as that does,
except that `has_edge` and `get_edge` panic when the start is not a row. The arrays encode rows of sorted
neighbours that are rows themselves; in-edges are present exactly in directed graphs. -/
theorem c50_answers {g : StaticGraph m k NL EL} {rows : List (List (Id m × Id k))} {lab : Bool}
    (h : Encodes g.edgeVec rows lab) (ht : ∀ r ∈ rows, ∀ p ∈ r, p.1.val < rows.length)
    (hd : g.inEdgeVec.isSome = g.directed) : g.asMmap.AnswersLike g rows.length :=
  StaticGraph.asMmap_answers h ht hd

/-- **C50**: in particular for what `into_static` makes of a reachable graph. -/
theorem c50_frozen {g : GraphMap m k NL EL} [DecidableEq NL] [DecidableEq EL] (hg : Reachable g) {M : Id m}
    (hM : g.nodeIndices.max? = some M) (hlt : M.val < m) :
    ∃ r, g.intoStatic = .ok r ∧ r.asMmap.AnswersLike r (M.val + 1) := by
  obtain ⟨r, h1, h2⟩ := intoStatic_ok hg.inv.toNWF hM hlt
  refine ⟨r, h1, ?_⟩
  have := c50_answers (g := r) h2.out (by
    rw [rows_length]
    exact rows_target hg.inv (max_spec hM).2) (by
    rw [h2.directed]
    cases hd : g.directed with
    | false => rw [h2.noIn hd]; rfl
    | true => obtain ⟨iv, h3, -⟩ := h2.inn hd; rw [h3]; rfl)
  rwa [rows_length] at this

/-- **C50**: the mapped type has the in-queries whatever it has loaded. Loaded from an undirected dump, so
that it calls itself undirected, it answers them with nothing, also for nodes with neighbours and for ids
that are no nodes. -/
theorem c50_undirected_in (g : MmapGraph m k NL EL) (hd : g.isDirected = false) (n : Id m) :
    g.inNeighbors n = .ok [] ∧ g.inDegree n = .ok 0 := by
  have h : g.inEdges = none := by simpa [MmapGraph.isDirected] using hd
  have h1 : g.inNeighbors n = .ok [] := by unfold MmapGraph.inNeighbors; rw [h]; rfl
  exact ⟨h1, by unfold MmapGraph.inDegree; rw [h1]; rfl⟩

/-- The static graph of the little graph. -/
def smallStatic (d : Bool) : Res (StaticGraph 255 255 (List Byte) (List Byte)) := do
  let g ← small d
  g.intoStatic

/-- The exception: the in-memory graph says no, the mapped one panics. -/
example : ∃ r, smallStatic true = .ok r ∧ r.hasEdge 1 0 = .ok true ∧ r.asMmap.hasEdge 1 0 = .ok true ∧
    r.hasEdge 7 0 = .ok false ∧ r.asMmap.hasEdge 7 0 = .error .explicit := by
  refine ⟨_, rfl, ?_, ?_, ?_, ?_⟩ <;> decide

example : ∃ r, smallStatic false = .ok r ∧ r.asMmap.isDirected = false ∧
    r.asMmap.degree 1 = .ok 1 ∧ r.asMmap.inDegree 1 = .ok 0 ∧ r.asMmap.inDegree 77 = .ok 0 := by
  refine ⟨_, rfl, ?_, ?_, ?_, ?_⟩ <;> decide

/-! ### C47, C48 -/

variable [DecidableEq NL] [DecidableEq EL]

/-- **C47, C48.** Dumping and loading again gives a graph that answers like the dumped one, provided the
arrays are not empty, no file is left under the prefix that this dump does not write, and the disk has
room: as many units as the dump has files and bytes (`StaticGraph.dumpRoom`). -/
theorem c48_overwrite_partial {nl : Codec NL} {el : Codec EL} {g : StaticGraph m k NL EL}
    {rows : List (List (Id m × Id k))} {lab : Bool}
    (h : Encodes g.edgeVec rows lab) (ht : ∀ r ∈ rows, ∀ p ∈ r, p.1.val < rows.length)
    (hd : g.inEdgeVec.isSome = g.directed)
    (hw : 0 < w) (hv : 0 < v) (hwm : m + 1 = 256 ^ w) (hvk : k + 1 = 256 ^ v)
    (hnl : ∀ y ∈ g.nodeLabels.labels, nl.RoundTrips y) (hel : ∀ y ∈ g.edgeLabels.labels, el.RoundTrips y)
    (hns : nl.Stable) (hes : el.Stable) (hg : g.Mappable) (pre : String) :
    ∀ x : World, g.NoLeftovers pre x.files → g.dumpRoom w v nl el ≤ x.room →
      (g.dumpMmap w v nl el pre x).1 = true ∧
      ∃ h, MmapGraph.new w v nl el pre (g.dumpMmap w v nl el pre x).2 = .ok h ∧
        h.AnswersLike g rows.length := by
  intro x hold hroom
  obtain ⟨h4, h1, n, h2, h5⟩ := Sizes.dump_done pre hroom
  refine ⟨h4, g.stored, ?_, StaticGraph.stored_answers h ht hd⟩
  rw [StaticGraph.load_after hw hv hwm hvk hnl hel hns hes hg hold h1 h2, if_pos h5]

/-- **C47.** The same for a prefix without files, for what `into_static` makes of any reachable graph with
an edge. -/
theorem c47_round_trip {nl : Codec NL} {el : Codec EL} {g : GraphMap m k NL EL} (hg : Reachable g)
    (hw : 0 < w) (hv : 0 < v) (hwm : m + 1 = 256 ^ w) (hvk : k + 1 = 256 ^ v)
    {M : Id m} (hM : g.nodeIndices.max? = some M) (hlt : M.val < m) {s t : Id m}
    (hedge : g.hasEdge s t = true) (hn : g.nodeCount < 2 ^ 64) (hec : g.edgeCount < 2 ^ 64)
    (hnl : g.nodeLabels.len < 2 ^ 64) (hel : g.edgeLabels.len < 2 ^ 64)
    (cnl : ∀ y ∈ g.nodeLabels.items, nl.RoundTrips y) (cel : ∀ y ∈ g.edgeLabels.items, el.RoundTrips y)
    (snl : nl.Stable) (sel : el.Stable) (pre : String) :
    ∃ r, g.intoStatic = .ok r ∧ (r.edgeVec.edges.length < 2 ^ 64 →
      (∀ e, r.inEdgeVec = some e → e.edges.length < 2 ^ 64) →
      ∀ x : World, (∀ suf, x.files (pre ++ suf) = none) → r.dumpRoom w v nl el ≤ x.room →
        (r.dumpMmap w v nl el pre x).1 = true ∧
        ∃ h, MmapGraph.new w v nl el pre (r.dumpMmap w v nl el pre x).2 = .ok h ∧
          h.AnswersLike r (M.val + 1)) := by
  obtain ⟨r, h1, h2⟩ := intoStatic_ok hg.inv.toNWF hM hlt
  refine ⟨r, h1, fun he hi => ?_⟩
  have hmax := (max_spec hM).2
  have hmap : r.Mappable := by
    refine ⟨EdgeVec.mappable_of_encodes h2.out (rows_flatten_ne hmax hedge) he, ?_, ?_, ?_, ?_, ?_, ?_⟩
    · intro e hin
      cases hd : g.directed with
      | false => rw [h2.noIn hd] at hin; cases hin
      | true =>
        obtain ⟨iv, h3, h4⟩ := h2.inn hd
        have := hi _ h3
        rw [h3] at hin
        cases hin
        exact EdgeVec.mappable_of_encodes h4 (inRows_flatten_ne hg.inv hd hmax hedge) this
    · rw [h2.labels]
      split
      · intro hc
        have := congrArg (Option.map List.length) hc
        simp at this
      · intro hc; cases hc
    · rw [h2.numNodes]; exact hn
    · rw [h2.numEdges]; exact hec
    · rw [h2.nodeLabels]; exact ⟨hg.inv.nlNodup, hnl⟩
    · rw [h2.edgeLabels]; exact ⟨hg.inv.elNodup, hel⟩
  have h3 := c48_overwrite_partial (g := r) (nl := nl) (el := el) (w := w) (v := v) h2.out (by
    rw [rows_length]
    exact rows_target hg.inv hmax) (by
    rw [h2.directed]
    cases hd : g.directed with
    | false => rw [h2.noIn hd]; rfl
    | true => obtain ⟨iv, h3, -⟩ := h2.inn hd; rw [h3]; rfl) hw hv hwm hvk
    (by rw [h2.nodeLabels]; exact cnl) (by rw [h2.edgeLabels]; exact cel) snl sel hmap pre
  rw [rows_length] at h3
  refine fun x hx hroom => h3 x ?_ hroom
  have path : ∀ a b : String, pre ++ a ++ b = pre ++ (a ++ b) := fun a b => String.append_assoc
  refine ⟨fun _ => ?_, fun _ => ?_, fun _ _ _ => ?_, fun _ => hx _⟩ <;> rw [path] <;> exact hx _

/-- **C47**: a graph without edges is dumped, but loading it panics (an empty file cannot be mapped). -/
theorem c47_no_edges {nl : Codec NL} {el : Codec EL} {g : StaticGraph m k NL EL} (hno : g.edgeVec.edges = [])
    (pre : String) (x : World) (hok : (g.dumpMmap w v nl el pre x).1 = true) :
    ∃ p, (MmapGraph.new w v nl el pre (g.dumpMmap w v nl el pre x).2 : Res (MmapGraph m k NL EL)) =
      .error p := by
  rcases StaticGraph.dump_outcome w v nl el g pre x with ⟨h0, -, -⟩ | ⟨h1, -⟩
  · rw [h0] at hok; cases hok
  · have path : ∀ a b : String, pre ++ a ++ b = pre ++ (a ++ b) := fun a b => String.append_assoc
    have hne : pre ++ "_OUT" ++ ".edges" ≠ pre ++ "_aux.bin" := by
      rw [path, Ne, prefix_inj]; decide
    have h2 := h1 _ hne
    rw [(StaticGraph.look_files w v g pre x.files).2.1, hno] at h2
    unfold MmapGraph.new EdgeVec.openMmap
    cases TypedMap.new 8 (pre ++ "_OUT" ++ ".offsets") (g.dumpMmap w v nl el pre x).2 with
    | error p => exact ⟨p, rfl⟩
    | ok o => exact ⟨.unwrapNone, by rw [bind_ok, TypedMap.new_empty h2]; rfl⟩

/-- **C48**: what is left of an earlier dump is picked up: with in-edges of an earlier directed graph under
the prefix, an undirected graph never comes back as such. -/
theorem c48_leftover_in_edges {nl : Codec NL} {el : Codec EL} {g : StaticGraph m k NL EL}
    (hno : g.inEdgeVec = none) (pre : String) {x : World}
    (hold : (x.files (pre ++ "_IN" ++ ".offsets")).isSome = true)
    {h : MmapGraph m k NL EL}
    (hload : MmapGraph.new w v nl el pre (g.dumpMmap w v nl el pre x).2 = .ok h) : h.isDirected = true := by
  have path : ∀ a b : String, pre ++ a ++ b = pre ++ (a ++ b) := fun a b => String.append_assoc
  have hf : ((g.dumpMmap w v nl el pre x).2.files (pre ++ "_IN" ++ ".offsets")).isSome = true := by
    have hne : pre ++ "_IN" ++ ".offsets" ≠ pre ++ "_aux.bin" := by
      rw [path, Ne, prefix_inj]; decide
    rw [StaticGraph.dumpMmap_eq]
    have hkeys : pre ++ "_IN" ++ ".offsets" ∉ AL.keys (g.files w v pre) := by
      rw [← AL.get_eq_none_iff]
      have h4 := (StaticGraph.look_files w v g pre (fun _ => none)).2.2.2.1
      rw [hno] at h4
      simpa [World.look] using h4
    have h1 := (StaticGraph.did_dumpArrays w v g pre x).frame _ hkeys
    unfold World.andThen
    split
    · obtain ⟨ok, e1, -⟩ := World.export_eq (Codec.aux nl el)
        ⟨g.numNodes, g.numEdges, g.nodeLabels, g.edgeLabels⟩ (pre ++ "_aux.bin") (g.dumpArrays w v pre x).2
      rw [e1]
      split
      · simp only; rw [h1]; exact hold
      · simp only [World.put, if_neg hne]; rw [h1]; exact hold
    · rw [h1]; exact hold
  unfold MmapGraph.new at hload
  obtain ⟨e, -, hload⟩ := bind_eq_ok hload
  rw [if_pos hf] at hload
  obtain ⟨i, hi, hload⟩ := bind_eq_ok hload
  obtain ⟨i', -, hi⟩ := bind_eq_ok hi
  rw [pure_ok] at hi
  cases hi
  obtain ⟨l, -, hload⟩ := bind_eq_ok hload
  obtain ⟨a, -, hload⟩ := bind_eq_ok hload
  rw [pure_ok] at hload
  cases hload
  rfl

/-! ### C55 -/

/-- **C55.** Whenever `dump_mmap` stops, if the auxiliary file is new then loading panics or gives a graph
that answers like the dumped one. Missing for the full claim: a dump stopped before it creates the
auxiliary file, see `c55_wrong_graph`. -/
theorem c55_crash_partial {nl : Codec NL} {el : Codec EL} {g : StaticGraph m k NL EL}
    {rows : List (List (Id m × Id k))} {lab : Bool}
    (h : Encodes g.edgeVec rows lab) (ht : ∀ r ∈ rows, ∀ p ∈ r, p.1.val < rows.length)
    (hd : g.inEdgeVec.isSome = g.directed)
    (hw : 0 < w) (hv : 0 < v) (hwm : m + 1 = 256 ^ w) (hvk : k + 1 = 256 ^ v)
    (hnl : ∀ y ∈ g.nodeLabels.labels, nl.RoundTrips y) (hel : ∀ y ∈ g.edgeLabels.labels, el.RoundTrips y)
    (hns : nl.Stable) (hes : el.Stable) (hg : g.Mappable) (pre : String) (x : World)
    (hold : g.NoLeftovers pre x.files) (hnew : x.files (pre ++ "_aux.bin") = none)
    (haux : ((g.dumpMmap w v nl el pre x).2.files (pre ++ "_aux.bin")).isSome = true) :
    (∃ p, (MmapGraph.new w v nl el pre (g.dumpMmap w v nl el pre x).2 : Res (MmapGraph m k NL EL)) =
      .error p) ∨
    ∃ h, MmapGraph.new w v nl el pre (g.dumpMmap w v nl el pre x).2 = .ok h ∧ h.AnswersLike g rows.length := by
  rcases StaticGraph.dump_outcome w v nl el g pre x with ⟨-, h0, -⟩ | ⟨h1, n, h2, -⟩
  · rw [h0, hnew] at haux; cases haux
  · rw [StaticGraph.load_after hw hv hwm hvk hnl hel hns hes hg hold h1 h2]
    split
    · exact .inr ⟨_, rfl, StaticGraph.stored_answers h ht hd⟩
    · exact .inl ⟨_, rfl⟩

/-- **C55** is false: the little directed graph `1 -> 0`, dumped to an empty disk and stopped after the
out-edges, loads without complaint as an undirected graph with no edge by its count. -/
theorem c55_wrong_graph : ∃ r, smallStatic true = .ok r ∧ r.directed = true ∧ r.numEdges = 1 ∧
    ∃ h, MmapGraph.new (m := 255) (k := 255) 1 1 text text "g"
        (r.dumpMmap 1 1 text text "g" (blank 29)).2 = .ok h ∧
      h.isDirected = false ∧ h.numEdges = 0 := by
  refine ⟨_, rfl, rfl, rfl, _, rfl, rfl, rfl⟩

/-- **C48** is false: the undirected graph, dumped over the directed one, loads as directed. -/
theorem c48_wrong_graph : ∃ r r', smallStatic true = .ok r ∧ smallStatic false = .ok r' ∧
    r'.directed = false ∧
    (r.dumpMmap 1 1 text text "g" (blank 1000)).1 = true ∧
    (r'.dumpMmap 1 1 text text "g" (r.dumpMmap 1 1 text text "g" (blank 1000)).2).1 = true ∧
    ∃ h, MmapGraph.new (m := 255) (k := 255) 1 1 text text "g"
        (r'.dumpMmap 1 1 text text "g" (r.dumpMmap 1 1 text text "g" (blank 1000)).2).2 = .ok h ∧
      h.isDirected = true := by
  refine ⟨_, _, rfl, rfl, rfl, rfl, rfl, _, rfl, rfl⟩

/-- **C74** for `dump_mmap`: it may report success though the auxiliary file is cut off; loading panics. -/
theorem c74_dump_mmap : ∃ r, smallStatic true = .ok r ∧
    (r.dumpMmap 1 1 text text "g" (blank 110)).1 = true ∧
    (MmapGraph.new 1 1 text text "g" (r.dumpMmap 1 1 text text "g" (blank 110)).2 :
      Res (MmapGraph 255 255 (List Byte) (List Byte))) = .error .unwrapNone := by
  refine ⟨_, rfl, rfl, rfl⟩

/-- The hypotheses of C47, C48, C50 and C55 on the little graph: rows `[], [0]`. -/
example : ∃ r, smallStatic true = .ok r ∧
    Encodes r.edgeVec [[], [(0, 0)]] true ∧ r.inEdgeVec.isSome = r.directed ∧ r.Mappable ∧
    r.NoLeftovers "g" (blank 112).files := by
  refine ⟨_, rfl, ⟨rfl, rfl, rfl, by decide⟩, rfl, ⟨⟨?_, ?_, ?_⟩, ?_, ?_, ?_, ?_, ?_, ?_⟩,
    ⟨fun _ => rfl, fun _ => rfl, fun _ _ _ => rfl, fun _ => rfl⟩⟩
  · decide
  · decide
  · decide
  · intro e he
    cases he
    exact ⟨by decide, by decide, by decide⟩
  · decide
  · decide
  · decide
  · decide
  · decide

example : ∃ r, smallStatic true = .ok r ∧ ∃ h, MmapGraph.new (m := 255) (k := 255) 1 1 text text "g"
      (r.dumpMmap 1 1 text text "g" (blank 111)).2 = .ok h ∧
    h.isDirected = true ∧ h.numEdges = 1 ∧ h.hasEdge 1 0 = .ok true ∧ h.inNeighbors 0 = .ok [1] := by
  refine ⟨_, rfl, _, rfl, rfl, rfl, rfl, rfl⟩

end Verif.Props
