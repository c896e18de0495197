import Verif.Spec.Reread
import Verif.Props.Leftovers
import Verif.Props.Melt
import Verif.Props.Mixup
import Verif.Props.RawCsr

/-! C175: mapped files read with other id types. -/

namespace Verif.Props

open Spec

section Numbers

theorem ofLe_drop (bs : List Byte) (a : Nat) : ofLe (bs.drop a) = ofLe bs / 256 ^ a := by
  induction a generalizing bs with
  | zero => simp
  | succ a ih =>
    cases bs with
    | nil => simp [ofLe]
    | cons b bs =>
      rw [List.drop_succ_cons, ih, ofLe, Nat.pow_succ, Nat.mul_comm (256 ^ a), ← Nat.div_div_eq_div_mul]
      congr 1
      have := b.isLt
      omega

theorem ofLe_take (bs : List Byte) (a : Nat) : ofLe (bs.take a) = ofLe bs % 256 ^ a := by
  induction a generalizing bs with
  | zero => simp [ofLe, Nat.mod_one]
  | succ a ih =>
    cases bs with
    | nil => simp [ofLe]
    | cons b bs =>
      have := b.isLt
      rw [List.take_succ_cons, ofLe, ofLe, ih, Nat.pow_succ, Nat.mul_comm (256 ^ a), Nat.mod_mul]
      have e1 : (b.val + 256 * ofLe bs) % 256 = b.val := by omega
      have e2 : (b.val + 256 * ofLe bs) / 256 = ofLe bs := by omega
      rw [e1, e2]

theorem ofLe_append (a b : List Byte) : ofLe (a ++ b) = ofLe a + 256 ^ a.length * ofLe b := by
  induction a with
  | nil => simp [ofLe]
  | cons x a ih =>
    rw [List.cons_append, ofLe, ofLe, ih, List.length_cons, Nat.pow_succ]
    ring

theorem ofLe_typed (w : Nat) {l : List Nat} (h : ∀ x ∈ l, x < 256 ^ w) :
    ofLe (typedBytes w l) = Nat.ofDigits (256 ^ w) l := by
  induction l with
  | nil => rfl
  | cons x l ih =>
    have e : typedBytes w (x :: l) = le w x ++ typedBytes w l := List.flatMap_cons
    rw [e, ofLe_append, Sizes.le_length, ofLe_le, Nat.mod_eq_of_lt (h x List.mem_cons_self),
      ih (fun y hy => h y (List.mem_cons_of_mem _ hy)), Nat.ofDigits_cons]

theorem read_reread {w w' : Nat} {l : List Nat} (h : ∀ x ∈ l, x < 256 ^ w) :
    (TypedMap.mk (typedBytes w l) (l.length * w / w') w').read ⟨0, l.length * w / w'⟩ = reread w w' l := by
  unfold TypedMap.read reread
  refine List.map_congr_left (fun j _ => ?_)
  simp only [Nat.zero_add]
  rw [ofLe_take, ofLe_drop, ofLe_typed w h, Nat.mul_comm j]

theorem new_reread {w w' : Nat} (hw : 0 < w) (hw' : 0 < w') {path : String} {x : World} {l : List Nat} (hl : l ≠ [])
    (h : x.files path = some (typedBytes w l)) :
    TypedMap.new w' path x = .ok ⟨typedBytes w l, l.length * w / w', w'⟩ := by
  have h1 : (typedBytes w l).length = l.length * w := typedBytes_length w l
  have h2 : 0 < l.length := List.length_pos_iff.2 hl
  have h3 : 0 < l.length * w := Nat.mul_pos h2 hw
  unfold TypedMap.new TypedMap.withMmap
  rw [h]
  simp only [h1]
  rw [if_neg (by omega), if_neg (by omega)]
  rfl

/-- **C175**, numbers: with the width the file was written with, the elements; with a wider one too few, and with one
of at most half the width too many. -/
theorem c175_length (w w' : Nat) {l : List Nat} (hl : l ≠ []) (hw : 0 < w) (hw' : 0 < w') :
    (reread w w' l).length = l.length * w / w' ∧ (w < w' → (reread w w' l).length < l.length) ∧
      (w' ≤ w → l.length ≤ (reread w w' l).length) ∧ (2 * w' ≤ w → l.length < (reread w w' l).length) := by
  have h2 : 0 < l.length := List.length_pos_iff.2 hl
  have e : (reread w w' l).length = l.length * w / w' := by simp [reread]
  rw [e]
  refine ⟨rfl, fun h => ?_, fun h => ?_, fun h => ?_⟩
  · exact (Nat.div_lt_iff_lt_mul hw').2 (Nat.mul_lt_mul_of_pos_left h h2)
  · exact (Nat.le_div_iff_mul_le hw').2 (Nat.mul_le_mul_left _ h)
  · have : l.length * 2 ≤ l.length * w / w' :=
      (Nat.le_div_iff_mul_le hw').2 (by rw [Nat.mul_assoc]; exact Nat.mul_le_mul_left _ h)
    omega

theorem reread_same {w : Nat} (hw : 0 < w) {l : List Nat} (h : ∀ x ∈ l, x < 256 ^ w) : reread w w l = l := by
  rw [← read_reread h, Nat.mul_div_cancel _ hw]
  exact TypedMap.read_full w l h

/-- **C175.** With the integer types there are (1, 2, 4, 8 bytes: of two widths one divides the other) the elements
come back exactly if the width is the one they were written with. -/
theorem c175_right_iff {w w' : Nat} (hw : 0 < w) (hw' : 0 < w') (hd : w ∣ w' ∨ w' ∣ w) {l : List Nat} (hl : l ≠ [])
    (h : ∀ x ∈ l, x < 256 ^ w) : reread w w' l = l ↔ w' = w := by
  constructor
  · intro he
    obtain ⟨-, h1, -, h2⟩ := c175_length w w' hl hw hw'
    rw [he] at h1 h2
    rcases hd with ⟨c, rfl⟩ | ⟨c, rfl⟩
    · rcases Nat.lt_or_ge 1 c with hc | hc
      · exact absurd (h1 (by nlinarith)) (lt_irrefl _)
      · have : c = 1 := by
          rcases Nat.eq_zero_or_pos c with rfl | hp
          · omega
          · omega
        subst this; omega
    · rcases Nat.lt_or_ge 1 c with hc | hc
      · exact absurd (h2 (by nlinarith)) (lt_irrefl _)
      · have : c = 1 := by
          rcases Nat.eq_zero_or_pos c with rfl | hp
          · omega
          · omega
        subst this; omega
  · rintro rfl
    exact reread_same hw' h

theorem le_pieces (w' : Nat) : ∀ (c x : Nat),
    le (c * w') x = typedBytes w' ((List.range c).map (fun j => x / 256 ^ (w' * j) % 256 ^ w'))
  | 0, x => by simp [le, typedBytes]
  | c + 1, x => by
    have e1 : le w' (x % 256 ^ w') = le w' x := by
      have := le_ofLe (le w' x)
      rw [Sizes.le_length, ofLe_le] at this
      exact this
    rw [Nat.succ_mul, Nat.add_comm, le_split, le_pieces w' c, List.range_succ_eq_map, List.map_cons]
    have e2 : ∀ y (l : List Nat), typedBytes w' (y :: l) = le w' y ++ typedBytes w' l := fun _ _ => List.flatMap_cons
    rw [e2, Nat.mul_zero, Nat.pow_zero, Nat.div_one, e1, List.map_map]
    congr 2
    refine List.map_congr_left (fun j _ => ?_)
    simp only [Function.comp_apply, Nat.succ_eq_add_one]
    rw [Nat.div_div_eq_div_mul, ← Nat.pow_add, Nat.mul_add, Nat.mul_one, Nat.add_comm w']

/-- **C175**, narrower: every number falls apart into its digits to the base of the narrower type, the least
significant first. -/
theorem c175_narrow {w' c : Nat} (hw' : 0 < w') {l : List Nat} (h : ∀ x ∈ l, x < 256 ^ (c * w')) :
    reread (c * w') w' l = l.flatMap (fun x => (List.range c).map (fun j => x / 256 ^ (w' * j) % 256 ^ w')) := by
  have e : typedBytes (c * w') l =
      typedBytes w' (l.flatMap (fun x => (List.range c).map (fun j => x / 256 ^ (w' * j) % 256 ^ w'))) := by
    unfold typedBytes
    rw [List.flatMap_assoc]
    congr 1
    funext x
    exact le_pieces w' c x
  have hlen : (l.flatMap (fun x => (List.range c).map (fun j => x / 256 ^ (w' * j) % 256 ^ w'))).length =
      l.length * (c * w') / w' := by
    have : l.length * (c * w') / w' = l.length * c := by
      rw [← Nat.mul_assoc, Nat.mul_div_cancel _ hw']
    rw [this]
    simp [List.length_flatMap]
  rw [← read_reread h, e, ← hlen]
  refine TypedMap.read_full w' _ (fun y hy => ?_)
  obtain ⟨x, -, hy⟩ := List.mem_flatMap.1 hy
  obtain ⟨j, -, rfl⟩ := List.mem_map.1 hy
  exact Nat.mod_lt _ (Nat.pos_of_ne_zero (by positivity))

/-- **C175**, wider: as many numbers as the wider type holds become one. -/
theorem c175_wide {w c : Nat} (hw : 0 < w) {l : List Nat} (h : ∀ x ∈ l, x < 256 ^ w) :
    reread w (w * c) l =
      (List.range (l.length / c)).map (fun j => Nat.ofDigits (256 ^ w) ((l.drop (j * c)).take c)) := by
  unfold reread
  have e : l.length * w / (w * c) = l.length / c := by
    rw [Nat.mul_comm l.length, Nat.mul_div_mul_left _ _ hw]
  rw [e]
  refine List.map_congr_left (fun j _ => ?_)
  have hb : 0 < 256 ^ w := Nat.pos_of_ne_zero (by positivity)
  have e1 : 256 ^ (w * c * j) = (256 ^ w) ^ (j * c) := by rw [← Nat.pow_mul]; congr 1; ring
  rw [e1, Nat.pow_mul 256 w c, Nat.ofDigits_div_pow_eq_ofDigits_drop _ hb _ h,
    Nat.ofDigits_mod_pow_eq_ofDigits_take _ hb _ (fun x hx => h x (List.mem_of_mem_drop hx))]

end Numbers

section Graphs

variable {m k m' k' : Nat} {NL EL : Type} {w v w' v' : Nat}

theorem ids_below {w : Nat} (hwm : m + 1 = 256 ^ w) (l : List (Id m)) : ∀ x ∈ l.map (·.val), x < 256 ^ w := by
  intro x hx
  obtain ⟨i, -, rfl⟩ := List.mem_map.1 hx
  rw [← hwm]
  exact i.isLt

theorem ids_reread (hwm : m + 1 = 256 ^ w) (l : List (Id m)) :
    (TypedMap.mk (typedBytes w (l.map (·.val))) ((l.map (·.val)).length * w / w') w').ids =
      ((reread w w' (l.map (·.val))).map Id.new : List (Id m')) := by
  unfold TypedMap.ids TypedMap.full
  rw [read_reread (ids_below hwm l)]

theorem open_reread (hw : 0 < w) (hv : 0 < v) (hw' : 0 < w') (hv' : 0 < v') (hwm : m + 1 = 256 ^ w)
    (hvk : k + 1 = 256 ^ v) {ev : EdgeVec m k} {pre : String} {x : World} (h : ev.Mappable)
    (f1 : x.files (pre ++ ".offsets") = some (typedBytes 8 ev.offsets))
    (f2 : x.files (pre ++ ".edges") = some (typedBytes w (ev.edges.map (·.val))))
    (f3 : x.files (pre ++ ".labels") = if ev.getLabels = [] then none
      else some (typedBytes v (ev.getLabels.map (·.val)))) :
    EdgeVec.openMmap w' v' pre x = .ok (vecReread w v w' v' m' k' ev) := by
  unfold EdgeVec.openMmap
  rw [TypedMap.new_eq (by decide) h.offsets f1, bind_ok,
    new_reread hw hw' (by simpa using h.edges) f2, bind_ok]
  rw [TypedMap.read_full 8 ev.offsets (by simpa using h.small), ids_reread hwm]
  unfold mapIfPresent vecReread
  by_cases hl : ev.getLabels = []
  · rw [f3, if_pos hl, if_pos hl]
    simp only [Option.isSome_none, Bool.false_eq_true, if_false, pure_ok, bind_ok, Option.map_none]
  · rw [if_neg hl] at f3 ⊢
    rw [f3]
    simp only [Option.isSome_some, if_true]
    rw [new_reread hv hv' (by simpa using hl) f3, bind_ok]
    simp only [pure_ok, bind_ok, Option.map_some, ids_reread hvk]

variable [DecidableEq NL] [DecidableEq EL]

/-- **C175.** The files do not tell the types they were written with: dumped with one width and read with another, a
graph loads without complaint, with the same offsets, counts and tables and its other arrays cut differently. -/
theorem c175_loads {nl : Codec NL} {el : Codec EL} {g : StaticGraph m k NL EL}
    (hw : 0 < w) (hv : 0 < v) (hw' : 0 < w') (hv' : 0 < v') (hwm : m + 1 = 256 ^ w) (hvk : k + 1 = 256 ^ v)
    (hnl : ∀ y ∈ g.nodeLabels.labels, nl.RoundTrips y) (hel : ∀ y ∈ g.edgeLabels.labels, el.RoundTrips y)
    (hg : g.Mappable) (pre : String) (x : World) (hfresh : g.NoLeftovers pre x.files)
    (hroom : g.dumpRoom w v nl el ≤ x.room) :
    (g.dumpMmap w v nl el pre x).1 = true ∧
      MmapGraph.new w' v' nl el pre (g.dumpMmap w v nl el pre x).2 = .ok (graphReread w v w' v' m' k' g) := by
  obtain ⟨h4, h1, n, h2, h5⟩ := Sizes.dump_done (w := w) (v := v) (nl := nl) (el := el) pre hroom
  refine ⟨h4, ?_⟩
  generalize (g.dumpMmap w v nl el pre x).2 = y at h1 h2
  have haux : ∀ (e : EdgeVec m' k') d, (MmapGraph.loadAux nl el e d (pre ++ "_aux.bin") y : Res (Aux NL EL)) =
      .ok ⟨g.numNodes, g.numEdges, g.nodeLabels, g.edgeLabels⟩ := by
    intro e d
    have hrt := StaticGraph.auxBytes_round hnl hel hg (nl := nl) (el := el) []
    rw [List.append_nil] at hrt
    unfold MmapGraph.loadAux World.import
    rw [h2, List.take_of_length_le h5]
    simp only [Option.isSome_some, if_true, Option.bind_eq_bind, Option.bind_some]
    rw [hrt]; rfl
  obtain ⟨f1, f2, f3, f4, f5, f6, f7, -⟩ := StaticGraph.look_files w v g pre x.files
  have path : ∀ a b : String, pre ++ a ++ b = pre ++ (a ++ b) := fun a b => String.append_assoc
  rw [← h1 _ (by rw [path, Ne, prefix_inj]; decide)] at f1 f2 f3 f4 f5 f6
  rw [← h1 _ (by rw [Ne, prefix_inj]; decide)] at f7
  unfold MmapGraph.new
  rw [open_reread (m' := m') (k' := k') hw hv hw' hv' hwm hvk hg.out f1 f2 (by
    rw [f3]
    by_cases hl : g.edgeVec.getLabels = []
    · rw [if_pos hl, if_pos hl, hfresh.out hl]
    · rw [if_neg hl, if_neg hl]), bind_ok]
  have hins : (if (y.files (pre ++ "_IN" ++ ".offsets")).isSome then do
      let e ← EdgeVec.openMmap w' v' (pre ++ "_IN") y
      pure (some e)
    else pure none) = (.ok (g.inEdgeVec.map (vecReread w v w' v' m' k')) : Res (Option (EdgeVec m' k'))) := by
    cases hi : g.inEdgeVec with
    | none =>
      rw [f4, hi, hfresh.ins hi]; rfl
    | some e =>
      rw [hi] at f4 f5 f6
      simp only [Option.map_some, Option.some_or, Option.bind_some] at f4 f5 f6
      rw [f4]
      simp only [Option.isSome_some, if_true]
      rw [open_reread (m' := m') (k' := k') hw hv hw' hv' hwm hvk (hg.ins e hi) f4 f5 (by
        rw [f6]
        by_cases hl : e.getLabels = []
        · rw [if_pos hl, hfresh.inLabels e hi hl]; rfl
        · rw [if_neg hl]; rfl), bind_ok]
      rfl
  rw [hins, bind_ok]
  have hlab : ∃ o, mapIfPresent v' (pre ++ ".labels") y = .ok o ∧ o.map TypedMap.ids =
      g.labels.map (fun ls => ((reread v v' (ls.map (·.val))).map Id.new : List (Id k'))) := by
    unfold mapIfPresent
    cases hl : g.labels with
    | none =>
      rw [f7, hl, hfresh.labels hl]
      exact ⟨none, rfl, rfl⟩
    | some ls =>
      have hne : ls ≠ [] := fun hc => hg.labels (by rw [hl, hc])
      rw [hl] at f7
      simp only [Option.map_some, Option.some_or] at f7
      rw [f7]
      simp only [Option.isSome_some, if_true]
      rw [new_reread hv hv' (by simpa using hne) f7, bind_ok]
      exact ⟨_, rfl, by simp only [Option.map_some, ids_reread hvk]⟩
  obtain ⟨o, e1, e2⟩ := hlab
  rw [e1, bind_ok, e2]
  simp only [haux, bind_ok]
  rfl

omit [DecidableEq NL] [DecidableEq EL] in
theorem reread_entries (w v w' v' m' k' : Nat) (ev : EdgeVec m k) :
    (vecReread w v w' v' m' k' ev).edges.length = (reread w w' (ev.edges.map (·.val))).length := List.length_map _

theorem row_there_eq {ev : EdgeVec m k} {n a b : Nat} (h : Bounds ev n a b) (hab : a ≤ b) (hb : b ≤ ev.edges.length) :
    rowOf ev n = (ev.edges.drop a).take (b - a) ∧ (rowOf ev n).length = b - a := by
  have e : rowOf ev n = (ev.edges.drop a).take (b - a) := by
    unfold rowOf
    rw [List.getD_eq_getElem?_getD, List.getD_eq_getElem?_getD, h.1, h.2, Option.getD_some, Option.getD_some,
      List.drop_take]
  refine ⟨e, ?_⟩
  rw [e, List.length_take, List.length_drop]
  omega

/-- **C175**, narrower: queries of neighbours go on to answer, with as many as there were, from the places where they
were. -/
theorem c175_narrow_answers (hw : 0 < w) (hw' : 0 < w') (hle : w' ≤ w) {ev : EdgeVec m k} (he : ev.edges ≠ [])
    {n : Id m} {n' : Id m'} (hn : n'.val = n.val) {l : List (Id m)} (h : ev.neighbors n = .ok l) :
    ∃ l' a, (vecReread w v w' v' m' k' ev).neighbors n' = .ok l' ∧ l'.length = l.length ∧
      ev.offsets[n.val]? = some a ∧ l = (ev.edges.drop a).take l.length ∧
      l' = ((vecReread w v w' v' m' k' ev).edges.drop a).take l.length := by
  obtain ⟨⟨a, b, h1, h2, h3⟩, rfl⟩ := ((c156_neighbors ev n).1 l).1 h
  have hlen := (c175_length w w' (l := ev.edges.map (·.val)) (by simpa using he) hw hw').2.2.1 hle
  rw [List.length_map] at hlen
  have h1' : Bounds (vecReread w v w' v' m' k' ev) n'.val a b := by rw [hn]; exact h1
  have h3' : b ≤ (vecReread w v w' v' m' k' ev).edges.length := by rw [reread_entries]; omega
  have e1 := row_there_eq h1 h2 h3
  have e2 := row_there_eq h1' h2 h3'
  refine ⟨_, a, ((c156_neighbors _ n').1 _).2 ⟨⟨a, b, h1', h2, h3'⟩, rfl⟩, ?_, h1.1, ?_, ?_⟩
  · rw [e1.2, e2.2]
  · rw [e1.2]; exact e1.1
  · rw [e1.2]; exact e2.1

/-- **C175**, wider: the last node with a neighbour can no longer be asked for its neighbours. -/
theorem c175_wide_panics (hw : 0 < w) (hlt : w < w') {g : GraphMap m k NL EL} (hg : GraphMap.Reachable g)
    {r : StaticGraph m k NL EL} (hr : g.intoStatic = .ok r) (he : r.edgeVec.edges ≠ []) (hm : m ≤ m') :
    ∃ (n : Id m) (n' : Id m') (l : List (Id m)), n'.val = n.val ∧ r.neighbors n = .ok l ∧ l ≠ [] ∧
      (graphReread w v w' v' m' k' r).neighbors n' = .error .indexOutOfBounds := by
  obtain ⟨c, hc⟩ := (c160_frozen r).1 ⟨g, hg, hr⟩
  have hp := hc.out
  have hlen := (c175_length w w' (l := r.edgeVec.edges.map (·.val)) (by simpa using he) hw (by omega)).2.1 hlt
  rw [List.length_map] at hlen
  have hpos : 0 < r.edgeVec.edges.length := List.length_pos_iff.2 he
  have hex : ∃ i, r.edgeVec.offsets[i]? = some r.edgeVec.edges.length := ⟨c, hp.last⟩
  classical
  have hf := Nat.find_spec hex
  have hmin : ∀ j, j < Nat.find hex → r.edgeVec.offsets[j]? ≠ some r.edgeVec.edges.length :=
    fun j hj => Nat.find_min hex hj
  have hle : Nat.find hex ≤ c := Nat.find_min' hex hp.last
  generalize Nat.find hex = i at hf hmin hle
  have hi0 : i ≠ 0 := by
    rintro rfl
    rw [hp.first] at hf
    have := Option.some.inj hf
    omega
  obtain ⟨n, rfl⟩ : ∃ n, i = n + 1 := ⟨i - 1, by omega⟩
  have hrows := hp.rows
  have hfree := hc.free
  have hn1 : n < r.edgeVec.offsets.length := by omega
  have hn2 : n + 1 < r.edgeVec.offsets.length := by omega
  have ha : r.edgeVec.offsets[n]? = some r.edgeVec.offsets[n] := List.getElem?_eq_getElem hn1
  have hb : r.edgeVec.offsets[n + 1] = r.edgeVec.edges.length := by
    rw [List.getElem?_eq_getElem hn2] at hf
    exact Option.some.inj hf
  have hab : r.edgeVec.offsets[n] ≤ r.edgeVec.edges.length := by
    rw [← hb]
    exact List.pairwise_iff_getElem.1 hp.rising n (n + 1) hn1 hn2 (by omega)
  have hne : r.edgeVec.offsets[n] ≠ r.edgeVec.edges.length := fun h => hmin n (by omega) (by rw [ha, h])
  have hB : Bounds r.edgeVec n r.edgeVec.offsets[n] r.edgeVec.edges.length := ⟨ha, hf⟩
  refine ⟨⟨n, by omega⟩, ⟨n, by omega⟩, rowOf r.edgeVec n, rfl, ?_, ?_, ?_⟩
  · exact ((c156_neighbors r.edgeVec ⟨n, by omega⟩).1 _).2 ⟨⟨_, _, hB, hab, le_refl _⟩, rfl⟩
  · intro h0
    have := (row_there_eq hB hab (le_refl _)).2
    rw [h0, List.length_nil] at this
    omega
  · refine (c156_neighbors (vecReread w v w' v' m' k' r.edgeVec) ⟨n, by omega⟩).2.2.2.2 ⟨hn2, ?_⟩
    rintro ⟨a, b, ⟨-, h2⟩, -, h3⟩
    have h2 : r.edgeVec.offsets[n + 1]? = some b := h2
    rw [hf] at h2
    cases h2
    rw [reread_entries] at h3
    omega

end Graphs

/-- Edges from node 0 to nodes 1 and 2, in ids of two bytes. -/
def wordGraph : StaticGraph 65535 255 (List Byte) (List Byte) :=
  ⟨true, 3, 2, ⟨[0, 2, 2, 2], [1, 2], none⟩, some ⟨[0, 0, 1, 2], [0, 0], none⟩, none, ⟨[]⟩, ⟨[]⟩⟩

/-- **C175.** Read with ids of one byte, the two bytes of the first neighbour are taken for both neighbours: node 0
seems to have the neighbours 1 and 0. With ids of four bytes there is one entry, and asking for the two panics. -/
theorem c175_misread :
    (wordGraph.dumpMmap 2 1 text text "g" (blank 1000)).1 = true ∧
    (∃ h, MmapGraph.new (m := 65535) (k := 255) 2 1 text text "g"
        (wordGraph.dumpMmap 2 1 text text "g" (blank 1000)).2 = .ok h ∧ h.neighbors 0 = .ok [1, 2]) ∧
    (∃ h, MmapGraph.new (m := 255) (k := 255) 1 1 text text "g"
        (wordGraph.dumpMmap 2 1 text text "g" (blank 1000)).2 = .ok h ∧ h.neighbors 0 = .ok [1, 0] ∧
        h.hasEdge 0 2 = .ok false ∧ h.numEdges = 2) ∧
    ∃ h, MmapGraph.new (m := 4294967295) (k := 255) 4 1 text text "g"
        (wordGraph.dumpMmap 2 1 text text "g" (blank 1000)).2 = .ok h ∧
        h.neighbors 0 = .error .indexOutOfBounds := by
  refine ⟨rfl, ⟨_, rfl, ?_⟩, ⟨_, rfl, ?_, ?_, ?_⟩, ⟨_, rfl, ?_⟩⟩ <;> rfl

/-- The conditions of the theorems can be met. -/
example : wordGraph.Mappable ∧ wordGraph.NoLeftovers "g" (blank 1000).files ∧
    wordGraph.dumpRoom 2 1 text text ≤ (blank 1000).room := by
  refine ⟨⟨⟨by decide, by decide, by decide⟩, ?_, by decide, by decide, by decide, by decide, by decide⟩,
    ⟨fun _ => rfl, fun _ => rfl, fun _ _ _ => rfl, fun _ => rfl⟩, by decide⟩
  rintro e he
  cases he
  exact ⟨by decide, by decide, by decide⟩

end Verif.Props
