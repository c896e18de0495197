import Verif.Spec.Crash
import Verif.Proof.Leftovers

/-! Interrupted dumps. -/

namespace Verif

variable {m k : Nat} {NL EL : Type}

/-! ### Files that are cut off -/

theorem typedBytes_take (w : Nat) (l : List Nat) (n c : Nat) (hc : c * w ≤ n) (hl : c ≤ l.length) :
    (TypedMap.mk ((typedBytes w l).take n) c w).read ⟨0, c⟩ = (l.take c).map (· % 256 ^ w) := by
  have h := TypedMap.read_eq w l c 0 c (by omega)
  rw [Nat.zero_mul, List.drop_zero] at h
  rw [← h]
  unfold TypedMap.read
  simp only
  apply List.map_congr_left
  intro i hi
  rw [List.mem_range] at hi
  congr 1
  rw [List.drop_take, List.take_take, Nat.min_eq_left]
  have h1 : (i + 1) * w ≤ c * w := Nat.mul_le_mul_right w hi
  rw [Nat.succ_mul] at h1
  omega

theorem TypedMap.ids_cut {m w : Nat} (hw : 0 < w) (hwm : m + 1 = 256 ^ w) {path : String} {x : World}
    {l : List (Id m)} (hl : l ≠ []) {n : Nat} (hn : 0 < n)
    (h : x.files path = some ((typedBytes w (l.map (·.val))).take n)) :
    ∃ t, TypedMap.new w path x = .ok t ∧ (t.ids : List (Id m)) = l.take (n / w) := by
  have h1 : (typedBytes w (l.map (·.val))).length = l.length * w := by
    rw [typedBytes_length, List.length_map]
  have h2 : 0 < l.length := List.length_pos_iff.2 hl
  have h3 : 0 < l.length * w := Nat.mul_pos h2 hw
  have h4 : ((typedBytes w (l.map (·.val))).take n).length = min n (l.length * w) := by
    rw [List.length_take, h1]
  have hdiv : min n (l.length * w) / w = min (n / w) l.length := by
    rcases Nat.le_total n (l.length * w) with hle | hle
    · rw [Nat.min_eq_left hle, Nat.min_eq_left]
      calc n / w ≤ l.length * w / w := Nat.div_le_div_right hle
        _ = l.length := Nat.mul_div_cancel _ hw
    · rw [Nat.min_eq_right hle, Nat.mul_div_cancel _ hw, Nat.min_eq_right]
      rw [Nat.le_div_iff_mul_le hw]; exact hle
  refine ⟨⟨(typedBytes w (l.map (·.val))).take n, min (n / w) l.length, w⟩, ?_, ?_⟩
  · unfold TypedMap.new TypedMap.withMmap
    rw [h]
    simp only [h4]
    rw [if_neg (by omega), if_neg (by omega), hdiv]
    rfl
  · unfold TypedMap.ids TypedMap.full
    simp only
    rw [typedBytes_take w _ n _ ?_ (by rw [List.length_map]; exact Nat.min_le_right _ _)]
    · rw [List.map_map, ← List.map_take, List.map_map]
      have : ∀ y : Id m, ((Id.new ∘ fun x => x % 256 ^ w) ∘ fun x => x.val) y = y := by
        intro y
        apply Fin.ext
        show (y.val % 256 ^ w) % (m + 1) = y.val
        rw [← hwm, Nat.mod_mod, Nat.mod_eq_of_lt y.isLt]
      conv_rhs => rw [← List.map_id (l.take (n / w))]
      rw [List.take_eq_take_min (i := n / w)]
      exact List.map_congr_left (fun y _ => this y)
    · calc min (n / w) l.length * w ≤ (n / w) * w := Nat.mul_le_mul_right w (Nat.min_le_left _ _)
        _ ≤ n := Nat.div_mul_le_self n w

namespace World

/-- Creating a file and writing it, as far as the room goes. -/
def write (f : String × List Byte) (x : World) : World :=
  if x.room = 0 then x else x.put f.1 ⟨f.2.take (x.room - 1), x.room - 1 - f.2.length⟩

/-- Several files, in this order. -/
def writes (fs : List (String × List Byte)) (x : World) : World := fs.foldl (fun x f => x.write f) x

theorem writes_append (a b : List (String × List Byte)) (x : World) :
    writes (a ++ b) x = writes b (writes a x) := List.foldl_append

theorem write_zero {f : String × List Byte} {x : World} (h : x.room = 0) : x.write f = x := if_pos h

theorem writes_zero : ∀ {fs : List (String × List Byte)} {x : World}, x.room = 0 → writes fs x = x
  | [], _, _ => rfl
  | f :: fs, x, h => by
    show writes fs (x.write f) = x
    rw [write_zero h, writes_zero h]

theorem write_room (f : String × List Byte) (x : World) : (x.write f).room = x.room - (1 + f.2.length) := by
  unfold write
  split
  · omega
  · simp only [put]; omega

theorem write_files (f : String × List Byte) (x : World) (p : String) : (x.write f).files p =
    if x.room = 0 then x.files p else if p = f.1 then some (f.2.take (x.room - 1)) else x.files p := by
  unfold write
  split
  · rfl
  · rfl

theorem writes_frame : ∀ {fs : List (String × List Byte)} {x : World} {p : String}, p ∉ fs.map (·.1) →
    (writes fs x).files p = x.files p
  | [], _, _, _ => rfl
  | f :: fs, x, p, h => by
    rw [List.map_cons, List.mem_cons, not_or] at h
    show (writes fs (x.write f)).files p = x.files p
    rw [writes_frame h.2, write_files, if_neg h.1]
    split <;> rfl

/-- `r` is the result of writing `fs` in this order, stopping where the room ends. -/
structure Wrote (x : World) (fs : List (String × List Byte)) (r : Bool × World) : Prop where
  world : r.2 = writes fs x
  fail : r.1 = false → r.2.room = 0

theorem Wrote.nil (x : World) : Wrote x [] (true, x) := ⟨rfl, fun h => by cases h⟩

theorem wrote_dump (path : String) (bs : List Byte) (x : World) :
    Wrote x [(path, bs)] (x.dump path bs) := by
  rw [dump_eq]
  by_cases h : x.room = 0
  · rw [if_pos h]
    exact ⟨(write_zero h).symm, fun _ => h⟩
  · rw [if_neg h]
    refine ⟨?_, ?_⟩
    · show _ = x.write (path, bs)
      unfold write
      rw [if_neg h]
    · intro hf
      simp only [decide_eq_false_iff_not, Nat.not_le] at hf
      simp only [put]
      omega

theorem Wrote.andThen {x : World} {fs fs' : List (String × List Byte)} {r : Bool × World}
    {f : World → Bool × World} (h : Wrote x fs r) (hf : ∀ y, Wrote y fs' (f y)) :
    Wrote x (fs ++ fs') (World.andThen r f) := by
  unfold World.andThen
  by_cases h1 : r.1 = true
  · rw [if_pos h1]
    refine ⟨?_, (hf r.2).fail⟩
    rw [(hf r.2).world, h.world, writes_append]
  · rw [if_neg h1]
    rw [Bool.not_eq_true] at h1
    have h0 := h.fail h1
    refine ⟨?_, h.fail⟩
    rw [writes_append, ← h.world, writes_zero h0]

theorem wrote_ifSome {X : Type} {o : Option X} {f : X → World → Bool × World}
    {fs : X → List (String × List Byte)} (h : ∀ y x, Wrote x (fs y) (f y x)) (x : World) :
    Wrote x ((o.map fs).getD []) (ifSome o f x) := by
  cases o with
  | none => exact Wrote.nil x
  | some y => exact h y x

end World

namespace EdgeVec

/-- The files of an adjacency in the order they are written. -/
def order (w v : Nat) (ev : EdgeVec m k) (pre : String) : List (String × List Byte) :=
  [(pre ++ ".offsets", typedBytes 8 ev.offsets)] ++
    ([(pre ++ ".edges", typedBytes w (ev.edges.map (·.val)))] ++
      if ev.getLabels = [] then [] else [(pre ++ ".labels", typedBytes v (ev.getLabels.map (·.val)))])

theorem wrote_dumpMmap (w v : Nat) (ev : EdgeVec m k) (pre : String) (x : World) :
    World.Wrote x (ev.order w v pre) (ev.dumpMmap w v pre x) := by
  unfold dumpMmap order
  refine World.Wrote.andThen (World.wrote_dump _ _ x) (fun y => ?_)
  refine World.Wrote.andThen (World.wrote_dump _ _ y) (fun z => ?_)
  by_cases hl : ev.getLabels = []
  · rw [if_pos hl, if_pos hl]; exact World.Wrote.nil z
  · rw [if_neg hl, if_neg hl]; exact World.wrote_dump _ _ z

theorem order_names (w v : Nat) (ev : EdgeVec m k) (pre : String) {p : String}
    (h : p ∈ (ev.order w v pre).map (·.1)) :
    p = pre ++ ".offsets" ∨ p = pre ++ ".edges" ∨ p = pre ++ ".labels" := by
  unfold order at h
  by_cases hl : ev.getLabels = []
  · rw [if_pos hl] at h
    simp at h
    tauto
  · rw [if_neg hl] at h
    simpa using h

theorem order_room (w v : Nat) (ev : EdgeVec m k) (pre : String) (x : World) :
    (World.writes (ev.order w v pre) x).room = x.room - ev.cost w v := by
  unfold order cost World.writes
  by_cases hl : ev.getLabels = []
  · rw [if_pos hl, if_pos hl]
    simp only [List.append_nil, List.cons_append, List.nil_append, List.foldl_cons, List.foldl_nil,
      World.write_room, typedBytes_length, List.length_map]
    omega
  · rw [if_neg hl, if_neg hl]
    simp only [List.cons_append, List.nil_append, List.foldl_cons, List.foldl_nil,
      World.write_room, typedBytes_length, List.length_map]
    omega

/-- What is in the files of an adjacency after they were written as far as the room went. -/
theorem order_files (w v : Nat) (ev : EdgeVec m k) (pre : String) (x : World)
    (hx : ∀ suf ∈ [".offsets", ".edges", ".labels"], x.files (pre ++ suf) = none) :
    let y := World.writes (ev.order w v pre) x
    let R1 := x.room - (1 + ev.offsets.length * 8)
    let R2 := R1 - (1 + ev.edges.length * w)
    (y.files (pre ++ ".offsets") = if x.room = 0 then none
      else some ((typedBytes 8 ev.offsets).take (x.room - 1))) ∧
    (y.files (pre ++ ".edges") = if R1 = 0 then none
      else some ((typedBytes w (ev.edges.map (·.val))).take (R1 - 1))) ∧
    (y.files (pre ++ ".labels") = if ev.getLabels = [] ∨ R2 = 0 then none
      else some ((typedBytes v (ev.getLabels.map (·.val))).take (R2 - 1))) := by
  intro y R1 R2
  have h1 : (".labels" : String) ≠ ".edges" := by decide
  have h2 : (".labels" : String) ≠ ".offsets" := by decide
  have h3 : (".edges" : String) ≠ ".offsets" := by decide
  have x1 := hx ".offsets" (by decide)
  have x2 := hx ".edges" (by decide)
  have x3 := hx ".labels" (by decide)
  have hy : y = World.writes (ev.order w v pre) x := rfl
  unfold order World.writes at hy
  by_cases hl : ev.getLabels = []
  · rw [if_pos hl] at hy
    simp only [List.append_nil, List.cons_append, List.nil_append, List.foldl_cons, List.foldl_nil] at hy
    rw [hy]
    simp only [World.write_files, World.write_room, typedBytes_length, List.length_map, prefix_inj,
      h1, h2, h3, h1.symm, h2.symm, h3.symm, if_true, if_false, x1, x2, x3, hl, true_or, ite_self]
    refine ⟨?_, ?_, ?_⟩ <;> first | trivial | rfl
  · rw [if_neg hl] at hy
    simp only [List.cons_append, List.nil_append, List.foldl_cons, List.foldl_nil] at hy
    rw [hy]
    simp only [World.write_files, World.write_room, typedBytes_length, List.length_map, prefix_inj,
      h1, h2, h3, h1.symm, h2.symm, h3.symm, if_true, if_false, x1, x2, x3, hl, false_or, ite_self]
    refine ⟨?_, ?_, ?_⟩ <;> first | trivial | rfl

/-- Opening the files of an adjacency after they were written as far as the room went. -/
theorem openMmap_cut {w v : Nat} (hw : 0 < w) (hv : 0 < v) (hwm : m + 1 = 256 ^ w) (hvk : k + 1 = 256 ^ v)
    {ev : EdgeVec m k} (he : ev.Mappable) {pre : String} {x y : World}
    (hx : ∀ suf ∈ [".offsets", ".edges", ".labels"], x.files (pre ++ suf) = none)
    (hy : ∀ suf ∈ [".offsets", ".edges", ".labels"], y.files (pre ++ suf) = (World.writes (ev.order w v pre) x).files (pre ++ suf)) :
    (y.files (pre ++ ".offsets")).isSome = decide (x.room ≠ 0) ∧
    (EdgeVec.openMmap w v pre y).toOption = (ev.cut w v x.room).join := by
  obtain ⟨f1, f2, f3⟩ := order_files w v ev pre x hx
  rw [← hy _ (by decide)] at f1 f2 f3
  refine ⟨?_, ?_⟩
  · rw [f1]
    by_cases h : x.room = 0
    · rw [if_pos h]; simp [h]
    · rw [if_neg h]; simp [h]
  unfold openMmap cut
  by_cases h0 : x.room = 0
  · rw [if_pos h0] at f1 ⊢
    unfold TypedMap.new
    rw [f1]
    rfl
  rw [if_neg h0] at f1 ⊢
  have hol : 0 < ev.offsets.length := List.length_pos_iff.2 he.offsets
  by_cases h1 : x.room ≤ 1 + ev.offsets.length * 8 + 1
  · rw [if_pos h1]
    cases TypedMap.new 8 (pre ++ ".offsets") y with
    | error p => rfl
    | ok o =>
      rw [bind_ok]
      have : ∃ p, TypedMap.new w (pre ++ ".edges") y = .error p := by
        unfold TypedMap.new
        rw [f2]
        by_cases h2 : x.room - (1 + ev.offsets.length * 8) = 0
        · rw [if_pos h2]; exact ⟨_, rfl⟩
        · rw [if_neg h2]
          have h3 : x.room - (1 + ev.offsets.length * 8) - 1 = 0 := by omega
          rw [h3]
          exact ⟨_, rfl⟩
      obtain ⟨p, hp⟩ := this
      rw [hp]; rfl
  · rw [if_neg h1]
    have hlen : (typedBytes 8 ev.offsets).length ≤ x.room - 1 := by rw [typedBytes_length]; omega
    rw [List.take_of_length_le hlen] at f1
    rw [if_neg (by omega)] at f2
    obtain ⟨t, ht1, ht2⟩ := TypedMap.ids_cut hw hwm he.edges (n := x.room - (1 + ev.offsets.length * 8) - 1)
      (by omega) f2
    rw [TypedMap.new_eq (by decide) he.offsets f1, bind_ok, ht1, bind_ok,
      TypedMap.read_full 8 ev.offsets (by simpa using he.small), ht2]
    unfold mapIfPresent
    by_cases hl : ev.getLabels = []
    · rw [if_pos (.inl hl)] at f3
      rw [f3, if_pos hl]
      rfl
    · rw [if_neg hl]
      unfold cutArray
      by_cases h2 : x.room - (1 + ev.offsets.length * 8) - (1 + ev.edges.length * w) = 0
      · rw [if_pos (.inr h2)] at f3
        rw [f3, if_pos h2]
        rfl
      · rw [if_neg (by tauto)] at f3
        rw [if_neg h2]
        by_cases h3 : x.room - (1 + ev.offsets.length * 8) - (1 + ev.edges.length * w) = 1
        · rw [if_pos h3]
          rw [h3] at f3
          have : TypedMap.new v (pre ++ ".labels") y = .error .unwrapNone := by
            unfold TypedMap.new; rw [f3]; rfl
          rw [f3, this]
          rfl
        · rw [if_neg h3]
          obtain ⟨t', ht3, ht4⟩ := TypedMap.ids_cut hv hvk hl
            (n := x.room - (1 + ev.offsets.length * 8) - (1 + ev.edges.length * w) - 1) (by omega) f3
          rw [f3, ht3]
          simp only [Option.isSome_some, if_true, bind_ok, pure_ok, Option.map_some, ht4]
          rfl

end EdgeVec

namespace StaticGraph

variable [DecidableEq NL] [DecidableEq EL]

/-- The files of a graph in the order they are written. -/
def order (w v : Nat) (nl : Codec NL) (el : Codec EL) (g : StaticGraph m k NL EL) (pre : String) :
    List (String × List Byte) :=
  g.edgeVec.order w v (pre ++ "_OUT") ++
    ((g.inEdgeVec.map fun e => e.order w v (pre ++ "_IN")).getD [] ++
      ((g.labels.map fun ls => [(pre ++ ".labels", typedBytes v (ls.map (·.val)))]).getD [] ++
        [(pre ++ "_aux.bin", g.auxBytes nl el)]))

theorem dumpMmap_writes (w v : Nat) (nl : Codec NL) (el : Codec EL) (g : StaticGraph m k NL EL)
    (pre : String) (x : World) : (g.dumpMmap w v nl el pre x).2 = World.writes (g.order w v nl el pre) x := by
  unfold dumpMmap order
  have hexp : ∀ z : World, (World.export (Codec.aux nl el)
      ⟨g.numNodes, g.numEdges, g.nodeLabels, g.edgeLabels⟩ (pre ++ "_aux.bin") z).2 =
      World.writes [(pre ++ "_aux.bin", g.auxBytes nl el)] z := by
    intro z
    obtain ⟨ok, e1, -⟩ := World.export_eq (Codec.aux nl el)
      ⟨g.numNodes, g.numEdges, g.nodeLabels, g.edgeLabels⟩ (pre ++ "_aux.bin") z
    rw [e1]
    show _ = z.write (pre ++ "_aux.bin", g.auxBytes nl el)
    unfold World.write
    split <;> rfl
  have step : ∀ {x : World} {fs fs' : List (String × List Byte)} {r : Bool × World}
      {f : World → Bool × World}, World.Wrote x fs r → (∀ y, (f y).2 = World.writes fs' y) →
      (World.andThen r f).2 = World.writes (fs ++ fs') x := by
    intro x fs fs' r f h hf
    unfold World.andThen
    by_cases h1 : r.1 = true
    · rw [if_pos h1, hf, h.world, World.writes_append]
    · rw [if_neg h1]
      rw [Bool.not_eq_true] at h1
      rw [World.writes_append, ← h.world, World.writes_zero (h.fail h1)]
  refine step (EdgeVec.wrote_dumpMmap _ _ _ _ x) (fun y => ?_)
  refine step (World.wrote_ifSome (fun e y => EdgeVec.wrote_dumpMmap w v e (pre ++ "_IN") y) y) (fun y => ?_)
  exact step (World.wrote_ifSome
    (fs := fun ls : List (Id k) => [(pre ++ ".labels", typedBytes v (ls.map (·.val)))])
    (fun (ls : List (Id k)) y => World.wrote_dump (pre ++ ".labels") (typedBytes v (ls.map (·.val))) y) y) hexp

/-- Loading after a dump that stopped anywhere, to a prefix without files. -/
theorem load_cut {w v : Nat} (hw : 0 < w) (hv : 0 < v) (hwm : m + 1 = 256 ^ w) (hvk : k + 1 = 256 ^ v)
    {nl : Codec NL} {el : Codec EL} {g : StaticGraph m k NL EL}
    (hnl : ∀ x ∈ g.nodeLabels.labels, nl.RoundTrips x) (hel : ∀ x ∈ g.edgeLabels.labels, el.RoundTrips x)
    (hns : nl.Stable) (hes : el.Stable) (hg : g.Mappable) {pre : String} {x : World}
    (hx : ∀ suf, x.files (pre ++ suf) = none) :
    (MmapGraph.new w v nl el pre (g.dumpMmap w v nl el pre x).2).toOption =
      g.cut w v (g.auxBytes nl el).length x.room := by
  have path : ∀ a b : String, pre ++ a ++ b = pre ++ (a ++ b) := fun a b => String.append_assoc
  rw [dumpMmap_writes]
  unfold order
  rw [World.writes_append, World.writes_append, World.writes_append]
  -- the worlds between
  generalize hx1 : World.writes (g.edgeVec.order w v (pre ++ "_OUT")) x = x1
  generalize hx2 : World.writes ((g.inEdgeVec.map fun e => e.order w v (pre ++ "_IN")).getD []) x1 = x2
  generalize hx3 : World.writes ((g.labels.map fun ls =>
    [(pre ++ ".labels", typedBytes v (ls.map (·.val)))]).getD []) x2 = x3
  generalize hx4 : World.writes [(pre ++ "_aux.bin", g.auxBytes nl el)] x3 = x4
  have keep1 : ∀ suf, suf ∉ ["_OUT.offsets", "_OUT.edges", "_OUT.labels"] →
      x1.files (pre ++ suf) = none := by
    intro suf hs
    rw [← hx1, World.writes_frame, hx]
    intro hc
    rcases EdgeVec.order_names _ _ _ _ hc with h | h | h <;>
    · rw [path, prefix_inj] at h
      exact hs (by rw [h]; decide)
  have keep2 : ∀ suf, suf ∉ ["_IN.offsets", "_IN.edges", "_IN.labels"] →
      x2.files (pre ++ suf) = x1.files (pre ++ suf) := by
    intro suf hs
    rw [← hx2, World.writes_frame]
    cases g.inEdgeVec with
    | none => intro hc; cases hc
    | some e =>
      intro hc
      rcases EdgeVec.order_names _ _ _ _ hc with h | h | h <;>
      · rw [path, prefix_inj] at h
        exact hs (by rw [h]; decide)
  have keep3 : ∀ suf, suf ≠ ".labels" → x3.files (pre ++ suf) = x2.files (pre ++ suf) := by
    intro suf hs
    rw [← hx3, World.writes_frame]
    cases g.labels with
    | none => intro hc; cases hc
    | some e =>
      intro hc
      simp only [Option.map_some, Option.getD_some, List.map_cons, List.map_nil, List.mem_singleton,
        prefix_inj] at hc
      exact hs hc
  have keep4 : ∀ suf, suf ≠ "_aux.bin" → x4.files (pre ++ suf) = x3.files (pre ++ suf) := by
    intro suf hs
    rw [← hx4, World.writes_frame]
    intro hc
    simp only [List.map_cons, List.map_nil, List.mem_singleton, prefix_inj] at hc
    exact hs hc
  have r1 : x1.room = x.room - g.edgeVec.cost w v := by rw [← hx1, EdgeVec.order_room]
  have r2 : x2.room = x1.room - (match g.inEdgeVec with | none => 0 | some e => e.cost w v) := by
    rw [← hx2]
    cases g.inEdgeVec with
    | none => rfl
    | some e => exact EdgeVec.order_room _ _ _ _ _
  have r3 : x3.room = x2.room - (match g.labels with | none => 0 | some ls => 1 + ls.length * v) := by
    rw [← hx3]
    cases g.labels with
    | none => rfl
    | some ls =>
      show (x2.write _).room = _
      rw [World.write_room, typedBytes_length, List.length_map]
  have d1 : ∀ suf ∈ [".offsets", ".edges", ".labels"], "_OUT" ++ suf ≠ "_aux.bin" ∧
      "_OUT" ++ suf ≠ ".labels" ∧ "_OUT" ++ suf ∉ ["_IN.offsets", "_IN.edges", "_IN.labels"] := by decide
  have d2 : ∀ suf ∈ [".offsets", ".edges", ".labels"], "_IN" ++ suf ≠ "_aux.bin" ∧
      "_IN" ++ suf ≠ ".labels" ∧ "_IN" ++ suf ∉ ["_OUT.offsets", "_OUT.edges", "_OUT.labels"] := by decide
  -- the out-edges
  have hout := (EdgeVec.openMmap_cut (x := x) (y := x4) (pre := pre ++ "_OUT") hw hv hwm hvk hg.out
    (by intro suf _; rw [path]; exact hx _) (by
      intro suf hs
      rw [path, keep4 _ (d1 suf hs).1, keep3 _ (d1 suf hs).2.1, keep2 _ (d1 suf hs).2.2, hx1])).2
  -- the in-edges
  have hins : (if (x4.files (pre ++ "_IN" ++ ".offsets")).isSome then do
      let e ← EdgeVec.openMmap w v (pre ++ "_IN") x4
      pure (some e)
    else pure none : Res (Option (EdgeVec m k))).toOption = (match g.inEdgeVec with
      | none => some none
      | some e => e.cut w v x1.room) := by
    cases hi : g.inEdgeVec with
    | none =>
      have : x4.files (pre ++ "_IN" ++ ".offsets") = none := by
        rw [path, keep4 _ (by decide), keep3 _ (by decide), ← hx2, hi]
        show x1.files _ = none
        exact keep1 _ (by decide)
      rw [this]; rfl
    | some e =>
      have h := EdgeVec.openMmap_cut (x := x1) (y := x4) (pre := pre ++ "_IN") hw hv hwm hvk (hg.ins e hi)
        (by intro suf hs; rw [path]; exact keep1 _ (d2 suf hs).2.2) (by
          intro suf hs
          rw [path, keep4 _ (d2 suf hs).1, keep3 _ (d2 suf hs).2.1, ← hx2, hi]
          rfl)
      rw [h.1]
      by_cases h0 : x1.room = 0
      · simp only [h0, ne_eq, not_true, decide_false, Bool.false_eq_true, if_false]
        unfold EdgeVec.cut
        rw [if_pos rfl]; rfl
      · simp only [ne_eq, h0, not_false_eq_true, decide_true, if_true]
        have h2 := h.2
        cases ho : (EdgeVec.openMmap w v (pre ++ "_IN") x4 : Res (EdgeVec m k)) with
        | error p =>
          rw [ho] at h2
          unfold EdgeVec.cut at h2 ⊢
          rw [if_neg h0] at h2 ⊢
          split at h2
          · rename_i hc; rw [if_pos hc]; rfl
          · rename_i hc
            rw [if_neg hc]
            revert h2
            cases (if e.getLabels = [] then some none else cutArray v
              (x1.room - (1 + e.offsets.length * 8) - (1 + e.edges.length * w)) e.getLabels) with
            | none => intro _; rfl
            | some l => intro h2; cases h2
        | ok e' =>
          rw [ho] at h2
          show some (some e') = _
          cases hc : e.cut w v x1.room with
          | none => rw [hc] at h2; cases h2
          | some o => rw [hc] at h2; cases o with
            | none => cases h2
            | some e'' => cases h2; rfl
  -- the labels of nodes
  have hlab : ((mapIfPresent v (pre ++ ".labels") x4).toOption.map fun t => t.map (TypedMap.ids (m := k))) =
      (match g.labels with | none => some none | some ls => cutArray v x2.room ls) := by
    have h4 : x4.files (pre ++ ".labels") = x3.files (pre ++ ".labels") := keep4 _ (by decide)
    have h2 : x2.files (pre ++ ".labels") = none := by
      rw [keep2 _ (by decide), keep1 _ (by decide)]
    unfold mapIfPresent
    cases hl : g.labels with
    | none =>
      rw [h4, ← hx3, hl]
      show Option.map _ (Except.toOption (if (x2.files _).isSome then _ else _)) = _
      rw [h2]; rfl
    | some ls =>
      have hne : ls ≠ [] := fun hc => hg.labels (by rw [hl, hc])
      have h5 : x4.files (pre ++ ".labels") = if x2.room = 0 then none
          else some ((typedBytes v (ls.map (·.val))).take (x2.room - 1)) := by
        rw [h4, ← hx3, hl]
        show (x2.write _).files _ = _
        rw [World.write_files, h2]
        simp only [if_true]
      show _ = cutArray v x2.room ls
      unfold cutArray
      by_cases h0 : x2.room = 0
      · rw [if_pos h0] at h5 ⊢
        rw [h5]; rfl
      · rw [if_neg h0] at h5 ⊢
        by_cases h1 : x2.room = 1
        · rw [if_pos h1]
          rw [h1] at h5
          have : TypedMap.new v (pre ++ ".labels") x4 = .error .unwrapNone := by
            unfold TypedMap.new; rw [h5]; rfl
          rw [h5, this]; rfl
        · rw [if_neg h1]
          obtain ⟨t', ht3, ht4⟩ := TypedMap.ids_cut hv hvk hne (n := x2.room - 1) (by omega) h5
          rw [h5, ht3]
          simp only [Option.isSome_some, if_true, bind_ok, pure_ok]
          show some (some t'.ids) = _
          rw [ht4]
  -- the auxiliary file
  have haux : x4.files (pre ++ "_aux.bin") = if x3.room = 0 then none
      else some ((g.auxBytes nl el).take (x3.room - 1)) := by
    rw [← hx4]
    show (x3.write _).files _ = _
    rw [World.write_files, keep3 _ (by decide), keep2 _ (by decide), keep1 _ (by decide)]
    simp only [if_true]
  have hloadAux : ∀ (e : EdgeVec m k) d, e.offsets ≠ [] →
      (MmapGraph.loadAux nl el e d (pre ++ "_aux.bin") x4).toOption =
      if x3.room = 0 then some ⟨e.offsets.length - 1, if d then e.edges.length else e.edges.length / 2,
        SetMap.empty, SetMap.empty⟩
      else if x3.room - 1 < (g.auxBytes nl el).length then none
      else some ⟨g.numNodes, g.numEdges, g.nodeLabels, g.edgeLabels⟩ := by
    intro e d hoff
    have hrt := auxBytes_round hnl hel hg (nl := nl) (el := el)
    unfold MmapGraph.loadAux World.import
    rw [haux]
    by_cases h0 : x3.room = 0
    · rw [if_pos h0, if_pos h0]
      unfold EdgeVec.numNodes
      have : e.offsets.length ≠ 0 := by simpa using hoff
      simp only [Option.isSome_none, Bool.false_eq_true, if_false, if_neg this]
      rfl
    · rw [if_neg h0, if_neg h0]
      simp only [Option.isSome_some, if_true, Option.bind_eq_bind, Option.bind_some]
      unfold auxBytes
      by_cases hn : x3.room - 1 < (g.auxBytes nl el).length
      · unfold auxBytes at hn
        rw [if_pos hn]
        have := Codec.prefix_fails (Codec.aux_stable hns hes)
          (x := ⟨g.numNodes, g.numEdges, g.nodeLabels, g.edgeLabels⟩)
          ⟨_, by have := hrt []; rw [List.append_nil] at this; exact this⟩
          (List.take_prefix (x3.room - 1) _) (by
            intro hc
            have := congrArg List.length hc
            rw [List.length_take] at this
            omega)
        rw [this]; rfl
      · unfold auxBytes at hn
        rw [if_neg hn, List.take_of_length_le (by omega)]
        have := hrt []
        rw [List.append_nil] at this
        rw [this]; rfl
  have bind_opt : ∀ {X Y : Type} (r : Res X) (f : X → Res Y),
      (r >>= f).toOption = r.toOption.bind fun a => (f a).toOption := by
    intro X Y r f; cases r <;> rfl
  unfold MmapGraph.new cut
  simp only [bind_opt, Option.bind_eq_bind]
  rw [hout, hins, r1]
  cases ho : g.edgeVec.cut w v x.room with
  | none => rfl
  | some out =>
    cases out with
    | none => rfl
    | some out =>
      simp only [Option.join_some, Option.bind_some]
      have hoff : out.offsets ≠ [] := by
        unfold EdgeVec.cut at ho
        split at ho
        · cases ho
        · split at ho
          · cases ho
          · revert ho
            cases (if g.edgeVec.getLabels = [] then some none else cutArray v
              (x.room - (1 + g.edgeVec.offsets.length * 8) - (1 + g.edgeVec.edges.length * w))
              g.edgeVec.getLabels) with
            | none => intro ho; cases ho
            | some l => intro ho; cases ho; exact hg.out.offsets
      congr 1
      funext ins
      rw [r1] at r2
      rw [r2] at r3 hlab
      revert hlab
      cases (mapIfPresent v (pre ++ ".labels") x4) with
      | error p =>
        intro hlab
        exact congrArg (fun o => Option.bind o _) hlab
      | ok t =>
        intro hlab
        refine Eq.trans ?_ (congrArg (fun o => Option.bind o _) hlab)
        show ((MmapGraph.loadAux nl el out ins.isSome (pre ++ "_aux.bin") x4).toOption.bind _) = _
        rw [hloadAux out ins.isSome hoff]
        by_cases h0 : x3.room = 0
        · rw [if_pos h0]
          exact (if_pos (r3.symm.trans h0)).symm
        · rw [if_neg h0]
          refine Eq.trans ?_ (if_neg (fun hc => h0 (r3.trans hc))).symm
          by_cases h1 : x3.room - 1 < (g.auxBytes nl el).length
          · rw [if_pos h1]
            exact (if_pos (by rw [r3] at h1; exact h1)).symm
          · rw [if_neg h1]
            exact (if_neg (by rw [r3] at h1; exact h1)).symm

end StaticGraph

end Verif
