import Verif.Model.Mmap
import Verif.Proof.Disk
import Verif.Proof.Serde
import Verif.Proof.Csr

/-! Dumping and mapping graphs. -/

namespace Verif

theorem prefix_inj (p a b : String) : p ++ a = p ++ b ↔ a = b := by
  constructor
  · intro h
    have := congrArg String.toList h
    simp only [String.toList_append, List.append_cancel_left_eq] at this
    exact String.toList_inj.1 this
  · rintro rfl; rfl

/-! ### Typed views -/

theorem typedBytes_length (w : Nat) (l : List Nat) : (typedBytes w l).length = l.length * w := by
  induction l with
  | nil => simp [typedBytes]
  | cons x l ih =>
    unfold typedBytes at ih ⊢
    rw [List.flatMap_cons, List.length_append, ih, length_le, List.length_cons, Nat.succ_mul, Nat.add_comm]

theorem drop_typedBytes (w : Nat) : ∀ (i : Nat) (l : List Nat),
    (typedBytes w l).drop (i * w) = typedBytes w (l.drop i)
  | 0, l => by simp
  | i + 1, [] => by simp [typedBytes]
  | i + 1, x :: l => by
    have h : typedBytes w (x :: l) = le w x ++ typedBytes w l := by simp [typedBytes]
    rw [h, List.drop_append, length_le, List.drop_of_length_le (by rw [length_le, Nat.succ_mul]; omega)]
    rw [List.drop_succ_cons, ← drop_typedBytes w i l, List.nil_append]
    congr 1
    rw [Nat.succ_mul]; omega

theorem ofLe_typedBytes (w : Nat) {l : List Nat} {i : Nat} {x : Nat} (h : l[i]? = some x) :
    ofLe (((typedBytes w l).drop (i * w)).take w) = x % 256 ^ w := by
  obtain ⟨hi, rfl⟩ := List.getElem?_eq_some_iff.1 h
  rw [drop_typedBytes, List.drop_eq_getElem_cons hi]
  have : typedBytes w (l[i] :: l.drop (i + 1)) = le w l[i] ++ typedBytes w (l.drop (i + 1)) :=
    List.flatMap_cons
  rw [this, List.take_left' (length_le _ _), ofLe_le]

namespace TypedMap

theorem read_eq (w : Nat) (l : List Nat) (n i c : Nat) (h : i + c ≤ l.length) :
    (TypedMap.mk (typedBytes w l) n w).read ⟨i * w, c⟩ = ((l.drop i).take c).map (· % 256 ^ w) := by
  unfold read
  simp only
  apply List.ext_getElem?
  intro j
  rw [List.getElem?_map, List.getElem?_map]
  by_cases hj : j < c
  · have hlt : i + j < l.length := by omega
    rw [List.getElem?_range hj, List.getElem?_take_of_lt hj, List.getElem?_drop,
      List.getElem?_eq_getElem hlt]
    simp only [Option.map_some, Option.some.injEq]
    rw [← Nat.add_mul]
    exact ofLe_typedBytes w (List.getElem?_eq_getElem hlt)
  · rw [List.getElem?_eq_none (by simpa using hj), List.getElem?_eq_none (by simp; omega)]
    rfl

theorem new_eq {w : Nat} (hw : 0 < w) {path : String} {x : World} {l : List Nat} (hl : l ≠ [])
    (h : x.files path = some (typedBytes w l)) :
    TypedMap.new w path x = .ok ⟨typedBytes w l, l.length, w⟩ := by
  have h1 : (typedBytes w l).length = l.length * w := typedBytes_length w l
  have h2 : 0 < l.length := List.length_pos_iff.2 hl
  have h3 : 0 < l.length * w := Nat.mul_pos h2 hw
  unfold new
  rw [h]
  simp only
  rw [if_neg (by omega)]
  unfold withMmap
  rw [if_neg (by omega), h1, Nat.mul_div_cancel _ hw]
  rfl

theorem new_empty {w : Nat} {path : String} {x : World} (h : x.files path = some []) :
    TypedMap.new w path x = .error .unwrapNone := by
  unfold new
  rw [h]
  rfl

theorem read_full (w : Nat) (l : List Nat) (hl : ∀ y ∈ l, y < 256 ^ w) :
    (TypedMap.mk (typedBytes w l) l.length w).read (TypedMap.mk (typedBytes w l) l.length w).full = l := by
  have := read_eq w l l.length 0 l.length (by omega)
  rw [Nat.zero_mul] at this
  rw [full, this, List.drop_zero, List.take_length]
  conv_rhs => rw [← List.map_id l]
  apply List.map_congr_left
  intro y hy
  exact Nat.mod_eq_of_lt (hl y hy)

theorem ids_full {m w : Nat} (hw : m + 1 = 256 ^ w) (l : List (Id m)) :
    (TypedMap.mk (typedBytes w (l.map (·.val))) l.length w).ids = l := by
  unfold ids
  have h := read_full w (l.map (·.val)) (by
    intro y hy
    obtain ⟨a, _, rfl⟩ := List.mem_map.1 hy
    rw [← hw]; exact a.isLt)
  rw [List.length_map] at h
  rw [h, List.map_map]
  conv_rhs => rw [← List.map_id l]
  apply List.map_congr_left
  intro y _
  apply Fin.ext
  show y.val % (m + 1) = y.val
  exact Nat.mod_eq_of_lt y.isLt

end TypedMap

/-! ### Writing files -/

namespace World

theorem dump_eq (path : String) (bs : List Byte) (x : World) : x.dump path bs =
    if x.room = 0 then (false, x) else (decide (bs.length ≤ x.room - 1),
      x.put path ⟨bs.take (x.room - 1), x.room - 1 - bs.length⟩) := by
  unfold dump create
  by_cases h : x.room = 0
  · rw [if_pos h, if_pos h]
  · rw [if_neg h, if_neg h]; simp only [dumpTo_eq]; rfl

theorem export_eq {X : Type} (c : Codec X) (y : X) (path : String) (x : World) :
    ∃ ok, x.export c y path = (if x.room = 0 then (false, x) else (ok,
      x.put path ⟨(c.bytes y).take (x.room - 1), x.room - 1 - (c.bytes y).length⟩)) ∧
      ((c.bytes y).length ≤ x.room - 1 → ok = true) := by
  unfold World.export create
  by_cases h : x.room = 0
  · exact ⟨true, by rw [if_pos h, if_pos h], fun _ => rfl⟩
  · obtain ⟨ok, h1, h2⟩ := exportTo_eq ⟨[], x.room - 1⟩ (c.put y)
    refine ⟨ok, ?_, h2⟩
    rw [if_neg h, if_neg h]; simp only [h1]; rfl

/-- The files after some were written, latest first. -/
def look (fs : List (String × List Byte)) (old : String → Option (List Byte)) (p : String) :
    Option (List Byte) := (AL.get fs p).or (old p)

theorem get_append {K V : Type} [DecidableEq K] (a b : List (K × V)) (p : K) :
    AL.get (a ++ b) p = (AL.get a p).or (AL.get b p) := by
  induction a with
  | nil => simp [AL.get]
  | cons q a ih =>
    obtain ⟨x, y⟩ := q
    simp only [List.cons_append, AL.get]
    split <;> simp [ih]

/-- `r` comes from writing the files `fs` (latest first) in the world `x`. -/
structure Did (x : World) (fs : List (String × List Byte)) (r : Bool × World) : Prop where
  done : r.1 = true → r.2.files = look fs x.files
  frame : ∀ p, p ∉ AL.keys fs → r.2.files p = x.files p
  room : 0 < r.2.room → r.1 = true

theorem Did.nil (x : World) : Did x [] (true, x) := ⟨fun _ => rfl, fun _ _ => rfl, fun _ => rfl⟩

theorem Did.andThen {x : World} {fs fs' : List (String × List Byte)} {r : Bool × World}
    {f : World → Bool × World} (h : Did x fs r) (hf : ∀ y, Did y fs' (f y)) :
    Did x (fs' ++ fs) (World.andThen r f) := by
  unfold World.andThen
  by_cases h1 : r.1 = true
  · rw [if_pos h1]
    have h2 := hf r.2
    refine ⟨fun ht => ?_, fun p hp => ?_, h2.room⟩
    · rw [h2.done ht, h.done h1]
      funext p
      simp only [look, get_append]
      cases AL.get fs' p <;> cases AL.get fs p <;> rfl
    · rw [AL.keys, List.map_append, List.mem_append, not_or] at hp
      rw [h2.frame p hp.1, h.frame p hp.2]
  · rw [if_neg h1]
    refine ⟨fun ht => absurd ht h1, fun p hp => ?_, h.room⟩
    rw [AL.keys, List.map_append, List.mem_append, not_or] at hp
    exact h.frame p hp.2

theorem did_dump (path : String) (bs : List Byte) (x : World) : Did x [(path, bs)] (x.dump path bs) := by
  rw [dump_eq]
  by_cases h : x.room = 0
  · rw [if_pos h]
    refine ⟨fun ht => (Bool.false_ne_true ht).elim, fun _ _ => rfl, fun ht => ?_⟩
    simp only at ht
    omega
  · rw [if_neg h]
    refine ⟨fun ht => ?_, fun p hp => ?_, fun ht => ?_⟩
    · simp only [decide_eq_true_eq] at ht
      funext p
      simp only [put, look, AL.get]
      rw [List.take_of_length_le ht]
      by_cases hp : p = path
      · rw [if_pos hp, if_pos hp.symm]; rfl
      · rw [if_neg hp, if_neg (Ne.symm hp)]; rfl
    · simp only [AL.keys, List.map_cons, List.map_nil, List.mem_singleton] at hp
      simp only [put]
      rw [if_neg hp]
    · simp only [put] at ht
      simp only [decide_eq_true_eq]
      omega

theorem did_ifSome {X : Type} {o : Option X} {f : X → World → Bool × World}
    {fs : X → List (String × List Byte)} (h : ∀ y x, Did x (fs y) (f y x)) (x : World) :
    Did x ((o.map fs).getD []) (ifSome o f x) := by
  cases o with
  | none => exact Did.nil x
  | some y => exact h y x

end World

variable {m k : Nat} {NL EL : Type}

namespace EdgeVec

/-- The files of an adjacency. -/
def files (w v : Nat) (ev : EdgeVec m k) (pre : String) : List (String × List Byte) :=
  (if ev.getLabels = [] then [] else [(pre ++ ".labels", typedBytes v (ev.getLabels.map (·.val)))]) ++
  ([(pre ++ ".edges", typedBytes w (ev.edges.map (·.val)))] ++
    [(pre ++ ".offsets", typedBytes 8 ev.offsets)])

theorem did_dumpMmap (w v : Nat) (ev : EdgeVec m k) (pre : String) (x : World) :
    World.Did x (ev.files w v pre) (ev.dumpMmap w v pre x) := by
  unfold dumpMmap files
  have h1 := World.did_dump (pre ++ ".offsets") (typedBytes 8 ev.offsets) x
  have hrest : ∀ x, World.Did x ((if ev.getLabels = [] then [] else
      [(pre ++ ".labels", typedBytes v (ev.getLabels.map (·.val)))]) ++
        [(pre ++ ".edges", typedBytes w (ev.edges.map (·.val)))])
      (World.andThen (x.dump (pre ++ ".edges") (typedBytes w (ev.edges.map (·.val)))) fun x =>
        if ev.getLabels = [] then (true, x)
        else x.dump (pre ++ ".labels") (typedBytes v (ev.getLabels.map (·.val)))) := by
    intro x
    refine World.Did.andThen (World.did_dump _ _ x) (fun y => ?_)
    by_cases hl : ev.getLabels = []
    · rw [if_pos hl, if_pos hl]; exact World.Did.nil y
    · rw [if_neg hl, if_neg hl]; exact World.did_dump _ _ y
  have := World.Did.andThen h1 hrest
  rw [List.append_assoc] at this
  exact this

/-- What can be read back: an empty label array is not stored. -/
def stored (ev : EdgeVec m k) : EdgeVec m k :=
  ⟨ev.offsets, ev.edges, if ev.getLabels = [] then none else some ev.getLabels⟩

theorem stored_getLabels (ev : EdgeVec m k) : ev.stored.getLabels = ev.getLabels := by
  show (Option.getD (if ev.getLabels = [] then none else some ev.getLabels) []) = ev.getLabels
  by_cases h : ev.getLabels = []
  · rw [if_pos h, h]; rfl
  · rw [if_neg h]; rfl

theorem openMmap_eq {w v : Nat} (hw : 0 < w) (hv : 0 < v) (hwm : m + 1 = 256 ^ w) (hvk : k + 1 = 256 ^ v)
    {ev : EdgeVec m k} {pre : String} {x : World} (h0 : ev.offsets ≠ []) (h1 : ev.edges ≠ [])
    (h2 : ∀ o ∈ ev.offsets, o < 2 ^ 64)
    (f1 : x.files (pre ++ ".offsets") = some (typedBytes 8 ev.offsets))
    (f2 : x.files (pre ++ ".edges") = some (typedBytes w (ev.edges.map (·.val))))
    (f3 : x.files (pre ++ ".labels") = if ev.getLabels = [] then none
      else some (typedBytes v (ev.getLabels.map (·.val)))) :
    EdgeVec.openMmap w v pre x = .ok ev.stored := by
  unfold openMmap
  rw [TypedMap.new_eq (by decide) h0 f1, bind_ok,
    TypedMap.new_eq hw (by simpa using h1) f2, bind_ok]
  have e2 := TypedMap.ids_full hwm ev.edges
  rw [TypedMap.read_full 8 ev.offsets (by simpa using h2), List.length_map, e2]
  unfold mapIfPresent
  by_cases hl : ev.getLabels = []
  · rw [f3, if_pos hl]
    simp only [Option.isSome_none, Bool.false_eq_true, if_false, pure_ok, bind_ok, Option.map_none]
    unfold stored; rw [if_pos hl]
  · rw [if_neg hl] at f3
    rw [f3]
    simp only [Option.isSome_some, if_true]
    rw [TypedMap.new_eq hv (by simpa using hl) f3, bind_ok]
    simp only [pure_ok, bind_ok, Option.map_some, List.length_map, TypedMap.ids_full hvk]
    unfold stored; rw [if_neg hl]

end EdgeVec

namespace StaticGraph

/-- The files of a graph apart from the auxiliary one. -/
def files (w v : Nat) (g : StaticGraph m k NL EL) (pre : String) : List (String × List Byte) :=
  ((g.labels.map fun ls => [(pre ++ ".labels", typedBytes v (ls.map (·.val)))]).getD []) ++
  (((g.inEdgeVec.map fun e => e.files w v (pre ++ "_IN")).getD []) ++ g.edgeVec.files w v (pre ++ "_OUT"))

/-- The part of `dump_mmap` before the auxiliary file. -/
def dumpArrays (w v : Nat) (g : StaticGraph m k NL EL) (pre : String) (x : World) : Bool × World :=
  World.andThen (g.edgeVec.dumpMmap w v (pre ++ "_OUT") x) fun x =>
  World.andThen (World.ifSome g.inEdgeVec (fun e => e.dumpMmap w v (pre ++ "_IN")) x) fun x =>
  World.ifSome g.labels (fun ls => World.dump (pre ++ ".labels") (typedBytes v (ls.map (·.val)))) x

theorem did_dumpArrays (w v : Nat) (g : StaticGraph m k NL EL) (pre : String) (x : World) :
    World.Did x (g.files w v pre) (g.dumpArrays w v pre x) := by
  unfold dumpArrays files
  rw [← List.append_assoc]
  refine World.Did.andThen (EdgeVec.did_dumpMmap w v g.edgeVec (pre ++ "_OUT") x) (fun y => ?_)
  refine World.Did.andThen (World.did_ifSome (fun e y => EdgeVec.did_dumpMmap w v e (pre ++ "_IN") y) y)
    (fun z => ?_)
  exact World.did_ifSome
    (fs := fun ls : List (Id k) => [(pre ++ ".labels", typedBytes v (ls.map (·.val)))])
    (fun (ls : List (Id k)) y => World.did_dump (pre ++ ".labels") (typedBytes v (ls.map (·.val))) y) z

theorem dumpMmap_eq [DecidableEq NL] [DecidableEq EL] (w v : Nat) (nl : Codec NL) (el : Codec EL)
    (g : StaticGraph m k NL EL) (pre : String) (x : World) : g.dumpMmap w v nl el pre x =
      World.andThen (g.dumpArrays w v pre x) (World.export (Codec.aux nl el)
        ⟨g.numNodes, g.numEdges, g.nodeLabels, g.edgeLabels⟩ (pre ++ "_aux.bin")) := by
  unfold dumpMmap dumpArrays World.andThen
  by_cases h1 : (g.edgeVec.dumpMmap w v (pre ++ "_OUT") x).1 = true
  · simp only [h1, if_true]
    by_cases h2 : (World.ifSome g.inEdgeVec (fun e => e.dumpMmap w v (pre ++ "_IN"))
        (g.edgeVec.dumpMmap w v (pre ++ "_OUT") x).2).1 = true
    · simp only [h2, if_true]
    · simp only [h2, Bool.false_eq_true, if_false]
  · simp only [h1, Bool.false_eq_true, if_false]

end StaticGraph

/-! ### Loading -/

theorem World.look_append (a b : List (String × List Byte)) (old : String → Option (List Byte)) (p : String) :
    World.look (a ++ b) old p = World.look a (World.look b old) p := by
  simp only [World.look, World.get_append]
  cases AL.get a p <;> cases AL.get b p <;> rfl

theorem World.look_frame {fs : List (String × List Byte)} {old : String → Option (List Byte)} {p : String}
    (h : p ∉ AL.keys fs) : World.look fs old p = old p := by
  rw [World.look, (AL.get_eq_none_iff fs p).2 h]; rfl

theorem World.look_cons (q : String) (b : List Byte) (fs : List (String × List Byte))
    (old : String → Option (List Byte)) (p : String) :
    World.look ((q, b) :: fs) old p = if q = p then some b else World.look fs old p := by
  simp only [World.look, AL.get]
  split <;> rfl

namespace EdgeVec

theorem keys_files (w v : Nat) (ev : EdgeVec m k) (pre : String) (p : String)
    (h : p ∈ AL.keys (ev.files w v pre)) :
    p = pre ++ ".labels" ∨ p = pre ++ ".edges" ∨ p = pre ++ ".offsets" := by
  unfold files at h
  by_cases hl : ev.getLabels = []
  · rw [if_pos hl] at h
    simp [AL.keys] at h
    exact .inr h
  · rw [if_neg hl] at h
    simpa [AL.keys] using h

theorem look_files (w v : Nat) (ev : EdgeVec m k) (pre : String) (old : String → Option (List Byte)) :
    World.look (ev.files w v pre) old (pre ++ ".offsets") = some (typedBytes 8 ev.offsets) ∧
    World.look (ev.files w v pre) old (pre ++ ".edges") = some (typedBytes w (ev.edges.map (·.val))) ∧
    World.look (ev.files w v pre) old (pre ++ ".labels") = if ev.getLabels = [] then old (pre ++ ".labels")
      else some (typedBytes v (ev.getLabels.map (·.val))) := by
  unfold files
  have h1 : (".labels" : String) ≠ ".edges" := by decide
  have h2 : (".labels" : String) ≠ ".offsets" := by decide
  have h3 : (".edges" : String) ≠ ".offsets" := by decide
  by_cases hl : ev.getLabels = []
  · simp only [if_pos hl, World.get_append, World.look, AL.get, prefix_inj, Option.none_or,
      h1.symm, h2.symm, h3, h3.symm, if_true, if_false, and_self, Option.some_or]
  · simp only [if_neg hl, World.get_append, World.look, AL.get, prefix_inj, Option.none_or,
      h1, h2, h3, h3.symm, if_true, if_false, and_self, Option.some_or]

end EdgeVec

namespace StaticGraph

/-- What the arrays look like after `dump_mmap`. -/
theorem look_files (w v : Nat) (g : StaticGraph m k NL EL) (pre : String)
    (old : String → Option (List Byte)) :
    World.look (g.files w v pre) old (pre ++ "_OUT" ++ ".offsets") =
      some (typedBytes 8 g.edgeVec.offsets) ∧
    World.look (g.files w v pre) old (pre ++ "_OUT" ++ ".edges") =
      some (typedBytes w (g.edgeVec.edges.map (·.val))) ∧
    World.look (g.files w v pre) old (pre ++ "_OUT" ++ ".labels") =
      (if g.edgeVec.getLabels = [] then old (pre ++ "_OUT" ++ ".labels")
      else some (typedBytes v (g.edgeVec.getLabels.map (·.val)))) ∧
    World.look (g.files w v pre) old (pre ++ "_IN" ++ ".offsets") =
      ((g.inEdgeVec.map fun e => typedBytes 8 e.offsets).or (old (pre ++ "_IN" ++ ".offsets"))) ∧
    World.look (g.files w v pre) old (pre ++ "_IN" ++ ".edges") =
      ((g.inEdgeVec.map fun e => typedBytes w (e.edges.map (·.val))).or (old (pre ++ "_IN" ++ ".edges"))) ∧
    World.look (g.files w v pre) old (pre ++ "_IN" ++ ".labels") =
      ((g.inEdgeVec.bind fun e => if e.getLabels = [] then none
        else some (typedBytes v (e.getLabels.map (·.val)))).or (old (pre ++ "_IN" ++ ".labels"))) ∧
    World.look (g.files w v pre) old (pre ++ ".labels") =
      ((g.labels.map fun ls => typedBytes v (ls.map (·.val))).or (old (pre ++ ".labels"))) ∧
    World.look (g.files w v pre) old (pre ++ "_aux.bin") = old (pre ++ "_aux.bin") := by
  -- the label file of the nodes
  have hlab : ∀ old p, World.look ((g.labels.map fun ls =>
      [(pre ++ ".labels", typedBytes v (ls.map (·.val)))]).getD []) old p =
      if pre ++ ".labels" = p then (g.labels.map fun ls => typedBytes v (ls.map (·.val))).or (old p)
      else old p := by
    intro old p
    cases g.labels with
    | none => simp [World.look, AL.get]
    | some ls =>
      simp only [Option.map_some, Option.getD_some, World.look_cons, Option.some_or]
      split <;> rfl
  have path : ∀ a b : String, pre ++ a ++ b = pre ++ (a ++ b) := fun a b => String.append_assoc
  -- files of the in-edges do not clash with the others
  have hin : ∀ old a, a ≠ "_IN" ++ ".labels" → a ≠ "_IN" ++ ".edges" → a ≠ "_IN" ++ ".offsets" →
      World.look ((g.inEdgeVec.map fun e => e.files w v (pre ++ "_IN")).getD []) old (pre ++ a) =
        old (pre ++ a) := by
    intro old a h1 h2 h3
    cases g.inEdgeVec with
    | none => simp [World.look, AL.get]
    | some e =>
      apply World.look_frame
      intro hk
      rcases EdgeVec.keys_files w v e _ _ hk with h | h | h <;>
        rw [path, prefix_inj] at h
      exacts [h1 h, h2 h, h3 h]
  have hout : ∀ old a, a ≠ "_OUT" ++ ".labels" → a ≠ "_OUT" ++ ".edges" → a ≠ "_OUT" ++ ".offsets" →
      World.look (g.edgeVec.files w v (pre ++ "_OUT")) old (pre ++ a) = old (pre ++ a) := by
    intro old a h1 h2 h3
    apply World.look_frame
    intro hk
    rcases EdgeVec.keys_files w v g.edgeVec _ _ hk with h | h | h <;> rw [path, prefix_inj] at h
    exacts [h1 h, h2 h, h3 h]
  obtain ⟨o1, o2, o3⟩ := EdgeVec.look_files w v g.edgeVec (pre ++ "_OUT") old
  have hlook : ∀ p, World.look (g.files w v pre) old p =
      World.look ((g.labels.map fun ls => [(pre ++ ".labels", typedBytes v (ls.map (·.val)))]).getD [])
        (World.look ((g.inEdgeVec.map fun e => e.files w v (pre ++ "_IN")).getD [])
          (World.look (g.edgeVec.files w v (pre ++ "_OUT")) old)) p := by
    intro p
    unfold files
    rw [World.look_append]
    congr 1
    funext q
    rw [World.look_append]
  simp only [hlook, hlab]
  rw [path] at o1 o2 o3
  simp only [path, prefix_inj]
  refine ⟨?_, ?_, ?_, ?_, ?_, ?_, ?_, ?_⟩
  · rw [if_neg (by decide), hin _ _ (by decide) (by decide) (by decide), o1]
  · rw [if_neg (by decide), hin _ _ (by decide) (by decide) (by decide), o2]
  · rw [if_neg (by decide), hin _ _ (by decide) (by decide) (by decide), o3]
  · rw [if_neg (by decide)]
    cases hi : g.inEdgeVec with
    | none => exact hout _ _ (by decide) (by decide) (by decide)
    | some e =>
      have h := (EdgeVec.look_files w v e (pre ++ "_IN")
        (World.look (g.edgeVec.files w v (pre ++ "_OUT")) old)).1
      rw [path] at h
      exact h
  · rw [if_neg (by decide)]
    cases hi : g.inEdgeVec with
    | none => exact hout _ _ (by decide) (by decide) (by decide)
    | some e =>
      have h := (EdgeVec.look_files w v e (pre ++ "_IN")
        (World.look (g.edgeVec.files w v (pre ++ "_OUT")) old)).2.1
      rw [path] at h
      exact h
  · rw [if_neg (by decide)]
    cases hi : g.inEdgeVec with
    | none => exact hout _ _ (by decide) (by decide) (by decide)
    | some e =>
      have h := (EdgeVec.look_files w v e (pre ++ "_IN")
        (World.look (g.edgeVec.files w v (pre ++ "_OUT")) old)).2.2
      rw [path, hout _ _ (by decide) (by decide) (by decide)] at h
      simp only [Option.map_some, Option.getD_some, Option.bind_some]
      rw [h]
      split <;> rfl
  · rw [if_pos trivial, hin _ _ (by decide) (by decide) (by decide), hout _ _ (by decide) (by decide) (by decide)]
  · rw [if_neg (by decide), hin _ _ (by decide) (by decide) (by decide),
      hout _ _ (by decide) (by decide) (by decide)]

end StaticGraph

end Verif
