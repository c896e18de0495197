import Verif.Props.Pipeline

/-! Property theorems about files read as something else than they were written as: a frozen graph read as a
`TypedGraphMap` (C107), and label tables read with another type (C108). -/

namespace Verif.Props

open GraphMap Spec Programs

variable {m k wd v : Nat} {NL EL NL' EL' : Type} [DecidableEq NL] [DecidableEq EL] [DecidableEq NL']
  [DecidableEq EL']

theorem le_split : ∀ (a b n : Nat), le (a + b) n = le a n ++ le b (n / 256 ^ a)
  | 0, b, n => by simp [le]
  | a + 1, b, n => by
    rw [Nat.add_right_comm, le, le, le_split a b (n / 256), List.cons_append, Nat.div_div_eq_div_mul,
      Nat.pow_succ, Nat.mul_comm]

/-! ### C107 -/

theorem ident_get (w n : Nat) (r : List Byte) :
    (Codec.ident (m := m) w).get (le w n ++ r) = some (Id.new (n % 256 ^ w), r) := by
  simp [Codec.ident, getInt_le]

/-- A `TypedGraphMap` with ids of four bytes cannot be read where the third word of eight bytes begins with
another byte than 0 or 1 and the first word is not 0. -/
theorem graph_map_refuses {nl : Codec NL} {el : Codec EL} (v : Nat) (d : Bool) {a b c : Nat} (r : List Byte)
    (ha : a % 2 ^ 64 ≠ 0) (hc : 2 ≤ c % 256) :
    (Codec.graphMap (m := m) (k := k) 4 v nl el d).get (le 8 a ++ (le 8 b ++ (le 8 c ++ r))) = none := by
  have e : 256 ^ 8 = 2 ^ 64 := by decide
  have hopt : (Codec.opt (Codec.ident (m := k) v)).get (le 8 c ++ r) = none := by
    have h0 : (Fin.ofNat 256 c : Byte).val = c % 256 := Fin.val_ofNat ..
    show (if (Fin.ofNat 256 c : Byte) = 0 then _ else if (Fin.ofNat 256 c : Byte) = 1 then _ else _) = _
    rw [if_neg (fun h => by rw [h] at h0; simp at h0; omega),
      if_neg (fun h => by rw [h] at h0; simp at h0; omega)]
  have hnode : (Codec.pair (Codec.ident (m := m) 4) (Codec.nodeMap (m := m) (k := k) 4 v)).get
      (le 8 b ++ (le 8 c ++ r)) = none := by
    rw [show (8 : Nat) = 4 + 4 from rfl, le_split 4 4 b, List.append_assoc]
    simp only [Codec.pair, Codec.nodeMap, Option.bind_eq_bind, ident_get, Option.bind_some]
    rw [show (4 + 4 : Nat) = 8 from rfl, hopt]
    rfl
  obtain ⟨n, hn⟩ := Nat.exists_eq_succ_of_ne_zero ha
  have hmap : (Codec.hmap (Codec.ident (m := m) 4) (Codec.nodeMap (m := m) (k := k) 4 v)).get
      (le 8 a ++ (le 8 b ++ (le 8 c ++ r))) = none := by
    simp only [Codec.hmap, Codec.collect, Codec.vec, Codec.usize, getInt_le, Option.bind_eq_bind,
      Option.bind_some, e, hn, Codec.getMany, hnode, Option.bind_none]
  simp only [Codec.graphMap, Option.bind_eq_bind, hmap, Option.bind_none]

/-- **C107**: `static_to_csv` does not read what its name says. Given the file of a frozen graph (ids of four
bytes) it panics and writes nothing, unless the largest id plus two is 0 or 1 modulo 256. -/
theorem c107_static_refused {nl : Codec NL} {el : Codec EL} {g : GraphMap m k NL EL} (hg : Reachable g)
    {M : Id m} (hM : g.nodeIndices.max? = some M) (hlt : M.val < m) (hc : g.nodeCount < 2 ^ 64)
    (hmod : 2 ≤ (M.val + 2) % 256) {inFile np ep : String} (v' : Nat) :
    ∃ r, g.intoStatic = .ok r ∧ ∀ (w : World) (d : Bool),
      w.files inFile = some ((Codec.staticGraph 4 v nl el d).bytes r) →
      staticToCsv m k 4 v' inFile np ep w = (.error .explicit, w) := by
  obtain ⟨r, h1, h2⟩ := intoStatic_ok hg.inv.toNWF hM hlt
  refine ⟨r, h1, fun (w : World) d hw => c105_unreadable ?_⟩
  have hpos : 0 < g.nodeCount := by
    have hmem : M ∈ g.nodeIndices := List.max?_mem hM
    have : g.nodeCount = g.nodeIndices.length := by simp [nodeIndices, AL.keys, nodeCount]
    rw [this]
    exact List.length_pos_of_mem hmem
  have hlen : r.edgeVec.offsets.length = M.val + 2 := by
    rw [h2.out.offsets, offsetsOf_length, rows_length]
  have e : ∃ rest, (Codec.staticGraph 4 v nl el d).bytes r =
      le 8 r.numNodes ++ (le 8 r.numEdges ++ (le 8 r.edgeVec.offsets.length ++ rest)) := by
    refine ⟨(r.edgeVec.offsets.flatMap Codec.usize.put ++ (Codec.vec (Codec.ident 4)).put r.edgeVec.edges ++
      (Codec.opt (Codec.vec (Codec.ident v))).put r.edgeVec.labels ++
      (Codec.opt (Codec.edgeVec 4 v)).put r.inEdgeVec ++ (Codec.opt (Codec.vec (Codec.ident v))).put r.labels ++
      (Codec.setMap nl).put r.nodeLabels ++ (Codec.setMap el).put r.edgeLabels).flatten, ?_⟩
    have hu : ∀ n, (Codec.usize.put n).flatten = le 8 n := fun n => by simp [Codec.usize]
    have hvec : (Codec.vec Codec.usize).put r.edgeVec.offsets =
      Codec.usize.put r.edgeVec.offsets.length ++ r.edgeVec.offsets.flatMap Codec.usize.put := rfl
    have hev : (Codec.edgeVec 4 v).put r.edgeVec = (Codec.vec Codec.usize).put r.edgeVec.offsets ++
      (Codec.vec (Codec.ident 4)).put r.edgeVec.edges ++
      (Codec.opt (Codec.vec (Codec.ident v))).put r.edgeVec.labels := rfl
    have hst : (Codec.staticGraph 4 v nl el d).put r = Codec.usize.put r.numNodes ++
      Codec.usize.put r.numEdges ++ (Codec.edgeVec 4 v).put r.edgeVec ++
      (Codec.opt (Codec.edgeVec 4 v)).put r.inEdgeVec ++ (Codec.opt (Codec.vec (Codec.ident v))).put r.labels ++
      (Codec.setMap nl).put r.nodeLabels ++ (Codec.setMap el).put r.edgeLabels := rfl
    rw [Codec.bytes, hst, hev, hvec]
    simp only [List.flatten_append, List.append_assoc, hu]
  obtain ⟨rest, e⟩ := e
  unfold World.import
  rw [hw, e]
  simp only [Option.bind_eq_bind, Option.bind_some]
  have hr := graph_map_refuses (m := m) (k := k) (nl := Programs.text) (el := Programs.text) v' false
    (a := r.numNodes) (b := r.numEdges) rest (by rw [h2.numNodes, Nat.mod_eq_of_lt hc]; omega)
    (c := r.edgeVec.offsets.length) (by rw [hlen]; exact hmod)
  rw [hr]
  rfl

/-- A graph `1 -["e"]-> 0` with ids of four bytes; node 1 has the label `l`. -/
def wide (l : Option (List Byte)) : Res (GraphMap 4294967295 255 (List Byte) (List Byte)) := do
  let g := GraphMap.new true
  let g ← g.apply (.addNode 1 l)
  g.apply (.addEdge 1 0 (some [101]))

theorem wide_reachable {l : Option (List Byte)} {g} (h : wide l = .ok g) : Reachable g := by
  have h0 : Reachable (GraphMap.new true : GraphMap 4294967295 255 (List Byte) (List Byte)) :=
    .start true _ _ List.nodup_nil List.nodup_nil
  unfold wide at h
  obtain ⟨g1, h1, h2⟩ := bind_eq_ok h
  exact .step (.step h0 h1) h2

example : ∃ g, wide (some [104, 105]) = .ok g ∧ Reachable g ∧ g.nodeIndices.max? = some 1 ∧
    g.nodeCount < 2 ^ 64 ∧ 2 ≤ ((1 : Id 4294967295).val + 2) % 256 := by
  obtain ⟨g, h⟩ : ∃ g, wide (some [104, 105]) = .ok g := ⟨_, rfl⟩
  refine ⟨g, h, wide_reachable h, ?_⟩
  cases h
  decide

/-! ### C108 -/

/-- **C108**: what is read from the file of a frozen graph with other label types depends on the label tables
alone: everything else comes back, and the tables are what the bytes of the tables give. -/
theorem c108_tables {nl : Codec NL} {el : Codec EL} (nl' : Codec NL') (el' : Codec EL')
    {g : StaticGraph m k NL EL} (hw : m + 1 = 256 ^ wd) (hv : k + 1 = 256 ^ v)
    (hn : g.numNodes < 2 ^ 64) (he : g.numEdges < 2 ^ 64)
    (hout : SizedVec g.edgeVec) (hin : ∀ e, g.inEdgeVec = some e → SizedVec e)
    (hlab : ∀ l, g.labels = some l → l.length < 2 ^ 64) {w : World} {path : String} (d d' : Bool)
    (hf : w.files path = some ((Codec.staticGraph wd v nl el d).bytes g)) :
    w.import (.staticGraph wd v nl' el' d') path =
      (((Codec.setMap nl').get ((Codec.setMap nl).bytes g.nodeLabels ++ (Codec.setMap el).bytes g.edgeLabels)).bind
        fun p => ((Codec.setMap el').get p.2).map fun q =>
          (⟨d', g.numNodes, g.numEdges, g.edgeVec, g.inEdgeVec, g.labels, p.1, q.1⟩ :
            StaticGraph m k NL' EL')) := by
  have hev : ∀ e : EdgeVec m k, SizedVec e → (Codec.edgeVec wd v).RoundTrips e := fun e h =>
    Codec.edgeVec_round hw hv h.offsets h.values h.edges h.labels
  have e : (Codec.staticGraph wd v nl el d).bytes g = Codec.usize.bytes g.numNodes ++
      (Codec.usize.bytes g.numEdges ++ ((Codec.edgeVec wd v).bytes g.edgeVec ++
        ((Codec.opt (Codec.edgeVec wd v)).bytes g.inEdgeVec ++
        ((Codec.opt (Codec.vec (Codec.ident v))).bytes g.labels ++ ((Codec.setMap nl).bytes g.nodeLabels ++
          (Codec.setMap el).bytes g.edgeLabels))))) := by
    simp [Codec.bytes, Codec.staticGraph]
  unfold World.import
  rw [hf, e]
  simp only [Codec.staticGraph, Option.bind_eq_bind, Option.bind_some]
  rw [Codec.step_round (Codec.usize_round hn), Codec.step_round (Codec.usize_round he),
    Codec.step_round (hev _ hout), Codec.step_round (Codec.opt_round fun e h => hev e (hin e h)),
    Codec.step_round (Codec.opt_round fun l hl => Codec.vec_round (hlab l hl) fun o _ => Codec.ident_round hv o)]
  cases (Codec.setMap nl').get ((Codec.setMap nl).bytes g.nodeLabels ++ (Codec.setMap el).bytes g.edgeLabels) with
  | none => rfl
  | some p =>
    simp only [Option.bind_some]
    cases (Codec.setMap el').get p.2 with
    | none => rfl
    | some q => rfl

theorem ident_many (w : Nat) : ∀ (n : Nat) (bs : List Byte),
    (n * w ≤ bs.length → ∃ l, (Codec.ident (m := m) w).getMany n bs = some (l, bs.drop (n * w))) ∧
    (bs.length < n * w → (Codec.ident (m := m) w).getMany n bs = none)
  | 0, bs => ⟨fun _ => ⟨[], by simp [Codec.getMany]⟩, fun h => by omega⟩
  | n + 1, bs => by
    obtain ⟨h1, h2⟩ := ident_many w n (bs.drop w)
    have hm : (n + 1) * w = n * w + w := by rw [Nat.add_mul, Nat.one_mul]
    simp only [List.length_drop] at h1 h2
    have hget : (Codec.ident (m := m) w).get bs =
        if bs.length < w then none else some (Id.new (ofLe (bs.take w)), bs.drop w) := by
      simp only [Codec.ident, getInt, Option.bind_eq_bind]
      split <;> rfl
    simp only [Codec.getMany, Option.bind_eq_bind, hget]
    constructor
    · intro h
      obtain ⟨l, hl⟩ := h1 (by omega)
      refine ⟨Id.new (ofLe (bs.take w)) :: l, ?_⟩
      rw [if_neg (by omega)]
      simp only [Option.bind_some, hl, Option.pure_def, List.drop_drop]
      rw [hm, Nat.add_comm w]
    · intro h
      by_cases hw : bs.length < w
      · rw [if_pos hw]; rfl
      · rw [if_neg hw]
        simp only [Option.bind_some, Option.pure_def, h2 (by omega), Option.bind_none]

/-- Reading a table of ids: it needs as many bytes as its length says. -/
theorem table_get (w n : Nat) (bs : List Byte) (hn : n < 2 ^ 64) :
    (n * w ≤ bs.length →
      ∃ t, (Codec.setMap (Codec.ident (m := m) w)).get (le 8 n ++ bs) = some (t, bs.drop (n * w))) ∧
    (bs.length < n * w → (Codec.setMap (Codec.ident (m := m) w)).get (le 8 n ++ bs) = none) := by
  have e : n % 256 ^ 8 = n := Nat.mod_eq_of_lt (lt_of_lt_of_eq hn (by decide))
  obtain ⟨h1, h2⟩ := ident_many (m := m) w n bs
  simp only [Codec.setMap, Codec.vec, Codec.usize, getInt_le, e, Option.bind_eq_bind, Option.bind_some,
    Option.pure_def]
  constructor
  · intro h
    obtain ⟨l, hl⟩ := h1 h
    exact ⟨_, by rw [hl]; rfl⟩
  · intro h
    rw [h2 h]
    rfl

theorem text_length (l : List (List Byte)) : 8 * l.length ≤ (l.flatMap Programs.text.put).flatten.length := by
  induction l with
  | nil => simp
  | cons x l ih =>
    rw [List.flatMap_cons, List.flatten_append, List.length_append, List.length_cons]
    have : 8 ≤ (Programs.text.put x).flatten.length := by
      simp [Programs.text, Codec.vec, Codec.usize, length_le]
    omega

theorem text_table (s : SetMap (List Byte)) :
    (Codec.setMap Programs.text).bytes s = le 8 s.len ++ (s.labels.flatMap Programs.text.put).flatten := by
  simp [Codec.bytes, Codec.setMap, Codec.vec, Codec.usize, SetMap.len]

theorem text_bytes (x : List Byte) : (Programs.text.put x).flatten = le 8 x.length ++ x := by
  simp only [Programs.text, Codec.vec, Codec.usize, List.flatten_append, List.flatten_cons, List.flatten_nil,
    List.append_nil]
  congr 1
  induction x with
  | nil => rfl
  | cons b x ih =>
    rw [List.flatMap_cons, List.flatten_append, ih]
    simp [Codec.ident, le]

/-- **C108**: files without labels can be read with any label types. -/
theorem c108_unlabelled {nl : Codec NL} {el : Codec EL} (nl' : Codec NL') (el' : Codec EL')
    {g : StaticGraph m k NL EL} (hw : m + 1 = 256 ^ wd) (hv : k + 1 = 256 ^ v)
    (hn : g.numNodes < 2 ^ 64) (he : g.numEdges < 2 ^ 64)
    (hout : SizedVec g.edgeVec) (hin : ∀ e, g.inEdgeVec = some e → SizedVec e)
    (hlab : ∀ l, g.labels = some l → l.length < 2 ^ 64) {w : World} {path : String} (d d' : Bool)
    (hf : w.files path = some ((Codec.staticGraph wd v nl el d).bytes g))
    (h1 : g.nodeLabels.items = []) (h2 : g.edgeLabels.items = []) :
    w.import (.staticGraph wd v nl' el' d') path =
      some (⟨d', g.numNodes, g.numEdges, g.edgeVec, g.inEdgeVec, g.labels, .empty, .empty⟩ :
        StaticGraph m k NL' EL') := by
  rw [c108_tables nl' el' hw hv hn he hout hin hlab d d' hf]
  have b : ∀ {X : Type} [DecidableEq X] (c : Codec X) {s : SetMap X}, s.items = [] →
      (Codec.setMap c).bytes s = le 8 0 := by
    intro X _ c s hs
    obtain ⟨l⟩ := s
    simp only [SetMap.items] at hs
    subst hs
    simp [Codec.bytes, Codec.setMap, Codec.vec, Codec.usize]
  have r : ∀ {X : Type} [DecidableEq X] (c : Codec X) (bs : List Byte),
      (Codec.setMap c).get (le 8 0 ++ bs) = some (SetMap.empty, bs) := by
    intro X _ c bs
    simp [Codec.setMap, Codec.vec, Codec.usize, getInt_le, Codec.getMany, SetMap.fromVec]
  have r' := r el' []
  rw [List.append_nil] at r'
  rw [b nl h1, b el h2, r nl']
  simp only [Option.bind_some]
  rw [r']
  rfl

/-- **C108**: text labels on edges only, read as numbers of at most eight bytes: never refused. Nodes, edges
and label ids come back, with a table of numbers that no one wrote. -/
theorem c108_edge_labels_misread {g : StaticGraph m k (List Byte) (List Byte)} (hw : m + 1 = 256 ^ wd)
    (hv : k + 1 = 256 ^ v) (hwd : wd ≤ 8) (hn : g.numNodes < 2 ^ 64) (he : g.numEdges < 2 ^ 64)
    (hout : SizedVec g.edgeVec) (hin : ∀ e, g.inEdgeVec = some e → SizedVec e)
    (hlab : ∀ l, g.labels = some l → l.length < 2 ^ 64) {w : World} {path : String} (d d' : Bool)
    (hf : w.files path = some ((Codec.staticGraph wd v Programs.text Programs.text d).bytes g))
    (h1 : g.nodeLabels.items = []) (h2 : g.edgeLabels.len < 2 ^ 64) :
    ∃ t, load wd v d' path w =
      .ok (⟨d', g.numNodes, g.numEdges, g.edgeVec, g.inEdgeVec, g.labels, .empty, t⟩ : Plain m k) := by
  have b := text_table g.edgeLabels
  obtain ⟨t, ht⟩ := (table_get (m := m) wd g.edgeLabels.len
    (g.edgeLabels.labels.flatMap Programs.text.put).flatten h2).1 (le_trans (by
      rw [Nat.mul_comm]
      exact Nat.mul_le_mul_right _ hwd) (text_length g.edgeLabels.labels))
  refine ⟨t, ?_⟩
  unfold load
  rw [c108_tables _ _ hw hv hn he hout hin hlab d d' hf, text_table, text_table]
  obtain ⟨l, hl⟩ : ∃ l, g.nodeLabels = ⟨l⟩ := ⟨_, rfl⟩
  rw [hl] at h1
  simp only [SetMap.items] at h1
  subst h1
  rw [hl]
  have r : ∀ bs : List Byte, (Codec.setMap (Codec.ident (m := m) wd)).get (le 8 0 ++ bs) =
      some (SetMap.empty, bs) := by
    intro bs
    simp [Codec.setMap, Codec.vec, Codec.usize, getInt_le, Codec.getMany, SetMap.fromVec]
  simp only [SetMap.len, List.length_nil, List.flatMap_nil, List.flatten_nil, List.append_nil]
  rw [r]
  simp only [Option.bind_some]
  rw [show g.edgeLabels.labels.length = g.edgeLabels.len from rfl, ht]
  rfl

/-- With one label its length is what is taken for the label. -/
theorem c108_length_for_label {x : List Byte} (hx : x.length ≤ m) (hw : m + 1 = 256 ^ wd) (hwd : wd ≤ 8) :
    ∃ r, (Codec.setMap (Codec.ident (m := m) wd)).get ((Codec.setMap Programs.text).bytes ⟨[x]⟩) =
      some (⟨[Id.new x.length]⟩, r) := by
  have e : (Codec.setMap Programs.text).bytes ⟨[x]⟩ =
      le 8 1 ++ (le wd x.length ++ (le (8 - wd) (x.length / 256 ^ wd) ++ x)) := by
    rw [text_table]
    simp only [SetMap.len, List.length_singleton, List.flatMap_cons, List.flatMap_nil, List.append_nil]
    rw [text_bytes, ← List.append_assoc (le wd _), ← le_split, Nat.add_sub_cancel' hwd]
  refine ⟨le (8 - wd) (x.length / 256 ^ wd) ++ x, ?_⟩
  rw [e]
  simp only [Codec.setMap, Codec.vec, Codec.usize, getInt_le, Option.bind_eq_bind, Option.bind_some]
  rw [show 1 % 256 ^ 8 = 0 + 1 from by decide]
  simp only [Codec.getMany, ident_get, Option.bind_eq_bind, Option.bind_some, Option.pure_def]
  rw [Nat.mod_eq_of_lt (by omega)]
  rfl

/-- **C108**: a text label on nodes, read as numbers of four bytes: a graph with exactly one node label is
refused, if the label is shorter than `2^32`, does not begin with a zero byte, and the label tables are
smaller than `2^34` bytes. -/
theorem c108_node_label_refused {g : StaticGraph m k (List Byte) (List Byte)} (hw : m + 1 = 256 ^ 4)
    (hv : k + 1 = 256 ^ v) (hn : g.numNodes < 2 ^ 64) (he : g.numEdges < 2 ^ 64)
    (hout : SizedVec g.edgeVec) (hin : ∀ e, g.inEdgeVec = some e → SizedVec e)
    (hlab : ∀ l, g.labels = some l → l.length < 2 ^ 64) {w : World} {path : String} (d d' : Bool)
    (hf : w.files path = some ((Codec.staticGraph 4 v Programs.text Programs.text d).bytes g))
    {b : Byte} {x : List Byte} (h1 : g.nodeLabels.items = [b :: x]) (hb : b ≠ 0)
    (hx : (b :: x).length < 2 ^ 32)
    (hsize : ((Codec.setMap Programs.text).bytes g.nodeLabels).length +
      ((Codec.setMap Programs.text).bytes g.edgeLabels).length < 2 ^ 34) :
    (load 4 v d' path w : Res (Plain m k)) = .error .explicit := by
  unfold load
  rw [c108_tables _ _ hw hv hn he hout hin hlab d d' hf]
  obtain ⟨l, hl⟩ : ∃ l, g.nodeLabels = ⟨l⟩ := ⟨_, rfl⟩
  rw [hl] at h1 hsize
  simp only [SetMap.items] at h1
  subst h1
  rw [hl]
  have e : (Codec.setMap Programs.text).bytes ⟨[b :: x]⟩ =
      le 8 1 ++ (le 4 (b :: x).length ++ (le 4 ((b :: x).length / 256 ^ 4) ++ (b :: x))) := by
    rw [text_table]
    simp only [SetMap.len, List.length_singleton, List.flatMap_cons, List.flatMap_nil, List.append_nil]
    rw [text_bytes, ← List.append_assoc (le 4 _), ← le_split]
  have hz : (b :: x).length / 256 ^ 4 = 0 := Nat.div_eq_of_lt (lt_of_lt_of_eq hx (by decide))
  rw [hz] at e
  generalize hE : (Codec.setMap Programs.text).bytes g.edgeLabels = E at hsize ⊢
  have hE8 : 8 ≤ E.length := by
    rw [← hE, text_table, List.length_append, length_le]
    omega
  rw [e] at hsize ⊢
  -- the node table: one number
  have h1 : (Codec.setMap (Codec.ident (m := m) 4)).get
      ((le 8 1 ++ (le 4 (b :: x).length ++ (le 4 0 ++ (b :: x)))) ++ E) =
      some (SetMap.fromVec [Id.new ((b :: x).length % 256 ^ 4)], le 4 0 ++ ((b :: x) ++ E)) := by
    simp only [List.append_assoc]
    simp only [Codec.setMap, Codec.vec, Codec.usize, getInt_le, Option.bind_eq_bind, Option.bind_some]
    rw [show 1 % 256 ^ 8 = 0 + 1 from by decide]
    simp only [Codec.getMany, ident_get, Option.bind_eq_bind, Option.bind_some, Option.pure_def]
  rw [h1]
  simp only [Option.bind_some]
  -- the edge table: far too long
  have h4 : ((b :: x) ++ E).take 4 = b :: (x ++ E).take 3 := by simp
  have hT : (((b :: x) ++ E).take 4).length = 4 := by
    rw [List.length_take, List.length_append]
    omega
  have hsplit : le 4 0 ++ ((b :: x) ++ E) =
      le 8 (256 ^ 4 * ofLe (((b :: x) ++ E).take 4)) ++ ((b :: x) ++ E).drop 4 := by
    rw [show (8 : Nat) = 4 + 4 from rfl, le_split 4 4, Nat.mul_div_cancel_left _ (by decide)]
    have hlo : le 4 (256 ^ 4 * ofLe (((b :: x) ++ E).take 4)) = le 4 0 := by
      have : ∀ (w n : Nat), le w (256 ^ w * n) = le w 0 := by
        intro w
        induction w with
        | zero => intro n; rfl
        | succ w ih =>
          intro n
          rw [le, le, Nat.pow_succ, Nat.mul_assoc, Nat.mul_left_comm, Nat.mul_div_cancel_left _ (by decide), ih]
          simp
      exact this 4 _
    have hhi : le 4 (ofLe (((b :: x) ++ E).take 4)) = ((b :: x) ++ E).take 4 := by
      have := le_ofLe (((b :: x) ++ E).take 4)
      rwa [hT] at this
    rw [hlo, hhi, List.append_assoc, List.take_append_drop]
  have hpos : 0 < ofLe (((b :: x) ++ E).take 4) := by
    rw [h4, ofLe]
    have : b.val ≠ 0 := fun h => hb (Fin.ext h)
    omega
  have hlt := ofLe_lt (((b :: x) ++ E).take 4)
  rw [hT] at hlt
  rw [hsplit, (table_get (m := m) 4 _ _ (by
    have : (256 : Nat) ^ 4 = 2 ^ 32 := by decide
    rw [this] at hlt ⊢
    omega)).2 (by
    rw [List.length_drop]
    simp only [List.length_append, length_le] at hsize ⊢
    have : (256 : Nat) ^ 4 = 2 ^ 32 := by decide
    rw [this]
    omega)]
  rfl

set_option maxRecDepth 4000 in
/-- The graph without node labels, frozen and exported with its text labels, is taken for one with numbers
(the edge label "e" becomes the number 1); the graph with a node label "hi" is refused. -/
example : ∃ g g' r r', wide none = .ok g ∧ wide (some [104, 105]) = .ok g' ∧
    g.intoStatic = .ok r ∧ g'.intoStatic = .ok r' ∧
    r.nodeLabels.items = [] ∧ r.edgeLabels.items = [[101]] ∧ r'.nodeLabels.items = [[104, 105]] ∧
    ((Codec.setMap Programs.text).bytes r'.nodeLabels).length +
      ((Codec.setMap Programs.text).bytes r'.edgeLabels).length < 2 ^ 34 ∧
    (∃ t : Plain 4294967295 255, load 4 1 true "f"
        ((blank 500).export (.staticGraph 4 1 Programs.text Programs.text true) r "f").2 = .ok t ∧
      t.edgeLabels.items = [1]) ∧
    (load 4 1 true "f" ((blank 500).export (.staticGraph 4 1 Programs.text Programs.text true) r' "f").2 :
      Res (Plain 4294967295 255)) = .error .explicit := by
  refine ⟨_, _, _, _, rfl, rfl, rfl, rfl, by decide, by decide, by decide, by decide, ⟨_, rfl, by decide⟩, rfl⟩

end Verif.Props
