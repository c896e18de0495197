import Verif.Proof.Serde

/-! What is read from a file can be written and read again. -/

namespace Verif.Codec

variable {X Y : Type}

theorem ofLe_lt : ∀ bs : List Byte, ofLe bs < 256 ^ bs.length
  | [] => by simp [ofLe]
  | b :: bs => by
    have := ofLe_lt bs
    have := b.isLt
    rw [ofLe, List.length_cons, Nat.pow_succ]
    omega

theorem usize_lt {p : List Byte} {n : Nat} {r} (h : usize.get p = some (n, r)) : n < 2 ^ 64 := by
  simp only [usize, getInt] at h
  split at h
  · cases h
  · rename_i hl
    simp only [Option.some.injEq, Prod.mk.injEq] at h
    have := ofLe_lt (p.take 8)
    rw [h.1, List.length_take, min_eq_left (by omega)] at this
    exact lt_of_lt_of_eq this (by decide)

theorem usize_closed : usize.Closed := fun _ _ _ h => usize_round (usize_lt h)

theorem ident_closed {m w : Nat} (h : m + 1 = 256 ^ w) : (ident (m := m) w).Closed :=
  fun _ x _ _ => ident_round h x

theorem opt_closed {c : Codec X} (h : c.Closed) : (opt c).Closed := by
  intro p x r hp
  refine opt_round ?_
  rintro y rfl
  cases p with
  | nil => cases hp
  | cons b bs =>
    simp only [opt] at hp
    split at hp
    · cases hp
    · split at hp
      · simp only [Option.bind_eq_bind, Option.bind_eq_some_iff, Option.pure_def, Option.some.injEq,
          Prod.mk.injEq] at hp
        obtain ⟨a, ha, rfl, -⟩ := hp
        exact h _ _ _ ha
      · cases hp

theorem opt_some_part {c : Codec X} (hc : c.Closed) {x : X} (h : (opt c).RoundTrips (some x)) :
    c.RoundTrips x := by
  have h := h []
  have e : (opt c).bytes (some x) ++ [] = 1 :: c.bytes x := by simp [bytes, opt]
  rw [e] at h
  have e2 : (opt c).get (1 :: c.bytes x) = (c.get (c.bytes x)).bind fun p => some (some p.1, p.2) := rfl
  rw [e2] at h
  obtain ⟨a, ha, hb⟩ := Option.bind_eq_some_iff.1 h
  simp only [Option.some.injEq, Prod.mk.injEq] at hb
  rw [← hb.1]
  exact hc _ _ _ ha

theorem pair_closed {c : Codec X} {d : Codec Y} (h1 : c.Closed) (h2 : d.Closed) : (pair c d).Closed := by
  intro p x r hp
  simp only [pair, Option.bind_eq_bind, Option.bind_eq_some_iff, Option.pure_def, Option.some.injEq,
    Prod.mk.injEq] at hp
  obtain ⟨a, ha, b, hb, rfl, -⟩ := hp
  exact pair_round (h1 _ _ _ ha) (h2 _ _ _ hb)

theorem getMany_get {c : Codec X} (h : c.Closed) : ∀ n p l r, c.getMany n p = some (l, r) →
    l.length = n ∧ ∀ x ∈ l, c.RoundTrips x
  | 0, p, l, r, hp => by
    simp only [getMany, Option.some.injEq, Prod.mk.injEq] at hp
    obtain ⟨rfl, -⟩ := hp
    simp
  | n + 1, p, l, r, hp => by
    simp only [getMany, Option.bind_eq_bind, Option.bind_eq_some_iff, Option.pure_def, Option.some.injEq,
      Prod.mk.injEq] at hp
    obtain ⟨a, ha, b, hb, rfl, -⟩ := hp
    obtain ⟨h1, h2⟩ := getMany_get h n _ _ _ hb
    refine ⟨by simp [h1], fun x hx => ?_⟩
    rcases List.mem_cons.1 hx with rfl | hx
    · exact h _ _ _ ha
    · exact h2 x hx

theorem vec_get {c : Codec X} (h : c.Closed) {p l r} (hp : (vec c).get p = some (l, r)) :
    l.length < 2 ^ 64 ∧ ∀ x ∈ l, c.RoundTrips x := by
  simp only [vec, Option.bind_eq_bind, Option.bind_eq_some_iff] at hp
  obtain ⟨a, ha, hb⟩ := hp
  obtain ⟨h1, h2⟩ := getMany_get h _ _ _ _ hb
  exact ⟨by rw [h1]; exact usize_lt ha, h2⟩

theorem vec_closed {c : Codec X} (h : c.Closed) : (vec c).Closed := fun _ _ _ hp =>
  vec_round (vec_get h hp).1 (vec_get h hp).2

/-- A property every insertion keeps holds of what is collected. -/
theorem foldl_keeps {add : List Y → X → List Y} {P : List Y → Prop} (h : ∀ l x, P l → P (add l x)) :
    ∀ (xs : List X) (l : List Y), P l → P (xs.foldl add l)
  | [], _, hl => hl
  | x :: xs, l, hl => foldl_keeps h xs _ (h l x hl)

/-- The entries of a collection come from what was inserted. -/
theorem foldl_from {add : List X → X → List X} (h : ∀ l x, ∀ y ∈ add l x, y ∈ l ∨ y = x)
    (hlen : ∀ l x, (add l x).length ≤ l.length + 1) :
    ∀ (xs l : List X), (xs.foldl add l).length ≤ l.length + xs.length ∧
      ∀ y ∈ xs.foldl add l, y ∈ l ∨ y ∈ xs
  | [], l => ⟨by simp, fun y hy => .inl hy⟩
  | x :: xs, l => by
    obtain ⟨h1, h2⟩ := foldl_from h hlen xs (add l x)
    refine ⟨?_, fun y hy => ?_⟩
    · have := hlen l x
      rw [List.foldl_cons, List.length_cons]
      omega
    · rcases h2 y hy with hy | hy
      · rcases h l x y hy with hy | rfl
        · exact .inl hy
        · exact .inr (by simp)
      · exact .inr (by simp [hy])

section Maps

variable {K V : Type}

theorem mem_set [DecidableEq K] : ∀ (l : List (K × V)) (k : K) (v : V) (y), y ∈ AL.set l k v →
    y ∈ l ∨ y = (k, v) := by
  intro l k v y h
  unfold AL.set at h
  obtain ⟨p, hp, rfl⟩ := List.mem_map.1 h
  split
  · rename_i e
    exact .inr (by rw [e])
  · exact .inl hp

theorem mem_hinsert [DecidableEq K] (l : List (K × V)) (p y : K × V) (h : y ∈ AL.hinsert l p.1 p.2) :
    y ∈ l ∨ y = p := by
  unfold AL.hinsert at h
  split at h
  · exact mem_set l p.1 p.2 y h
  · simpa using h

theorem length_hinsert [DecidableEq K] (l : List (K × V)) (p : K × V) :
    (AL.hinsert l p.1 p.2).length ≤ l.length + 1 := by
  unfold AL.hinsert
  split <;> simp [AL.set]

theorem mem_binsert [LinearOrder K] : ∀ (l : List (K × V)) (p y : K × V), y ∈ AL.binsert l p.1 p.2 →
    y ∈ l ∨ y = p
  | [], p, y, h => .inr (by simpa [AL.binsert] using h)
  | (a, w) :: l, p, y, h => by
    rw [AL.binsert] at h
    split at h
    · rcases List.mem_cons.1 h with h | h
      · exact .inr h
      · exact .inl h
    · split at h
      · rcases List.mem_cons.1 h with h | h
        · exact .inr h
        · exact .inl (by simp [h])
      · rcases List.mem_cons.1 h with h | h
        · exact .inl (by simp [h])
        · rcases mem_binsert l p y h with h | h
          · exact .inl (by simp [h])
          · exact .inr h

theorem length_binsert [LinearOrder K] : ∀ (l : List (K × V)) (p : K × V),
    (AL.binsert l p.1 p.2).length ≤ l.length + 1
  | [], p => by simp [AL.binsert]
  | (a, w) :: l, p => by
    rw [AL.binsert]
    split
    · simp
    · split
      · simp
      · have := length_binsert l p
        simp only [List.length_cons]; omega

theorem length_sinsert [LinearOrder K] : ∀ (l : List K) (k : K), (BSet.sinsert l k).length ≤ l.length + 1
  | [], p => by simp [BSet.sinsert]
  | a :: l, k => by
    rw [BSet.sinsert]
    split
    · simp
    · split
      · simp
      · have := length_sinsert l k
        simp only [List.length_cons]; omega

theorem collect_get {c : Codec X} {add : List Y → X → List Y} {entries : List Y → List X} {p y r}
    (h : (collect c add entries).get p = some (y, r)) : ∃ xs, (vec c).get p = some (xs, r) ∧ y = xs.foldl add [] := by
  simp only [collect, Option.bind_eq_bind, Option.bind_eq_some_iff, Option.pure_def, Option.some.injEq,
    Prod.mk.injEq] at h
  obtain ⟨a, ha, rfl, rfl⟩ := h
  exact ⟨a.1, ha, rfl⟩

theorem pair_parts {c : Codec K} {d : Codec V} {p : K × V} (h : (pair c d).RoundTrips p)
    (hc : c.Closed) (hd : d.Closed) : c.RoundTrips p.1 ∧ d.RoundTrips p.2 := by
  have := h []
  simp only [pair, Option.bind_eq_bind, Option.bind_eq_some_iff, Option.pure_def, Option.some.injEq,
    Prod.mk.injEq] at this
  obtain ⟨a, ha, b, hb, h1, -⟩ := this
  rw [← h1]
  exact ⟨hc _ _ _ ha, hd _ _ _ hb⟩

theorem hmap_get [DecidableEq K] {c : Codec K} {d : Codec V} (hc : c.Closed) (hd : d.Closed) {p l r}
    (h : (hmap c d).get p = some (l, r)) :
    l.length < 2 ^ 64 ∧ (∀ p ∈ l, c.RoundTrips p.1 ∧ d.RoundTrips p.2) ∧ (AL.keys l).Nodup := by
  obtain ⟨xs, h1, rfl⟩ := collect_get h
  obtain ⟨h2, h3⟩ := vec_get (pair_closed hc hd) h1
  obtain ⟨h4, h5⟩ := foldl_from (fun l p y h => mem_hinsert l p y h) length_hinsert xs []
  refine ⟨lt_of_le_of_lt h4 (by simpa using h2), fun p hp => ?_, ?_⟩
  · exact pair_parts (h3 p ((h5 p hp).resolve_left (by simp))) hc hd
  · exact foldl_keeps (P := fun l => (AL.keys l).Nodup) (fun l x hl => AL.keys_hinsert_nodup hl x.1 x.2) xs []
      (by simp [AL.keys])

theorem bmap_get [LinearOrder K] {c : Codec K} {d : Codec V} (hc : c.Closed) (hd : d.Closed) {p l r}
    (h : (bmap c d).get p = some (l, r)) :
    l.length < 2 ^ 64 ∧ (∀ p ∈ l, c.RoundTrips p.1 ∧ d.RoundTrips p.2) ∧
      (AL.keys l).Pairwise (· < ·) := by
  obtain ⟨xs, h1, rfl⟩ := collect_get h
  obtain ⟨h2, h3⟩ := vec_get (pair_closed hc hd) h1
  obtain ⟨h4, h5⟩ := foldl_from (fun l p y h => mem_binsert l p y h) length_binsert xs []
  refine ⟨lt_of_le_of_lt h4 (by simpa using h2), fun p hp => ?_, ?_⟩
  · exact pair_parts (h3 p ((h5 p hp).resolve_left (by simp))) hc hd
  · exact foldl_keeps (P := fun l => (AL.keys l).Pairwise (· < ·))
      (fun l x hl => AL.sorted_binsert hl x.1 x.2) xs [] (by simp [AL.keys])

theorem bset_get [LinearOrder K] {c : Codec K} (hc : c.Closed) {p l r}
    (h : (bset c).get p = some (l, r)) :
    l.length < 2 ^ 64 ∧ (∀ p ∈ l, c.RoundTrips p) ∧ l.Pairwise (· < ·) := by
  obtain ⟨xs, h1, rfl⟩ := collect_get h
  obtain ⟨h2, h3⟩ := vec_get hc h1
  obtain ⟨h4, h5⟩ := foldl_from (add := BSet.sinsert)
    (fun l p y h => ((BSet.mem_sinsert l p y).1 h).symm) length_sinsert xs []
  refine ⟨lt_of_le_of_lt h4 (by simpa using h2), fun p hp => ?_, ?_⟩
  · exact h3 p ((h5 p hp).resolve_left (by simp))
  · exact foldl_keeps (P := fun l => l.Pairwise (· < ·)) (fun l x hl => BSet.sorted_sinsert hl x) xs []
      List.Pairwise.nil

end Maps

theorem setMap_get [DecidableEq X] {c : Codec X} (hc : c.Closed) {p s r}
    (h : (setMap c).get p = some (s, r)) :
    s.labels.length < 2 ^ 64 ∧ (∀ x ∈ s.labels, c.RoundTrips x) ∧ s.labels.Nodup := by
  simp only [setMap, Option.bind_eq_bind, Option.bind_eq_some_iff, Option.pure_def, Option.some.injEq,
    Prod.mk.injEq] at h
  obtain ⟨a, ha, rfl, -⟩ := h
  obtain ⟨h2, h3⟩ := vec_get hc ha
  have hn := SetMap.fromVec_nodup a.1
  refine ⟨lt_of_le_of_lt ?_ h2, fun x hx => h3 x ((SetMap.mem_fromVec _ _).1 hx), hn⟩
  exact (List.subperm_of_subset hn (fun x hx => (SetMap.mem_fromVec _ _).1 hx)).length_le

theorem setMap_closed [DecidableEq X] {c : Codec X} (hc : c.Closed) : (setMap c).Closed := fun _ _ _ h =>
  setMap_round (setMap_get hc h).1 (setMap_get hc h).2.1 (setMap_get hc h).2.2

theorem vecMap_closed {c : Codec X} (hc : c.Closed) : (vecMap c).Closed := by
  intro p s r h
  simp only [vecMap, Option.bind_eq_bind, Option.bind_eq_some_iff, Option.pure_def, Option.some.injEq,
    Prod.mk.injEq] at h
  obtain ⟨a, ha, rfl, -⟩ := h
  exact vecMap_round (vec_get hc ha).1 (vec_get hc ha).2

variable {m k w v : Nat} {NL EL : Type} [DecidableEq NL] [DecidableEq EL]

theorem nodeMap_closed (hw : m + 1 = 256 ^ w) (hv : k + 1 = 256 ^ v) :
    (nodeMap (m := m) (k := k) w v).Closed := by
  intro p x r h
  simp only [nodeMap, Option.bind_eq_bind, Option.bind_eq_some_iff, Option.pure_def, Option.some.injEq,
    Prod.mk.injEq] at h
  obtain ⟨a, ha, b, hb, c, hc, d, hd, rfl, -⟩ := h
  obtain ⟨c1, -, c3⟩ := bmap_get (ident_closed hw) (opt_closed (ident_closed hv)) hc
  obtain ⟨d1, -, d3⟩ := bset_get (ident_closed hw) hd
  exact nodeMap_round hw hv c1 d1 c3 d3

theorem graphMap_closed (hw : m + 1 = 256 ^ w) (hv : k + 1 = 256 ^ v) {nl : Codec NL} {el : Codec EL}
    (hnl : nl.Closed) (hel : el.Closed) (d : Bool) : (graphMap (m := m) (k := k) w v nl el d).Closed := by
  intro p x r h r'
  simp only [graphMap, Option.bind_eq_bind, Option.bind_eq_some_iff, Option.pure_def, Option.some.injEq,
    Prod.mk.injEq] at h
  obtain ⟨a, ha, b, hb, c, hc, e, he, f, hf, rfl, -⟩ := h
  obtain ⟨a1, a2, a3⟩ := hmap_get (ident_closed hw) (nodeMap_closed hw hv) ha
  obtain ⟨c1, c2, c3⟩ := setMap_get hnl hc
  obtain ⟨e1, e2, e3⟩ := setMap_get hel he
  exact graphMap_round (g := ⟨d, a.1, b.1, c.1, e.1, f.1⟩) hw c2 e2 a1 (fun p hp => (a2 p hp).2) a3
    (usize_lt hb) c1 c3 e1 e3 d r'

theorem edgeVec_of_parts {x : EdgeVec m k} (h1 : (vec usize).RoundTrips x.offsets)
    (h2 : (vec (ident w)).RoundTrips x.edges) (h3 : (opt (vec (ident v))).RoundTrips x.labels) :
    (edgeVec w v).RoundTrips x := by
  intro r'
  have e : (edgeVec w v).bytes x = (vec usize).bytes x.offsets ++ ((vec (ident w)).bytes x.edges ++
      (opt (vec (ident v))).bytes x.labels) := by
    simp [bytes, edgeVec]
  rw [e]
  simp only [List.append_assoc]
  simp only [edgeVec, Option.bind_eq_bind]
  rw [step_round h1, step_round h2, step_round h3]
  rfl

theorem edgeVec_parts (hw : m + 1 = 256 ^ w) (hv : k + 1 = 256 ^ v) {p r} {x : EdgeVec m k}
    (h : (edgeVec w v).get p = some (x, r)) : (vec usize).RoundTrips x.offsets ∧
      (vec (ident w)).RoundTrips x.edges ∧ (opt (vec (ident v))).RoundTrips x.labels := by
  simp only [edgeVec, Option.bind_eq_bind, Option.bind_eq_some_iff, Option.pure_def, Option.some.injEq,
    Prod.mk.injEq] at h
  obtain ⟨a, ha, b, hb, c, hc, rfl, -⟩ := h
  exact ⟨vec_closed usize_closed _ _ _ ha, vec_closed (ident_closed hw) _ _ _ hb,
    opt_closed (vec_closed (ident_closed hv)) _ _ _ hc⟩

theorem edgeVec_closed (hw : m + 1 = 256 ^ w) (hv : k + 1 = 256 ^ v) :
    (edgeVec (m := m) (k := k) w v).Closed := by
  intro p x r h
  obtain ⟨h1, h2, h3⟩ := edgeVec_parts hw hv h
  exact edgeVec_of_parts h1 h2 h3

theorem edgeVec_unlabelled (hw : m + 1 = 256 ^ w) (hv : k + 1 = 256 ^ v) {x : EdgeVec m k}
    (h : (edgeVec w v).RoundTrips x) : (edgeVec w v).RoundTrips x.removeLabels := by
  have := h []
  obtain ⟨h1, h2, -⟩ := edgeVec_parts hw hv this
  exact edgeVec_of_parts h1 h2 (opt_round (by rintro y ⟨⟩))

/-- Every field of a frozen graph can be written and read again. -/
structure Writable (w v : Nat) (nl : Codec NL) (el : Codec EL) (x : StaticGraph m k NL EL) : Prop where
  numNodes : x.numNodes < 2 ^ 64
  numEdges : x.numEdges < 2 ^ 64
  outVec : (edgeVec w v).RoundTrips x.edgeVec
  inVec : (opt (edgeVec w v)).RoundTrips x.inEdgeVec
  labels : (opt (vec (ident v))).RoundTrips x.labels
  nodeLabels : (setMap nl).RoundTrips x.nodeLabels
  edgeLabels : (setMap el).RoundTrips x.edgeLabels

theorem Writable.round {nl : Codec NL} {el : Codec EL} {x : StaticGraph m k NL EL}
    (h : Writable w v nl el x) : (staticGraph w v nl el x.directed).RoundTrips x := by
  intro r'
  have E : (staticGraph w v nl el x.directed).bytes x =
      usize.bytes x.numNodes ++ (usize.bytes x.numEdges ++ ((Codec.edgeVec w v).bytes x.edgeVec ++
        ((opt (Codec.edgeVec w v)).bytes x.inEdgeVec ++ ((opt (vec (ident v))).bytes x.labels ++
          ((setMap nl).bytes x.nodeLabels ++ (setMap el).bytes x.edgeLabels))))) := by
    simp [bytes, staticGraph]
  rw [E]
  simp only [List.append_assoc]
  simp only [staticGraph, Option.bind_eq_bind]
  rw [step_round (usize_round h.numNodes), step_round (usize_round h.numEdges), step_round h.outVec,
    step_round h.inVec, step_round h.labels, step_round h.nodeLabels, step_round h.edgeLabels]
  rfl

theorem staticGraph_writable (hw : m + 1 = 256 ^ w) (hv : k + 1 = 256 ^ v) {nl : Codec NL} {el : Codec EL}
    (hnl : nl.Closed) (hel : el.Closed) {d : Bool} {p r} {x : StaticGraph m k NL EL}
    (h : (staticGraph w v nl el d).get p = some (x, r)) : x.directed = d ∧ Writable w v nl el x := by
  simp only [staticGraph, Option.bind_eq_bind, Option.bind_eq_some_iff, Option.pure_def, Option.some.injEq,
    Prod.mk.injEq] at h
  obtain ⟨a, ha, b, hb, c, hc, e, he, f, hf, g, hg, q, hq, rfl, -⟩ := h
  exact ⟨rfl, usize_lt ha, usize_lt hb, edgeVec_closed hw hv _ _ _ hc, opt_closed (edgeVec_closed hw hv) _ _ _ he,
    opt_closed (vec_closed (ident_closed hv)) _ _ _ hf, setMap_closed hnl _ _ _ hg,
    setMap_closed hel _ _ _ hq⟩

theorem staticGraph_closed (hw : m + 1 = 256 ^ w) (hv : k + 1 = 256 ^ v) {nl : Codec NL} {el : Codec EL}
    (hnl : nl.Closed) (hel : el.Closed) (d : Bool) :
    (staticGraph (m := m) (k := k) w v nl el d).Closed := by
  intro p x r h
  obtain ⟨rfl, h2⟩ := staticGraph_writable hw hv hnl hel h
  exact h2.round

theorem Writable.removeEdgeLabels (hw : m + 1 = 256 ^ w) (hv : k + 1 = 256 ^ v) {nl : Codec NL}
    {el : Codec EL} {x : StaticGraph m k NL EL} (h : Writable w v nl el x) :
    Writable w v nl el x.removeEdgeLabels := by
  refine ⟨h.numNodes, h.numEdges, edgeVec_unlabelled hw hv h.outVec, opt_round ?_, h.labels, h.nodeLabels,
    setMap_round (by simp [StaticGraph.removeEdgeLabels, SetMap.empty]) (by simp [StaticGraph.removeEdgeLabels, SetMap.empty])
      (by simp [StaticGraph.removeEdgeLabels, SetMap.empty])⟩
  rintro y hy
  have hy : x.inEdgeVec.map (fun e => e.removeLabels) = some y := hy
  obtain ⟨z, hz, rfl⟩ := Option.map_eq_some_iff.1 hy
  refine edgeVec_unlabelled hw hv ?_
  exact opt_some_part (edgeVec_closed hw hv) (hz ▸ h.inVec)

theorem Writable.removeLabels (hw : m + 1 = 256 ^ w) (hv : k + 1 = 256 ^ v) {nl : Codec NL}
    {el : Codec EL} {x : StaticGraph m k NL EL} (h : Writable w v nl el x) :
    Writable w v nl el x.removeLabels := by
  have := h.removeEdgeLabels hw hv
  exact ⟨h.numNodes, h.numEdges, this.outVec, this.inVec, opt_round (by rintro y ⟨⟩),
    setMap_round (by simp [StaticGraph.removeNodeLabels, StaticGraph.removeLabels, StaticGraph.removeEdgeLabels, SetMap.empty])
      (by simp [StaticGraph.removeNodeLabels, StaticGraph.removeLabels, StaticGraph.removeEdgeLabels, SetMap.empty])
      (by simp [StaticGraph.removeNodeLabels, StaticGraph.removeLabels, StaticGraph.removeEdgeLabels, SetMap.empty]),
    this.edgeLabels⟩

end Verif.Codec
