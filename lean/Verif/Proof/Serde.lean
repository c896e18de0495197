import Verif.Spec.Serde
import Verif.Proof.LabelMap
import Verif.Proof.Collections

/-! The byte formats: reading back what was written. -/

namespace Verif

theorem length_le : ∀ w n, (le w n).length = w
  | 0, _ => rfl
  | w + 1, n => by simp [le, length_le w]

theorem ofLe_le : ∀ w n, ofLe (le w n) = n % 256 ^ w
  | 0, n => by simp [le, ofLe, Nat.mod_one]
  | w + 1, n => by
    rw [le, ofLe, ofLe_le w, Nat.pow_succ, Nat.mul_comm (256 ^ w), Nat.mod_mul]
    rfl

theorem ofLe_lt : ∀ bs : List Byte, ofLe bs < 256 ^ bs.length
  | [] => by simp [ofLe]
  | b :: bs => by
    have := ofLe_lt bs
    have hb := b.isLt
    rw [ofLe, List.length_cons, Nat.pow_succ]
    omega

theorem le_ofLe : ∀ bs : List Byte, le bs.length (ofLe bs) = bs
  | [] => rfl
  | b :: bs => by
    have hb := b.isLt
    rw [List.length_cons, le, ofLe]
    have h1 : (b.val + 256 * ofLe bs) / 256 = ofLe bs := by omega
    rw [h1, le_ofLe bs]
    congr 1
    apply Fin.ext
    show (b.val + 256 * ofLe bs) % 256 = b.val
    omega

theorem getInt_le (w n : Nat) (r : List Byte) : getInt w (le w n ++ r) = some (n % 256 ^ w, r) := by
  unfold getInt
  rw [List.length_append, length_le, if_neg (by omega), List.take_left' (length_le w n),
    List.drop_left' (length_le w n), ofLe_le]

theorem getInt_stable (w : Nat) {p q : List Byte} {x r} (h : getInt w p = some (x, r)) :
    getInt w (p ++ q) = some (x, r ++ q) := by
  unfold getInt at h ⊢
  by_cases hl : p.length < w
  · rw [if_pos hl] at h; cases h
  · rw [if_neg hl] at h
    rw [List.length_append, if_neg (by omega), List.take_append_of_le_length (by omega),
      List.drop_append_of_le_length (by omega)]
    simp only [Option.some.injEq, Prod.mk.injEq] at h
    rw [h.1, h.2]

namespace Codec

variable {X Y : Type}

theorem bytes_pair (c : Codec X) (d : Codec Y) (p : X × Y) :
    (pair c d).bytes p = c.bytes p.1 ++ d.bytes p.2 := by simp [bytes, pair]

theorem usize_round {n : Nat} (h : n < 2 ^ 64) : usize.RoundTrips n := by
  intro r
  simp only [bytes, usize, List.flatten_cons, List.flatten_nil, List.append_nil]
  rw [getInt_le, Nat.mod_eq_of_lt (lt_of_lt_of_eq h (by decide))]

theorem usize_stable : usize.Stable := fun _ _ _ _ h => getInt_stable 8 h

theorem ident_round {m w : Nat} (h : m + 1 = 256 ^ w) (x : Id m) : (ident w).RoundTrips x := by
  intro r
  simp only [bytes, ident, List.flatten_cons, List.flatten_nil, List.append_nil]
  rw [getInt_le]
  simp only [Option.bind_eq_bind, Option.bind_some, Option.pure_def, Option.some.injEq,
    Prod.mk.injEq, and_true]
  apply Fin.ext
  show (x.val % 256 ^ w) % (m + 1) = x.val
  rw [← h, Nat.mod_mod, Nat.mod_eq_of_lt x.isLt]

theorem bind_stable {f : List Byte → Option (X × List Byte)} {k : X → List Byte → Option (Y × List Byte)}
    (hf : ∀ p q x r, f p = some (x, r) → f (p ++ q) = some (x, r ++ q))
    (hk : ∀ x p q y r, k x p = some (y, r) → k x (p ++ q) = some (y, r ++ q)) (p q : List Byte) (y r) :
    ((f p).bind fun a => k a.1 a.2) = some (y, r) →
      ((f (p ++ q)).bind fun a => k a.1 a.2) = some (y, r ++ q) := by
  cases h : f p with
  | none => simp
  | some a =>
    intro hy
    rw [hf p q a.1 a.2 (by rw [h])]
    exact hk _ _ _ _ _ hy

theorem map_stable {f : List Byte → Option (X × List Byte)} {e : X → Y}
    (hf : ∀ p q x r, f p = some (x, r) → f (p ++ q) = some (x, r ++ q)) (p q : List Byte) (y r)
    (h : ((f p).bind fun a => some (e a.1, a.2)) = some (y, r)) :
      ((f (p ++ q)).bind fun a => some (e a.1, a.2)) = some (y, r ++ q) := by
  cases hp : f p with
  | none => simp [hp] at h
  | some a =>
    rw [hf p q a.1 a.2 (by rw [hp])]
    simp only [hp, Option.bind_some, Option.some.injEq, Prod.mk.injEq] at h ⊢
    exact ⟨h.1, by rw [h.2]⟩

theorem ident_stable {m w : Nat} : (ident (m := m) w).Stable := fun p q x r h =>
  map_stable (fun _ _ _ _ h => getInt_stable w h) p q x r h

theorem opt_round {c : Codec X} {o : Option X} (h : ∀ x ∈ o, c.RoundTrips x) : (opt c).RoundTrips o := by
  intro r
  cases o with
  | none => simp [bytes, opt]
  | some x =>
    have := h x rfl r
    simp only [bytes] at this
    simp [bytes, opt, this]

theorem opt_stable {c : Codec X} (h : c.Stable) : (opt c).Stable := by
  intro p q x r hp
  cases p with
  | nil => simp [opt] at hp
  | cons b bs =>
    simp only [opt, List.cons_append] at hp ⊢
    by_cases h0 : b = 0
    · rw [if_pos h0] at hp ⊢
      simp only [Option.some.injEq, Prod.mk.injEq] at hp ⊢
      exact ⟨hp.1, by rw [hp.2]⟩
    · rw [if_neg h0] at hp ⊢
      by_cases h1 : b = 1
      · rw [if_pos h1] at hp ⊢
        exact map_stable h bs q x r hp
      · rw [if_neg h1] at hp; cases hp

theorem pair_round {c : Codec X} {d : Codec Y} {p : X × Y} (h1 : c.RoundTrips p.1) (h2 : d.RoundTrips p.2) :
    (pair c d).RoundTrips p := by
  intro r
  rw [bytes_pair, List.append_assoc]
  simp only [pair, Option.bind_eq_bind]
  rw [h1, Option.bind_some, h2]
  rfl

theorem pair_stable {c : Codec X} {d : Codec Y} (h1 : c.Stable) (h2 : d.Stable) : (pair c d).Stable := by
  intro p q x r h
  exact bind_stable (k := fun a s => (d.get s).bind fun b => some ((a, b.1), b.2)) h1
    (fun a p q y r h => map_stable (e := fun b => (a, b)) h2 p q y r h) p q x r h

theorem getMany_round {c : Codec X} : ∀ {l : List X}, (∀ x ∈ l, c.RoundTrips x) → ∀ r,
    c.getMany l.length ((l.flatMap c.put).flatten ++ r) = some (l, r)
  | [], _, r => by simp [getMany]
  | x :: l, h, r => by
    have h1 := h x (by simp) ((l.flatMap c.put).flatten ++ r)
    rw [List.flatMap_cons, List.flatten_append, List.append_assoc]
    simp only [bytes] at h1
    simp only [List.length_cons, getMany, h1, Option.bind_eq_bind, Option.bind_some, Option.pure_def]
    rw [getMany_round (fun y hy => h y (by simp [hy]))]
    rfl

theorem getMany_stable {c : Codec X} (h : c.Stable) : ∀ n p q x r, c.getMany n p = some (x, r) →
    c.getMany n (p ++ q) = some (x, r ++ q)
  | 0, p, q, x, r, hp => by
    simp only [getMany, Option.some.injEq, Prod.mk.injEq] at hp ⊢
    exact ⟨hp.1, by rw [hp.2]⟩
  | n + 1, p, q, x, r, hp =>
    bind_stable 
      (k := fun a s => (getMany c n s).bind fun b => some (a :: b.1, b.2)) h
      (fun a p q y r h' => map_stable (e := fun b => a :: b) (getMany_stable h n) p q y r h') p q x r hp

theorem vec_round {c : Codec X} {l : List X} (hl : l.length < 2 ^ 64) (h : ∀ x ∈ l, c.RoundTrips x) :
    (vec c).RoundTrips l := by
  intro r
  have h1 := usize_round hl ((l.flatMap c.put).flatten ++ r)
  simp only [bytes] at h1
  simp only [bytes, vec, List.flatten_append, List.append_assoc, h1, Option.bind_eq_bind, Option.bind_some]
  exact getMany_round h r

theorem vec_stable {c : Codec X} (h : c.Stable) : (vec c).Stable := fun p q x r hp =>
  bind_stable (k := fun a s => c.getMany a s) usize_stable
    (fun a => getMany_stable h a) p q x r hp

theorem collect_round {c : Codec X} {add : List Y → X → List Y} {entries : List Y → List X} {l : List Y}
    (hl : (vec c).RoundTrips (entries l)) (h : (entries l).foldl add [] = l) :
    (collect c add entries).RoundTrips l := by
  intro r
  have h1 := hl r
  simp only [bytes] at h1
  simp [collect, bytes, h1, h]

theorem collect_stable {c : Codec X} {add : List Y → X → List Y} {entries : List Y → List X}
    (h : c.Stable) : (collect c add entries).Stable := fun p q x r hp =>
  map_stable (e := fun l : List X => l.foldl add []) (vec_stable h) p q x r hp

section Maps

variable {K V : Type}

theorem foldl_hinsert [DecidableEq K] : ∀ (l acc : List (K × V)), (AL.keys (acc ++ l)).Nodup →
    l.foldl (fun l p => AL.hinsert l p.1 p.2) acc = acc ++ l
  | [], acc, _ => by simp
  | p :: l, acc, h => by
    have hp : AL.get acc p.1 = none := by
      rw [AL.get_eq_none_iff]
      intro hm
      unfold AL.keys at h hm
      rw [List.map_append, List.nodup_append] at h
      exact h.2.2 _ hm _ (by simp) rfl
    have e : AL.hinsert acc p.1 p.2 = acc ++ [p] := by simp [AL.hinsert, hp]
    rw [List.foldl_cons, e, foldl_hinsert l (acc ++ [p]) (by simpa using h)]
    simp

theorem binsert_last [LinearOrder K] : ∀ (l : List (K × V)) (k : K) (v : V), (∀ a ∈ AL.keys l, a < k) →
    AL.binsert l k v = l ++ [(k, v)]
  | [], _, _, _ => rfl
  | (a, w) :: l, k, v, h => by
    have ha : a < k := h a (by simp [AL.keys])
    rw [AL.binsert, if_neg (not_lt.2 ha.le), if_neg ha.ne',
      binsert_last l k v (fun b hb => h b (by simp only [AL.keys, List.map_cons, List.mem_cons]; exact .inr hb))]
    rfl

theorem foldl_binsert [LinearOrder K] : ∀ (l acc : List (K × V)), (AL.keys (acc ++ l)).Pairwise (· < ·) →
    l.foldl (fun l p => AL.binsert l p.1 p.2) acc = acc ++ l
  | [], acc, _ => by simp
  | p :: l, acc, h => by
    have e : AL.binsert acc p.1 p.2 = acc ++ [p] := by
      apply binsert_last
      intro a ha
      unfold AL.keys at h ha
      rw [List.map_append, List.pairwise_append] at h
      exact h.2.2 a ha _ (by simp)
    rw [List.foldl_cons, e, foldl_binsert l (acc ++ [p]) (by simpa using h)]
    simp

theorem sinsert_last [LinearOrder K] : ∀ (l : List K) (k : K), (∀ a ∈ l, a < k) →
    BSet.sinsert l k = l ++ [k]
  | [], _, _ => rfl
  | a :: l, k, h => by
    have ha : a < k := h a (by simp)
    rw [BSet.sinsert, if_neg (not_lt.2 ha.le), if_neg ha.ne', sinsert_last l k (fun b hb => h b (by simp [hb]))]
    rfl

theorem foldl_sinsert [LinearOrder K] : ∀ (l acc : List K), (acc ++ l).Pairwise (· < ·) →
    l.foldl BSet.sinsert acc = acc ++ l
  | [], acc, _ => by simp
  | p :: l, acc, h => by
    have e : BSet.sinsert acc p = acc ++ [p] := by
      apply sinsert_last
      intro a ha
      rw [List.pairwise_append] at h
      exact h.2.2 a ha _ (by simp)
    rw [List.foldl_cons, e, foldl_sinsert l (acc ++ [p]) (by simpa using h)]
    simp

theorem hmap_round [DecidableEq K] {c : Codec K} {d : Codec V} {l : List (K × V)} (hl : l.length < 2 ^ 64)
    (h : ∀ p ∈ l, c.RoundTrips p.1 ∧ d.RoundTrips p.2) (hn : (AL.keys l).Nodup) :
    (hmap c d).RoundTrips l :=
  collect_round (vec_round hl fun p hp => pair_round (h p hp).1 (h p hp).2)
    (by simpa using foldl_hinsert l [] (by simpa using hn))

theorem bmap_round [LinearOrder K] {c : Codec K} {d : Codec V} {l : List (K × V)} (hl : l.length < 2 ^ 64)
    (h : ∀ p ∈ l, c.RoundTrips p.1 ∧ d.RoundTrips p.2) (hn : (AL.keys l).Pairwise (· < ·)) :
    (bmap c d).RoundTrips l :=
  collect_round (vec_round hl fun p hp => pair_round (h p hp).1 (h p hp).2)
    (by simpa using foldl_binsert l [] (by simpa using hn))

theorem bset_round [LinearOrder K] {c : Codec K} {l : List K} (hl : l.length < 2 ^ 64)
    (h : ∀ p ∈ l, c.RoundTrips p) (hn : l.Pairwise (· < ·)) : (bset c).RoundTrips l :=
  collect_round (vec_round hl h) (by simpa using foldl_sinsert l [] (by simpa using hn))

end Maps

theorem setMap_round [DecidableEq X] {c : Codec X} {s : SetMap X} (hl : s.labels.length < 2 ^ 64)
    (h : ∀ x ∈ s.labels, c.RoundTrips x) (hn : s.labels.Nodup) : (setMap c).RoundTrips s := by
  intro r
  have h1 := vec_round hl h r
  simp only [bytes] at h1
  simp [setMap, bytes, h1, SetMap.fromVec_of_nodup hn]

theorem setMap_stable [DecidableEq X] {c : Codec X} (h : c.Stable) : (setMap c).Stable :=
  fun p q x r hp => map_stable (e := SetMap.fromVec) (vec_stable h) p q x r hp

theorem vecMap_round {c : Codec X} {s : VecMap X} (hl : s.labels.length < 2 ^ 64)
    (h : ∀ x ∈ s.labels, c.RoundTrips x) : (vecMap c).RoundTrips s := by
  intro r
  have h1 := vec_round hl h r
  simp only [bytes] at h1
  simp [vecMap, bytes, h1]

theorem vecMap_stable {c : Codec X} (h : c.Stable) : (vecMap c).Stable :=
  fun p q x r hp => map_stable (e := VecMap.mk) (vec_stable h) p q x r hp

/-- Reading in two steps. -/
theorem step_round {c : Codec X} {x : X} (h : c.RoundTrips x) (k : X × List Byte → Option (Y × List Byte))
    (r : List Byte) : ((c.get (c.bytes x ++ r)).bind k) = k (x, r) := by rw [h r]; rfl

variable {m k w v : Nat} {NL EL : Type} [DecidableEq NL] [DecidableEq EL]

theorem nodeMap_round {n : NodeMap m k} (hw : m + 1 = 256 ^ w) (hv : k + 1 = 256 ^ v)
    (h1 : n.neighbors.length < 2 ^ 64) (h2 : n.inNeighbors.length < 2 ^ 64)
    (h3 : (AL.keys n.neighbors).Pairwise (· < ·)) (h4 : n.inNeighbors.Pairwise (· < ·)) :
    (nodeMap w v).RoundTrips n := by
  intro r
  have e : (nodeMap w v).bytes n = (ident w).bytes n.id ++ ((opt (ident v)).bytes n.label ++
      ((bmap (ident w) (opt (ident v))).bytes n.neighbors ++ (bset (ident w)).bytes n.inNeighbors)) := by
    simp [bytes, nodeMap]
  rw [e]
  simp only [List.append_assoc]
  simp only [nodeMap, Option.bind_eq_bind]
  rw [step_round (ident_round hw _), step_round (opt_round fun x _ => ident_round hv x),
    step_round (bmap_round h1 (fun p _ => ⟨ident_round hw _, opt_round fun x _ => ident_round hv x⟩) h3),
    step_round (bset_round h2 (fun p _ => ident_round hw _) h4)]
  rfl

theorem nodeMap_stable : (nodeMap (m := m) (k := k) w v).Stable := by
  intro p q x r h
  simp only [nodeMap, Option.bind_eq_bind, Option.bind_eq_some_iff] at h ⊢
  obtain ⟨a, ha, b, hb, c, hc, d, hd, hz⟩ := h
  simp only [Option.pure_def, Option.some.injEq, Prod.mk.injEq] at hz
  exact ⟨(a.1, a.2 ++ q), ident_stable _ _ _ _ ha,
    (b.1, b.2 ++ q), opt_stable ident_stable _ _ _ _ hb,
    (c.1, c.2 ++ q), collect_stable (pair_stable ident_stable (opt_stable ident_stable)) _ _ _ _ hc,
    (d.1, d.2 ++ q), collect_stable ident_stable _ _ _ _ hd,
    by simp only [Option.pure_def, Option.some.injEq, Prod.mk.injEq]; exact ⟨hz.1, by rw [hz.2]⟩⟩

theorem graphMap_round {nl : Codec NL} {el : Codec EL} {g : GraphMap m k NL EL} (hw : m + 1 = 256 ^ w)
    (hnl : ∀ x ∈ g.nodeLabels.labels, nl.RoundTrips x)
    (hel : ∀ x ∈ g.edgeLabels.labels, el.RoundTrips x) (h1 : g.nodeMap.length < 2 ^ 64)
    (h2 : ∀ p ∈ g.nodeMap, (nodeMap w v).RoundTrips p.2) (h3 : (AL.keys g.nodeMap).Nodup)
    (h4 : g.numEdges < 2 ^ 64) (h5 : g.nodeLabels.labels.length < 2 ^ 64) (h6 : g.nodeLabels.labels.Nodup)
    (h7 : g.edgeLabels.labels.length < 2 ^ 64) (h8 : g.edgeLabels.labels.Nodup) (d : Bool) (r : List Byte) :
    (graphMap w v nl el d).get ((graphMap w v nl el g.directed).bytes g ++ r) =
      some ({ g with directed := d }, r) := by
  have e : (graphMap w v nl el g.directed).bytes g = (hmap (ident w) (nodeMap w v)).bytes g.nodeMap ++
      (usize.bytes g.numEdges ++ ((setMap nl).bytes g.nodeLabels ++ ((setMap el).bytes g.edgeLabels ++
        (opt (ident w)).bytes g.maxId))) := by
    simp [bytes, graphMap]
  rw [e]
  simp only [List.append_assoc]
  simp only [graphMap, Option.bind_eq_bind]
  rw [step_round (hmap_round h1 (fun p hp => ⟨ident_round hw _, h2 p hp⟩) h3), step_round (usize_round h4),
    step_round (setMap_round h5 hnl h6),
    step_round (setMap_round h7 hel h8),
    step_round (opt_round fun x _ => ident_round hw x)]
  rfl

theorem graphMap_stable {nl : Codec NL} {el : Codec EL} (hnl : nl.Stable) (hel : el.Stable) (d : Bool) :
    (graphMap (m := m) (k := k) w v nl el d).Stable := by
  intro p q x r h
  simp only [graphMap, Option.bind_eq_bind, Option.bind_eq_some_iff] at h ⊢
  obtain ⟨a, ha, b, hb, c, hc, d, hd, e, he, hz⟩ := h
  simp only [Option.pure_def, Option.some.injEq, Prod.mk.injEq] at hz
  exact ⟨(a.1, a.2 ++ q), collect_stable (pair_stable ident_stable nodeMap_stable) _ _ _ _ ha,
    (b.1, b.2 ++ q), usize_stable _ _ _ _ hb,
    (c.1, c.2 ++ q), setMap_stable hnl _ _ _ _ hc,
    (d.1, d.2 ++ q), setMap_stable hel _ _ _ _ hd,
    (e.1, e.2 ++ q), opt_stable ident_stable _ _ _ _ he,
    by simp only [Option.pure_def, Option.some.injEq, Prod.mk.injEq]; exact ⟨hz.1, by rw [hz.2]⟩⟩

theorem edgeVec_round {e : EdgeVec m k} (hw : m + 1 = 256 ^ w) (hv : k + 1 = 256 ^ v)
    (h1 : e.offsets.length < 2 ^ 64) (h2 : ∀ o ∈ e.offsets, o < 2 ^ 64) (h3 : e.edges.length < 2 ^ 64)
    (h4 : ∀ l, e.labels = some l → l.length < 2 ^ 64) : (edgeVec w v).RoundTrips e := by
  intro r
  have eq : (edgeVec w v).bytes e = (vec usize).bytes e.offsets ++ ((vec (ident w)).bytes e.edges ++
      (opt (vec (ident v))).bytes e.labels) := by
    simp [bytes, edgeVec]
  rw [eq]
  simp only [List.append_assoc]
  simp only [edgeVec, Option.bind_eq_bind]
  rw [step_round (vec_round h1 fun o ho => usize_round (h2 o ho)),
    step_round (vec_round h3 fun o _ => ident_round hw o),
    step_round (opt_round fun l hl => vec_round (h4 l hl) fun o _ => ident_round hv o)]
  rfl

theorem edgeVec_stable : (edgeVec (m := m) (k := k) w v).Stable := by
  intro p q x r h
  simp only [edgeVec, Option.bind_eq_bind, Option.bind_eq_some_iff] at h ⊢
  obtain ⟨a, ha, b, hb, c, hc, hz⟩ := h
  simp only [Option.pure_def, Option.some.injEq, Prod.mk.injEq] at hz
  exact ⟨(a.1, a.2 ++ q), vec_stable usize_stable _ _ _ _ ha,
    (b.1, b.2 ++ q), vec_stable ident_stable _ _ _ _ hb,
    (c.1, c.2 ++ q), opt_stable (vec_stable ident_stable) _ _ _ _ hc,
    by simp only [Option.pure_def, Option.some.injEq, Prod.mk.injEq]; exact ⟨hz.1, by rw [hz.2]⟩⟩

theorem staticGraph_round {nl : Codec NL} {el : Codec EL} {g : StaticGraph m k NL EL}
    (hv : k + 1 = 256 ^ v)
    (hnl : ∀ x ∈ g.nodeLabels.labels, nl.RoundTrips x)
    (hel : ∀ x ∈ g.edgeLabels.labels, el.RoundTrips x) (h1 : g.numNodes < 2 ^ 64) (h2 : g.numEdges < 2 ^ 64)
    (h3 : (edgeVec w v).RoundTrips g.edgeVec) (h4 : ∀ e ∈ g.inEdgeVec, (edgeVec w v).RoundTrips e)
    (h5 : ∀ l, g.labels = some l → l.length < 2 ^ 64) (h6 : g.nodeLabels.labels.length < 2 ^ 64)
    (h7 : g.nodeLabels.labels.Nodup) (h8 : g.edgeLabels.labels.length < 2 ^ 64)
    (h9 : g.edgeLabels.labels.Nodup) (d : Bool) (r : List Byte) :
    (staticGraph w v nl el d).get ((staticGraph w v nl el g.directed).bytes g ++ r) =
      some ({ g with directed := d }, r) := by
  have e : (staticGraph w v nl el g.directed).bytes g = usize.bytes g.numNodes ++ (usize.bytes g.numEdges ++
      ((edgeVec w v).bytes g.edgeVec ++ ((opt (edgeVec w v)).bytes g.inEdgeVec ++
        ((opt (vec (ident v))).bytes g.labels ++ ((setMap nl).bytes g.nodeLabels ++
          (setMap el).bytes g.edgeLabels))))) := by
    simp [bytes, staticGraph]
  rw [e]
  simp only [List.append_assoc]
  simp only [staticGraph, Option.bind_eq_bind]
  rw [step_round (usize_round h1), step_round (usize_round h2), step_round h3, step_round (opt_round h4),
    step_round (opt_round fun l hl => vec_round (h5 l hl) fun o _ => ident_round hv o),
    step_round (setMap_round h6 hnl h7),
    step_round (setMap_round h8 hel h9)]
  rfl

theorem aux_round {nl : Codec NL} {el : Codec EL} {a : Aux NL EL}
    (hnl : ∀ x ∈ a.nodeLabels.labels, nl.RoundTrips x)
    (hel : ∀ x ∈ a.edgeLabels.labels, el.RoundTrips x) (h1 : a.numNodes < 2 ^ 64) (h2 : a.numEdges < 2 ^ 64)
    (h6 : a.nodeLabels.labels.length < 2 ^ 64)
    (h7 : a.nodeLabels.labels.Nodup) (h8 : a.edgeLabels.labels.length < 2 ^ 64)
    (h9 : a.edgeLabels.labels.Nodup) : (aux nl el).RoundTrips a := by
  intro r
  have e : (aux nl el).bytes a = usize.bytes a.numNodes ++ (usize.bytes a.numEdges ++
      ((setMap nl).bytes a.nodeLabels ++ (setMap el).bytes a.edgeLabels)) := by
    simp [bytes, aux]
  rw [e]
  simp only [List.append_assoc]
  simp only [aux, Option.bind_eq_bind]
  rw [step_round (usize_round h1), step_round (usize_round h2),
    step_round (setMap_round h6 hnl h7),
    step_round (setMap_round h8 hel h9)]
  rfl

theorem aux_stable {nl : Codec NL} {el : Codec EL} (hnl : nl.Stable) (hel : el.Stable) :
    (aux nl el).Stable := by
  intro p q x r h
  simp only [aux, Option.bind_eq_bind, Option.bind_eq_some_iff] at h ⊢
  obtain ⟨a, ha, b, hb, c, hc, d, hd, hz⟩ := h
  simp only [Option.pure_def, Option.some.injEq, Prod.mk.injEq] at hz
  exact ⟨(a.1, a.2 ++ q), usize_stable _ _ _ _ ha,
    (b.1, b.2 ++ q), usize_stable _ _ _ _ hb,
    (c.1, c.2 ++ q), setMap_stable hnl _ _ _ _ hc,
    (d.1, d.2 ++ q), setMap_stable hel _ _ _ _ hd,
    by simp only [Option.pure_def, Option.some.injEq, Prod.mk.injEq]; exact ⟨hz.1, by rw [hz.2]⟩⟩

theorem staticGraph_stable {nl : Codec NL} {el : Codec EL} (hnl : nl.Stable) (hel : el.Stable) (d : Bool) :
    (staticGraph (m := m) (k := k) w v nl el d).Stable := by
  intro p q x r h
  simp only [staticGraph, Option.bind_eq_bind, Option.bind_eq_some_iff] at h ⊢
  obtain ⟨a, ha, b, hb, c, hc, d, hd, e, he, i, hi, j, hj, hz⟩ := h
  simp only [Option.pure_def, Option.some.injEq, Prod.mk.injEq] at hz
  exact ⟨(a.1, a.2 ++ q), usize_stable _ _ _ _ ha,
    (b.1, b.2 ++ q), usize_stable _ _ _ _ hb,
    (c.1, c.2 ++ q), edgeVec_stable _ _ _ _ hc,
    (d.1, d.2 ++ q), opt_stable edgeVec_stable _ _ _ _ hd,
    (e.1, e.2 ++ q), opt_stable (vec_stable ident_stable) _ _ _ _ he,
    (i.1, i.2 ++ q), setMap_stable hnl _ _ _ _ hi,
    (j.1, j.2 ++ q), setMap_stable hel _ _ _ _ hj,
    by simp only [Option.pure_def, Option.some.injEq, Prod.mk.injEq]; exact ⟨hz.1, by rw [hz.2]⟩⟩

/-- What is written for a value has no shorter beginning that can be read. -/
theorem prefix_fails {c : Codec X} (hs : c.Stable) {x : X} (hx : ∃ y, c.get (c.bytes x) = some (y, []))
    {p : List Byte} (hp : p <+: c.bytes x) (hne : p ≠ c.bytes x) : c.get p = none := by
  obtain ⟨q, hq⟩ := hp
  obtain ⟨z, hx⟩ := hx
  cases h : c.get p with
  | none => rfl
  | some a =>
    exfalso
    have h1 := hs p q a.1 a.2 (by rw [h])
    rw [hq, hx] at h1
    simp only [Option.some.injEq, Prod.mk.injEq] at h1
    have h2 := (List.append_eq_nil_iff.1 h1.2.symm).2
    subst h2
    exact hne (by simpa using hq)

end Codec

end Verif
