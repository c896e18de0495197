import Verif.Props.Degrees
import Verif.Props.Endian
import Verif.Props.Melt

/-! Property theorems about the second pair of arrays of a directed frozen graph, the in-neighbours, C196: what is asked
of it, when it agrees with the first, and that the first leaves no choice for it. -/

namespace Verif.Props

open Spec EdgeVec
open EdgeIter (Id_new_val)

variable {m k : Nat} {NL EL : Type}

/-- **C196.** `in_neighbors` and `in_degree` look at the second arrays alone. -/
theorem c196_asks (g : StaticGraph m k NL EL) (n : Id m) :
    (g.inEdgeVec = none → g.inNeighbors n = .error .unwrapNone ∧ g.inDegree n = .error .unwrapNone) ∧
    ∀ iv, g.inEdgeVec = some iv → g.inNeighbors n = iv.neighbors n ∧
      (∀ d, g.inDegree n = .ok d ↔ ∃ l, iv.neighbors n = .ok l ∧ d = l.length) ∧
      ∀ p, g.inDegree n = .error p ↔ iv.neighbors n = .error p := by
  unfold StaticGraph.inDegree StaticGraph.inNeighbors
  constructor
  · intro h; rw [h]; exact ⟨rfl, rfl⟩
  · intro iv h
    rw [h]
    simp only [unwrap, bind_ok]
    refine ⟨trivial, fun d => ?_, fun p => ?_⟩
    · cases h1 : iv.neighbors n with
      | ok l => simp [bind_ok, pure_ok, eq_comm]
      | error q => simp
    · cases h1 : iv.neighbors n with
      | ok l => simp [bind_ok, pure_ok]
      | error q => simp

theorem packed_out {ev : EdgeVec m k} {c n : Nat} (h : Packed ev c) (hn : c ≤ n) : rowOf ev n = [] := by
  unfold rowOf
  have : ev.offsets.getD (n + 1) 0 = 0 := by
    rw [List.getD_eq_getElem?_getD, List.getElem?_eq_none (by rw [h.rows]; omega)]; rfl
  rw [this]; simp

theorem packed_mem {ev : EdgeVec m k} {c : Nat} (h : Packed ev c) (s t : Id m) :
    (∃ l, ev.neighbors s = .ok l ∧ t ∈ l) ↔ t ∈ rowOf ev s.val := by
  rcases Nat.lt_or_ge s.val c with hs | hs
  · rw [plain_row h hs]
    constructor
    · rintro ⟨l, e, ht⟩; cases e; exact ht
    · intro ht; exact ⟨_, rfl, ht⟩
  · rw [packed_out h hs]
    have := (c156_neighbors ev s).2.2.1.2 ⟨by rintro e; have := h.rows; simp [e] at this, by rw [h.rows]; omega⟩
    rw [this]
    simp

/-- **C196.** If both are packed, nodes and their neighbours name each other exactly if the rows of the second arrays
are the columns of the first. -/
theorem c196_agree {g : StaticGraph m k NL EL} {iv : EdgeVec m k} {c c' : Nat} (hi : g.inEdgeVec = some iv)
    (ho : Packed g.edgeVec c) (hiv : Packed iv c') :
    (∀ s t, (∃ l, g.neighbors s = .ok l ∧ t ∈ l) ↔ ∃ l, g.inNeighbors t = .ok l ∧ s ∈ l) ↔
      ∀ s t : Id m, s ∈ rowOf iv t.val ↔ t ∈ rowOf g.edgeVec s.val := by
  have h1 : ∀ t, g.inNeighbors t = iv.neighbors t := fun t => ((c196_asks g t).2 iv hi).1
  simp only [h1, packed_mem hiv]
  have h2 : ∀ s t, (∃ l, g.neighbors s = .ok l ∧ t ∈ l) ↔ t ∈ rowOf g.edgeVec s.val := fun s t => packed_mem ho s t
  simp only [h2]
  exact ⟨fun h s t => (h s t).symm, fun h s t => (h s t).symm⟩

theorem packed_sorted {ev : EdgeVec m k} {c : Nat} (h : Packed ev c) (n : Nat) : (rowOf ev n).Pairwise (· < ·) := by
  rcases Nat.lt_or_ge n c with hn | hn
  · exact h.sorted n hn
  · rw [packed_out h hn]; exact List.Pairwise.nil

theorem packed_passable {ev : EdgeVec m k} {c n : Nat} (h : Packed ev c) (hn : n + 1 < ev.offsets.length) :
    RowThere ev n := by
  have h1 : n < ev.offsets.length := by omega
  refine ⟨_, _, ⟨List.getElem?_eq_getElem h1, List.getElem?_eq_getElem hn⟩, ?_,
    bounded h (List.getElem?_eq_getElem hn)⟩
  exact List.pairwise_iff_getElem.1 h.rising n (n + 1) h1 hn (by omega)

/-- As many pairs as entries. -/
theorem packed_pairs {ev : EdgeVec m k} {c : Nat} (h : Packed ev c) :
    (rowPairs ev true).length = ev.edges.length := by
  have := congrArg List.length (rows_before h c (le_refl _))
  rw [packed_last h, List.take_length] at this
  rw [this]
  unfold rowPairs
  rw [h.rows, Nat.add_sub_cancel, List.length_flatMap, List.length_flatMap]
  congr 1
  simp

/-- **C196.** Then there are as many entries in the one as in the other, and in- and out-degrees of all rows have
the same sum. -/
theorem c196_sums {g : StaticGraph m k NL EL} {iv : EdgeVec m k} {c : Nat} (hi : g.inEdgeVec = some iv) (hm : c ≤ m)
    (ho : Packed g.edgeVec c) (hiv : Packed iv c) (h : ∀ s t : Id m, s ∈ rowOf iv t.val ↔ t ∈ rowOf g.edgeVec s.val) :
    iv.edges.length = g.edgeVec.edges.length ∧
    ∃ ds es, ((List.range c).map Id.new).mapM g.degree = .ok ds ∧ ((List.range c).map Id.new).mapM g.inDegree = .ok es ∧
      ds.sum = g.edgeVec.edges.length ∧ es.sum = ds.sum := by
  have key : ∀ ev : EdgeVec m k, Packed ev c → ∃ ds, ((List.range c).map Id.new).mapM ev.degree = .ok ds ∧
      ds.sum = ev.edges.length := by
    intro ev hp
    let f : StaticGraph m k NL EL := ⟨true, c, 0, ev, none, none, ⟨[]⟩, ⟨[]⟩⟩
    obtain ⟨ds, hds⟩ := (c195_asked f (by show c ≤ m + 1; omega)).2 (.inr ⟨by show c < ev.offsets.length; rw [hp.rows]; omega,
      fun i a b _ ha hb => by
        obtain ⟨x, y, ⟨q1, q2⟩, q3, -⟩ := packed_passable hp (List.getElem?_eq_some_iff.1 hb).1
        rw [show ev.offsets[i]? = some a from ha] at q1
        rw [show ev.offsets[i + 1]? = some b from hb] at q2
        cases q1; cases q2; exact q3⟩)
    refine ⟨ds, hds, ?_⟩
    have := (c195_sum (g := f) (by show c ≤ m + 1; omega) hds hp.first hp.last).2
    omega
  have hperm : (rowPairs iv true).Perm ((rowPairs g.edgeVec true).map Prod.swap) := by
    have ho1 : g.edgeVec.offsets.length ≤ m + 1 := by rw [ho.rows]; omega
    have hi1 : iv.offsets.length ≤ m + 1 := by rw [hiv.rows]; omega
    rw [List.perm_ext_iff_of_nodup (rowPairs_nodup hi1 (packed_sorted hiv) true)
      ((rowPairs_nodup ho1 (packed_sorted ho) true).map Prod.swap_injective)]
    rintro ⟨t, s⟩
    rw [mem_rowPairs hi1, h]
    simp only [List.mem_map, Prod.exists, mem_rowPairs ho1, Prod.swap_prod_mk, Prod.mk.injEq, true_or, and_true]
    constructor
    · intro e; exact ⟨s, t, e, rfl, rfl⟩
    · rintro ⟨a, b, e, rfl, rfl⟩; exact e
  have hlen := hperm.length_eq
  rw [List.length_map, packed_pairs hiv, packed_pairs ho] at hlen
  obtain ⟨ds, h1, h2⟩ := key _ ho
  obtain ⟨es, h3, h4⟩ := key _ hiv
  refine ⟨hlen, ds, es, h1, ?_, h2, by omega⟩
  have hF := mapM_eq_ok h3
  have hin : ∀ n ∈ (List.range c).map (Id.new : Nat → Id m), g.inDegree n = iv.degree n := by
    intro n hn
    obtain ⟨j, hj, rfl⟩ := List.mem_map.1 hn
    rw [List.mem_range] at hj
    have hrow := plain_row hiv (n := Id.new j) (by rw [Id_new_val (by omega)]; exact hj)
    rw [(c156_degree iv _).2.2.2 _ hrow]
    exact (((c196_asks g _).2 iv hi).2.1 _).2 ⟨_, hrow, rfl⟩
  have hmap : ∀ (l : List (Id m)) (es : List Nat), List.Forall₂ (fun n d => iv.degree n = .ok d) l es →
      (∀ n ∈ l, g.inDegree n = iv.degree n) → l.mapM g.inDegree = .ok es := by
    intro l es hF
    induction hF with
    | nil => intro _; rfl
    | @cons n d l es a b ih =>
      intro hl
      rw [List.mapM_cons, hl n (by simp), a, bind_ok, ih (fun x hx => hl x (by simp [hx])), bind_ok]; rfl
  exact hmap _ _ hF hin

/-- **C196.** The first arrays leave no choice for the second. -/
theorem c196_determined {o i i' : EdgeVec m k} {c : Nat} (hm : c ≤ m) (hi : Packed i c) (hi' : Packed i' c)
    (h : ∀ s t : Id m, s ∈ rowOf i t.val ↔ t ∈ rowOf o s.val)
    (h' : ∀ s t : Id m, s ∈ rowOf i' t.val ↔ t ∈ rowOf o s.val) :
    i.offsets = i'.offsets ∧ i.edges = i'.edges := by
  have hrow : ∀ n, n < c → rowOf i n = rowOf i' n := by
    intro n hn
    have hv : (Id.new n : Id m).val = n := Id_new_val (by omega)
    have a := packed_sorted hi n
    have b := packed_sorted hi' n
    refine List.Perm.eq_of_pairwise' a b ?_
    rw [List.perm_ext_iff_of_nodup (a.imp ne_of_lt) (b.imp ne_of_lt)]
    intro s
    have := (h s (Id.new n)).trans (h' s (Id.new n)).symm
    rwa [hv] at this
  have hall : ∀ j, j ≤ c → (List.range j).flatMap (rowOf i) = (List.range j).flatMap (rowOf i') := by
    intro j hj
    refine List.flatMap_congr (fun n hn => hrow n ?_)
    rw [List.mem_range] at hn; omega
  have hoff : ∀ {ev : EdgeVec m k}, Packed ev c → ∀ j, j ≤ c →
      ev.offsets[j]? = some ((List.range j).flatMap (rowOf ev)).length := by
    intro ev hp j hj
    rw [← rows_before hp j hj, List.length_take]
    have hlt : j < ev.offsets.length := by rw [hp.rows]; omega
    have := bounded hp (List.getElem?_eq_getElem hlt)
    rw [List.getElem?_eq_getElem hlt, List.getD_eq_getElem?_getD, List.getElem?_eq_getElem hlt, Option.getD_some,
      min_eq_left this]
  constructor
  · apply List.ext_getElem?
    intro j
    rcases Nat.lt_or_ge c j with hj | hj
    · rw [List.getElem?_eq_none (by rw [hi.rows]; omega), List.getElem?_eq_none (by rw [hi'.rows]; omega)]
    · rw [hoff hi j hj, hoff hi' j hj, hall j hj]
  · have e := rows_before hi c (le_refl _)
    have e' := rows_before hi' c (le_refl _)
    rw [packed_last hi, List.take_length] at e
    rw [packed_last hi', List.take_length] at e'
    rw [e, e', hall c (le_refl _)]

/-- **C196.** So frozen graphs with the same out-neighbours have the same in-neighbours, array by array, whatever else
they hold; and as many entries as out-neighbours. -/
theorem c196_frozen [DecidableEq NL] [DecidableEq EL] {g h : GraphMap m k NL EL} (hg : GraphMap.Reachable g)
    (hh : GraphMap.Reachable h) {r r' : StaticGraph m k NL EL}
    (hr : g.intoStatic = .ok r) (hr' : h.intoStatic = .ok r') (hd : r.directed = true) (hd' : r'.directed = true)
    (ho : r.edgeVec.offsets = r'.edgeVec.offsets) (he : r.edgeVec.edges = r'.edgeVec.edges) :
    r.inEdgeVec = r'.inEdgeVec ∧ ∃ iv, r.inEdgeVec = some iv ∧ iv.edges.length = r.edgeVec.edges.length := by
  obtain ⟨c, hc⟩ := (c160_frozen r).1 ⟨g, hg, hr⟩
  obtain ⟨c', hc'⟩ := (c160_frozen r').1 ⟨h, hh, hr'⟩
  have hcc : c = c' := by
    have a := hc.out.rows
    have b := hc'.out.rows
    rw [ho] at a; omega
  subst hcc
  obtain ⟨iv, q1, q2, q3, q4⟩ := hc.inn hd
  obtain ⟨iv', w1, w2, w3, w4⟩ := hc'.inn hd'
  have hro : ∀ n, rowOf r'.edgeVec n = rowOf r.edgeVec n := by intro n; unfold rowOf; rw [ho, he]
  have := c196_determined hc.free q3 w3 q4 (fun s t => by rw [w4, hro])
  refine ⟨?_, iv, q1, (c196_sums q1 hc.free hc.out q3 q4).1⟩
  rw [q1, w1]
  obtain ⟨a, b, l⟩ := iv
  obtain ⟨a', b', l'⟩ := iv'
  simp only at this q2 w2
  rw [this.1, this.2, q2, w2]

/-- **C196.** Mapped graphs answer as frozen graphs with the same second arrays; but without them, as undirected graphs
are, they say that no node has in-neighbours, even those that are no nodes, where frozen graphs panic. -/
theorem c196_mapped (g : MmapGraph m k NL EL) (n : Id m) :
    (g.inEdges = none → g.inNeighbors n = .ok [] ∧ g.inDegree n = .ok 0) ∧
    ∀ iv (f : StaticGraph m k NL EL), g.inEdges = some iv → f.inEdgeVec = some iv →
      g.inNeighbors n = f.inNeighbors n ∧ g.inDegree n = f.inDegree n := by
  unfold MmapGraph.inDegree StaticGraph.inDegree MmapGraph.inNeighbors StaticGraph.inNeighbors
  constructor
  · intro h; rw [h]; exact ⟨rfl, rfl⟩
  · intro iv f h h'; rw [h, h']; exact ⟨rfl, rfl⟩

/-- **C196.** A file may hold any second arrays: here node 0 points to node 1, which does not know. -/
theorem c196_unaware :
    let g : StaticGraph 9 3 String String :=
      ⟨true, 2, 1, ⟨[0, 1, 1], [1], none⟩, some ⟨[0, 1, 1], [1], none⟩, none, ⟨[]⟩, ⟨[]⟩⟩
    g.neighbors 0 = .ok [1] ∧ g.hasEdge 0 1 = .ok true ∧ g.inNeighbors 1 = .ok [] ∧ g.inNeighbors 0 = .ok [1] ∧
      g.hasEdge 1 0 = .ok false ∧ (g.nodeIndices.mapM g.degree = .ok [1, 0]) ∧ g.nodeIndices.mapM g.inDegree = .ok [1, 0] :=
  ⟨rfl, rfl, rfl, rfl, rfl, rfl, rfl⟩

/-- Non-vacuity of `c196_determined` and `c196_sums`: three nodes, two edges into the last. -/
example : let o : EdgeVec 9 3 := ⟨[0, 1, 2, 2], [2, 2], none⟩
    let i : EdgeVec 9 3 := ⟨[0, 0, 0, 2], [0, 1], none⟩
    (∀ s t : Id 9, s ∈ rowOf i t.val ↔ t ∈ rowOf o s.val) ∧ Packed o 3 ∧ Packed i 3 := by
  refine ⟨by decide, ⟨rfl, rfl, rfl, by decide, by decide, by decide⟩, ⟨rfl, rfl, rfl, by decide, by decide, by decide⟩⟩

end Verif.Props
