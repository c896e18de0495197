import Verif.Props.RawCsr
import Verif.Proof.ReorderIso

/-! Property theorems about the degrees of frozen graphs of which nothing is known, C195: when they can all be asked,
what they sum up to, and how that compares with the edges that are listed and with `edge_count`. -/

namespace Verif.Props

open Spec EdgeVec
open EdgeIter (Id_new_val)

variable {m k : Nat} {NL EL : Type} {ev : EdgeVec m k}

/-- The degrees of the first nodes, asked one after the other. -/
theorem degrees_ok : ∀ c, c ≤ m + 1 → ∀ ds, ((List.range c).map (Id.new : Nat → Id m)).mapM ev.degree = .ok ds ↔
    ds.length = c ∧ ∀ i (h : i < ds.length), ∃ a b, Bounds ev i a b ∧ a ≤ b ∧ ds[i] = b - a := by
  intro c hc ds
  have key : ∀ i, i < c → ∀ d, ev.degree (Id.new i : Id m) = .ok d ↔ ∃ a b, Bounds ev i a b ∧ a ≤ b ∧ d = b - a := by
    intro i hi d
    have := (c156_degree ev (Id.new i : Id m)).1 d
    rwa [Id_new_val (by omega : i ≤ m)] at this
  constructor
  · intro h
    have hF := mapM_eq_ok h
    have hl : ds.length = c := by rw [← hF.length_eq]; simp
    refine ⟨hl, fun i hi => ?_⟩
    have := List.forall₂_iff_get.1 hF |>.2 i (by simp; omega) hi
    simp only [List.get_eq_getElem, List.getElem_map, List.getElem_range] at this
    exact (key i (by omega) _).1 this
  · rintro ⟨hl, h⟩
    obtain ⟨es, hes⟩ := mapM_total (f := ev.degree) (l := (List.range c).map (Id.new : Nat → Id m)) (fun n hn => by
      obtain ⟨i, hi, rfl⟩ := List.mem_map.1 hn
      rw [List.mem_range] at hi
      exact ⟨_, (key i hi _).2 (h i (by omega))⟩)
    rw [hes]
    have hF := mapM_eq_ok hes
    have hl' : es.length = c := by rw [← hF.length_eq]; simp
    congr 1
    apply List.ext_getElem (by omega)
    intro i h1 h2
    have := List.forall₂_iff_get.1 hF |>.2 i (by simp; omega) h1
    simp only [List.get_eq_getElem, List.getElem_map, List.getElem_range] at this
    have h3 := (key i (by omega) _).2 (h i h2)
    rw [this] at h3
    exact Except.ok.inj h3

/-- **C195.** The degrees of all nodes can be asked exactly if there is one offset more than nodes, or more, and none
of these is less than the one before. -/
theorem c195_asked (g : StaticGraph m k NL EL) (hm : g.numNodes ≤ m + 1) :
    (∃ ds, g.nodeIndices.mapM g.degree = .ok ds) ↔
      g.numNodes = 0 ∨ (g.numNodes < g.edgeVec.offsets.length ∧
        ∀ i a b, i < g.numNodes → g.edgeVec.offsets[i]? = some a → g.edgeVec.offsets[i + 1]? = some b → a ≤ b) := by
  have key := degrees_ok (ev := g.edgeVec) g.numNodes hm
  change (∃ ds, ((List.range g.numNodes).map Id.new).mapM g.edgeVec.degree = .ok ds) ↔ _
  constructor
  · rintro ⟨ds, h⟩
    obtain ⟨hl, h⟩ := (key ds).1 h
    by_cases h0 : g.numNodes = 0
    · exact .inl h0
    · refine .inr ⟨?_, fun i a b hi ha hb => ?_⟩
      · obtain ⟨a, b, hab, -⟩ := h (g.numNodes - 1) (by omega)
        have := bounds_lt hab
        omega
      · obtain ⟨a', b', ⟨h1, h2⟩, h3, -⟩ := h i (by omega)
        rw [ha] at h1; rw [hb] at h2
        cases h1; cases h2; exact h3
  · intro h
    refine ⟨(List.range g.numNodes).map (fun i => g.edgeVec.offsets.getD (i + 1) 0 - g.edgeVec.offsets.getD i 0),
      (key _).2 ⟨by simp, fun i hi => ?_⟩⟩
    have hi' : i < g.numNodes := by simpa using hi
    rcases h with h | ⟨h1, h2⟩
    · omega
    · obtain ⟨a, b, hab⟩ := bounds_of (ev := g.edgeVec) (n := i) (by omega)
      refine ⟨a, b, hab, h2 i a b hi' hab.1 hab.2, ?_⟩
      simp [hab.1, hab.2]

/-- **C195.** If they can, they sum up to the difference of the last of these offsets and the first, whatever the
edges are. -/
theorem c195_sum {g : StaticGraph m k NL EL} (hm : g.numNodes ≤ m + 1) {ds : List Nat}
    (h : g.nodeIndices.mapM g.degree = .ok ds) {a b : Nat} (ha : g.edgeVec.offsets[0]? = some a)
    (hb : g.edgeVec.offsets[g.numNodes]? = some b) : ds.length = g.numNodes ∧ ds.sum + a = b := by
  obtain ⟨hl, h⟩ := (degrees_ok (ev := g.edgeVec) g.numNodes hm ds).1 h
  refine ⟨hl, ?_⟩
  have key : ∀ j, j ≤ ds.length → g.edgeVec.offsets[j]? = some ((ds.take j).sum + a) := by
    intro j
    induction j with
    | zero => intro _; simpa using ha
    | succ j ih =>
      intro hj
      obtain ⟨x, y, ⟨h1, h2⟩, h3, h4⟩ := h j (by omega)
      rw [ih (by omega)] at h1
      rw [h2, List.sum_take_succ ds j (by omega), h4]
      simp only [Option.some.injEq] at h1 ⊢
      omega
  have := key ds.length (le_refl _)
  rw [List.take_length, hl, hb] at this
  exact (Option.some.inj this).symm

/-- The pairs of all rows. -/
theorem mem_rowPairs (hm : ev.offsets.length ≤ m + 1) (d : Bool) (s t : Id m) :
    (s, t) ∈ rowPairs ev d ↔ t ∈ rowOf ev s.val ∧ (d = true ∨ s ≤ t) := by
  unfold rowPairs
  simp only [List.mem_flatMap, List.mem_range, List.mem_map, List.mem_filter, Bool.or_eq_true, decide_eq_true_eq,
    Prod.mk.injEq]
  constructor
  · rintro ⟨n, hn, t', ⟨h1, h2⟩, rfl, rfl⟩
    have hv : (Id.new n : Id m).val = n := Id_new_val (by omega)
    rw [hv]
    exact ⟨h1, h2.imp id (fun h => Fin.le_def.2 (by rw [hv]; exact h))⟩
  · rintro ⟨h1, h2⟩
    have hn : s.val < ev.offsets.length - 1 := by
      by_contra hcon
      unfold rowOf at h1
      have : ev.offsets.getD (s.val + 1) 0 = 0 := by
        rw [List.getD_eq_getElem?_getD, List.getElem?_eq_none (by omega)]; rfl
      rw [this] at h1
      simp at h1
    have hs : (Id.new s.val : Id m) = s := Fin.ext (Id_new_val (by omega))
    exact ⟨s.val, hn, t, ⟨h1, h2.imp id (fun h => Fin.le_def.1 h)⟩, hs, rfl⟩

theorem rowPairs_nodup (hm : ev.offsets.length ≤ m + 1) (hs : ∀ n, (rowOf ev n).Pairwise (· < ·)) (d : Bool) :
    (rowPairs ev d).Nodup := by
  unfold rowPairs
  rw [List.nodup_flatMap]
  refine ⟨fun n _ => ?_, ?_⟩
  · refine List.Nodup.map (fun a b h => (Prod.mk.inj h).2) ?_
    exact ((hs n).imp (fun h => ne_of_lt h)).filter _
  · refine (List.nodup_range).pairwise_of_forall_ne ?_
    intro i hi j hj hij
    rw [List.mem_range] at hi hj
    intro e h1 h2
    simp only [List.mem_map] at h1 h2
    obtain ⟨_, -, rfl⟩ := h1
    obtain ⟨_, -, h2⟩ := h2
    have := congrArg Fin.val (Prod.mk.inj h2).1
    rw [Id_new_val (by omega), Id_new_val (by omega)] at this
    exact hij this.symm

theorem rowPairs_length {ds : List Nat} (hl : ds.length = ev.offsets.length - 1)
    (hd : ∀ i (h : i < ds.length), ∃ a b, Bounds ev i a b ∧ a ≤ b ∧ ds[i] = b - a)
    (hp : ∀ n, n + 1 < ev.offsets.length → Passable ev n) : (rowPairs ev true).length = ds.sum := by
  unfold rowPairs
  rw [List.length_flatMap]
  congr 1
  apply List.ext_getElem (by simp [hl])
  intro i h1 h2
  obtain ⟨a, b, hab, hle, e⟩ := hd i h2
  obtain ⟨a', b', ⟨q1, q2⟩, -, hq⟩ := hp i (by omega)
  rw [hab.1] at q1; rw [hab.2] at q2
  cases q1; cases q2
  simp [rowOf_length hab hle hq, e]

/-- **C195.** As many edges of a directed graph are listed as its degrees sum up to; no more than there are entries in
the array, and as many exactly if the offsets lead from its start to its end. -/
theorem c195_directed {g : StaticGraph m k NL EL} (hn : g.numNodes + 1 = g.edgeVec.offsets.length)
    (hm : g.edgeVec.offsets.length ≤ m + 1) (hd : g.directed = true) {l : List (Id m × Id m)}
    (h : g.edgeIndices = .ok l) :
    ∃ ds a b, g.nodeIndices.mapM g.degree = .ok ds ∧ g.edgeVec.offsets.head? = some a ∧
      g.edgeVec.offsets.getLast? = some b ∧ l.length = ds.sum ∧ ds.sum + a = b ∧ l.length ≤ g.edgeVec.edges.length ∧
      (l.length = g.edgeVec.edges.length ↔ b = a + g.edgeVec.edges.length) := by
  have h0 : g.edgeVec.offsets ≠ [] := by rintro e; simp [e] at hn
  obtain ⟨hce, -, heq⟩ := c156_edges g.edgeVec h0 hm true (.inl rfl) _ (le_refl _)
  have h' : g.edgeVec.edgeIndices true = .ok l := by rw [← hd]; exact h
  rw [heq] at h'
  obtain ⟨hp, rfl⟩ := (hce l).1 h'
  obtain ⟨ds, hds⟩ := (c195_asked g (by omega)).2 (.inr ⟨by omega, fun i a b hi ha hb => by
    obtain ⟨a', b', ⟨q1, q2⟩, hle, -⟩ := hp i (by omega)
    rw [ha] at q1; rw [hb] at q2
    cases q1; cases q2; exact hle⟩)
  obtain ⟨hl, hdd⟩ := (degrees_ok (ev := g.edgeVec) g.numNodes (by omega) ds).1 hds
  have ha : g.edgeVec.offsets[0]? = some (g.edgeVec.offsets[0]'(by omega)) := List.getElem?_eq_getElem _
  have hb : g.edgeVec.offsets[g.numNodes]? = some (g.edgeVec.offsets[g.numNodes]'(by omega)) :=
    List.getElem?_eq_getElem _
  have hsum := (c195_sum (by omega) hds ha hb).2
  have hlen := rowPairs_length (ev := g.edgeVec) (by omega) hdd hp
  refine ⟨ds, _, _, hds, by rw [List.head?_eq_getElem?]; exact ha, ?_, hlen, hsum, ?_, ?_⟩
  · rw [List.getLast?_eq_getElem?, show g.edgeVec.offsets.length - 1 = g.numNodes by omega]; exact hb
  · have key : ∀ j, j ≤ ds.length → (ds.take j).sum = 0 ∨ g.edgeVec.offsets.getD j 0 ≤ g.edgeVec.edges.length := by
      intro j
      induction j with
      | zero => intro _; exact .inl rfl
      | succ j ih =>
        intro hj
        obtain ⟨x, y, hxy, -, h4⟩ := hdd j (by omega)
        obtain ⟨x', y', ⟨q1, q2⟩, -, hq⟩ := hp j (by omega)
        rw [hxy.1] at q1; rw [hxy.2] at q2
        cases q1; cases q2
        rw [List.sum_take_succ ds j (by omega), h4]
        have e1 : g.edgeVec.offsets.getD j 0 = x := by simp [hxy.1]
        have e2 : g.edgeVec.offsets.getD (j + 1) 0 = y := by simp [hxy.2]
        rw [e2]
        have := ih (by omega)
        rw [e1] at this
        omega
    have := key ds.length (le_refl _)
    rw [List.take_length, hl] at this
    have e : g.edgeVec.offsets.getD g.numNodes 0 = g.edgeVec.offsets[g.numNodes]'(by omega) := by simp [hb]
    rw [e] at this
    omega
  · rw [hlen]; omega

/-- **C195.** An undirected graph with sorted rows in which every edge is there both ways: the degrees and the self
loops, which have one entry only, sum up to twice the number of edges that are listed. -/
theorem c195_undirected {g : StaticGraph m k NL EL} (hn : g.numNodes + 1 = g.edgeVec.offsets.length)
    (hm : g.edgeVec.offsets.length ≤ m + 1) (hd : g.directed = false)
    (hs : ∀ n, (rowOf g.edgeVec n).Pairwise (· < ·))
    (hsym : ∀ s t : Id m, t ∈ rowOf g.edgeVec s.val → s ∈ rowOf g.edgeVec t.val) {l : List (Id m × Id m)}
    (h : g.edgeIndices = .ok l) :
    ∃ ds, g.nodeIndices.mapM g.degree = .ok ds ∧
      ds.sum + (l.filter (fun e => decide (e.1 = e.2))).length = 2 * l.length := by
  have h0 : g.edgeVec.offsets ≠ [] := by rintro e; simp [e] at hn
  obtain ⟨hce, -, heq⟩ := c156_edges g.edgeVec h0 hm false (.inr hs) _ (le_refl _)
  have h' : g.edgeVec.edgeIndices false = .ok l := by rw [← hd]; exact h
  rw [heq] at h'
  obtain ⟨hp, rfl⟩ := (hce l).1 h'
  obtain ⟨ds, hds⟩ := (c195_asked g (by omega)).2 (.inr ⟨by omega, fun i a b hi ha hb => by
    obtain ⟨a', b', ⟨q1, q2⟩, hle, -⟩ := hp i (by omega)
    rw [ha] at q1; rw [hb] at q2
    cases q1; cases q2; exact hle⟩)
  obtain ⟨hl, hdd⟩ := (degrees_ok (ev := g.edgeVec) g.numNodes (by omega) ds).1 hds
  have hlen := rowPairs_length (ev := g.edgeVec) (by omega) hdd hp
  refine ⟨ds, hds, ?_⟩
  have hN := rowPairs_nodup hm hs true
  have hN' := rowPairs_nodup hm hs false
  have p1 : (rowPairs g.edgeVec true).Perm (rowPairs g.edgeVec false ++
      ((rowPairs g.edgeVec false).filter (fun e => !decide (e.1 = e.2))).map Prod.swap) := by
    rw [List.perm_ext_iff_of_nodup hN]
    · rintro ⟨s, t⟩
      simp only [List.mem_append, mem_rowPairs hm, List.mem_map, List.mem_filter, Prod.exists, Prod.swap_prod_mk,
        Prod.mk.injEq, Bool.not_eq_true', decide_eq_false_iff_not, true_or, and_true, Bool.false_eq_true, false_or]
      constructor
      · intro e
        rcases le_or_gt s t with h1 | h1
        · exact .inl ⟨e, h1⟩
        · exact .inr ⟨t, s, ⟨⟨hsym s t e, h1.le⟩, ne_of_lt h1⟩, rfl, rfl⟩
      · rintro (e | ⟨a, b, ⟨⟨e, -⟩, -⟩, rfl, rfl⟩)
        · exact e.1
        · exact hsym _ _ e
    · rw [List.nodup_append]
      refine ⟨hN', (hN'.filter _).map Prod.swap_injective, ?_⟩
      rintro ⟨s, t⟩ h1 ⟨s', t'⟩ h2 e
      cases e
      simp only [mem_rowPairs hm, List.mem_map, List.mem_filter, Prod.exists, Prod.swap_prod_mk,
        Prod.mk.injEq, Bool.not_eq_true', decide_eq_false_iff_not, Bool.false_eq_true, false_or] at h1 h2
      obtain ⟨a, b, ⟨⟨-, hle⟩, hne⟩, rfl, rfl⟩ := h2
      exact hne (le_antisymm hle h1.2)
  have := p1.length_eq
  rw [List.length_append, List.length_map, hlen] at this
  have hsplit := List.length_eq_length_filter_add (l := rowPairs g.edgeVec false) (fun e => decide (e.1 = e.2))
  omega

/-- **C195.** So `edge_count` of such an undirected graph, made by `new` without a number of edges, falls short of the
edges that are listed by half the number of self loops, rounded up. -/
theorem c195_default {inn : Option (EdgeVec m k)} {g : StaticGraph m k NL EL}
    (hg : StaticGraph.new false ev inn none none = .ok g) (hm : ev.offsets.length ≤ m + 1)
    (ha : ev.offsets.head? = some 0) (hb : ev.offsets.getLast? = some ev.edges.length)
    (hs : ∀ n, (rowOf ev n).Pairwise (· < ·)) (hsym : ∀ s t : Id m, t ∈ rowOf ev s.val → s ∈ rowOf ev t.val)
    {l : List (Id m × Id m)} (h : g.edgeIndices = .ok l) :
    g.numEdges + ((l.filter (fun e => decide (e.1 = e.2))).length + 1) / 2 = l.length := by
  have h0 : ev.offsets.length ≠ 0 := by rintro e; rw [List.length_eq_zero_iff.1 e] at ha; cases ha
  have hnn : ev.numNodes = .ok (ev.offsets.length - 1) := by unfold EdgeVec.numNodes; rw [if_neg h0]; rfl
  unfold StaticGraph.new StaticGraph.defaultCounts at hg
  simp only [Bool.false_and, Bool.false_eq_true, if_false, hnn, bind_ok, pure_ok, Option.getD_none] at hg
  cases hg
  obtain ⟨ds, hds, hsum⟩ := c195_undirected (by simp only; omega) hm rfl hs hsym h
  rw [List.head?_eq_getElem?] at ha
  rw [List.getLast?_eq_getElem?] at hb
  have := (c195_sum (by simp only; omega) hds ha hb).2
  simp only [EdgeVec.numEdges] at *
  omega

/-- **C195.** Mapped graphs count the entries of a row they slice: their degrees can all be asked exactly if, besides,
no offset is beyond the array. -/
theorem c195_mapped_asked (g : MmapGraph m k NL EL) (hm : g.numNodes ≤ m + 1) :
    (∃ ds, g.nodeIndices.mapM g.degree = .ok ds) ↔
      g.numNodes = 0 ∨ (g.numNodes < g.edges.offsets.length ∧
        ∀ i a b, i < g.numNodes → g.edges.offsets[i]? = some a → g.edges.offsets[i + 1]? = some b →
          a ≤ b ∧ b ≤ g.edges.edges.length) := by
  have key : ∀ i, i < g.numNodes → ((∃ d, g.degree (Id.new i) = .ok d) ↔ RowThere g.edges i) := by
    intro i hi
    have := (c156_neighbors g.edges (Id.new i : Id m)).1
    rw [Id_new_val (by omega : i ≤ m)] at this
    unfold MmapGraph.degree MmapGraph.neighbors
    constructor
    · rintro ⟨d, h⟩
      obtain ⟨nb, h1, -⟩ := bind_eq_ok h
      exact ((this nb).1 h1).1
    · intro h
      rw [(this _).2 ⟨h, rfl⟩]
      exact ⟨_, rfl⟩
  constructor
  · rintro ⟨ds, h⟩
    have hF := mapM_eq_ok h
    have hrow : ∀ i, i < g.numNodes → RowThere g.edges i := by
      intro i hi
      have hl : i < ds.length := by rw [← hF.length_eq]; simpa [MmapGraph.nodeIndices] using hi
      have := List.forall₂_iff_get.1 hF |>.2 i (by simpa [MmapGraph.nodeIndices] using hi) hl
      simp only [List.get_eq_getElem, MmapGraph.nodeIndices, List.getElem_map, List.getElem_range] at this
      exact (key i hi).1 ⟨_, this⟩
    by_cases h0 : g.numNodes = 0
    · exact .inl h0
    · refine .inr ⟨?_, fun i a b hi ha hb => (row_ok_iff ⟨ha, hb⟩).1 (hrow i hi)⟩
      have := row_ok_lt (hrow (g.numNodes - 1) (by omega))
      omega
  · intro h
    apply mapM_total
    intro n hn
    obtain ⟨i, hi, rfl⟩ := List.mem_map.1 hn
    rw [List.mem_range] at hi
    rcases h with h | ⟨h1, h2⟩
    · omega
    · obtain ⟨a, b, hab⟩ := bounds_of (ev := g.edges) (n := i) (by omega)
      exact (key i hi).2 ⟨a, b, hab, h2 i a b hi hab.1 hab.2⟩

/-- **C195.** Then a frozen graph of the same arrays has the same degrees; so their sum is the same too. -/
theorem c195_mapped {g : MmapGraph m k NL EL} {f : StaticGraph m k NL EL} (he : f.edgeVec = g.edges)
    (hn : f.numNodes = g.numNodes) {ds : List Nat} (h : g.nodeIndices.mapM g.degree = .ok ds) :
    f.nodeIndices.mapM f.degree = .ok ds := by
  have hi : f.nodeIndices = g.nodeIndices := by unfold StaticGraph.nodeIndices MmapGraph.nodeIndices; rw [hn]
  rw [hi]
  have hF := mapM_eq_ok h
  have key : ∀ (l : List (Id m)) (ds : List Nat), List.Forall₂ (fun n d => g.degree n = .ok d) l ds →
      l.mapM f.degree = .ok ds := by
    intro l ds hF
    induction hF with
    | nil => rfl
    | @cons n d l ds h1 h2 ih =>
      unfold MmapGraph.degree MmapGraph.neighbors at h1
      obtain ⟨nb, q1, q2⟩ := bind_eq_ok h1
      cases q2
      have : f.degree n = .ok nb.length := by
        unfold StaticGraph.degree; rw [he]; exact (c156_degree g.edges n).2.2.2 nb q1
      rw [List.mapM_cons, this, bind_ok, ih, bind_ok]; rfl
  exact key _ _ hF

/-- A triangle, and a self loop at its last node. -/
def triangleLoop : EdgeVec 9 3 := ⟨[0, 2, 4, 7], [1, 2, 0, 2, 0, 1, 2], none⟩

/-- **C195.** Degrees 2, 2 and 3; four edges; but `edge_count` says three. And offsets beyond the array give degrees of a
frozen graph, but not of a mapped one. -/
theorem c195_short : ∃ g : StaticGraph 9 3 String String, StaticGraph.new false triangleLoop none none none = .ok g ∧
    g.nodeIndices.mapM g.degree = .ok [2, 2, 3] ∧ g.edgeIndices = .ok [(0, 1), (0, 2), (1, 2), (2, 2)] ∧
    g.numEdges = 3 ∧
    (⟨true, 2, 1, ⟨[3, 4, 9], [7], none⟩, none, none, ⟨[]⟩, ⟨[]⟩⟩ : StaticGraph 9 3 String String).nodeIndices.mapM
      (⟨true, 2, 1, ⟨[3, 4, 9], [7], none⟩, none, none, ⟨[]⟩, ⟨[]⟩⟩ : StaticGraph 9 3 String String).degree = .ok [1, 5] ∧
    (⟨⟨[3, 4, 9], [7], none⟩, none, none, 2, 1, ⟨[]⟩, ⟨[]⟩⟩ : MmapGraph 9 3 String String).degree 0 =
      .error .indexOutOfBounds :=
  ⟨⟨false, 3, 3, triangleLoop, none, none, ⟨[]⟩, ⟨[]⟩⟩, rfl, rfl, rfl, rfl, rfl, rfl⟩

/-- Non-vacuity of `c195_directed` and `c195_undirected`. -/
example : triangleLoop.offsets.length ≤ 10 ∧ (∀ n, n < 3 → (rowOf triangleLoop n).Pairwise (· < ·)) ∧
    (∀ s t : Id 9, t ∈ rowOf triangleLoop s.val → s ∈ rowOf triangleLoop t.val) ∧
    triangleLoop.offsets.head? = some 0 ∧ triangleLoop.offsets.getLast? = some triangleLoop.edges.length := by
  decide

end Verif.Props
