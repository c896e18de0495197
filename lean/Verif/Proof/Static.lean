import Verif.Proof.Freeze
import Verif.Proof.Zip
import Verif.Proof.Handshake

/-! Queries on static graphs. -/

namespace Verif

open Spec

variable {m k : Nat} {NL EL : Type}

/-! ### Lookups -/

namespace EdgeVec

variable {ev : EdgeVec m k} {rows : List (List (Id m × Id k))} {lab : Bool}

theorem hasEdge_spec (h : Encodes ev rows lab) (s t : Id m) :
    ∃ b, ev.hasEdge s t = .ok b ∧
      (b = true ↔ t.val < rows.length ∧ ∃ hs : s.val < rows.length, t ∈ rows[s.val].map Prod.fst) := by
  unfold hasEdge
  rcases findEdgeIndex_spec h s t with ⟨i, hs, hi, h1, h2, h3⟩ | ⟨h1, h2⟩
  · rw [h1, bind_ok]
    exact ⟨true, rfl, fun _ => ⟨h3, hs, List.mem_map.2 ⟨_, List.getElem_mem hi, h2⟩⟩, fun _ => rfl⟩
  · rw [h1, bind_ok]
    exact ⟨false, rfl, fun h => by simp at h, fun h => absurd h h2⟩

theorem row_unique (h : Encodes ev rows lab) {i : Nat} (hi : i < rows.length) {p q : Id m × Id k}
    (hp : p ∈ rows[i]) (hq : q ∈ rows[i]) (he : p.1 = q.1) : p = q :=
  List.inj_on_of_nodup_map (sorted_nodup (row_sorted h i hi)) hp hq he

theorem findEdgeLabelId_spec (h : Encodes ev rows lab) (s t : Id m) :
    ∃ r, ev.findEdgeLabelId s t = .ok r ∧
      ∀ l, r = some l ↔ lab = true ∧ t.val < rows.length ∧
        ∃ hs : s.val < rows.length, (t, l) ∈ rows[s.val] := by
  unfold findEdgeLabelId
  cases lab with
  | false =>
    have : ev.getLabels = [] := by simp [getLabels, h.labels]
    rw [if_pos this]
    exact ⟨none, rfl, by simp⟩
  | true =>
    have hl : ev.getLabels = rows.flatten.map Prod.snd := by simp [getLabels, h.labels]
    rw [hl]
    by_cases he : rows.flatten.map Prod.snd = []
    · rw [if_pos he]
      refine ⟨none, rfl, fun l => ⟨by simp, ?_⟩⟩
      rintro ⟨-, -, hs, hm⟩
      rw [List.map_eq_nil_iff, List.flatten_eq_nil_iff] at he
      rw [he _ (List.getElem_mem hs)] at hm
      cases hm
    · rw [if_neg he]
      rcases findEdgeIndex_spec h s t with ⟨i, hs, hi, h1, h2, h3⟩ | ⟨h1, h2⟩
      · rw [h1, bind_ok]
        refine ⟨_, rfl, fun l => ?_⟩
        rw [List.getElem?_map, getElem_flatten rows hs hi]
        simp only [Option.map_some, Option.some.injEq, true_and]
        constructor
        · rintro rfl
          exact ⟨h3, hs, by rw [← h2]; exact List.getElem_mem hi⟩
        · rintro ⟨-, hs', hm⟩
          have := row_unique h hs (List.getElem_mem hi) hm h2
          rw [this]
      · rw [h1, bind_ok]
        refine ⟨none, rfl, fun l => ⟨by simp, ?_⟩⟩
        rintro ⟨-, ht, hs, hm⟩
        exact absurd ⟨ht, hs, List.mem_map.2 ⟨_, hm, rfl⟩⟩ h2

end EdgeVec

/-! ### Iteration looks only at offsets and edges; wrapping around -/

namespace EdgeIter

variable {ev ev' : EdgeVec m k}

theorem collect_labels (h1 : ev'.offsets = ev.offsets) (h2 : ev'.edges = ev.edges) (d : Bool) :
    ∀ fuel it, collect ev' d fuel it = collect ev d fuel it := by
  obtain ⟨o, e, l⟩ := ev
  obtain ⟨o', e', l'⟩ := ev'
  simp only at h1 h2
  subst h1 h2
  have hn : ∀ n, (EdgeVec.mk o' e' l').hasNode n = (EdgeVec.mk o' e' l).hasNode n := fun _ => rfl
  have hd : ∀ n, (EdgeVec.mk o' e' l').degree n = (EdgeVec.mk o' e' l).degree n := fun _ => rfl
  have hb : ∀ n, (EdgeVec.mk o' e' l').neighbors n = (EdgeVec.mk o' e' l).neighbors n := fun _ => rfl
  have skip : ∀ fuel it, skipEmpty (EdgeVec.mk o' e' l') fuel it =
      skipEmpty (EdgeVec.mk o' e' l) fuel it := by
    intro fuel
    induction fuel with
    | zero => intro it; rfl
    | succ f ih => intro it; simp only [skipEmpty, hn, hd, ih]
  have nx : ∀ fuel it, next (EdgeVec.mk o' e' l') d fuel it = next (EdgeVec.mk o' e' l) d fuel it := by
    intro fuel
    induction fuel with
    | zero => intro it; rfl
    | succ f ih => intro it; simp only [next, skip, hn, hb, ih]
  intro fuel
  induction fuel with
  | zero => intro it; rfl
  | succ f ih => intro it; simp only [collect, nx, ih]

variable {rows : List (List (Id m × Id k))} {lab : Bool}

theorem skipEmpty_wraps (h : Encodes ev rows lab) (hm : rows.length = m + 1) :
    ∀ fuel it, skipEmpty ev fuel it = .error .diverge ∨
      ∃ it', skipEmpty ev fuel it = .ok it' ∧
        ∃ hn : (Id.new it'.currNode : Id m).val < rows.length,
          it'.currIdx < rows[(Id.new it'.currNode : Id m).val].length := by
  intro fuel
  induction fuel with
  | zero => intro it; left; rfl
  | succ f ih =>
    intro it
    unfold skipEmpty
    have hn : (Id.new it.currNode : Id m).val < rows.length := by rw [hm]; exact Fin.isLt _
    rw [EdgeVec.hasNode_eq h, bind_ok, decide_eq_true hn]
    simp only [if_true]
    rw [EdgeVec.degree_eq h _ hn, bind_ok]
    split
    · exact ih _
    · rename_i hlt
      right
      exact ⟨it, rfl, hn, by omega⟩

theorem pick_total (nb : List (Id m)) (hs : nb.Pairwise (· < ·)) (d : Bool) (node idx : Nat)
    (hidx : idx < nb.length) : pick nb d node idx = .ok none ∨
      ∃ i, pick nb d node idx = .ok (some i) ∧ i < nb.length := by
  unfold pick
  split
  · right; exact ⟨idx, rfl, hidx⟩
  · rw [index_lt hidx, bind_ok]
    split
    · rcases binarySearch_spec nb (Id.new node) hs with ⟨i, h1, h2⟩ | ⟨i, h1, -⟩
      · right
        obtain ⟨hi, -⟩ := List.getElem?_eq_some_iff.1 h2
        exact ⟨i, by simp [h1, bind_ok, pure_ok], hi⟩
      · by_cases hi : i < nb.length
        · right; exact ⟨i, by simp [h1, bind_ok, pure_ok, hi], hi⟩
        · left; simp [h1, bind_ok, pure_ok, hi]
    · right; exact ⟨idx, rfl, hidx⟩

theorem next_wraps (h : Encodes ev rows lab) (hm : rows.length = m + 1) (d : Bool) :
    ∀ fuel it, next ev d fuel it = .error .diverge ∨
      ∃ e it', next ev d fuel it = .ok (some (e, it')) := by
  intro fuel
  induction fuel with
  | zero => intro it; left; rfl
  | succ f ih =>
    intro it
    unfold next
    rcases skipEmpty_wraps h hm (f + 1) it with h1 | ⟨it1, h1, hn, hi⟩
    · left; rw [h1]; rfl
    · rw [h1, bind_ok, EdgeVec.hasNode_eq h, bind_ok, decide_eq_true hn]
      simp only [if_true]
      rw [EdgeVec.neighbors_eq h _ hn, bind_ok]
      rcases pick_total (rows[(Id.new it1.currNode : Id m).val].map Prod.fst)
        (EdgeVec.row_sorted h _ hn) d it1.currNode it1.currIdx (by simpa using hi) with h2 | ⟨i, h2, h3⟩
      · rw [h2, bind_ok]; exact ih _
      · rw [h2, bind_ok]
        right
        simp only [yieldAt]
        rw [index_lt h3, bind_ok]
        exact ⟨_, _, rfl⟩

theorem collect_wraps (h : Encodes ev rows lab) (hm : rows.length = m + 1) (d : Bool) :
    ∀ fuel it, collect ev d fuel it = .error .diverge := by
  intro fuel
  induction fuel with
  | zero => intro it; rfl
  | succ f ih =>
    intro it
    unfold collect
    rcases next_wraps h hm d (f + 1) it with h1 | ⟨e, it', h1⟩
    · rw [h1]; rfl
    · rw [h1, bind_ok]
      simp only
      rw [ih]; rfl

end EdgeIter

/-! ### The listed pairs -/

/-- The pairs with their labels, before filtering. -/
def arcs (rows : List (List (Id m × Id k))) (n : Nat) : List (Nat × Id m × Id k) :=
  (rows.zipIdx n).flatMap (fun r => r.1.map (fun p => (r.2, p)))

theorem arcs_cons (r : List (Id m × Id k)) (rows : List (List (Id m × Id k))) (n : Nat) :
    arcs (r :: rows) n = r.map (fun p => (n, p)) ++ arcs rows (n + 1) := by
  simp [arcs, List.zipIdx_cons]

theorem arcs_snd (rows : List (List (Id m × Id k))) : ∀ n, (arcs rows n).map Prod.snd = rows.flatten := by
  induction rows with
  | nil => intro n; rfl
  | cons r l ih =>
    intro n
    rw [arcs_cons, List.map_append, ih, List.flatten_cons]
    simp [Function.comp_def]

theorem mem_arcs (rows : List (List (Id m × Id k))) (i : Nat) (p : Id m × Id k) :
    ∀ n, (i, p) ∈ arcs rows n ↔ ∃ (_ : n ≤ i) (h : i - n < rows.length), p ∈ rows[i - n] := by
  induction rows with
  | nil => intro n; simp [arcs]
  | cons r l ih =>
    intro n
    rw [arcs_cons, List.mem_append, ih, List.mem_map]
    constructor
    · rintro (⟨q, hq, he⟩ | ⟨h1, h2, h3⟩)
      · simp only [Prod.mk.injEq] at he
        obtain ⟨rfl, rfl⟩ := he
        exact ⟨le_refl _, by simp, by simpa using hq⟩
      · refine ⟨by omega, by simp; omega, ?_⟩
        have : i - n = (i - (n + 1)) + 1 := by omega
        simp only [this, List.getElem_cons_succ]
        exact h3
    · rintro ⟨h1, h2, h3⟩
      rcases Nat.lt_or_eq_of_le h1 with h | rfl
      · right
        have : i - n = (i - (n + 1)) + 1 := by omega
        simp only [this, List.getElem_cons_succ, List.length_cons] at h2 h3
        exact ⟨by omega, by omega, h3⟩
      · left
        simp only [Nat.sub_self, List.getElem_cons_zero] at h3
        exact ⟨p, h3, rfl⟩

/-- Lexicographic order of pairs. -/
def LexLt (a b : Nat × Id m) : Prop := a.1 < b.1 ∨ a.1 = b.1 ∧ a.2 < b.2

theorem arcs_sorted (rows : List (List (Id m × Id k)))
    (hs : ∀ r ∈ rows, (r.map Prod.fst).Pairwise (· < ·)) :
    ∀ n, ((arcs rows n).map (fun x => (x.1, x.2.1))).Pairwise LexLt := by
  induction rows with
  | nil => intro n; exact List.Pairwise.nil
  | cons r l ih =>
    intro n
    rw [arcs_cons, List.map_append, List.pairwise_append]
    refine ⟨?_, ih (fun x hx => hs x (List.mem_cons_of_mem _ hx)) _, ?_⟩
    · rw [List.map_map, List.pairwise_map]
      have := hs r List.mem_cons_self
      rw [List.pairwise_map] at this
      exact this.imp (fun h => Or.inr ⟨rfl, h⟩)
    · rintro ⟨a, b⟩ ha ⟨c, d⟩ hc
      rw [List.mem_map] at ha hc
      obtain ⟨⟨i, p⟩, ha, he⟩ := ha
      obtain ⟨⟨j, q⟩, hc, he'⟩ := hc
      rw [mem_arcs] at hc
      obtain ⟨h1, -⟩ := hc
      obtain ⟨x, -, hx⟩ := List.mem_map.1 ha
      simp only [Prod.mk.injEq] at he he' hx
      left
      show a < c
      omega

theorem pairsOf_eq (d : Bool) (rows : List (List (Id m × Id k))) :
    pairsOf d rows = ((arcs rows 0).map (fun x => (x.1, x.2.1))).filter
      (fun p => d || decide (p.1 ≤ p.2.val)) := by
  unfold pairsOf arcs
  rw [List.map_flatMap]
  congr 2
  funext r
  simp [Function.comp_def]

theorem mem_pairsOf (d : Bool) (rows : List (List (Id m × Id k))) (i : Nat) (t : Id m) :
    (i, t) ∈ pairsOf d rows ↔
      (∃ h : i < rows.length, t ∈ rows[i].map Prod.fst) ∧ (d = true ∨ i ≤ t.val) := by
  rw [pairsOf_eq, List.mem_filter]
  simp only [Bool.or_eq_true, decide_eq_true_eq]
  refine and_congr ?_ Iff.rfl
  rw [List.mem_map]
  constructor
  · rintro ⟨⟨j, p⟩, h, he⟩
    rw [mem_arcs] at h
    simp only [Prod.mk.injEq] at he
    obtain ⟨rfl, rfl⟩ := he
    obtain ⟨-, h1, h2⟩ := h
    exact ⟨h1, List.mem_map.2 ⟨p, h2, rfl⟩⟩
  · rintro ⟨h1, h2⟩
    obtain ⟨p, hp, rfl⟩ := List.mem_map.1 h2
    exact ⟨(i, p), (mem_arcs rows i p 0).2 ⟨by omega, h1, hp⟩, rfl⟩

theorem pairsOf_sorted (d : Bool) (rows : List (List (Id m × Id k)))
    (hs : ∀ r ∈ rows, (r.map Prod.fst).Pairwise (· < ·)) : (pairsOf d rows).Pairwise LexLt := by
  rw [pairsOf_eq]
  exact (arcs_sorted rows hs 0).filter _

theorem toEdge_val (rows : List (List (Id m × Id k))) (hm : rows.length ≤ m + 1) (d : Bool)
    {p : Nat × Id m} (h : p ∈ pairsOf d rows) : (EdgeIter.toEdge p).1.val = p.1 := by
  obtain ⟨⟨h1, -⟩, -⟩ := (mem_pairsOf d rows p.1 p.2).1 h
  exact EdgeIter.Id_new_val (by omega)

theorem mem_edgeList (d : Bool) (rows : List (List (Id m × Id k))) (hm : rows.length ≤ m + 1)
    (s t : Id m) : (s, t) ∈ (pairsOf d rows).map EdgeIter.toEdge ↔
      (∃ h : s.val < rows.length, t ∈ rows[s.val].map Prod.fst) ∧ (d = true ∨ s ≤ t) := by
  rw [Fin.le_def, ← mem_pairsOf, List.mem_map]
  constructor
  · rintro ⟨p, hp, he⟩
    have := toEdge_val rows hm d hp
    obtain ⟨i, x⟩ := p
    rw [he] at this
    simp only [EdgeIter.toEdge, Prod.mk.injEq] at he
    simp only at this
    rw [this, ← he.2]
    exact hp
  · intro h
    exact ⟨_, h, by simp [EdgeIter.toEdge, GraphMap.Id_new_self]⟩

theorem edgeList_sorted (d : Bool) (rows : List (List (Id m × Id k)))
    (hs : ∀ r ∈ rows, (r.map Prod.fst).Pairwise (· < ·)) (hm : rows.length ≤ m + 1) :
    ((pairsOf d rows).map EdgeIter.toEdge).Pairwise
      (fun a b => a.1 < b.1 ∨ a.1 = b.1 ∧ a.2 < b.2) := by
  rw [List.pairwise_map]
  refine (pairsOf_sorted d rows hs).imp_of_mem ?_
  intro a b ha hb h
  rw [Fin.lt_def, Fin.ext_iff, toEdge_val rows hm d ha, toEdge_val rows hm d hb]
  exact h

theorem edgeList_nodup (d : Bool) (rows : List (List (Id m × Id k)))
    (hs : ∀ r ∈ rows, (r.map Prod.fst).Pairwise (· < ·)) (hm : rows.length ≤ m + 1) :
    ((pairsOf d rows).map EdgeIter.toEdge).Nodup := by
  refine (edgeList_sorted d rows hs hm).imp ?_
  rintro a b h rfl
  rcases h with h | ⟨-, h⟩ <;> exact lt_irrefl _ h

theorem edgeList_length (rows : List (List (Id m × Id k))) :
    ((pairsOf true rows).map EdgeIter.toEdge).length = rows.flatten.length := by
  rw [List.length_map, pairsOf_eq]
  simp only [Bool.true_or, List.filter_true, List.length_map]
  rw [← arcs_snd rows 0, List.length_map]

/-- Twice the number of listed undirected edges is the number of entries plus the self loops. -/
theorem edgeList_double (rows : List (List (Id m × Id k)))
    (hs : ∀ r ∈ rows, (r.map Prod.fst).Pairwise (· < ·)) (hm : rows.length ≤ m + 1)
    (hsym : ∀ s t : Id m, (s, t) ∈ (pairsOf true rows).map EdgeIter.toEdge →
      (t, s) ∈ (pairsOf true rows).map EdgeIter.toEdge) :
    rows.flatten.length + (Finset.univ.filter
      (fun n : Id m => (n, n) ∈ (pairsOf true rows).map EdgeIter.toEdge)).card =
      2 * ((pairsOf false rows).map EdgeIter.toEdge).length := by
  rw [← edgeList_length,
    GraphMap.length_eq_card _ (edgeList_nodup true rows hs hm) (fun q => q ∈ _) (fun _ => Iff.rfl),
    GraphMap.length_eq_card _ (edgeList_nodup false rows hs hm)
      (fun q => (q.1, q.2) ∈ (pairsOf true rows).map EdgeIter.toEdge ∧ q.1 ≤ q.2)
      (fun q => by
        rw [← Prod.mk.eta (p := q), mem_edgeList false rows hm, mem_edgeList true rows hm]; simp)]
  exact GraphMap.undirected_count (fun s t => (s, t) ∈ (pairsOf true rows).map EdgeIter.toEdge) hsym

/-! ### Static graphs -/

/-- All targets of the rows are row numbers. -/
def Closed (rows : List (List (Id m × Id k))) : Prop := ∀ r ∈ rows, ∀ p ∈ r, p.1.val < rows.length

namespace StaticGraph

variable {g : StaticGraph m k NL EL} {rows : List (List (Id m × Id k))} {lab : Bool}

/-- `get_edge` reports exactly the entries of the rows. -/
theorem getEdge_spec (h : Encodes g.edgeVec rows lab) (s t : Id m) :
    ∃ r, g.getEdge s t = .ok r ∧
      (∀ e, r = some e ↔ t.val < rows.length ∧ ∃ (hs : s.val < rows.length) (l : Id k),
        (t, l) ∈ rows[s.val] ∧ e = ⟨s, t, if lab then staticLabel l else none⟩) := by
  unfold getEdge hasEdge
  obtain ⟨b, h1, h2⟩ := EdgeVec.hasEdge_spec h s t
  rw [h1, bind_ok]
  cases b with
  | false =>
    refine ⟨none, rfl, fun e => ⟨by simp, ?_⟩⟩
    rintro ⟨ht, hs, l, hm, -⟩
    exact absurd (h2.2 ⟨ht, hs, List.mem_map.2 ⟨_, hm, rfl⟩⟩) (by simp)
  | true =>
    obtain ⟨ht, hs, hm⟩ := h2.1 rfl
    obtain ⟨⟨t', l⟩, hl, rfl⟩ := List.mem_map.1 hm
    obtain ⟨r, h3, h4⟩ := EdgeVec.findEdgeLabelId_spec h s t'
    simp only [if_true]
    rw [h3, bind_ok]
    have huniq : ∀ l', (t', l') ∈ rows[s.val] → l' = l := by
      intro l' hl'
      have := EdgeVec.row_unique h hs hl' hl rfl
      rw [Prod.mk.injEq] at this
      exact this.2
    cases lab with
    | false =>
      have hr : r = none := by
        cases r with
        | none => rfl
        | some x => have := (h4 x).1 rfl; simp at this
      rw [hr]
      refine ⟨some ⟨s, t', none⟩, rfl, fun e => ?_⟩
      constructor
      · rintro ⟨⟩; exact ⟨ht, hs, l, hl, rfl⟩
      · rintro ⟨-, -, l', -, rfl⟩; rfl
    | true =>
      have hr : r = some l := (h4 l).2 ⟨rfl, ht, hs, hl⟩
      rw [hr]
      refine ⟨some ⟨s, t', staticLabel l⟩, rfl, fun e => ?_⟩
      constructor
      · rintro ⟨⟩; exact ⟨ht, hs, l, hl, rfl⟩
      · rintro ⟨_, _, l', hl', rfl⟩
        rw [huniq l' hl']; rfl

theorem edges_directed (h : Encodes g.edgeVec rows true) (hm : rows.length ≤ m) (hd : g.directed = true) :
    g.edges = .ok ((arcs rows 0).map (fun x => ⟨Id.new x.1, x.2.1, staticLabel x.2.2⟩)) := by
  rw [edges_of (show g.edgeIndices = _ from edgeIndices_eq h hm _)]
  have hl : g.edgeVec.getLabels = rows.flatten.map Prod.snd := by simp [EdgeVec.getLabels, h.labels]
  have hp : pairsOf g.directed rows = (arcs rows 0).map (fun x => (x.1, x.2.1)) := by
    rw [pairsOf_eq, hd]; simp
  rw [hl, hp]
  by_cases he : rows.flatten.map Prod.snd = []
  · rw [if_pos he]
    have : arcs rows 0 = [] := by
      have := congrArg List.length (arcs_snd rows 0)
      rw [List.map_eq_nil_iff.1 he, List.length_map, List.length_nil] at this
      exact List.length_eq_zero_iff.1 this
    rw [this]; rfl
  · rw [if_neg he, ← arcs_snd rows 0, List.map_map, List.map_map, List.zip_map', List.map_map]
    rfl

theorem edges_plain (h : Encodes g.edgeVec rows false) (hm : rows.length ≤ m) :
    g.edges = .ok (((pairsOf g.directed rows).map EdgeIter.toEdge).map (fun e => ⟨e.1, e.2, none⟩)) := by
  rw [edges_of (show g.edgeIndices = _ from edgeIndices_eq h hm _)]
  have hl : g.edgeVec.getLabels = [] := by simp [EdgeVec.getLabels, h.labels]
  rw [hl, if_pos rfl]

theorem edges_ok (h : Encodes g.edgeVec rows lab) (hm : rows.length ≤ m) :
    ∃ es, g.edges = .ok es := by
  exact ⟨_, edges_of (show g.edgeIndices = _ from edgeIndices_eq h hm _)⟩

/-- `edges` lists the pairs of `edge_indices`. -/
theorem view_edges (h : Encodes g.edgeVec rows lab) (hm : rows.length ≤ m) {v : GView m k NL EL}
    (hv : g.view = .ok v) : v.edges.map (fun e => (e.src, e.dst)) = v.edgeIndices := by
  have he : g.edgeIndices = .ok _ := edgeIndices_eq h hm g.directed
  have hes : g.edges = .ok (if g.edgeVec.getLabels = [] then
      ((pairsOf g.directed rows).map EdgeIter.toEdge).map (fun e => ⟨e.1, e.2, none⟩)
      else ((((pairsOf g.directed rows).map EdgeIter.toEdge).zip g.edgeVec.getLabels).map
        (fun p => ⟨p.1.1, p.1.2, staticLabel p.2⟩))) := edges_of he
  unfold view at hv
  rw [he, bind_ok, hes, bind_ok] at hv
  obtain rfl := Except.ok.inj hv
  show List.map _ (if _ then _ else _) = _
  split
  · rw [List.map_map]; exact List.map_id _
  · rename_i hne
    rw [List.map_map]
    have : ((fun e : Edge m k => (e.src, e.dst)) ∘ fun p : (Id m × Id m) × Id k =>
        ⟨p.1.1, p.1.2, staticLabel p.2⟩) = Prod.fst := rfl
    rw [this]
    apply List.map_fst_zip
    cases lab with
    | false =>
      have hl : g.edgeVec.getLabels = [] := by simp [EdgeVec.getLabels, h.labels]
      exact absurd hl hne
    | true =>
      have hl : g.edgeVec.getLabels = rows.flatten.map Prod.snd := by
        simp [EdgeVec.getLabels, h.labels]
      rw [hl, List.length_map, List.length_map, ← arcs_snd rows 0, List.length_map, pairsOf_eq]
      exact (List.length_filter_le _ _).trans (by rw [List.length_map])

/-- The view of a static graph with a sound adjacency exists. -/
theorem view_ok (h : Encodes g.edgeVec rows lab) (hm : rows.length ≤ m) :
    ∃ v, g.view = .ok v ∧ v.directed = g.directed ∧ v.nodeCount = g.numNodes ∧
      v.edgeCount = g.numEdges ∧ v.hasNode = g.hasNode ∧ v.hasEdge = g.hasEdge ∧
      v.nodeLid = g.nodeLid ∧
      v.edgeLid = (fun s t => do let e ← g.getEdge s t; pure (e.bind (·.label))) ∧
      v.nodeIndices = g.nodeIndices ∧ g.edgeIndices = .ok v.edgeIndices ∧ v.nodes = g.nodes ∧
      g.edges = .ok v.edges ∧ v.degree = g.degree ∧ v.neighbors = g.neighbors ∧
      v.maxSeenId = g.maxSeenId ∧ v.nodeLabels = g.nodeLabels ∧ v.edgeLabels = g.edgeLabels := by
  obtain ⟨es, hes⟩ := edges_ok h hm
  have he : g.edgeIndices = .ok _ := edgeIndices_eq h hm g.directed
  unfold view
  rw [he, bind_ok, hes, bind_ok]
  exact ⟨_, rfl, rfl, rfl, rfl, rfl, rfl, rfl, rfl, rfl, rfl, rfl, rfl, rfl, rfl, rfl, rfl, rfl⟩

end StaticGraph

/-! ### Frozen graphs -/

namespace GraphMap

variable {g : GraphMap m k NL EL} {M : Id m} {r : StaticGraph m k NL EL}

theorem rows_closed (hg : g.Inv) (hM : ∀ n, g.hasNode n = true → n ≤ M) : Closed (g.rows (M.val + 1)) := by
  intro row hr p hp
  obtain ⟨i, hi, rfl⟩ := List.mem_map.1 hr
  rw [List.mem_range] at hi
  obtain ⟨t, l⟩ := p
  have hi' : (Id.new i : Id m).val = i := EdgeIter.Id_new_val (by have := M.isLt; omega)
  rw [← hi'] at hp
  rw [mem_rowOf hg.toNWF] at hp
  have : (g.outE (Id.new i) t).isSome := by
    cases h : g.outE (Id.new i) t with
    | none => rw [h] at hp; cases hp
    | some x => rfl
  have := hM t (hg.target _ _ this)
  rw [Fin.le_def] at this
  simp; omega

theorem outE_rows (s t : Id m) :
    t ∈ (g.rowOf s.val).map Prod.fst ↔ (g.outE s t).isSome := by
  rw [rowOf_fst]
  cases h : g.getNode s with
  | none => simp [outE, h]
  | some nd => exact mem_neighborIds_iff h t

theorem frozen_hasEdge (hg : g.Inv) (hM : ∀ n, g.hasNode n = true → n ≤ M) (hr : FrozenAs g M r)
    (s t : Id m) : r.hasEdge s t = .ok (g.hasEdge s t) := by
  obtain ⟨b, h1, h2⟩ := EdgeVec.hasEdge_spec hr.out s t
  unfold StaticGraph.hasEdge
  rw [h1]
  congr 1
  rw [Bool.eq_iff_iff, h2, hasEdge_eq_outE]
  simp only [rows_length, rows_getElem]
  rw [outE_rows]
  constructor
  · rintro ⟨-, -, h⟩; exact h
  · intro h
    have h3 := hM s (outE_hasNode h)
    have h4 := hM t (hg.target s t h)
    rw [Fin.le_def] at h3 h4
    exact ⟨by omega, by omega, h⟩

/-- The label id a frozen edge carries. -/
def keep (has : Bool) (l : Option (Id k)) : Option (Id k) :=
  if has then staticLabel (l.getD Id.maxValue) else none

theorem frozen_getEdge (hg : g.Inv) (hM : ∀ n, g.hasNode n = true → n ≤ M) (hr : FrozenAs g M r)
    (s t : Id m) :
    r.getEdge s t = .ok ((g.outE s t).map (fun l => ⟨s, t, keep g.view.hasEdgeLabels l⟩)) := by
  obtain ⟨x, h1, h2⟩ := StaticGraph.getEdge_spec hr.out s t
  rw [h1]
  congr 1
  apply Option.ext
  intro e
  rw [h2 e]
  simp only [rows_length, rows_getElem, mem_rowOf hg.toNWF]
  constructor
  · rintro ⟨-, -, l, h3, rfl⟩
    obtain ⟨y, hy, rfl⟩ := Option.map_eq_some_iff.1 h3
    rw [hy]; rfl
  · intro h
    obtain ⟨y, hy, rfl⟩ := Option.map_eq_some_iff.1 h
    have hs : (g.outE s t).isSome := by rw [hy]; rfl
    have h3 := hM s (outE_hasNode hs)
    have h4 := hM t (hg.target s t hs)
    rw [Fin.le_def] at h3 h4
    exact ⟨by omega, by omega, _, by rw [hy]; rfl, rfl⟩

theorem frozen_neighbors (hM : ∀ n, g.hasNode n = true → n ≤ M) (hr : FrozenAs g M r)
    {n : Id m} {nd : NodeMap m k} (hn : g.getNode n = some nd) :
    r.neighbors n = .ok nd.neighborIds ∧ r.degree n = .ok nd.neighborIds.length := by
  have hle := hM n ((hasNode_iff _ _).2 ⟨nd, hn⟩)
  rw [Fin.le_def] at hle
  have hlt : n.val < (g.rows (M.val + 1)).length := by simp; omega
  have he : (g.rows (M.val + 1))[n.val].map Prod.fst = nd.neighborIds := by
    rw [rows_getElem, rowOf_fst, hn]; rfl
  unfold StaticGraph.neighbors StaticGraph.degree
  rw [EdgeVec.neighbors_eq hr.out n hlt, EdgeVec.degree_eq hr.out n hlt, he]
  refine ⟨rfl, ?_⟩
  rw [← he, List.length_map]

theorem frozen_inNeighbors (hM : ∀ n, g.hasNode n = true → n ≤ M) (hr : FrozenAs g M r)
    (hd : g.directed = true) {n : Id m} {nd : NodeMap m k} (hn : g.getNode n = some nd) :
    r.inNeighbors n = .ok nd.inNeighborIds := by
  have hle := hM n ((hasNode_iff _ _).2 ⟨nd, hn⟩)
  rw [Fin.le_def] at hle
  have hlt : n.val < (g.inRows (M.val + 1)).length := by simp; omega
  have he : (g.inRows (M.val + 1))[n.val].map Prod.fst = nd.inNeighborIds := by
    rw [inRows_getElem, inRowOf_fst, hn]; rfl
  obtain ⟨iv, h1, h2⟩ := hr.inn hd
  unfold StaticGraph.inNeighbors
  rw [h1]
  simp only [unwrap, bind_ok]
  rw [EdgeVec.neighbors_eq h2 n hlt, he]

/-- Decoding a kept label. -/
theorem keep_decode {X : Type} (s : SetMap X) (hs : s.len ≤ k) (l : Option (Id k)) :
    (keep (s.items.head?.isSome) l).bind (fun l => s.getItem l.val) =
      l.bind (fun l => s.getItem l.val) := by
  have hmax : s.getItem (Id.maxValue : Id k).val = none := by
    show s.labels[k]? = none
    exact List.getElem?_eq_none hs
  unfold keep
  cases hh : s.items.head?.isSome with
  | false =>
    have he : s.labels = [] := by
      have : s.labels.head?.isSome = false := hh
      cases hl : s.labels with
      | nil => rfl
      | cons a b => rw [hl] at this; simp at this
    cases l with
    | none => rfl
    | some l => simp [SetMap.getItem, he]
  | true =>
    simp only [if_true]
    cases l with
    | none => simp [staticLabel]
    | some l =>
      unfold staticLabel
      simp only [Option.getD_some]
      by_cases h : l = Id.maxValue
      · rw [if_pos h, h]; simp [hmax]
      · rw [if_neg h]

theorem frozen_nodeLid (hr : FrozenAs g M r) (n : Id m) (hlt : n.val < g.nodeCount) (hn : n ≤ M) :
    r.nodeLid n = .ok (keep g.view.hasNodeLabels ((g.getNode n).bind (·.label))) := by
  unfold StaticGraph.nodeLid StaticGraph.hasNode
  rw [hr.numNodes, hr.labels]
  simp only [hlt, decide_true, Bool.not_true, Bool.false_eq_true, if_false]
  unfold keep
  cases g.view.hasNodeLabels with
  | false => rfl
  | true =>
    simp only [if_true]
    rw [Fin.le_def] at hn
    rw [index_eq (x := g.lidOf n.val) (by
      rw [List.getElem?_map, List.getElem?_range (by omega)]; rfl), bind_ok]
    unfold lidOf
    rw [Id_new_self]
    rfl

theorem frozen_edgeIndices (hM : ∀ n, g.hasNode n = true → n ≤ M) (hlt : M.val < m)
    (hr : FrozenAs g M r) : ∃ es, r.edgeIndices = .ok es ∧ es.Nodup ∧
      ∀ s t, (s, t) ∈ es ↔ (g.outE s t).isSome ∧ (g.directed = true ∨ s ≤ t) := by
  refine ⟨_, Verif.edgeIndices_eq hr.out (by simp; omega) r.directed,
    edgeList_nodup _ _ hr.out.sorted (by simp; omega), ?_⟩
  intro s t
  rw [mem_edgeList _ _ (by simp; omega), hr.directed]
  refine and_congr ?_ Iff.rfl
  simp only [rows_length, rows_getElem, outE_rows]
  constructor
  · rintro ⟨_, h⟩; exact h
  · intro h
    have := hM s (outE_hasNode h)
    rw [Fin.le_def] at this
    exact ⟨by omega, h⟩

theorem nodeIndices_length (g : GraphMap m k NL EL) : g.nodeIndices.length = g.nodeCount := by
  simp [nodeIndices, nodeCount, AL.keys]

theorem nodeCount_card (hg : g.NWF) :
    g.nodeCount = (Finset.univ.filter (fun n => g.hasNode n = true)).card := by
  rw [← nodeIndices_length]
  exact length_eq_card _ hg.keys _ (mem_nodeIndices g)

theorem below_nodup (c : Nat) (hc : c ≤ m + 1) :
    ((List.range c).map (Id.new : Nat → Id m)).Nodup := by
  refine List.Nodup.map_on ?_ List.nodup_range
  intro x hx y hy he
  rw [List.mem_range] at hx hy
  have := congrArg Fin.val he
  rwa [EdgeIter.Id_new_val (by omega), EdgeIter.Id_new_val (by omega)] at this

theorem mem_below (c : Nat) (hc : c ≤ m + 1) (x : Id m) :
    x ∈ (List.range c).map (Id.new : Nat → Id m) ↔ x.val < c := by
  rw [List.mem_map]
  constructor
  · rintro ⟨y, hy, rfl⟩
    rw [List.mem_range] at hy
    rwa [EdgeIter.Id_new_val (by omega)]
  · intro hx
    exact ⟨x.val, List.mem_range.2 hx, Id_new_self x⟩

theorem card_below (c : Nat) (hc : c ≤ m + 1) :
    (Finset.univ.filter (fun n : Id m => n.val < c)).card = c := by
  have h := length_eq_card _ (below_nodup c hc) (fun n : Id m => n.val < c) (mem_below c hc)
  rw [← h]; simp

theorem exists_max (h0 : g.nodeCount ≠ 0) (h1 : g.hasNode Id.maxValue = false) :
    ∃ M, g.nodeIndices.max? = some M ∧ M.val < m := by
  cases hM : g.nodeIndices.max? with
  | none =>
    rw [List.max?_eq_none_iff] at hM
    rw [← nodeIndices_length, hM] at h0
    exact absurd rfl h0
  | some M =>
    refine ⟨M, rfl, ?_⟩
    have h := (max_spec hM).1
    by_contra hcon
    have : M = Id.maxValue := Fin.ext (by show M.val = m; have := M.isLt; omega)
    rw [this, h1] at h
    cases h

theorem getNodeLabel_decoded (g : GraphMap m k NL EL) (n : Id m) :
    g.getNodeLabel n = ((g.getNode n).bind (·.label)).bind (fun l => g.nodeLabels.getItem l.val) := by
  unfold getNodeLabel
  cases (g.getNode n).bind (·.label) <;> rfl

theorem getEdgeLabel_decoded (g : GraphMap m k NL EL) (s t : Id m) :
    g.getEdgeLabel s t = .ok ((g.outE s t).bind
      (fun l => l.bind (fun l => g.edgeLabels.getItem l.val))) := by
  unfold getEdgeLabel
  rw [getEdge_eq_outE, bind_ok]
  cases g.outE s t with
  | none => rfl
  | some l => cases l <;> rfl

omit g in
theorem view_maxSeen {r : StaticGraph m k NL EL} {v : GView m k NL EL} (h : r.view = .ok v) :
    v.maxSeenId = r.maxSeenId ∧ v.nodeCount = r.numNodes := by
  unfold StaticGraph.view at h
  obtain ⟨es, -, h⟩ := bind_eq_ok h
  obtain ⟨eds, -, h⟩ := bind_eq_ok h
  cases h
  exact ⟨rfl, rfl⟩

theorem nodeCount_le (hg : g.NWF) (hM : ∀ n, g.hasNode n = true → n ≤ M) :
    g.nodeCount ≤ M.val + 1 := by
  rw [nodeCount_card hg, ← card_below (m := m) (M.val + 1) (by have := M.isLt; omega)]
  apply Finset.card_le_card
  intro n hn
  simp only [Finset.mem_filter, Finset.mem_univ, true_and] at hn ⊢
  have := hM n hn
  rw [Fin.le_def] at this
  omega

/-- If the node ids are not `0..n-1`, some id below `n` is absent and some id from `n` on present. -/
theorem gap (hg : g.NWF) (h : ¬ ∀ n : Id m, g.hasNode n = true ↔ n.val < g.nodeCount) :
    (∃ n, g.hasNode n = true ∧ ¬ n.val < g.nodeCount) ∧
      (∃ n : Id m, g.hasNode n = false ∧ n.val < g.nodeCount) := by
  have hc : g.nodeCount ≤ m + 1 := by
    rw [nodeCount_card hg]
    exact (Finset.card_filter_le _ _).trans (by simp)
  have h1 := nodeCount_card hg
  have h2 := card_below (m := m) g.nodeCount hc
  constructor
  · by_contra hcon
    apply h
    have hsub : (Finset.univ.filter (fun n => g.hasNode n = true)) ⊆
        (Finset.univ.filter (fun n : Id m => n.val < g.nodeCount)) := by
      intro n hn
      simp only [Finset.mem_filter, Finset.mem_univ, true_and] at hn ⊢
      by_contra hn'
      exact hcon ⟨n, hn, hn'⟩
    have := Finset.eq_of_subset_of_card_le hsub (by omega)
    intro n
    have := Finset.ext_iff.1 this n
    simpa using this
  · by_contra hcon
    apply h
    have hsub : (Finset.univ.filter (fun n : Id m => n.val < g.nodeCount)) ⊆
        (Finset.univ.filter (fun n => g.hasNode n = true)) := by
      intro n hn
      simp only [Finset.mem_filter, Finset.mem_univ, true_and] at hn ⊢
      by_contra hn'
      exact hcon ⟨n, by simpa using hn', hn⟩
    have := Finset.eq_of_subset_of_card_le hsub (by omega)
    intro n
    have := Finset.ext_iff.1 this n
    simp only [Finset.mem_filter, Finset.mem_univ, true_and] at this
    exact this.symm

end GraphMap

end Verif
