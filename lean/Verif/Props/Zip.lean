import Verif.Proof.ZipWrap
import Verif.Props.StaticEdges
import Verif.Props.RawCsr

/-! `edges()` of a labelled frozen or mapped graph zips the edge iterator with the label array, lazily: C162. -/

namespace Verif.Props

open Verif Verif.Spec

variable {m k : Nat} {NL EL : Type} {rows : List (List (Id m × Id k))}

/-- **C162.** `edges()` of a frozen and of a mapped graph with labels both zip the listed pairs with the labels. -/
theorem c162_zips (g : StaticGraph m k NL EL) (h : MmapGraph m k NL EL) :
    (g.edgeVec.getLabels ≠ [] → g.edges = (g.edgeVec.labelled g.directed >>= fun l =>
      pure (l.map (fun p => ⟨p.1.1, p.1.2, staticLabel p.2⟩)))) ∧
    (h.edges.getLabels ≠ [] → h.edgeList = (h.edges.labelled h.isDirected >>= fun l =>
      pure (l.map (fun p => ⟨p.1.1, p.1.2, staticLabel p.2⟩)))) :=
  ⟨fun hl => if_neg hl, fun hl => if_neg hl⟩

/-- **C162.** Whatever the arrays: if the pairs can all be listed, the zip pairs them with the labels, and ends with
the shorter of the two. -/
theorem c162_ends (ev : EdgeVec m k) (d : Bool) {es : List (Id m × Id m)} (h : ev.edgeIndices d = .ok es) :
    ev.labelled d = .ok (es.zip ev.getLabels) := labelled_of h

/-- The `j`-th pair of an enumeration that starts again at its end. -/
theorem cyclic {X : Type} (P : List X) (hP : P ≠ []) (n j : Nat) (hj : j < n * P.length) :
    (List.replicate n P).flatten[j]? = P[j % P.length]? := by
  induction n generalizing j with
  | zero => omega
  | succ n ih =>
    rw [List.replicate_succ, List.flatten_cons]
    by_cases h : j < P.length
    · rw [List.getElem?_append_left h, Nat.mod_eq_of_lt h]
    · rw [List.getElem?_append_right (by omega), ih (j - P.length) (by rw [Nat.succ_mul] at hj; omega),
        ← Nat.mod_eq_sub_mod (by omega)]

theorem round_length {X : Type} (n : Nat) (P : List X) : (List.replicate n P).flatten.length = n * P.length := by
  simp

theorem round_zip {ev : EdgeVec m k} (h : Encodes ev rows true) (hm : rows.length = m + 1) (d : Bool)
    (hp : pairsOf d rows ≠ []) {F : Nat} (hF : 2 * (m + 1) ≤ F) (n : Nat)
    (hn : rows.flatten.length ≤ (n + 1) * (pairsOf d rows).length) :
    EdgeIter.zip ev d F ev.getLabels ⟨0, 0⟩ = .ok
      (((List.replicate (n + 1) (pairsOf d rows)).flatten.map EdgeIter.toEdge).zip ev.getLabels) := by
  have hl : ev.getLabels = rows.flatten.map Prod.snd := by simp [EdgeVec.getLabels, h.labels]
  have := EdgeIter.zip_round (X := Id k) h hm d hp hF ev.getLabels 0 0 0 n (by omega) (fun _ => rfl) (by
    rw [EdgeIter.rest_zero, hl, List.length_map, List.length_append, round_length]
    rw [Nat.succ_mul] at hn; omega)
  rw [EdgeIter.rest_zero, Nat.zero_mul] at this
  rw [List.replicate_succ, List.flatten_cons]
  exact this

/-- **C162.** With a row for every id the enumeration of the pairs never ends (C62), but that of a labelled graph
does: if there is any pair to list, it ends with the labels, and lists the pairs round and round. -/
theorem c162_round {ev : EdgeVec m k} (h : Encodes ev rows true) (hm : rows.length = m + 1) (d : Bool)
    (hp : arcsOf d rows ≠ []) :
    ∃ l, ev.labelled d = .ok l ∧ l.length = rows.flatten.length ∧
      ∀ j a b, (arcsOf d rows)[j % (arcsOf d rows).length]? = some a → rows.flatten[j]? = some b →
        l[j]? = some ((Id.new a.1, a.2.1), b.2) := by
  have hp' : pairsOf d rows ≠ [] := by rw [arcsOf_pairs]; simpa using hp
  have hl : ev.getLabels = rows.flatten.map Prod.snd := by simp [EdgeVec.getLabels, h.labels]
  have hpos : 0 < (pairsOf d rows).length := List.length_pos_iff.2 hp'
  have hn : rows.flatten.length ≤ (rows.flatten.length + 1) * (pairsOf d rows).length :=
    (Nat.le_succ _).trans (Nat.le_mul_of_pos_right _ hpos)
  have key : ev.labelled d = _ := round_zip h hm d hp' (F := 2 * ev.offsets.length + ev.edges.length + 1)
    (by rw [h.offsets, offsetsOf_length]; omega) _ hn
  have hlen := round_length (rows.flatten.length + 1) (pairsOf d rows)
  refine ⟨_, key, ?_, ?_⟩
  · rw [List.length_zip, List.length_map, hl, List.length_map]; omega
  · intro j a b ha hb
    have hj : j < rows.flatten.length := (List.getElem?_eq_some_iff.1 hb).1
    have hlp : (pairsOf d rows).length = (arcsOf d rows).length := by rw [arcsOf_pairs, List.length_map]
    rw [List.getElem?_zip_eq_some]
    constructor
    · rw [List.getElem?_map, cyclic _ hp' _ _ (by omega), arcsOf_pairs, List.length_map, List.getElem?_map, ha]
      rfl
    · rw [hl, List.getElem?_map, hb]; rfl

/-- **C162.** A directed labelled graph with a row for every id: `edges()` ends and is right, though
`edge_indices()` never ends. -/
theorem c162_directed {g : StaticGraph m k NL EL} (h : Encodes g.edgeVec rows true) (hm : rows.length = m + 1)
    (hd : g.directed = true) (hne : rows.flatten ≠ []) :
    g.edges = .ok ((arcsOf true rows).map (fun a => ⟨Id.new a.1, a.2.1, staticLabel a.2.2⟩)) ∧
    ∀ fuel, EdgeIter.collect g.edgeVec g.directed fuel ⟨0, 0⟩ = .error .diverge := by
  refine ⟨?_, fun fuel => c62_wraps_forever h hm _ fuel⟩
  have ha : arcsOf true rows = arcs rows 0 := by
    unfold arcsOf arcs; simp
  have hs : rows.flatten = (arcsOf true rows).map (fun x => x.2) := by rw [ha]; exact (arcs_snd rows 0).symm
  have hl : g.edgeVec.getLabels = rows.flatten.map Prod.snd := by simp [EdgeVec.getLabels, h.labels]
  have hp : pairsOf true rows ≠ [] := by
    rw [arcsOf_pairs]; intro e
    rw [List.map_eq_nil_iff] at e
    rw [e] at hs; exact hne hs
  have key : g.edgeVec.labelled true = _ := round_zip h hm true hp
    (F := 2 * g.edgeVec.offsets.length + g.edgeVec.edges.length + 1)
    (by rw [h.offsets, offsetsOf_length]; omega) 0 (by
      rw [hs, List.length_map, arcsOf_pairs, List.length_map]; omega)
  unfold StaticGraph.edges
  rw [if_neg (by rw [hl]; simpa using hne), hd, key, bind_ok, hl, hs, arcsOf_pairs]
  simp only [Nat.zero_add, List.replicate_one, List.flatten_singleton, List.map_map, List.zip_map', pure_ok]
  rfl

/-- The listed pairs of the rows as pairs of ids. -/
def endsOf (d : Bool) (rows : List (List (Id m × Id k))) : List (Id m × Id m) :=
  (arcsOf d rows).map (fun a => (Id.new a.1, a.2.1))

theorem endsOf_eq (d : Bool) (rows : List (List (Id m × Id k))) :
    endsOf d rows = (pairsOf d rows).map EdgeIter.toEdge := by
  rw [arcsOf_pairs, List.map_map]; rfl

theorem zip_fst {X Y : Type} : ∀ (l : List X) (r : List Y), (l.zip r).map Prod.fst = l.take r.length
  | [], r => by simp
  | x :: l, [] => by simp
  | x :: l, y :: r => by simp [zip_fst l r]

/-- **C162.** An undirected labelled graph with a row for every id, every edge stored both ways: `edges()` ends, but
after all the edges it lists them once more, except for as many as there are self loops. -/
theorem c162_twice {g : StaticGraph m k NL EL} (h : Encodes g.edgeVec rows true) (hm : rows.length = m + 1)
    (hd : g.directed = false) (hne : rows.flatten ≠ [])
    (hsym : ∀ s t : Id m, (s, t) ∈ endsOf true rows → (t, s) ∈ endsOf true rows) :
    ∃ es, g.edges = .ok es ∧ es.map (fun e => (e.src, e.dst)) =
      endsOf false rows ++ (endsOf false rows).take ((endsOf false rows).length -
        (Finset.univ.filter (fun n : Id m => (n, n) ∈ endsOf false rows)).card) := by
  have hl : g.edgeVec.getLabels = rows.flatten.map Prod.snd := by simp [EdgeVec.getLabels, h.labels]
  have hdouble := edgeList_double rows h.sorted (by omega) (by
    intro s t; rw [← endsOf_eq]; exact hsym s t)
  rw [← endsOf_eq, ← endsOf_eq] at hdouble
  have hloop : ∀ n : Id m, (n, n) ∈ endsOf true rows ↔ (n, n) ∈ endsOf false rows := by
    intro n
    rw [endsOf_eq, endsOf_eq, mem_edgeList true rows (by omega), mem_edgeList false rows (by omega)]
    simp
  simp only [hloop] at hdouble
  have hle : (endsOf false rows).length ≤ rows.flatten.length := by
    rw [endsOf_eq, List.length_map]; exact pairs_length_le false rows
  have hpos : 0 < rows.flatten.length := List.length_pos_iff.2 hne
  have hlp : (endsOf false rows).length = (pairsOf false rows).length := by rw [endsOf_eq, List.length_map]
  have hp : pairsOf false rows ≠ [] := by
    intro e; rw [e, List.length_nil] at hlp; omega
  have key : g.edgeVec.labelled false = _ := round_zip h hm false hp
    (F := 2 * g.edgeVec.offsets.length + g.edgeVec.edges.length + 1)
    (by rw [h.offsets, offsetsOf_length]; omega) 1 (by omega)
  have hed := (c162_zips g g.asMmap).1 (by rw [hl]; simpa using hne)
  rw [hd, key, bind_ok, pure_ok] at hed
  refine ⟨_, hed, ?_⟩
  · rw [List.map_map]
    have : ((fun e : Edge m k => (e.src, e.dst)) ∘ fun p : (Id m × Id m) × Id k =>
        ⟨p.1.1, p.1.2, staticLabel p.2⟩) = Prod.fst := rfl
    rw [this, zip_fst, hl, List.length_map]
    have h2 : (List.replicate (1 + 1) (pairsOf false rows)).flatten.map EdgeIter.toEdge =
        endsOf false rows ++ endsOf false rows := by
      rw [endsOf_eq]; simp [List.replicate_succ]
    rw [h2, List.take_append, List.take_of_length_le hle]
    congr 2
    omega

/-- **C162.** Rows for every id and edges to store but none to list (undirected, all of them stored only at the larger
end): `edges()` does not even come to its first edge, however long it runs. -/
theorem c162_stuck {ev : EdgeVec m k} {lab : Bool} (h : Encodes ev rows lab) (hm : rows.length = m + 1) (d : Bool)
    (hp : arcsOf d rows = []) {X : Type} (ls : List X) (fuel : Nat) :
    EdgeIter.zip ev d fuel ls ⟨0, 0⟩ = .error .diverge := by
  have hp' : pairsOf d rows = [] := by rw [arcsOf_pairs, hp]; rfl
  have := EdgeIter.next_stuck h hm d hp' fuel ⟨0, 0⟩
  cases ls <;> rw [EdgeIter.zip, this] <;> rfl

/-- **C162.** The fuel of the model is not a restriction. -/
theorem c162_more_fuel {ev : EdgeVec m k} (h : Encodes ev rows true) (hm : rows.length ≤ m + 1) (d : Bool) (fuel : Nat)
    (hf : 2 * ev.offsets.length + ev.edges.length + 1 ≤ fuel) :
    EdgeIter.zip ev d fuel ev.getLabels ⟨0, 0⟩ = ev.labelled d := by
  rcases Nat.lt_or_eq_of_le hm with hlt | he
  · have := edgeIndices_eq h (by omega) d
    rw [c162_ends ev d this]
    exact EdgeIter.zip_of_collect this (by omega) _
  · by_cases hp : arcsOf d rows = []
    · unfold EdgeVec.labelled
      rw [c162_stuck h he d hp, c162_stuck h he d hp]
    · have hp' : pairsOf d rows ≠ [] := by rw [arcsOf_pairs]; simpa using hp
      have hpos : 0 < (pairsOf d rows).length := List.length_pos_iff.2 hp'
      have hn : rows.flatten.length ≤ (rows.flatten.length + 1) * (pairsOf d rows).length :=
        (Nat.le_succ _).trans (Nat.le_mul_of_pos_right _ hpos)
      have hF : 2 * (m + 1) ≤ 2 * ev.offsets.length + ev.edges.length + 1 := by
        rw [h.offsets, offsetsOf_length]; omega
      unfold EdgeVec.labelled
      rw [round_zip h he d hp' hF _ hn, round_zip h he d hp' (hF.trans hf) _ hn]

/-- A triangle on all the three ids. -/
def allIds (d : Bool) : StaticGraph 2 3 String String :=
  ⟨d, 3, 3, ⟨[0, 2, 4, 6], [1, 2, 0, 2, 0, 1], some [0, 1, 0, 2, 1, 2]⟩, none, none, ⟨[]⟩, ⟨["a", "b", "c"]⟩⟩

def allRows : List (List (Id 2 × Id 3)) := [[(1, 0), (2, 1)], [(0, 0), (2, 2)], [(0, 1), (1, 2)]]

/-- Its `edge_indices()` never end; its `edges()` do, and are right if it is directed, while each edge comes twice if
it is undirected, the second time with the wrong label. -/
example : Encodes (allIds true).edgeVec allRows true ∧ allRows.length = 2 + 1 ∧ allRows.flatten ≠ [] ∧
    (∀ s t : Id 2, (s, t) ∈ endsOf true allRows → (t, s) ∈ endsOf true allRows) ∧
    (allIds true).edges = .ok [⟨0, 1, some 0⟩, ⟨0, 2, some 1⟩, ⟨1, 0, some 0⟩, ⟨1, 2, some 2⟩, ⟨2, 0, some 1⟩,
      ⟨2, 1, some 2⟩] ∧
    (allIds false).edges = .ok [⟨0, 1, some 0⟩, ⟨0, 2, some 1⟩, ⟨1, 2, some 0⟩, ⟨0, 1, some 2⟩, ⟨0, 2, some 1⟩,
      ⟨1, 2, some 2⟩] :=
  ⟨⟨rfl, rfl, rfl, by decide⟩, rfl, by decide, by decide, by decide, by decide⟩

/-- Rows of which the last is out of bounds: `edge_indices()` panics, but with a label for one edge only `edges()`
never comes that far. -/
theorem c162_unseen : (⟨[0, 1, 2, 9], [1, 0], some [2]⟩ : EdgeVec 9 3).edgeIndices true = .error .indexOutOfBounds ∧
    (⟨[0, 1, 2, 9], [1, 0], some [2]⟩ : EdgeVec 9 3).labelled true = .ok [((0, 1), 2)] ∧
    (⟨[0, 1, 2, 9], [1, 0], some [2, 2]⟩ : EdgeVec 9 3).labelled true = .error .indexOutOfBounds := by decide

end Verif.Props
