import Verif.Props.ConnComp
import Verif.Props.RawCsr

/-! Property theorems about the components of anything behind the traits, and of frozen graphs of which nothing is
known: C158. -/

namespace Verif.Props

open Spec

variable {m k : Nat} {NL EL : Type}

/-- The pairs of nodes `edges` lists. -/
def listedPairs (g : GView m k NL EL) : List (Id m × Id m) := g.edges.map (fun e => (e.src, e.dst))

/-- **C158.** Whatever implements the trait: the detection never panics, and connectivity, number of components and
their nodes are those of the pairs that `edges` lists, and of nothing else. -/
theorem c158_components (g : GView m k NL EL) :
    ∃ c, ConnComp.new g = .ok c ∧
      (∀ a b, ∃ c' r, c.isConnected a b = .ok (c', r) ∧
        (r = true ↔ Occurs (listedPairs g) a ∧ Occurs (listedPairs g) b ∧ Linked (listedPairs g) a b)) ∧
      c.getCount = (components (listedPairs g)).ncard ∧
      ∀ n, (¬ Occurs (listedPairs g) n → c.getConnectedNodes n = .ok (c, none)) ∧
        (Occurs (listedPairs g) n → ∃ c' l, c.getConnectedNodes n = .ok (c', some l) ∧ l.Nodup ∧
          ∀ x, x ∈ l ↔ Linked (listedPairs g) n x) := by
  obtain ⟨c, h1, h2⟩ := ConnComp.fold_history g.edges [] ConnComp.empty .empty
  rw [List.nil_append] at h2
  exact ⟨c, h1, c35_is_connected h2, c36_count h2, c36_connected_nodes h2⟩

/-- **C158.** Two graphs behind the trait, of whatever kind, whose `edges` join the same nodes have the same
components. -/
theorem c158_same (g : GView m k NL EL) {NL' EL' : Type} {k' : Nat} (g' : GView m k' NL' EL')
    (h : ∀ a b, ((a, b) ∈ listedPairs g ∨ (b, a) ∈ listedPairs g) ↔
      ((a, b) ∈ listedPairs g' ∨ (b, a) ∈ listedPairs g')) :
    ∃ c d, ConnComp.new g = .ok c ∧ ConnComp.new g' = .ok d ∧ c.getCount = d.getCount ∧
      ∀ a b, ∃ c' d' r, c.isConnected a b = .ok (c', r) ∧ d.isConnected a b = .ok (d', r) := by
  obtain ⟨c, h1, h2⟩ := ConnComp.fold_history g.edges [] ConnComp.empty .empty
  obtain ⟨d, h3, h4⟩ := ConnComp.fold_history g'.edges [] ConnComp.empty .empty
  rw [List.nil_append] at h2 h4
  obtain ⟨a1, a2, -⟩ := c38_order_independent h2 h4 h
  exact ⟨c, d, h1, h3, a2, a1⟩

/-- What `edges` keeps of the enumerated pairs: all without labels, else as many as there are labels. -/
def kept (ev : EdgeVec m k) (l : List (Id m × Id m)) : List (Id m × Id m) :=
  if ev.getLabels = [] then l else l.take ev.getLabels.length

theorem edges_pairs (ev : EdgeVec m k) (l : List (Id m × Id m)) :
    (if ev.getLabels = [] then l.map (fun e => (⟨e.1, e.2, none⟩ : Edge m k))
      else (l.zip ev.getLabels).map (fun p => ⟨p.1.1, p.1.2, staticLabel p.2⟩)).map (fun e => (e.src, e.dst)) =
    kept ev l := by
  unfold kept
  split
  · rw [List.map_map]; exact List.map_id l
  · rw [List.map_map]
    have : ∀ (l : List (Id m × Id m)) (ls : List (Id k)),
        (l.zip ls).map ((fun e => (e.src, e.dst)) ∘ fun p => (⟨p.1.1, p.1.2, staticLabel p.2⟩ : Edge m k)) =
          l.take ls.length := by
      intro l
      induction l with
      | nil => intro ls; simp
      | cons a l ih =>
        intro ls
        cases ls with
        | nil => simp
        | cons b ls => simp [ih ls]
    exact this l _

/-- **C158.** A frozen graph of which nothing is known, directed or with sorted rows: code that enumerates edges gets
through exactly if every row has its offsets in order and, if nonempty, lies within the edges. Components are then
those of the entries of the rows - for an undirected graph those not below their row, whether or not the other
direction is there - and if there are edge labels but too few of them, only of the first so many pairs. -/
theorem c158_frozen (g : StaticGraph m k NL EL) (h0 : g.edgeVec.offsets ≠ [])
    (hm : g.edgeVec.offsets.length ≤ m + 1)
    (hrow : g.directed = true ∨ ∀ n, (rowOf g.edgeVec n).Pairwise (· < ·)) :
    ((∃ v, g.view = .ok v) ↔ ∀ n, n + 1 < g.edgeVec.offsets.length → Passable g.edgeVec n) ∧
    ∀ v, g.view = .ok v → listedPairs v = kept g.edgeVec (rowPairs g.edgeVec g.directed) := by
  obtain ⟨h1, -, h3⟩ := c156_edges g.edgeVec h0 hm g.directed hrow _ (le_refl _)
  have hE : ∀ l, g.edgeIndices = .ok l ↔ (∀ n, n + 1 < g.edgeVec.offsets.length → Passable g.edgeVec n) ∧
      l = rowPairs g.edgeVec g.directed := h1
  constructor
  · constructor
    · rintro ⟨v, hv⟩
      unfold StaticGraph.view at hv
      obtain ⟨es, he, -⟩ := bind_eq_ok hv
      exact ((hE es).1 he).1
    · intro hp
      have he := (hE _).2 ⟨hp, rfl⟩
      unfold StaticGraph.view
      rw [StaticGraph.edges_of he, he]
      exact ⟨_, rfl⟩
  · intro v hv
    unfold StaticGraph.view at hv
    obtain ⟨es, he, hv⟩ := bind_eq_ok hv
    obtain ⟨eds, hd, hv⟩ := bind_eq_ok hv
    obtain rfl := Except.ok.inj hv
    obtain ⟨-, rfl⟩ := (hE es).1 he
    rw [StaticGraph.edges_of he] at hd
    unfold listedPairs
    simp only
    rw [← edges_pairs]
    split at hd
    · rename_i hl; rw [if_pos hl]; cases hd; rfl
    · rename_i hl; rw [if_neg hl]; cases hd; rfl

/-- Undirected, node 2 lists 0 but not the other way round, and there is but one label for two edges. -/
def lopsided : StaticGraph 9 3 String String :=
  ⟨false, 4, 2, ⟨[0, 1, 3, 4, 5], [1, 0, 3, 0, 1], some [2]⟩, none, none, ⟨[]⟩, ⟨["a", "b", "c"]⟩⟩

theorem lopsided_rows : ∀ n, (rowOf lopsided.edgeVec n).Pairwise (· < ·)
  | 0 => by decide
  | 1 => by decide
  | 2 => by decide
  | 3 => by decide
  | 4 => by decide
  | n + 5 => by
    have : rowOf lopsided.edgeVec (n + 5) = [] := by
      unfold rowOf lopsided
      simp [List.getD_eq_getElem?_getD]
    rw [this]; exact .nil

/-- **C158.** So an edge stored in one direction only, and edges without a label of their own, join nothing. -/
theorem c158_lopsided : ∃ v, lopsided.view = .ok v ∧ lopsided.edgeVec.neighbors 2 = .ok [0] ∧
    lopsided.edgeVec.neighbors 1 = .ok [0, 3] ∧ rowPairs lopsided.edgeVec false = [(0, 1), (1, 3)] ∧
    listedPairs v = [(0, 1)] := ⟨_, rfl, by decide, by decide, by decide, by decide⟩

example : lopsided.edgeVec.offsets ≠ [] ∧ lopsided.edgeVec.offsets.length ≤ 10 ∧
    (lopsided.directed = true ∨ ∀ n, (rowOf lopsided.edgeVec n).Pairwise (· < ·)) :=
  ⟨by decide, by decide, .inr lopsided_rows⟩

end Verif.Props
