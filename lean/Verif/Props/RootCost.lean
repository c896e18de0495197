import Mathlib.Tactic.Ring
import Verif.Proof.RootChain
import Verif.Props.ConnComp

/-! C130: what root queries cost. The documentation of `ConnComp` says each costs `log(n)`, so `k` of them
`O(k log(n))` (conn_comp.rs:34-35). -/

namespace Verif.Props

open Verif.Spec

variable {m k : Nat} {NL EL : Type}

/-- **C130** Every known node has a depth, less than the number of known nodes. -/
theorem c130_depth {E : List (Id m × Id m)} {c : ConnComp m} (H : History E c) {n : Id m} (ho : Occurs E n) :
    ∃ d, Depth c.getParent n d ∧ d < c.parent.length := by
  obtain ⟨rep, I⟩ := ConnComp.history_inv H
  obtain ⟨h, F⟩ := I.forest
  have hs := (I.keys n).2 ho
  obtain ⟨d, D⟩ := F.depth (h n) n le_rfl hs
  exact ⟨d, D, lt_of_le_of_lt (ConnComp.below_depth F D) (ConnComp.below_length hs)⟩

/-- **C130** `get_root` takes one turn of its loop for every two steps to the root, rounded up. -/
theorem c130_turns {E : List (Id m × Id m)} {c : ConnComp m} (H : History E c) {n : Id m} {d : Nat}
    (D : Depth c.getParent n d) : Turns c.parent n ((d + 1) / 2) := by
  obtain ⟨rep, I⟩ := ConnComp.history_inv H
  obtain ⟨h, F⟩ := I.forest
  exact ConnComp.turns_depth d _ _ F D

/-- **C130** `get_root` halves the depth of the node it was asked about and makes no node deeper. -/
theorem c130_halved {E : List (Id m × Id m)} {c c' : ConnComp m} (H : History E c) {n : Id m} {d : Nat} {r}
    (D : Depth c.getParent n d) (hr : c.getRoot n = .ok (c', r)) :
    Depth c'.getParent n ((d + 1) / 2) ∧
    ∀ x e, Depth c.getParent x e → ∃ e' ≤ e, Depth c'.getParent x e' := by
  obtain ⟨rep, I⟩ := ConnComp.history_inv H
  obtain ⟨h, F⟩ := I.forest
  unfold ConnComp.getRoot at hr
  obtain ⟨⟨p, s⟩, h1, hr⟩ := bind_eq_ok hr
  cases hr
  obtain ⟨h2, -, h3⟩ := ConnComp.rootLoop_depth d _ _ _ _ F D h1
  exact ⟨h2, h3⟩

/-- **C130** The bound per call in the documentation is wrong: detecting the components of the path
`0 - 1 - … - N` when its edges come in this order leaves node 0 at depth `N`, so that asking for its root
takes a number of turns linear in the number of nodes. -/
theorem c130_chain {g : GView m k NL EL} {N : Nat} (h0 : 0 < N) (hN : N ≤ m)
    (hg : g.edges.map (fun e => (e.src, e.dst)) = chainEdges m N) :
    ∃ c, ConnComp.new g = .ok c ∧ History (chainEdges m N) c ∧ c.parent.length = N + 1 ∧
      Depth c.getParent (Id.new 0) N ∧ Turns c.parent (Id.new 0) ((N + 1) / 2) := by
  obtain ⟨c, h1, h2⟩ := ConnComp.chain_state N hN
  obtain ⟨c', t, h3, W⟩ := ConnComp.work_edges (chainEdges m N) [] ConnComp.empty 0 0 .empty
  rw [h1] at h3; cases h3
  have H := ConnComp.work_history W
  rw [List.nil_append] at H
  have D := ConnComp.chain_depth hN h0 h2 N le_rfl
  rw [Nat.sub_self] at D
  refine ⟨c, ?_, H, ?_, D, c130_turns H D⟩
  · unfold ConnComp.new
    rw [ConnComp.runDetection_ends hg, h1]
  · obtain ⟨rep, I⟩ := ConnComp.history_inv H
    obtain ⟨h, F⟩ := I.forest
    have e : c.parent.length = (AL.keys c.parent).toFinset.card := by
      rw [List.toFinset_card_of_nodup F.nodup]; simp [AL.keys]
    have e2 : (AL.keys c.parent).toFinset = (Finset.range (N + 1)).image (fun i => (Id.new i : Id m)) := by
      ext a
      rw [List.mem_toFinset, ← AL.get_isSome_iff, h2, Finset.mem_image]
      constructor
      · intro ha
        refine ⟨a.val, ?_, ?_⟩
        · rw [Finset.mem_range]
          by_contra hlt
          rw [if_neg (by omega), if_neg (by omega)] at ha
          cases ha
        · rw [Fin.ext_iff, EdgeIter.Id_new_val (by omega)]
      · rintro ⟨i, hi, rfl⟩
        rw [Finset.mem_range] at hi
        rw [EdgeIter.Id_new_val (by omega)]
        by_cases hlt : i < N
        · rw [if_pos hlt]; rfl
        · rw [if_neg hlt, if_pos ⟨by omega, h0⟩]; rfl
    rw [e, e2, Finset.card_image_of_injOn, Finset.card_range]
    intro a ha b hb hab
    have := congrArg Fin.val hab
    simp only [Finset.coe_range, Set.mem_Iio] at ha hb
    simp only at this
    rwa [EdgeIter.Id_new_val (by omega), EdgeIter.Id_new_val (by omega)] at this

/-- **C130** Altogether the documented bound holds: `q` root queries among the processing of the edges `E` took
at most `q (log n + 1) + |E| log n` turns, with `n` the number of known nodes. -/
theorem c130_total {E : List (Id m × Id m)} {c : ConnComp m} {q t : Nat} (W : Work E c q t) :
    t ≤ q * (Nat.log 2 c.parent.length + 1) + E.length * Nat.log 2 c.parent.length := by
  have := (ConnComp.work_cost W).2 _ le_rfl
  omega

/-- **C130** So detecting the components of a graph takes `O(k log n)` turns for `k` edges among `n` nodes. -/
theorem c130_detection (g : GView m k NL EL) :
    ∃ c t, ConnComp.new g = .ok c ∧
      Work (g.edges.map (fun e => (e.src, e.dst))) c (2 * g.edges.length) t ∧
      t ≤ g.edges.length * (3 * Nat.log 2 c.parent.length + 2) := by
  obtain ⟨c, t, h1, W⟩ := ConnComp.work_edges (g.edges.map (fun e => (e.src, e.dst))) [] ConnComp.empty 0 0 .empty
  rw [List.nil_append, Nat.zero_add, List.length_map] at W
  refine ⟨c, t, ?_, W, (c130_total W).trans (le_of_eq ?_)⟩
  · unfold ConnComp.new
    rw [ConnComp.runDetection_ends rfl, h1]
  · rw [List.length_map]
    ring

/-- **C130** The other calls are made of root queries: an edge takes two, `is_connected` at most two and
`get_connected_nodes` at most one more than there are known nodes. -/
theorem c130_calls {E : List (Id m × Id m)} {c : ConnComp m} {q t : Nat} (W : Work E c q t) :
    History E c ∧
    (∀ n c' r, c.getRoot n = .ok (c', r) → ∃ u, Turns c.parent n u ∧ Work E c' (q + 1) (t + u)) ∧
    (∀ x y, ∃ c' t', c.processEdge x y = .ok c' ∧ Work (E ++ [(x, y)]) c' (q + 2) t') ∧
    (∀ a b c' r, c.isConnected a b = .ok (c', r) → ∃ q' ≤ q + 2, ∃ t', Work E c' q' t') ∧
    (∀ n c' r, c.getConnectedNodes n = .ok (c', r) →
      ∃ q' ≤ q + 1 + c.parent.length, ∃ t', Work E c' q' t') := by
  refine ⟨ConnComp.work_history W, fun n c' r h => ConnComp.work_root W h, ConnComp.work_edge W, ?_, ?_⟩
  · intro a b c' r h
    unfold ConnComp.isConnected at h
    split at h
    · cases h; exact ⟨q, by omega, t, W⟩
    · obtain ⟨⟨c1, r1⟩, h1, h⟩ := bind_eq_ok h
      obtain ⟨⟨c2, r2⟩, h2, h⟩ := bind_eq_ok h
      cases h
      obtain ⟨u, -, W1⟩ := ConnComp.work_root W h1
      obtain ⟨u', -, W2⟩ := ConnComp.work_root W1 h2
      exact ⟨_, le_rfl, _, W2⟩
  · intro n c' r h
    unfold ConnComp.getConnectedNodes at h
    split at h
    · rename_i hs
      obtain ⟨⟨c1, r1⟩, h1, h⟩ := bind_eq_ok h
      obtain ⟨⟨c2, l⟩, h2, h⟩ := bind_eq_ok h
      cases h
      obtain ⟨⟨rep, I⟩, -⟩ := ConnComp.work_cost W
      obtain ⟨c1', e, -, hk⟩ := ConnComp.getRoot_ok I ((I.keys n).1 hs)
      rw [h1] at e; cases e
      obtain ⟨u, -, W1⟩ := ConnComp.work_root W h1
      obtain ⟨t', W2⟩ := ConnComp.work_collect _ _ _ _ _ _ W1 h2
      refine ⟨_, le_of_eq ?_, t', W2⟩
      rw [hk]; simp [AL.keys]
    · cases h; exact ⟨q, by omega, t, W⟩

/-- The path on 7 nodes as a frozen graph lists its edges in the order of `c130_chain`; node 0 ends at depth
6, and 3 after its root was asked for. -/
def chainGraph : Res (GraphMap 9 3 String String) :=
  denseGraph false ((chainEdges 9 6).map (fun e => (e.1, e.2, none)))

set_option maxRecDepth 8000 in
example : ∃ (g : GraphMap 9 3 String String) (s : StaticGraph 9 3 String String) (v : GView 9 3 String String)
    (c c' : ConnComp 9), chainGraph = .ok g ∧ g.intoStatic = .ok s ∧ s.view = .ok v ∧
    v.edges.map (fun e => (e.src, e.dst)) = chainEdges 9 6 ∧ ConnComp.new v = .ok c ∧
    ConnComp.rootLoop 3 c.parent 0 = .error .diverge ∧ c.getRoot 0 = .ok (c', some 6) ∧
    [0, 1, 2, 3, 4, 5, 6].map c.getParent = [some 1, some 2, some 3, some 4, some 5, some 6, some 6] ∧
    [0, 1, 2, 3, 4, 5, 6].map c'.getParent = [some 2, some 2, some 4, some 4, some 6, some 6, some 6] := by
  obtain ⟨g, h1⟩ : ∃ g, chainGraph = .ok g := ⟨_, rfl⟩
  obtain ⟨s, h2⟩ : ∃ s, g.intoStatic = .ok s := by cases h1; exact ⟨_, rfl⟩
  obtain ⟨v, h3⟩ : ∃ v, s.view = .ok v := by cases h1; cases h2; exact ⟨_, rfl⟩
  obtain ⟨c, h4⟩ : ∃ c, ConnComp.new v = .ok c := by cases h1; cases h2; cases h3; exact ⟨_, rfl⟩
  obtain ⟨c', h5⟩ : ∃ c', c.getRoot 0 = .ok (c', some 6) := by cases h1; cases h2; cases h3; cases h4; exact ⟨_, rfl⟩
  refine ⟨g, s, v, c, c', h1, h2, h3, ?_, h4, ?_, h5, ?_, ?_⟩ <;> cases h1 <;> cases h2 <;> cases h3 <;>
    cases h4 <;> cases h5 <;> decide

end Verif.Props
