import Verif.Proof.AnySets
import Verif.Proof.ConnSubgraph
import Verif.Spec.AnySubgraphs

/-! `ConnSubgraph` of graphs of which nothing is known. -/

namespace Verif

open Spec

namespace Spec

variable {X Y : Type} {R : X → X → Prop}

open Classical in
theorem heads_snoc (l : List X) (x : X) :
    heads R (l ++ [x]) = heads R l ++ if ∃ y ∈ l, R y x then [] else [x] := by
  induction l with
  | nil => simp [heads]
  | cons a l ih =>
    simp only [List.cons_append, heads, ih, List.filter_append]
    congr 2
    by_cases h : ∃ y ∈ l, R y x
    · simp [h]
    · by_cases h' : R a x <;> simp [h, h']

theorem heads_sublist (l : List X) : (heads R l).Sublist l := by
  classical
  induction l with
  | nil => exact .slnil
  | cons a l ih =>
    simp only [heads]
    exact List.Sublist.cons_cons a ((List.filter_sublist).trans ih)

theorem heads_pairwise (l : List X) : (heads R l).Pairwise (fun a b => ¬ R a b) := by
  classical
  induction l with
  | nil => exact .nil
  | cons a l ih =>
    simp only [heads]
    refine List.Pairwise.cons (fun b hb => ?_) (ih.sublist List.filter_sublist)
    simpa using (List.mem_filter.1 hb).2

theorem heads_covers (hr : ∀ x, R x x) (ht : ∀ x y z, R x y → R y z → R x z) {l : List X} {x : X} (hx : x ∈ l) :
    ∃ y ∈ heads R l, R y x := by
  classical
  induction l with
  | nil => cases hx
  | cons a l ih =>
    simp only [heads]
    rcases List.mem_cons.1 hx with rfl | hx
    · exact ⟨x, by simp, hr x⟩
    · obtain ⟨y, hy, h⟩ := ih hx
      by_cases h' : R a y
      · exact ⟨a, by simp, ht _ _ _ h' h⟩
      · exact ⟨y, by simp [hy, h'], h⟩

theorem heads_congr {R' : X → X → Prop} (h : ∀ a b, R a b ↔ R' a b) (l : List X) : heads R l = heads R' l := by
  have : R = R' := by funext a b; exact propext (h a b)
  rw [this]

theorem heads_covered {l l' : List X} (h : ∀ x ∈ l', ∃ y ∈ l, R y x) : heads R (l ++ l') = heads R l := by
  classical
  induction l' using List.reverseRecOn with
  | nil => rw [List.append_nil]
  | append_singleton l' x ih =>
    rw [← List.append_assoc, heads_snoc, ih (fun y hy => h y (by simp [hy])), if_pos, List.append_nil]
    obtain ⟨y, hy, hr⟩ := h x (by simp)
    exact ⟨y, by simp [hy], hr⟩

theorem heads_least {m : Nat} {R : Id m → Id m → Prop} (hr : ∀ x, R x x) (hs : ∀ x y, R x y → R y x) {l : List (Id m)}
    (hl : l.Pairwise (· < ·)) (r : Id m) : r ∈ heads R l ↔ r ∈ l ∧ ∀ y ∈ l, R y r → r ≤ y := by
  classical
  induction l with
  | nil => simp [heads]
  | cons a l ih =>
    obtain ⟨h1, h2⟩ := List.pairwise_cons.1 hl
    simp only [heads, List.mem_cons, List.mem_filter, ih h2, decide_eq_true_eq]
    constructor
    · rintro (rfl | ⟨⟨hm, hy⟩, hn⟩)
      · exact ⟨.inl rfl, fun y hy _ => hy.elim (fun e => e ▸ le_refl _) (fun hy => le_of_lt (h1 y hy))⟩
      · refine ⟨.inr hm, fun y hy' hR => hy'.elim (fun e => ?_) (fun h => hy y h hR)⟩
        subst e
        exact absurd hR hn
    · rintro ⟨rfl | hm, hy⟩
      · exact .inl rfl
      · exact .inr ⟨⟨hm, fun y h hR => hy y (.inr h) hR⟩, fun hR => absurd (hy a (.inl rfl) hR) (not_le.2 (h1 r hm))⟩

theorem firstPanic_map (f : X → Y) (l : List (Res X)) : firstPanic (l.map (fun r => r.map f)) = firstPanic l := by
  induction l with
  | nil => rfl
  | cons r l ih =>
    cases r with
    | error p => rfl
    | ok x => exact ih

end Spec

namespace ConnSubgraph

open ConnComp GraphMap

variable {m k : Nat} {NL EL : Type} [DecidableEq NL] [DecidableEq EL]

theorem onSubgraph_roots {d : Bool} {s s' : ConnSubgraph m k NL EL} {r : Id m}
    {f : GraphMap m k NL EL → Res (GraphMap m k NL EL)} (h : onSubgraph d s r f = .ok s') :
    s'.roots = if r ∈ s.roots then s.roots else s.roots ++ [r] := by
  unfold onSubgraph rootToSubgraph at h
  cases hi : s.roots.idxOf? r with
  | some i =>
    rw [hi] at h
    have hm : r ∈ s.roots := by
      by_contra hn
      rw [List.idxOf?_eq_none_iff.2 hn] at hi
      cases hi
    rw [if_pos hm]
    cases hs : s.subgraphs[i]? with
    | none => simp only [hs] at h; cases h
    | some sub =>
      simp only [hs] at h
      obtain ⟨_, -, h⟩ := bind_eq_ok h
      obtain ⟨_, -, h⟩ := bind_eq_ok h
      cases h
      rfl
  | none =>
    rw [hi] at h
    obtain ⟨sub, -, h⟩ := bind_eq_ok h
    cases h
    rw [if_neg (List.idxOf?_eq_none_iff.1 hi)]

/-- The state after the calls `M`, each with the node it was made for. -/
structure Parts (E : List (Id m × Id m)) (rep : Id m → Id m) (d : Bool) (M : List (Id m × Op m k NL EL))
    (s : ConnSubgraph m k NL EL) : Prop where
  inv : Inv E rep s.cc
  sorted : Sorted d (M.map (fun p => (rep p.1, p.2))) s
  order : s.roots = (heads (fun a b => rep a = rep b) (M.map Prod.fst)).map rep

open Classical in
theorem parts_loop {X : Type} {E : List (Id m × Id m)} {rep : Id m → Id m} {d : Bool}
    (f : ConnSubgraph m k NL EL → X → Res (ConnSubgraph m k NL EL))
    (node : X → Id m) (ask : X → Res (Op m k NL EL)) (hadd : ∀ x op, ask x = .ok op → op.isAdd = true) :
    ∀ (l : List X),
    (∀ x s, f s x = (do
      let r ← s.cc.getRoot (node x)
      let root ← unwrap r.2
      let op ← ask x
      onSubgraph d { s with cc := r.1 } root (fun sub => sub.apply op))) →
    ∀ (M : List (Id m × Op m k NL EL)) (s : ConnSubgraph m k NL EL), Parts E rep d M s →
    ∀ q, q = l.map (fun x => if Occurs E (node x) then (ask x).map (fun op => (node x, op)) else .error .nodeMissing) →
    (∀ p, firstPanic q = some p → l.foldlM f s = .error p) ∧
    (firstPanic q = none → ∃ s', l.foldlM f s = .ok s' ∧ Parts E rep d (M ++ answersOf q) s') := by
  intro l hf
  induction l with
  | nil =>
    rintro M s P q rfl
    exact ⟨fun p h => (by cases h), fun _ => ⟨s, rfl, by simpa [answersOf] using P⟩⟩
  | cons x l ih =>
    rintro M s P q rfl
    simp only [List.map_cons]
    by_cases ho : Occurs E (node x)
    · obtain ⟨c', g1, I', -⟩ := getRoot_ok P.inv ho
      have hroot : f s x = (do
          let op ← ask x
          onSubgraph d { s with cc := c' } (rep (node x)) (fun sub => sub.apply op)) := by
        rw [hf, g1]
        rfl
      rw [if_pos ho]
      cases ha : ask x with
      | error p =>
        have : f s x = .error p := by rw [hroot, ha]; rfl
        refine ⟨fun p' h => ?_, fun h => by cases h⟩
        cases h
        rw [List.foldlM_cons, this]
        rfl
      | ok op =>
        have S0 : Sorted d (M.map (fun p => (rep p.1, p.2))) { s with cc := c' } :=
          ⟨P.sorted.nodup, P.sorted.roots, P.sorted.subs⟩
        obtain ⟨s1, h1, h2, h3⟩ := onSubgraph_ok S0 (rep (node x)) (hadd x op ha)
        have hs : f s x = .ok s1 := by rw [hroot, ha, bind_ok, h1]
        have P1 : Parts E rep d (M ++ [(node x, op)]) s1 := by
          refine ⟨by rw [h2]; exact I', by rw [List.map_append]; exact h3, ?_⟩
          rw [onSubgraph_roots h1, List.map_append, List.map_cons, List.map_nil, heads_snoc, List.map_append]
          have e0 : ({ s with cc := c' } : ConnSubgraph m k NL EL).roots = s.roots := rfl
          have hiff : rep (node x) ∈ s.roots ↔ ∃ y ∈ M.map Prod.fst, rep y = rep (node x) := by
            rw [P.sorted.roots]
            constructor
            · rintro ⟨p, hp, e⟩
              obtain ⟨p, hp', rfl⟩ := List.mem_map.1 hp
              exact ⟨p.1, List.mem_map_of_mem hp', e⟩
            · rintro ⟨y, hy, e⟩
              obtain ⟨p, hp, rfl⟩ := List.mem_map.1 hy
              exact ⟨_, List.mem_map_of_mem hp, e⟩
          rw [e0, P.order] at *
          by_cases hm : rep (node x) ∈ (heads (fun a b => rep a = rep b) (M.map Prod.fst)).map rep
          · rw [if_pos hm, if_pos (hiff.1 hm)]; simp
          · rw [if_neg hm, if_neg (fun h => hm (hiff.2 h))]; rfl
        obtain ⟨k1, k2⟩ := ih (M ++ [(node x, op)]) s1 P1 _ rfl
        have e : (Except.ok op : Res (Op m k NL EL)).map (fun op => (node x, op)) = .ok (node x, op) := rfl
        simp only [e, firstPanic, answersOf, List.foldlM_cons, hs, bind_ok]
        refine ⟨k1, fun h => ?_⟩
        obtain ⟨s2, a1, a2⟩ := k2 h
        exact ⟨s2, a1, by simpa using a2⟩
    · have : f s x = .error .nodeMissing := by
        rw [hf, getRoot_missing P.inv ho]; rfl
      rw [if_neg ho]
      refine ⟨fun p' h => ?_, fun h => by cases h⟩
      cases h
      rw [List.foldlM_cons, this]
      rfl

theorem processNode_ask (g : GView m k NL EL) (n : Id m) (s : ConnSubgraph m k NL EL) : processNode g s n = (do
      let r ← s.cc.getRoot n
      let root ← unwrap r.2
      let op ← (g.getNodeLabel n).map (fun l => (Op.addNode n l : Op m k NL EL))
      onSubgraph g.directed { s with cc := r.1 } root (fun sub => sub.apply op)) := by
  unfold processNode
  congr 1
  funext r
  congr 1
  funext root
  cases g.getNodeLabel n <;> rfl

theorem processEdge_ask (g : GView m k NL EL) (e : Edge m k) (s : ConnSubgraph m k NL EL) : processEdge g s e = (do
      let r ← s.cc.getRoot e.src
      let root ← unwrap r.2
      let op ← (g.getEdgeLabel e.src e.dst).map (fun l => (Op.addEdge e.src e.dst l : Op m k NL EL))
      onSubgraph g.directed { s with cc := r.1 } root (fun sub => sub.apply op)) := by
  unfold processEdge
  congr 1
  funext r
  congr 1
  funext root
  cases g.getEdgeLabel e.src e.dst <;> rfl

/-- The enumeration of anything. -/
theorem new_parts (g : GView m k NL EL) :
    (∀ p, firstPanic (partCalls g) = some p → ConnSubgraph.new g = .error p) ∧
    (firstPanic (partCalls g) = none → ∃ s rep, ConnSubgraph.new g = .ok s ∧
      Parts (joinedBy g) rep g.directed (answersOf (partCalls g)) s) := by
  classical
  obtain ⟨c, h1, h2⟩ := ConnComp.fold_history g.edges [] ConnComp.empty .empty
  rw [List.nil_append] at h2
  obtain ⟨rep, I⟩ := history_inv h2
  have P0 : Parts (joinedBy g) rep g.directed [] (⟨[], [], c⟩ : ConnSubgraph m k NL EL) :=
    ⟨I, ⟨List.nodup_nil, by simp, .nil⟩, rfl⟩
  have hnew : ConnSubgraph.new g = (g.nodeIndices.foldlM (processNode g) ⟨[], [], c⟩ >>= fun s =>
      g.edges.foldlM (processEdge g) s) := by
    unfold ConnSubgraph.new ConnSubgraph.empty runEnumeration ConnComp.new ConnComp.runDetection
    rw [h1]
    rfl
  obtain ⟨a1, a2⟩ := parts_loop (E := joinedBy g) (rep := rep) (d := g.directed) (processNode g) (fun n => n)
    (fun n => (g.getNodeLabel n).map (fun l => (Op.addNode n l : Op m k NL EL)))
    (by intro x op h; cases hx : g.getNodeLabel x <;> rw [hx] at h <;> cases h; rfl) g.nodeIndices
    (processNode_ask g) [] _ P0 (partNodes g) (by
      unfold partNodes
      refine List.map_congr_left (fun n _ => ?_)
      cases g.getNodeLabel n <;> rfl)
  unfold partCalls
  rw [firstPanic_append, answersOf_append]
  cases hp : firstPanic (partNodes g) with
  | some p =>
    refine ⟨fun p' h => ?_, fun h => by cases h⟩
    cases h
    rw [hnew, a1 p hp]
    rfl
  | none =>
    obtain ⟨s1, b1, b2⟩ := a2 hp
    obtain ⟨c1, c2⟩ := parts_loop (E := joinedBy g) (rep := rep) (d := g.directed) (processEdge g) (fun e => e.src)
      (fun e => (g.getEdgeLabel e.src e.dst).map (fun l => (Op.addEdge e.src e.dst l : Op m k NL EL)))
      (by intro x op h; cases hx : g.getEdgeLabel x.src x.dst <;> rw [hx] at h <;> cases h; rfl) g.edges
      (processEdge_ask g) _ _ b2 (partEdges g) (by
        unfold partEdges
        refine List.map_congr_left (fun e he => ?_)
        rw [if_pos ⟨(e.src, e.dst), List.mem_map.2 ⟨e, he, rfl⟩, .inl rfl⟩]
        cases g.getEdgeLabel e.src e.dst <;> rfl)
    rw [List.nil_append] at c2
    refine ⟨fun p h => ?_, fun h => ?_⟩
    · rw [hnew, b1, bind_ok, c1 p h]
    · obtain ⟨s2, d1, d2⟩ := c2 h
      exact ⟨s2, rep, by rw [hnew, b1, bind_ok, d1], d2⟩

end ConnSubgraph

end Verif
