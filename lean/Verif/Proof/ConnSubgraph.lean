import Verif.Proof.ConnCompGraph
import Verif.Proof.SetOps

/-! `ConnSubgraph`: distributing calls over graphs, one per root. -/

namespace Verif.ConnSubgraph

open Spec GraphMap ConnComp

variable {m k : Nat} {NL EL : Type} [DecidableEq NL] [DecidableEq EL]

/-- After the calls `P` (each with the root it belongs to): one graph per root, holding the calls of that
root. -/
structure Sorted (d : Bool) (P : List (Id m × Op m k NL EL)) (s : ConnSubgraph m k NL EL) : Prop where
  nodup : s.roots.Nodup
  roots : ∀ r, r ∈ s.roots ↔ ∃ p ∈ P, p.1 = r
  subs : List.Forall₂ (fun r sub =>
    (GraphMap.new d : GraphMap m k NL EL).exec ((P.filter (fun p => decide (p.1 = r))).map Prod.snd) = .ok sub)
    s.roots s.subgraphs

theorem forall₂_getElem {X Y : Type} {R : X → Y → Prop} {l : List X} {l' : List Y}
    (h : List.Forall₂ R l l') {i : Nat} {x : X} (hi : l[i]? = some x) :
    ∃ y, l'[i]? = some y ∧ R x y := by
  induction h generalizing i with
  | nil => simp at hi
  | cons h _ ih =>
    cases i with
    | zero =>
      simp only [List.getElem?_cons_zero, Option.some.injEq] at hi
      subst hi
      exact ⟨_, rfl, h⟩
    | succ i =>
      simp only [List.getElem?_cons_succ] at hi ⊢
      exact ih hi

theorem forall₂_set {X Y : Type} {R R' : X → Y → Prop} : ∀ {l : List X} {l' : List Y} {i : Nat} {x : X} {y : Y},
    List.Forall₂ R l l' → l.Nodup → l[i]? = some x → R' x y → (∀ a b, a ≠ x → R a b → R' a b) →
    List.Forall₂ R' l (l'.set i y) := by
  intro l l' i x y h
  induction h generalizing i with
  | nil => intro _ hi; simp at hi
  | @cons a b l l' h ht ih =>
    intro hn hi hxy hR
    obtain ⟨hn1, hn2⟩ := List.nodup_cons.1 hn
    cases i with
    | zero =>
      simp only [List.getElem?_cons_zero, Option.some.injEq] at hi
      subst hi
      refine .cons hxy ?_
      have : ∀ c ∈ l, c ≠ a := fun c hc e => hn1 (e ▸ hc)
      clear ih hn hn1 hn2
      induction ht with
      | nil => exact .nil
      | cons h _ ih =>
        exact .cons (hR _ _ (this _ (by simp)) h) (ih (fun c hc => this c (by simp [hc])))
    | succ i =>
      simp only [List.getElem?_cons_succ] at hi
      rw [List.set_cons_succ]
      have : a ≠ x := by
        rintro rfl
        exact hn1 (List.mem_of_getElem? hi)
      exact .cons (hR _ _ this h) (ih hn2 hi hxy hR)

theorem exec_snoc {g g' : GraphMap m k NL EL} {ops : List (Op m k NL EL)} (h : g.exec ops = .ok g')
    (op : Op m k NL EL) : g.exec (ops ++ [op]) = g'.apply op := by
  rw [exec_append, h, bind_ok]
  unfold exec
  rw [List.foldlM_cons]
  cases g'.apply op <;> rfl

theorem exec_filter_inv {d : Bool} {ops : List (Op m k NL EL)} {g : GraphMap m k NL EL}
    (h : (GraphMap.new d : GraphMap m k NL EL).exec ops = .ok g) : g.Inv :=
  ((exec_run h).reachable List.nodup_nil List.nodup_nil).inv

/-- One call on the graph of its root. -/
theorem onSubgraph_ok {d : Bool} {P : List (Id m × Op m k NL EL)} {s : ConnSubgraph m k NL EL}
    (S : Sorted d P s) (r : Id m) {op : Op m k NL EL} (ha : op.isAdd = true) :
    ∃ s', onSubgraph d s r (fun sub => sub.apply op) = .ok s' ∧ s'.cc = s.cc ∧
      Sorted d (P ++ [(r, op)]) s' := by
  unfold onSubgraph rootToSubgraph
  have hfil : ∀ a, (((P ++ [(r, op)]).filter (fun p => decide (p.1 = a))).map Prod.snd) =
      ((P.filter (fun p => decide (p.1 = a))).map Prod.snd) ++ (if r = a then [op] else []) := by
    intro a
    rw [List.filter_append, List.map_append]
    congr 1
    by_cases h : r = a <;> simp [h]
  cases hi : s.roots.idxOf? r with
  | some i =>
    have hget : s.roots[i]? = some r := by
      rw [List.idxOf?_eq_some_iff] at hi
      obtain ⟨hlt, he, _⟩ := hi
      rw [List.getElem?_eq_getElem hlt]
      simpa using he
    obtain ⟨sub, hsub, hex⟩ := forall₂_getElem S.subs hget
    obtain ⟨sub', h1, _⟩ := apply_add (exec_filter_inv hex) ha
    refine ⟨{ s with subgraphs := s.subgraphs.set i sub' }, ?_, rfl, ⟨S.nodup, ?_, ?_⟩⟩
    · simp only [hsub, pure_ok, bind_ok, h1]
    · intro a
      show a ∈ s.roots ↔ _
      rw [S.roots]
      constructor
      · rintro ⟨p, hp, h⟩; exact ⟨p, List.mem_append_left _ hp, h⟩
      · rintro ⟨p, hp, h⟩
        rcases List.mem_append.1 hp with hp | hp
        · exact ⟨p, hp, h⟩
        · rw [List.mem_singleton] at hp
          subst hp
          rw [← h]
          exact (S.roots r).1 (List.mem_of_getElem? hget)
    · refine forall₂_set S.subs S.nodup hget ?_ ?_
      · rw [hfil, if_pos rfl, exec_snoc hex]; exact h1
      · intro a b hab h
        rw [hfil, if_neg (Ne.symm hab), List.append_nil]; exact h
  | none =>
    have hni : r ∉ s.roots := by
      rw [List.idxOf?_eq_none_iff] at hi; exact hi
    obtain ⟨sub', h1, _⟩ := apply_add (g := (GraphMap.new d : GraphMap m k NL EL))
      (inv_withLabelMap d _ _ List.nodup_nil List.nodup_nil) ha
    refine ⟨{ s with subgraphs := s.subgraphs ++ [sub'], roots := s.roots ++ [r] }, ?_, rfl, ⟨?_, ?_, ?_⟩⟩
    · simp only [h1, bind_ok, pure_ok]
    · rw [List.nodup_append]
      refine ⟨S.nodup, by simp, ?_⟩
      intro a ha b hb
      rw [List.mem_singleton] at hb
      subst hb
      rintro rfl
      exact hni ha
    · intro a
      show a ∈ s.roots ++ [r] ↔ _
      rw [List.mem_append, S.roots, List.mem_singleton]
      constructor
      · rintro (⟨p, hp, h⟩ | rfl)
        · exact ⟨p, List.mem_append_left _ hp, h⟩
        · exact ⟨(a, op), by simp, rfl⟩
      · rintro ⟨p, hp, h⟩
        rcases List.mem_append.1 hp with hp | hp
        · exact .inl ⟨p, hp, h⟩
        · rw [List.mem_singleton] at hp
          subst hp
          exact .inr h.symm
    · refine List.rel_append ?_ (.cons ?_ .nil)
      · have hne : ∀ a ∈ s.roots, r ≠ a := fun a ha e => hni (e ▸ ha)
        have := S.subs
        revert hne this
        generalize s.roots = rs
        generalize s.subgraphs = gs
        intro hne h
        induction h with
        | nil => exact .nil
        | cons h _ ih =>
          refine .cons ?_ (ih (fun a ha => hne a (by simp [ha])))
          rw [hfil, if_neg (hne _ (by simp)), List.append_nil]
          exact h
      · have h0 : P.filter (fun p => decide (p.1 = r)) = [] := by
          rw [List.filter_eq_nil_iff]
          intro p hp h
          exact hni ((S.roots r).2 ⟨p, hp, by simpa using h⟩)
        rw [hfil, if_pos rfl, h0]
        unfold exec
        simp only [List.map_nil, List.nil_append, List.foldlM_cons, List.foldlM_nil, h1, bind_ok, pure_ok]

/-- A loop that sends each item's call to the graph of its root. -/
theorem loop_ok {X : Type} {E : List (Id m × Id m)} {rep : Id m → Id m} {d : Bool}
    (f : ConnSubgraph m k NL EL → X → Res (ConnSubgraph m k NL EL))
    (node : X → Id m) (op : X → Op m k NL EL) (hadd : ∀ x, (op x).isAdd = true) :
    ∀ (l : List X), (∀ x ∈ l, Occurs E (node x)) →
    (∀ x ∈ l, ∀ s, f s x = (do
      let r ← s.cc.getRoot (node x)
      let root ← unwrap r.2
      onSubgraph d { s with cc := r.1 } root (fun sub => sub.apply (op x)))) →
    ∀ (P : List (Id m × Op m k NL EL)) (s : ConnSubgraph m k NL EL), Sorted d P s → Inv E rep s.cc →
    ∃ s', l.foldlM f s = .ok s' ∧ Inv E rep s'.cc ∧
      Sorted d (P ++ l.map (fun x => (rep (node x), op x))) s' := by
  intro l
  induction l with
  | nil => intro _ _ P s S I; exact ⟨s, rfl, I, by simpa using S⟩
  | cons x l ih =>
    intro ho hf P s S I
    obtain ⟨c', g1, I', _⟩ := getRoot_ok I (ho x (by simp))
    have S0 : Sorted d P { s with cc := c' } := ⟨S.nodup, S.roots, S.subs⟩
    obtain ⟨s1, h1, h2, h3⟩ := onSubgraph_ok S0 (rep (node x)) (hadd x)
    obtain ⟨s2, k1, k2, k3⟩ := ih (fun y hy => ho y (by simp [hy])) (fun y hy => hf y (by simp [hy]))
      _ s1 h3 (by rw [h2]; exact I')
    refine ⟨s2, ?_, k2, by simpa using k3⟩
    rw [List.foldlM_cons, hf x (by simp), g1, bind_ok]
    show (unwrap (some (rep (node x))) >>= _) >>= _ = _
    unfold unwrap
    simp only [bind_ok]
    rw [h1, bind_ok, k1]

theorem processNode_eq {g : GView m k NL EL} {A : AGraph (Id m) NL EL} (S : Shows g A) {n : Id m}
    (hn : n ∈ g.nodeIndices) (s : ConnSubgraph m k NL EL) : processNode g s n = (do
      let r ← s.cc.getRoot n
      let root ← unwrap r.2
      onSubgraph g.directed { s with cc := r.1 } root
        (fun sub => sub.apply (Op.addNode n (A.node n).join))) := by
  obtain ⟨l, hl⟩ := Option.isSome_iff_exists.1 ((S.memNodes n).1 hn)
  unfold processNode
  rw [S.nodeLabel n l hl, hl]
  rfl

theorem processEdge_eq {g : GView m k NL EL} {A : AGraph (Id m) NL EL} (S : Shows g A) {e : Edge m k}
    (hn : e ∈ g.edges) (s : ConnSubgraph m k NL EL) : processEdge g s e = (do
      let r ← s.cc.getRoot e.src
      let root ← unwrap r.2
      onSubgraph g.directed { s with cc := r.1 } root
        (fun sub => sub.apply (Op.addEdge e.src e.dst (A.edge e.src e.dst).join))) := by
  have hm : (e.src, e.dst) ∈ g.edgeIndices := by
    rw [← S.edgesEnds, List.mem_map]; exact ⟨e, hn, rfl⟩
  obtain ⟨h1, h2⟩ := (S.memEdges _ _).1 hm
  obtain ⟨l, hl⟩ := Option.isSome_iff_exists.1 h1
  unfold processEdge
  rw [S.edgeLabel _ _ l hl h2, hl]
  rfl

/-- All calls of the enumeration, each with its root. -/
def calls (A : AGraph (Id m) NL EL) (g : GView m k NL EL) (rep : Id m → Id m) : List (Id m × Op m k NL EL) :=
  g.nodeIndices.map (fun n => (rep n, Op.addNode n (A.node n).join)) ++
  g.edgeIndices.map (fun e => (rep e.1, Op.addEdge e.1 e.2 (A.edge e.1 e.2).join))

theorem new_sorted {g : GView m k NL EL} {A : AGraph (Id m) NL EL} (S : Shows g A)
    (hiso : ∀ n, (A.node n).isSome → A.Touched n) :
    ∃ s rep, ConnSubgraph.new g = .ok s ∧ Inv g.edgeIndices rep s.cc ∧
      Sorted g.directed (calls A g rep) s := by
  obtain ⟨c, hc, H⟩ := new_history S
  obtain ⟨rep, I⟩ := history_inv H
  have S0 : Sorted g.directed [] (⟨[], [], c⟩ : ConnSubgraph m k NL EL) :=
    ⟨List.nodup_nil, by simp, .nil⟩
  obtain ⟨s1, h1, I1, S1⟩ := loop_ok (E := g.edgeIndices) (rep := rep) (processNode g) (fun n => n)
    (fun n => Op.addNode n (A.node n).join) (fun _ => rfl) g.nodeIndices
    (fun n hn => (occurs_graph S n).2 (hiso n ((S.memNodes n).1 hn)))
    (fun n hn s => processNode_eq S hn s) [] _ S0 I
  obtain ⟨s2, h2, I2, S2⟩ := loop_ok (E := g.edgeIndices) (rep := rep) (processEdge g) (fun e => e.src)
    (fun e => Op.addEdge e.src e.dst (A.edge e.src e.dst).join) (fun _ => rfl) g.edges
    (fun e he => ⟨(e.src, e.dst), by rw [← S.edgesEnds, List.mem_map]; exact ⟨e, he, rfl⟩, .inl rfl⟩)
    (fun e he s => processEdge_eq S he s) _ s1 S1 I1
  refine ⟨s2, rep, ?_, I2, ?_⟩
  · unfold ConnSubgraph.new ConnSubgraph.empty runEnumeration
    rw [hc]
    simp only [bind_ok, pure_ok]
    rw [h1, bind_ok, h2]
  · have : calls A g rep = [] ++ g.nodeIndices.map (fun n => (rep n, (Op.addNode n (A.node n).join : Op m k NL EL))) ++
        g.edges.map (fun e => (rep e.src, Op.addEdge e.src e.dst (A.edge e.src e.dst).join)) := by
      unfold calls
      rw [List.nil_append, ← S.edgesEnds, List.map_map]
      rfl
    rw [this]; exact S2

/-- An isolated node makes the enumeration panic. -/
theorem new_isolated {g : GView m k NL EL} {A : AGraph (Id m) NL EL} (S : Shows g A) {n : Id m}
    (hn : (A.node n).isSome) (hiso : ¬ A.Touched n) : ConnSubgraph.new g = .error .nodeMissing := by
  obtain ⟨c, hc, H⟩ := new_history S
  obtain ⟨rep, I⟩ := history_inv H
  have key : ∀ (l : List (Id m)), (∀ x ∈ l, x ∈ g.nodeIndices) → (∃ x ∈ l, ¬ A.Touched x) →
      ∀ (P : List (Id m × Op m k NL EL)) (s : ConnSubgraph m k NL EL), Sorted g.directed P s →
      Inv g.edgeIndices rep s.cc → l.foldlM (processNode g) s = .error .nodeMissing := by
    intro l
    induction l with
    | nil => rintro _ ⟨x, hx, _⟩; simp at hx
    | cons x l ih =>
      rintro hl ⟨y, hy, hty⟩ P s SS II
      rw [List.foldlM_cons]
      by_cases hx : A.Touched x
      · obtain ⟨s1, h1, I1, S1⟩ := loop_ok (E := g.edgeIndices) (rep := rep) (processNode g) (fun n => n)
          (fun n => Op.addNode n (A.node n).join) (fun _ => rfl) [x]
          (fun n hn => by rw [List.mem_singleton] at hn; subst hn; exact (occurs_graph S n).2 hx)
          (fun n hn s => processNode_eq S (by rw [List.mem_singleton] at hn; subst hn; exact hl n (by simp)) s)
          P s SS II
        have h1' : processNode g s x = .ok s1 := by
          rw [List.foldlM_cons] at h1
          obtain ⟨a, e1, e2⟩ := bind_eq_ok h1
          cases e2; exact e1
        rw [h1', bind_ok]
        refine ih (fun z hz => hl z (by simp [hz])) ⟨y, ?_, hty⟩ _ s1 S1 I1
        rcases List.mem_cons.1 hy with e | e
        · exact absurd hx (e ▸ hty)
        · exact e
      · have : s.cc.getRoot x = .error .nodeMissing :=
          getRoot_missing II (fun h => hx ((occurs_graph S x).1 h))
        unfold processNode
        rw [this]
        rfl
  unfold ConnSubgraph.new ConnSubgraph.empty runEnumeration
  rw [hc]
  simp only [bind_ok, pure_ok]
  rw [key g.nodeIndices (fun _ h => h) ⟨n, (S.memNodes n).2 hn, hiso⟩ [] _
    ⟨List.nodup_nil, by simp, .nil⟩ I]
  rfl

/-- The graph of one root is the restriction to its component. -/
theorem sub_shows {g : GView m k NL EL} {A : AGraph (Id m) NL EL} (S : Shows g A) {rep : Id m → Id m}
    (hrep : ∀ a b, rep a = rep b ↔ A.Connected a b) {r : Id m} (hr : rep r = r) {sub : GraphMap m k NL EL}
    (hex : (GraphMap.new g.directed : GraphMap m k NL EL).exec
      (((calls A g rep).filter (fun p => decide (p.1 = r))).map Prod.snd) = .ok sub) :
    sub.directed = g.directed ∧ GraphMap.Reachable sub ∧
    Shows sub.view (A.restrict (fun n => A.Connected r n)) ∧ sub.edgeCount = sub.edgeIndices.length := by
  have hP : ∀ n, rep n = r ↔ A.Connected r n := by
    intro n
    rw [← hrep r n, hr]
    exact eq_comm
  have hops : ((calls A g rep).filter (fun p => decide (p.1 = r))).map Prod.snd =
      (g.nodeIndices.filter (fun n => decide (rep n = r))).map (fun n => Op.addNode n (A.node n).join) ++
      (g.edgeIndices.filter (fun e => decide (rep e.1 = r))).map
        (fun e => Op.addEdge e.1 e.2 (A.edge e.1 e.2).join) := by
    unfold calls
    rw [List.filter_append, List.map_append, List.filter_map, List.filter_map, List.map_map, List.map_map]
    rfl
  rw [hops] at hex
  obtain ⟨⟨nl, hnl, h1⟩, el, hel, h2⟩ := shows_fits S
  obtain ⟨g', a1, a2, a3, a4, a5, a6, a7⟩ := build_shows g.directed
    ((g.nodeIndices.filter (fun n => decide (rep n = r))).map (fun n => (Op.addNode n (A.node n).join : Op m k NL EL)) ++
      (g.edgeIndices.filter (fun e => decide (rep e.1 = r))).map
        (fun e => Op.addEdge e.1 e.2 (A.edge e.1 e.2).join))
    (by
      intro op ho
      rcases List.mem_append.1 ho with h | h <;> rw [List.mem_map] at h <;> obtain ⟨_, _, rfl⟩ := h <;> rfl)
    hnl hel
    (by
      intro op ho x hx
      rcases List.mem_append.1 ho with h | h <;> rw [List.mem_map] at h <;> obtain ⟨y, _, rfl⟩ := h
      · exact h1 y x (by simpa [Op.nodeLab, Option.join_eq_some_iff] using hx)
      · cases hx)
    (by
      intro op ho x hx
      rcases List.mem_append.1 ho with h | h <;> rw [List.mem_map] at h <;> obtain ⟨y, _, rfl⟩ := h
      · cases hx
      · exact h2 y.1 y.2 x (by simpa [Op.edgeLab, Option.join_eq_some_iff] using hx))
  rw [hex] at a1
  cases a1
  have hconn : ∀ s t, (A.edge s t).isSome → rep s = rep t := by
    intro s t h
    exact (hrep s t).2 (Relation.EqvGen.rel _ _ h)
  have hrun : Spec.run g.directed
      ((g.nodeIndices.filter (fun n => decide (rep n = r))).map (fun n => (Op.addNode n (A.node n).join : Op m k NL EL)) ++
      (g.edgeIndices.filter (fun e => decide (rep e.1 = r))).map
        (fun e => Op.addEdge e.1 e.2 (A.edge e.1 e.2).join)) = A.restrict (fun n => A.Connected r n) := by
    unfold Spec.run
    rw [List.foldl_append, run_addNodes g.directed (fun n => (A.node n).join),
      run_addEdges g.directed (fun s t => (A.edge s t).join) (edge_join S)]
    · apply AGraph_ext
      · intro n
        by_cases hc : A.Connected r n
        · rw [restrict_node hc]
          simp only [List.mem_filter, (hP n).2 hc, decide_true, and_true, AGraph.empty, S.memNodes]
          cases h : A.node n with
          | none => simp
          | some l => simp
        · rw [restrict_node_none hc]
          have : ¬ rep n = r := fun h => hc ((hP n).1 h)
          simp [List.mem_filter, this, AGraph.empty]
      · intro s t
        simp only [List.mem_filter, AGraph.empty, decide_eq_true_eq]
        by_cases hc : A.Connected r s ∧ A.Connected r t
        · rw [restrict_edge hc]
          have e1 := (hP s).2 hc.1
          have e2 := (hP t).2 hc.2
          simp only [e1, e2, and_true]
          have := shows_edge_mem S s t
          simp only [this]
          cases h : A.edge s t with
          | none => simp
          | some l => simp
        · rw [restrict_edge_none hc, if_neg]
          intro hcon
          apply hc
          have he : (A.edge s t).isSome := by
            rw [← shows_edge_mem S]
            rcases hcon with h | ⟨h, h'⟩
            · exact .inl h.1
            · exact .inr ⟨h, h'.1⟩
          have hst := hconn s t he
          rcases hcon with h | ⟨_, h⟩
          · exact ⟨(hP s).1 h.2, (hP t).1 (by rw [← hst]; exact h.2)⟩
          · exact ⟨(hP s).1 (by rw [hst]; exact h.2), (hP t).1 h.2⟩
    · rintro ⟨s, t⟩ he
      rw [List.mem_filter, decide_eq_true_eq] at he
      have hl := ((S.memEdges s t).1 he.1).1
      have hends := S.ends s t hl
      have hst := hconn s t hl
      have e1 : rep s = r := he.2
      have e2 : rep t = r := by rw [← hst]; exact e1
      simp only [List.mem_filter, S.memNodes, hends.1, hends.2, e1, e2, decide_true, and_self, if_true,
        Option.isSome_some]
  rw [hrun] at a4
  refine ⟨a2, a3.reachable List.nodup_nil List.nodup_nil, a4, ?_⟩
  rw [a5, List.filter_append, List.length_append, List.filter_map, List.filter_map, List.length_map,
    List.length_map]
  have z1 : (g.nodeIndices.filter (fun n => decide (rep n = r))).filter
      (Op.addsEdge ∘ fun n => (Op.addNode n (A.node n).join : Op m k NL EL)) = [] := by
    rw [List.filter_eq_nil_iff]; intro x _ h; cases h
  have z2 : (g.edgeIndices.filter (fun e => decide (rep e.1 = r))).filter
      (Op.addsEdge ∘ fun e => (Op.addEdge e.1 e.2 (A.edge e.1 e.2).join : Op m k NL EL)) =
      g.edgeIndices.filter (fun e => decide (rep e.1 = r)) := by
    rw [List.filter_eq_self]; intro x _; rfl
  rw [z1, z2, List.length_nil, Nat.zero_add]
  apply List.Perm.length_eq
  have p1 : sub.edgeIndices.Nodup := a4.edgesNodup
  rw [List.perm_ext_iff_of_nodup (S.edgesNodup.filter _) p1]
  rintro ⟨s, t⟩
  have q1 : (s, t) ∈ sub.edgeIndices ↔ (A.restrict (fun n => A.Connected r n)).Listed sub.view.directed s t :=
    a4.memEdges s t
  have q2 : sub.view.directed = g.directed := a2
  rw [q1, List.mem_filter, S.memEdges, q2, decide_eq_true_eq]
  unfold AGraph.Listed
  by_cases hc : A.Connected r s ∧ A.Connected r t
  · rw [restrict_edge hc]
    exact ⟨fun h => h.1, fun h => ⟨h, (hP s).2 hc.1⟩⟩
  · rw [restrict_edge_none hc]
    constructor
    · rintro ⟨⟨h, _⟩, h'⟩
      exact absurd ⟨(hP s).1 h', (hP t).1 (by rw [← hconn s t h]; exact h')⟩ hc
    · rintro ⟨h, _⟩; cases h

end Verif.ConnSubgraph
