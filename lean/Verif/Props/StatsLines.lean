import Verif.Model.StatsLines
import Verif.Props.StatsFiles
import Verif.Props.Loops
import Verif.Props.Zip
import Verif.Proof.ReorderIso
import Mathlib.Algebra.BigOperators.Group.List.Lemmas

/-! Property theorems about the lines `stats` prints: C197. -/

namespace Verif.Props

open Programs

variable {m k wd v : Nat}

/-- Collecting labels along a list. -/
theorem turns_labels {X E : Type} (f : Id m × Id m → Res (Option X)) : ∀ (l : List (Id m × Id m)) (s : List X),
    Spec.turns (R := E) (fun (s : List X) e => do let x ← f e; pure (.on (s ++ x.toList))) s l =
      (do let ls ← l.mapM f; pure (.on (s ++ ls.filterMap id)))
  | [], s => by simp [Spec.turns, pure_ok, bind_ok]
  | e :: l, s => by
    unfold Spec.turns
    rw [List.mapM_cons]
    cases h : f e with
    | error p => rfl
    | ok x =>
      have ih := turns_labels (E := E) f l (s ++ x.toList)
      simp only [bind_ok, pure_ok] at ih ⊢
      rw [ih]
      cases l.mapM f with
      | error p => rfl
      | ok ls => cases x <;> simp [bind_ok]

/-- Where the edges can be enumerated, the counters are those of the graph behind the traits. -/
theorem counters_view {g : Plain m k} {vw} (h : g.view = .ok vw) :
    countersSteps g = (do let a ← vw.nodeLabelCounter; let b ← vw.edgeLabelCounter; pure (a, b)) := by
  unfold StaticGraph.view at h
  obtain ⟨l, h1, h⟩ := bind_eq_ok h
  obtain ⟨l', h2, h⟩ := bind_eq_ok h
  cases h
  have h1' : g.edgeVec.edgeIndices g.directed = .ok l := h1
  unfold countersSteps GView.nodeLabelCounter GView.edgeLabelCounter
  rw [c178_list h1', turns_labels (fun e : Id m × Id m => g.calls.getEdgeLabel e.1 e.2)]
  change (do let ls ← g.nodeIndices.mapM g.calls.getNodeLabel; _) =
    (do
      let a ← (do let ls ← g.nodeIndices.mapM g.calls.getNodeLabel; pure (counterOf (ls.filterMap id)))
      let b ← (do let ls ← l.mapM (fun e => g.calls.getEdgeLabel e.1 e.2); pure (counterOf (ls.filterMap id)))
      pure (a, b))
  cases g.nodeIndices.mapM g.calls.getNodeLabel with
  | error p => rfl
  | ok ls =>
    cases l.mapM (fun e => g.calls.getEdgeLabel e.1 e.2) with
    | error p => rfl
    | ok ls' => simp [bind_ok, pure_ok]

/-- Where they cannot, the counters panic. -/
theorem counters_fail {g : Plain m k} {p : Panic} (h : g.edgeIndices = .error p) : ∃ q, countersSteps g = .error q := by
  have h' : EdgeIter.collect g.edgeVec g.directed _ ⟨0, 0⟩ = .error p := h
  unfold countersSteps EdgeVec.forEdges
  rw [EdgeIter.collect_trace] at h'
  rw [EdgeIter.loop_trace, turns_labels (fun e : Id m × Id m => g.calls.getEdgeLabel e.1 e.2)]
  split at h'
  · rename_i q hq
    rw [hq]
    cases g.nodeIndices.mapM g.calls.getNodeLabel with
    | error p => exact ⟨_, rfl⟩
    | ok ls =>
      cases List.mapM (fun e : Id m × Id m => g.calls.getEdgeLabel e.1 e.2) _ with
      | error p => exact ⟨_, rfl⟩
      | ok ls' => exact ⟨_, rfl⟩
  · cases h'

theorem view_exists {g : Plain m k} {l} (h : g.edgeIndices = .ok l) : ∃ vw, g.view = .ok vw := by
  obtain ⟨es, he⟩ : ∃ es, g.edges = .ok es := by
    unfold StaticGraph.edges
    have h' : g.edgeVec.edgeIndices g.directed = .ok l := h
    by_cases hl : g.edgeVec.getLabels = []
    · rw [if_pos hl, h]; exact ⟨_, rfl⟩
    · rw [if_neg hl, c162_ends _ _ h']; exact ⟨_, rfl⟩
  unfold StaticGraph.view
  rw [h, bind_ok, he]
  exact ⟨_, rfl⟩

/-- **C197.** For one graph: if its figures can be found, they are printed, the labels in the order of `most_common`.
If not, `stats` panics, and only the largest degree may have been printed, exactly if the degrees could be asked and
there are any. -/
theorem c197_graph (mcN mcE : List (Id m × Nat) → List (Id m × Nat)) (g : Plain m k) :
    (∀ d a b, stats g = .ok (d, a, b) → graphLines mcN mcE g =
      ([s!"Max degree: {d}", "Node labels:"] ++ (mcN a).map labelLine ++ ["", "Edge labels:"] ++
        (mcE b).map labelLine ++ ["------------------------------"], .ok ())) ∧
    ((∃ p, stats g = .error p) → ∃ p, (graphLines mcN mcE g).2 = .error p ∧
      ((∃ d, maxDegree g = .ok d ∧ (graphLines mcN mcE g).1 = [s!"Max degree: {d}"]) ∨
        (∃ q, maxDegree g = .error q) ∧ (graphLines mcN mcE g).1 = [])) := by
  have hs : ∀ vw, g.view = .ok vw → stats g = (do
      let d ← maxDegree g
      let x ← countersSteps g
      pure (d, x.1, x.2)) := by
    intro vw hv
    rw [counters_view hv]
    unfold stats maxDegree
    rw [hv]
    have e1 : vw.nodeIndices = g.nodeIndices ∧ vw.degree = g.degree := by
      unfold StaticGraph.view at hv
      obtain ⟨l, h1, hv⟩ := bind_eq_ok hv
      obtain ⟨l', h2, hv⟩ := bind_eq_ok hv
      cases hv
      exact ⟨rfl, rfl⟩
    rw [bind_ok, e1.1, e1.2]
    cases g.nodeIndices.mapM g.degree with
    | error p => rfl
    | ok ds =>
      simp only [bind_ok]
      cases unwrap ds.max? with
      | error p => rfl
      | ok d =>
        simp only [bind_ok]
        cases vw.nodeLabelCounter with
        | error p => rfl
        | ok a => cases vw.edgeLabelCounter <;> rfl
  constructor
  · intro d a b h
    obtain ⟨vw, hv⟩ : ∃ vw, g.view = .ok vw := by
      unfold stats at h
      obtain ⟨vw, hv, -⟩ := bind_eq_ok h
      exact ⟨vw, hv⟩
    rw [hs vw hv] at h
    obtain ⟨d', h1, h⟩ := bind_eq_ok h
    obtain ⟨x, h2, h⟩ := bind_eq_ok h
    cases h
    unfold graphLines
    rw [h1, h2]
  · rintro ⟨p, h⟩
    unfold graphLines
    cases h1 : maxDegree g with
    | error q => exact ⟨q, rfl, .inr ⟨⟨q, rfl⟩, rfl⟩⟩
    | ok d =>
      have : ∃ q, countersSteps g = .error q := by
        cases he : g.edgeIndices with
        | error q => exact counters_fail he
        | ok l =>
          obtain ⟨vw, hv⟩ := view_exists he
          rw [hs vw hv, h1, bind_ok] at h
          cases h2 : countersSteps g with
          | error q => exact ⟨q, rfl⟩
          | ok x => rw [h2] at h; cases h
      obtain ⟨q, h2⟩ := this
      simp only [h2]
      exact ⟨q, rfl, .inl ⟨d, rfl, rfl⟩⟩

/-- **C197.** `stats` ends well exactly if it finds the figures of every file, whatever the orders of `most_common`. -/
theorem c197_ends (w : World) (mc : Nat → Bool → List (Id m × Nat) → List (Id m × Nat)) (seconds : String) :
    ∀ paths, (statsOutput (k := k) wd v w mc seconds paths).2 = .ok () ↔
      ∀ p ∈ paths, ∃ x, statsOf m k wd v w p = .ok x
  | [] => by simp [statsOutput]
  | p :: ps => by
    have ih := c197_ends w mc seconds ps
    rw [List.forall_mem_cons, ← ih]
    conv_lhs => rw [statsOutput]
    unfold statsOf
    cases h : (load wd v false p w : Res (Plain m k)) with
    | error q => simp [bind_error]
    | ok g =>
      simp only [bind_ok]
      obtain ⟨h1, h2⟩ := c197_graph (mc ps.length false) (mc ps.length true) g
      cases hq : stats g with
      | error q =>
        obtain ⟨r, hr, -⟩ := h2 ⟨q, hq⟩
        generalize graphLines (mc ps.length false) (mc ps.length true) g = y at hr
        obtain ⟨y1, y2⟩ := y
        simp only at hr
        subst hr
        simp
      | ok x =>
        obtain ⟨d, a, b⟩ := x
        rw [h1 d a b hq]
        simp

/-- **C197.** If it panics, then at the first file whose figures it does not find: its last lines name that file, and
at most the largest degree comes after them. -/
theorem c197_stops (w : World) (mc : Nat → Bool → List (Id m × Nat) → List (Id m × Nat)) (seconds : String) (e : Panic) :
    ∀ paths, (statsOutput (k := k) wd v w mc seconds paths).2 = .error e →
      ∃ pre path post out tail, paths = pre ++ path :: post ∧ (∀ p ∈ pre, ∃ x, statsOf m k wd v w p = .ok x) ∧
        (∃ q, statsOf m k wd v w path = .error q) ∧
        (statsOutput (k := k) wd v w mc seconds paths).1 =
          out ++ ["------------------------------", s!"Loading {path}"] ++ tail ∧
        (tail = [] ∨ ∃ d : Nat, tail = [s!"Max degree: {d}"])
  | [] => by intro h; cases h
  | p :: ps => by
    intro h
    have ih := c197_stops w mc seconds e ps
    rw [statsOutput] at h ⊢
    cases hl : (load wd v false p w : Res (Plain m k)) with
    | error q =>
      refine ⟨[], p, ps, [], [], rfl, by simp, ⟨q, ?_⟩, ?_, .inl rfl⟩
      · unfold statsOf; rw [hl]; rfl
      · simp
    | ok g =>
      obtain ⟨h1, h2⟩ := c197_graph (mc ps.length false) (mc ps.length true) g
      have hof : statsOf m k wd v w p = stats g := by unfold statsOf; rw [hl]; rfl
      cases hq : stats g with
      | error q =>
        obtain ⟨r, hr, ht⟩ := h2 ⟨q, hq⟩
        simp only
        generalize graphLines (mc ps.length false) (mc ps.length true) g = y at hr ht
        obtain ⟨y1, y2⟩ := y
        simp only at hr ht
        subst hr
        refine ⟨[], p, ps, [], y1, rfl, by simp, ⟨q, hof.trans hq⟩, by simp, ?_⟩
        rcases ht with ⟨d, -, h3⟩ | ⟨-, h3⟩
        · exact .inr ⟨d, h3⟩
        · exact .inl h3
      | ok x =>
        obtain ⟨d, a, b⟩ := x
        rw [hl] at h
        simp only [h1 d a b hq] at h ⊢
        obtain ⟨pre, path, post, out, tail, q1, q2, q3, q4, q5⟩ := ih h
        refine ⟨p :: pre, path, post, (["------------------------------", s!"Loading {p}"] ++
          ([s!"Max degree: {d}", "Node labels:"] ++ (mc ps.length false a).map labelLine ++ ["", "Edge labels:"] ++
            (mc ps.length true b).map labelLine ++ ["------------------------------"])) ++ out, tail, by rw [q1]; rfl, ?_, q3, ?_, q5⟩
        rotate_left
        · rw [q4]; simp only [← List.append_assoc]
        · intro y hy
          rcases List.mem_cons.1 hy with rfl | hy
          · exact ⟨_, hof.trans hq⟩
          · exact q2 y hy

/-- **C197.** The orders: whatever `most_common` does with labels that are equally frequent, every label is printed
once, the counts are the same line by line, never increase and add up to the number of labels counted. Two orders of
a counter with no two equal counts are the same. -/
theorem c197_order {X : Type} [DecidableEq X] {l : List X} {r r' : List (X × Nat)} (h : IsMostCommon (counterOf l) r)
    (h' : IsMostCommon (counterOf l) r') :
    r.map Prod.snd = r'.map Prod.snd ∧ (r.map Prod.snd).Pairwise (fun a b => b ≤ a) ∧ (r.map Prod.fst).Nodup ∧
    (∀ x c, (x, c) ∈ r ↔ 0 < c ∧ c = l.count x) ∧ (r.map Prod.snd).sum = l.length ∧
    ((r.map Prod.snd).Nodup → r = r') := by
  have hmem : ∀ x c, (x, c) ∈ r ↔ 0 < c ∧ c = l.count x := by
    intro x c
    rw [h.1.mem_iff]
    constructor
    · intro e
      obtain ⟨-, q2, q3⟩ := GraphMap.counterOf_pos l _ e
      exact ⟨q3, q2⟩
    · rintro ⟨q1, rfl⟩
      apply AL.get_mem
      rw [counterOf_get, if_pos (List.count_pos_iff.1 q1)]
  have hnd : (r.map Prod.fst).Nodup := (h.1.map Prod.fst).nodup_iff.2 (counterOf_keys_nodup l)
  have hs : (r.map Prod.snd).Pairwise (fun a b => b ≤ a) := List.pairwise_map.2 h.2
  have hs' : (r'.map Prod.snd).Pairwise (fun a b => b ≤ a) := List.pairwise_map.2 h'.2
  have hp : r.Perm r' := h.1.trans h'.1.symm
  have hsame : r.map Prod.snd = r'.map Prod.snd :=
    List.Perm.eq_of_pairwise (fun a b _ _ h1 h2 => le_antisymm h2 h1) hs hs' (hp.map _)
  refine ⟨hsame, hs, hnd, hmem, ?_, ?_⟩
  · have e1 : r.map Prod.snd = (r.map Prod.fst).map l.count := by
      rw [List.map_map]
      exact List.map_congr_left (fun p hp => ((hmem p.1 p.2).1 hp).2)
    have e2 : (r.map Prod.fst).Perm l.dedup := by
      rw [List.perm_ext_iff_of_nodup hnd (List.nodup_dedup l)]
      intro x
      rw [List.mem_dedup, List.mem_map]
      constructor
      · rintro ⟨p, hp, rfl⟩
        have := (hmem p.1 p.2).1 hp
        exact List.count_pos_iff.1 (this.2 ▸ this.1)
      · intro hx
        exact ⟨(x, l.count x), (hmem _ _).2 ⟨List.count_pos_iff.2 hx, rfl⟩, rfl⟩
    rw [e1, (e2.map l.count).sum_eq, List.sum_map_count_dedup_eq_length]
  · intro hn
    refine List.Perm.eq_of_pairwise (le := fun a b => b.2 ≤ a.2) ?_ h.2 h'.2 hp
    intro a b ha hb h1 h2
    have hb' : b ∈ r := hp.mem_iff.2 hb
    exact List.inj_on_of_nodup_map hn ha hb' (le_antisymm h2 h1)

/-- **C197.** A graph with all labels, and one with a label array that is too short: of this the largest degree is
printed, and then `stats` panics. -/
theorem c197_half :
    graphLines id id (⟨false, 2, 1, ⟨[0, 1, 2], [1, 0], some [0, 0]⟩, none, some [0, 0], ⟨[7]⟩, ⟨[5]⟩⟩ : Plain 9 3) =
      (["Max degree: 1", "Node labels:", "- 7 : 2", "", "Edge labels:", "- 5 : 1", "------------------------------"],
        .ok ()) ∧
    graphLines id id (⟨false, 2, 1, ⟨[0, 1, 2], [1, 0], some [0, 0]⟩, none, some [0], ⟨[7]⟩, ⟨[5]⟩⟩ : Plain 9 3) =
      (["Max degree: 1"], .error .indexOutOfBounds) ∧
    graphLines id id (⟨false, 2, 1, ⟨[0, 1], [1], none⟩, none, none, ⟨[]⟩, ⟨[]⟩⟩ : Plain 9 3) = ([], .error .explicit) :=
  by decide

/-- Two orders of a counter. -/
example : IsMostCommon (counterOf [4, 5, 6, 6]) [(6, 2), (4, 1), (5, 1)] ∧
    IsMostCommon (counterOf [4, 5, 6, 6]) [(6, 2), (5, 1), (4, 1)] := by
  constructor <;> exact ⟨by decide, by decide⟩

end Verif.Props
