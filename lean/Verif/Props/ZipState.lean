import Verif.Model.ZipState
import Verif.Props.IterState
import Verif.Props.Zip

/-! C194: `edges()` after its end. -/

namespace Verif.Props

open EdgeIter

variable {m k : Nat} {X : Type}

/-- **C194.** An edge asked for gives what `EdgeIter.zip` goes through: the first call of the two agree. -/
theorem c194_agrees (ev : EdgeVec m k) (d : Bool) (F : Nat) : ∀ (xs : List X) (it : EdgeIter), zip ev d F xs it =
    match zipKeep ev d F (xs, it) with
    | (.error p, _) => .error p
    | (.ok none, _) => .ok []
    | (.ok (some e), (xs', it')) => (zip ev d F xs' it').map (fun l => e :: l)
  | [], it => by
    unfold zip zipKeep
    rw [c190_agrees]
    rcases nextKeep ev d F it with ⟨r, it'⟩
    cases r with
    | error p => rfl
    | ok o => cases o <;> rfl
  | x :: xs, it => by
    conv_lhs => unfold zip
    unfold zipKeep
    rw [c190_agrees]
    rcases nextKeep ev d F it with ⟨r, it'⟩
    cases r with
    | error p => rfl
    | ok o =>
      cases o with
      | none => rfl
      | some e =>
        simp only [bind_ok]
        cases zip ev d F xs it' <;> rfl

/-- Answers put beside labels as long as there are labels; a pair without one is answered with `None`. -/
def beside : List X → List (Res (Option (Id m × Id m))) → List (Res (Option ((Id m × Id m) × X)))
  | _, [] => []
  | xs, .error p :: r => .error p :: beside xs r
  | xs, .ok none :: r => .ok none :: beside xs r
  | [], .ok (some _) :: r => .ok none :: beside [] r
  | x :: xs, .ok (some e) :: r => .ok (some (e, x)) :: beside xs r

theorem zip_beside (ev : EdgeVec m k) (d : Bool) (F : Nat) : ∀ n (xs : List X) it,
    replies (zipKeep ev d F) n (xs, it) = beside xs (answers ev d F n it)
  | 0, xs, it => by cases xs <;> rfl
  | n + 1, xs, it => by
    unfold replies answers
    simp only
    unfold zipKeep
    rcases nextKeep ev d F it with ⟨r, it'⟩
    cases r with
    | error p => simp only [beside]; rw [← zip_beside ev d F n xs it']; rfl
    | ok o =>
      cases o with
      | none => simp only [beside]; rw [← zip_beside ev d F n xs it']; rfl
      | some e =>
        cases xs with
        | nil => simp only [beside]; rw [← zip_beside ev d F n [] it']; rfl
        | cons x xs => simp only [beside]; rw [← zip_beside ev d F n xs it']; rfl

/-- What follows the pairs: `None`, or the panic. -/
def zipEnding : Option Panic → Res (Option ((Id m × Id m) × X))
  | none => .ok none
  | some p => .error p

theorem beside_end (xs : List X) (o : Option Panic) : ∀ n,
    beside xs (List.replicate n (ending (m := m) o)) = List.replicate n (zipEnding o)
  | 0 => by cases xs <;> rfl
  | n + 1 => by
    rw [List.replicate_succ, List.replicate_succ, ← beside_end xs o n]
    cases o <;> simp only [ending, zipEnding, beside]

theorem beside_all (o : Option Panic) : ∀ (l : List (Id m × Id m)) (xs : List X) n,
    beside xs (l.map (fun e => Except.ok (some e)) ++ List.replicate n (ending o)) =
      (l.zip xs).map (fun e => Except.ok (some e)) ++ List.replicate (l.length - xs.length) (Except.ok none) ++
        List.replicate n (zipEnding o)
  | [], xs, n => by simp [beside_end]
  | e :: l, [], n => by
    have := beside_all o l ([] : List X) n
    simp only [List.zip_nil_right, List.map_nil, List.nil_append, List.length_nil, Nat.sub_zero] at this
    simp only [List.map_cons, List.cons_append, beside, this, List.zip_nil_right, List.map_nil, List.nil_append,
      List.length_cons, List.length_nil, Nat.sub_zero, List.replicate_succ]
  | e :: l, x :: xs, n => by
    have := beside_all o l xs n
    simp only [List.map_cons, List.cons_append, beside, this, List.zip_cons_cons, List.length_cons,
      Nat.add_sub_add_right]

theorem beside_take : ∀ n (xs : List X) (r : List (Res (Option (Id m × Id m)))),
    beside xs (r.take n) = (beside xs r).take n
  | 0, xs, r => by cases xs <;> cases r <;> simp [beside]
  | n + 1, xs, [] => by cases xs <;> simp [beside]
  | n + 1, xs, .error p :: r => by simp [beside, beside_take n xs r]
  | n + 1, xs, .ok none :: r => by simp [beside, beside_take n xs r]
  | n + 1, [], .ok (some e) :: r => by simp [beside, beside_take n [] r]
  | n + 1, x :: xs, .ok (some e) :: r => by simp [beside, beside_take n xs r]

/-- **C194.** However often the iterator behind `edges()` of a labelled graph is asked: first the pairs with their
labels, as many as there are of both; then `None` once for each pair that has no label; and then the end of the
enumeration of the pairs, `None` or its panic, for ever. -/
theorem c194_answers {ev : EdgeVec m k} {d : Bool} {F : Nat} {l : List (Id m × Id m)} {o : Option Panic}
    (h : trace ev d F ⟨0, 0⟩ = (l, o)) (ho : o ≠ some .diverge) (xs : List X) (n : Nat) :
    replies (zipKeep ev d F) n (xs, ⟨0, 0⟩) =
      ((l.zip xs).map (fun e => Except.ok (some e)) ++ List.replicate (l.length - xs.length) (Except.ok none) ++
        List.replicate n (zipEnding o)).take n := by
  rw [zip_beside, c190_answers F h ho F (le_refl _) n, beside_take, beside_all]

/-- **C194.** Where the pairs can be enumerated, `None` stays. -/
theorem c194_edges {ev : EdgeVec m k} {d : Bool} {l : List (Id m × Id m)} (h : ev.edgeIndices d = .ok l)
    (xs : List X) (n : Nat) :
    replies (zipKeep ev d (ev.offsets.length + ev.edges.length + 1)) n (xs, ⟨0, 0⟩) =
      ((l.zip xs).map (fun e => Except.ok (some e)) ++ List.replicate n (Except.ok none)).take n := by
  unfold EdgeVec.edgeIndices at h
  rw [collect_trace] at h
  rcases ht : trace ev d (ev.offsets.length + ev.edges.length + 1) ⟨0, 0⟩ with ⟨l', o⟩
  rw [ht] at h
  cases o with
  | some p => cases h
  | none =>
    cases h
    rw [c194_answers ht (by simp)]
    simp only [zipEnding, List.append_assoc, ← List.replicate_add]
    rw [List.take_append, List.take_append, List.take_replicate, List.take_replicate]
    congr 2
    simp only [List.length_map, List.length_zip]
    omega

/-- **C194.** So `edges()` of a frozen graph whose pairs can be enumerated, labelled or not: its list, then `None` for
ever. -/
theorem c194_graph {NL EL : Type} {g : StaticGraph m k NL EL} {l : List (Id m × Id m)} (h : g.edgeIndices = .ok l)
    (n : Nat) : ∃ es, g.edges = .ok es ∧
      edgesAnswers g.edgeVec g.directed (g.edgeVec.offsets.length + g.edgeVec.edges.length + 1) n =
        (es.map (fun e => Except.ok (some e)) ++ List.replicate n (Except.ok none)).take n := by
  have h' : g.edgeVec.edgeIndices g.directed = .ok l := h
  unfold edgesAnswers StaticGraph.edges
  by_cases hl : g.edgeVec.getLabels = []
  · rw [if_pos hl, if_pos (by simp [hl]), h, c190_edge_indices h' (le_refl _) n]
    refine ⟨_, rfl, ?_⟩
    simp [List.map_take, Except.map, Function.comp_def]
  · rw [if_neg hl, if_neg (by simpa using hl), c162_ends _ _ h', c194_edges h']
    refine ⟨_, rfl, ?_⟩
    simp [List.map_take, Except.map, Function.comp_def]

/-- **C194.** The same of a mapped graph. -/
theorem c194_mapped {NL EL : Type} {g : MmapGraph m k NL EL} {l : List (Id m × Id m)} (h : g.edgeIndices = .ok l)
    (n : Nat) : ∃ es, g.edgeList = .ok es ∧
      edgesAnswers g.edges g.isDirected (g.edges.offsets.length + g.edges.edges.length + 1) n =
        (es.map (fun e => Except.ok (some e)) ++ List.replicate n (Except.ok none)).take n := by
  have h' : g.edges.edgeIndices g.isDirected = .ok l := h
  unfold edgesAnswers MmapGraph.edgeList
  by_cases hl : g.edges.getLabels = []
  · rw [if_pos hl, if_pos (by simp [hl]), h, c190_edge_indices h' (le_refl _) n]
    refine ⟨_, rfl, ?_⟩
    simp [List.map_take, Except.map, Function.comp_def]
  · rw [if_neg hl, if_neg (by simpa using hl), c162_ends _ _ h', c194_edges h']
    refine ⟨_, rfl, ?_⟩
    simp [List.map_take, Except.map, Function.comp_def]

/-- **C194.** But where the labels end before a torn row, `None` does not stay: a mapped file with one label too few,
and its last row torn. The loop ends; whoever asks twice more meets the panic. -/
theorem c194_late_panic :
    let ev : EdgeVec 9 3 := ⟨[0, 1, 2, 9], [1, 0], some [2]⟩
    edgesAnswers ev true 7 5 = [.ok (some ⟨0, 1, some 2⟩), .ok none, .error .indexOutOfBounds,
      .error .indexOutOfBounds, .error .indexOutOfBounds] ∧
    edgesAnswers (⟨[0, 1, 2, 2], [1, 0], some [2, 3]⟩ : EdgeVec 9 3) true 7 4 =
      [.ok (some ⟨0, 1, some 2⟩), .ok (some ⟨1, 0, none⟩), .ok none, .ok none] ∧
    edgesAnswers (⟨[0, 1, 2, 2], [1, 0], none⟩ : EdgeVec 9 3) true 7 4 =
      [.ok (some ⟨0, 1, none⟩), .ok (some ⟨1, 0, none⟩), .ok none, .ok none] := by decide +kernel

end Verif.Props
