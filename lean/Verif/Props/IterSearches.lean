import Verif.Model.IterSearches
import Verif.Props.Unsorted

/-! C193: how often an enumeration of the edges searches. -/

namespace Verif.Props

open Spec EdgeIter EdgeVec

variable {m k : Nat}

theorem pick_log (nb : List (Id m)) (d : Bool) (n i : Nat) : (pickLog nb d n i).map Prod.fst = pick nb d n i := by
  unfold pickLog pick
  cases d with
  | true => rfl
  | false =>
    simp only [Bool.false_eq_true, if_false]
    cases index nb i with
    | error p => rfl
    | ok y =>
      simp only [bind_ok]
      by_cases hy : y < Id.new n
      · simp only [if_pos hy]
        cases binarySearch nb (Id.new n) with
        | error p => rfl
        | ok r => cases r <;> rfl
      · simp only [if_neg hy]; rfl

theorem next_log (ev : EdgeVec m k) (d : Bool) : ∀ F it, (nextLog ev d F it).map Prod.fst = next ev d F it
  | 0, _ => rfl
  | F + 1, it => by
    unfold nextLog next
    cases skipEmpty ev (F + 1) it with
    | error p => rfl
    | ok it =>
      simp only [bind_ok]
      cases ev.hasNode (Id.new it.currNode) with
      | error p => rfl
      | ok b =>
        simp only [bind_ok]
        cases b with
        | false => rfl
        | true =>
          simp only [if_true]
          cases ev.neighbors (Id.new it.currNode) with
          | error p => rfl
          | ok nb =>
            simp only [bind_ok]
            rw [← pick_log]
            cases pickLog nb d it.currNode it.currIdx with
            | error p => rfl
            | ok r =>
              obtain ⟨o, a⟩ := r
              cases o with
              | some j =>
                simp only [Except.map, bind_ok]
                cases yieldAt nb it.currNode j <;> rfl
              | none =>
                simp only [Except.map, bind_ok]
                rw [← next_log ev d F]
                cases nextLog ev d F ⟨it.currNode + 1, 0⟩ <;> rfl

/-- **C193.** The enumeration with its searches is the enumeration. -/
theorem c193_agrees (ev : EdgeVec m k) (d : Bool) : ∀ F it, (collectLog ev d F it).map Prod.fst = collect ev d F it
  | 0, _ => rfl
  | F + 1, it => by
    unfold collectLog collect
    rw [← next_log]
    cases nextLog ev d (F + 1) it with
    | error p => rfl
    | ok r =>
      obtain ⟨o, a⟩ := r
      cases o with
      | none => rfl
      | some x =>
        obtain ⟨e, it'⟩ := x
        simp only [Except.map, bind_ok]
        rw [← c193_agrees ev d F]
        cases collectLog ev d F it' <;> rfl

/-- A search is made in the row of node `n`: the graph is undirected and some neighbour is less than `n`. -/
def Searched (ev : EdgeVec m k) (d : Bool) (n : Nat) : Prop := d = false ∧ ∃ t ∈ rowOf ev n, t.val < n

instance (ev : EdgeVec m k) (d : Bool) (n : Nat) : Decidable (Searched ev d n) := by
  unfold Searched; infer_instance

/-- The searches still to be made in row `n` from entry `i` on. -/
def own (ev : EdgeVec m k) (d : Bool) (n i : Nat) : List Nat :=
  if d = false ∧ ∃ t ∈ (rowOf ev n).drop i, t.val < n then [n] else []

/-- Those in the rows from `n` on. -/
def onward (ev : EdgeVec m k) (d : Bool) (n : Nat) : List Nat :=
  (List.range' n (ev.offsets.length - 1 - n)).filter (fun n => decide (Searched ev d n))

theorem onward_own {ev : EdgeVec m k} {d : Bool} {n : Nat} (hn : n + 1 < ev.offsets.length) :
    onward ev d n = own ev d n 0 ++ onward ev d (n + 1) := by
  unfold onward own
  rw [show ev.offsets.length - 1 - n = (ev.offsets.length - 1 - (n + 1)) + 1 by omega, List.range'_succ,
    List.filter_cons]
  simp only [List.drop_zero, decide_eq_true_eq]
  by_cases h : Searched ev d n
  · have h' : d = false ∧ ∃ t ∈ rowOf ev n, t.val < n := h
    rw [if_pos h, if_pos h']; rfl
  · have h' : ¬ (d = false ∧ ∃ t ∈ rowOf ev n, t.val < n) := h
    rw [if_neg h, if_neg h']; rfl

theorem row_beyond {ev : EdgeVec m k} {n : Nat} (h : ¬ n + 1 < ev.offsets.length) : rowOf ev n = [] := by
  unfold rowOf
  rw [List.getD_eq_getElem?_getD (i := n + 1), List.getElem?_eq_none (i := n + 1) (by omega)]
  simp

theorem own_end {ev : EdgeVec m k} {d : Bool} {n i : Nat} (h : (rowOf ev n).length ≤ i) : own ev d n i = [] := by
  unfold own
  rw [List.drop_eq_nil_of_le h]
  simp

section
variable {ev : EdgeVec m k} (hm : ev.offsets.length ≤ m + 1)
include hm

theorem has_node_lt {n : Nat} (hn : n + 1 ≤ ev.offsets.length) :
    ev.hasNode (Id.new n) = .ok (decide (n + 1 < ev.offsets.length)) := by
  obtain ⟨c, hc⟩ : ∃ c, ev.offsets.length = c + 1 := ⟨ev.offsets.length - 1, by omega⟩
  rw [has_at c hc (by omega) (by omega)]
  simp only [hc, Except.ok.injEq, decide_eq_decide]
  omega

theorem row_degree {n : Nat} (hn : n + 1 < ev.offsets.length) (hp : Passable ev n) :
    ev.degree (Id.new n) = .ok (rowOf ev n).length := by
  obtain ⟨a, b, hab, h1, h2⟩ := hp
  have hv : (Id.new n : Id m).val = n := Id_new_val (by omega)
  have hdeg := degree_raw (ev := ev) (n := (Id.new n : Id m)) (by rw [hv]; omega) (by rw [hv]; exact hab)
  rw [if_neg (by omega)] at hdeg
  rw [hdeg, rowOf_length hab h1 h2]

theorem row_neighbors {n : Nat} {nb : List (Id m)} (hn : n + 1 < ev.offsets.length)
    (h : ev.neighbors (Id.new n) = .ok nb) : nb = rowOf ev n := by
  have hv : (Id.new n : Id m).val = n := Id_new_val (by omega)
  have := (((c156_neighbors ev (Id.new n)).1 nb).1 h).2
  rwa [hv] at this

theorem skip_own {d : Bool} (hp : ∀ n, n + 1 < ev.offsets.length → Passable ev n) : ∀ F n i it,
    n + 1 ≤ ev.offsets.length → skipEmpty ev F ⟨n, i⟩ = .ok it →
    it.currNode + 1 ≤ ev.offsets.length ∧
      own ev d n i ++ onward ev d (n + 1) = own ev d it.currNode it.currIdx ++ onward ev d (it.currNode + 1) ∧
      (it.currNode + 1 < ev.offsets.length → it.currIdx < (rowOf ev it.currNode).length) := by
  intro F
  induction F with
  | zero => intro n i it _ h; cases h
  | succ F ih =>
    intro n i it hn h
    unfold skipEmpty at h
    rw [has_node_lt hm hn] at h
    simp only [bind_ok] at h
    by_cases hlt : n + 1 < ev.offsets.length
    · simp only [hlt, decide_true, if_true] at h
      rw [row_degree hm hlt (hp n hlt)] at h
      simp only [bind_ok] at h
      by_cases hi : i ≥ (rowOf ev n).length
      · rw [if_pos hi] at h
        obtain ⟨a1, a2, a3⟩ := ih (n + 1) 0 it (by omega) h
        refine ⟨a1, ?_, a3⟩
        rw [own_end hi, List.nil_append, ← a2]
        by_cases hlt' : n + 1 + 1 < ev.offsets.length
        · exact onward_own hlt'
        · have : rowOf ev (n + 1) = [] := row_beyond (by omega)
          rw [own_end (by simp [this])]
          unfold onward
          rw [show ev.offsets.length - 1 - (n + 1) = 0 by omega, show ev.offsets.length - 1 - (n + 1 + 1) = 0 by omega]
          rfl
      · rw [if_neg hi] at h
        cases h
        exact ⟨hn, rfl, fun _ => by simpa using hi⟩
    · simp only [hlt, decide_false, Bool.false_eq_true, if_false] at h
      cases h
      exact ⟨hn, rfl, fun e => absurd e hlt⟩

theorem next_own {d : Bool} (hp : ∀ n, n + 1 < ev.offsets.length → Passable ev n ∧ Settles d n (rowOf ev n)) : ∀ F n i,
    n + 1 ≤ ev.offsets.length → ∀ r a, nextLog ev d F ⟨n, i⟩ = .ok (r, a) →
    match r with
    | none => own ev d n i ++ onward ev d (n + 1) = a
    | some (_, it) => it.currNode + 1 ≤ ev.offsets.length ∧
        own ev d n i ++ onward ev d (n + 1) = a ++ (own ev d it.currNode it.currIdx ++ onward ev d (it.currNode + 1)) := by
  intro F
  induction F with
  | zero => intro n i _ r a h; cases h
  | succ F ih =>
    intro n i hn r a h
    unfold nextLog at h
    obtain ⟨⟨n1, i1⟩, hs, h⟩ := bind_eq_ok h
    obtain ⟨s1, s2, s3⟩ := skip_own hm (d := d) (fun n hn => (hp n hn).1) _ _ _ _ hn hs
    simp only at s1 s2 s3 h
    rw [s2]
    clear s2 hs
    rw [has_node_lt hm s1] at h
    simp only [bind_ok] at h
    by_cases hlt : n1 + 1 < ev.offsets.length
    · simp only [hlt, decide_true, if_true] at h
      obtain ⟨nb, hnb, h⟩ := bind_eq_ok h
      obtain rfl := row_neighbors hm hlt hnb
      have hi := s3 hlt
      have hv : (Id.new n1 : Id m).val = n1 := Id_new_val (by omega)
      have hstep : ∀ o a', pickLog (rowOf ev n1) d n1 i1 = .ok (o, a') →
          (∀ j, o = some j → own ev d n1 i1 = a' ++ own ev d n1 (j + 1)) ∧ (o = none → own ev d n1 i1 = a') := by
        intro o a' hpick
        have hcons := List.drop_eq_getElem_cons hi
        unfold pickLog at hpick
        cases d with
        | true =>
          cases hpick
          exact ⟨fun j _ => by simp [own], by simp⟩
        | false =>
          simp only [Bool.false_eq_true, if_false] at hpick
          rw [index_lt hi] at hpick
          simp only [bind_ok] at hpick
          by_cases hy : (rowOf ev n1)[i1] < Id.new n1
          · have hy' : (rowOf ev n1)[i1].val < n1 := by have := Fin.lt_def.1 hy; omega
            have hown : own ev false n1 i1 = [n1] := by
              unfold own
              rw [if_pos]
              exact ⟨rfl, _, by rw [hcons]; exact List.mem_cons_self, hy'⟩
            have hset : ∀ t ∈ (rowOf ev n1).drop (landing (rowOf ev n1) n1 + 1), n1 ≤ t.val := by
              rcases (hp n1 hlt).2 with e | e | e
              · cases e
              · have := e _ (List.getElem_mem hi); omega
              · exact e
            have hafter : own ev false n1 (landing (rowOf ev n1) n1 + 1) = [] := by
              unfold own
              rw [if_neg]
              rintro ⟨-, t, ht, hlt'⟩
              have := hset t ht
              omega
            rw [if_pos hy] at hpick
            rw [hown]
            obtain ⟨x, hx, hpick⟩ := bind_eq_ok hpick
            cases x with
            | found j =>
              have hland : landing (rowOf ev n1) n1 = j := by simp only [landing, hx]
              cases hpick
              refine ⟨fun j' e => ?_, by simp⟩
              cases e
              rw [← hland, hafter]
              rfl
            | missing j =>
              have hland : landing (rowOf ev n1) n1 = j := by simp only [landing, hx]
              simp only [pure_ok, Except.ok.injEq, Prod.mk.injEq] at hpick
              obtain ⟨rfl, rfl⟩ := hpick
              refine ⟨fun j' e => ?_, fun _ => rfl⟩
              split at e
              · cases e
                rw [← hland, hafter]
                rfl
              · cases e
          · rw [if_neg hy] at hpick
            cases hpick
            refine ⟨fun j e => ?_, by simp⟩
            cases e
            have hy' : ¬ (rowOf ev n1)[i1].val < n1 := fun e => hy (Fin.lt_def.2 (by omega))
            unfold own
            rw [hcons]
            simp only [List.mem_cons, exists_eq_or_imp, hy', false_or, List.nil_append]
      obtain ⟨⟨o, a'⟩, hpick, h⟩ := bind_eq_ok h
      obtain ⟨p1, p2⟩ := hstep o a' hpick
      cases o with
      | some j =>
        simp only at h
        obtain ⟨r', hr, h⟩ := bind_eq_ok h
        cases h
        unfold yieldAt at hr
        obtain ⟨t, -, hr⟩ := bind_eq_ok hr
        cases hr
        simp only
        refine ⟨s1, ?_⟩
        rw [p1 j rfl, List.append_assoc]
      | none =>
        simp only at h
        obtain ⟨⟨r', a2⟩, hr, h⟩ := bind_eq_ok h
        cases h
        have hrec := ih (n1 + 1) 0 (by omega) r' a2 hr
        have hon : onward ev d (n1 + 1) = own ev d (n1 + 1) 0 ++ onward ev d (n1 + 1 + 1) := by
          by_cases hlt' : n1 + 1 + 1 < ev.offsets.length
          · exact onward_own hlt'
          · have : rowOf ev (n1 + 1) = [] := row_beyond (by omega)
            rw [own_end (by simp [this])]
            unfold onward
            rw [show ev.offsets.length - 1 - (n1 + 1) = 0 by omega,
              show ev.offsets.length - 1 - (n1 + 1 + 1) = 0 by omega]
            rfl
        rw [p2 rfl, hon]
        cases r' with
        | none => simp only at hrec ⊢; rw [hrec]
        | some x => simp only at hrec ⊢; exact ⟨hrec.1, by rw [hrec.2, List.append_assoc]⟩
    · simp only [hlt, decide_false, Bool.false_eq_true, if_false] at h
      cases h
      have : rowOf ev n1 = [] := row_beyond (by omega)
      simp only
      rw [own_end (by simp [this])]
      unfold onward
      rw [show ev.offsets.length - 1 - (n1 + 1) = 0 by omega]
      rfl

theorem collect_own {d : Bool} (hp : ∀ n, n + 1 < ev.offsets.length → Passable ev n ∧ Settles d n (rowOf ev n)) : ∀ F n i,
    n + 1 ≤ ev.offsets.length → ∀ l a, collectLog ev d F ⟨n, i⟩ = .ok (l, a) →
    a = own ev d n i ++ onward ev d (n + 1) := by
  intro F
  induction F with
  | zero => intro n i _ l a h; cases h
  | succ F ih =>
    intro n i hn l a h
    unfold collectLog at h
    obtain ⟨⟨r, a1⟩, hr, h⟩ := bind_eq_ok h
    have := next_own hm hp _ _ _ hn _ _ hr
    cases r with
    | none =>
      cases h
      exact this.symm
    | some x =>
      obtain ⟨e, ⟨n', i'⟩⟩ := x
      simp only at this h
      obtain ⟨⟨l', a2⟩, hc, h⟩ := bind_eq_ok h
      cases h
      rw [this.2, ih _ _ this.1 _ _ hc]

end

/-- **C193.** Enumerating all edges, whatever the order of the rows, as long as it ends: one binary search in the row of
each node that has a neighbour less than itself if the graph is undirected, none if it is directed; the rows are
searched in their order, none twice. -/
theorem c193_searches {ev : EdgeVec m k} {d : Bool} (hm : ev.offsets.length ≤ m + 1) {l : List (Id m × Id m)}
    (h : ev.edgeIndices d = .ok l) :
    collectLog ev d (ev.offsets.length + ev.edges.length + 1) ⟨0, 0⟩ =
      .ok (l, (List.range (ev.offsets.length - 1)).filter (fun n => decide (Searched ev d n))) := by
  have h0 : ev.offsets ≠ [] := by
    intro e
    rw [(c156_no_offsets ev e d)] at h
    cases h
  have h0' : ev.offsets.length ≠ 0 := by simpa using h0
  have hp := ((c179_edges ev h0 hm d _ (le_refl _) l).1 h).1
  have hag := c193_agrees ev d (ev.offsets.length + ev.edges.length + 1) ⟨0, 0⟩
  unfold EdgeVec.edgeIndices at h
  rw [h] at hag
  cases hc : collectLog ev d (ev.offsets.length + ev.edges.length + 1) ⟨0, 0⟩ with
  | error p => rw [hc] at hag; cases hag
  | ok r =>
    obtain ⟨l', a⟩ := r
    rw [hc] at hag
    simp only [Except.map, Except.ok.injEq] at hag
    subst hag
    have ha := collect_own hm hp _ 0 0 (by omega) _ _ hc
    rw [ha]
    simp only [Except.ok.injEq, Prod.mk.injEq, true_and]
    by_cases h1 : 0 + 1 < ev.offsets.length
    · rw [← onward_own h1]
      unfold onward
      rw [List.range_eq_range', Nat.sub_zero]
    · have hr : rowOf ev 0 = [] := row_beyond (by omega)
      rw [own_end (by simp [hr])]
      unfold onward
      rw [show ev.offsets.length - 1 - (0 + 1) = 0 by omega, show ev.offsets.length - 1 = 0 by omega]
      rfl

/-- **C193.** So there are no searches over a directed graph, and at most one less than there are nodes over an
undirected one: node 0 has no smaller neighbour. -/
theorem c193_most {ev : EdgeVec m k} {d : Bool} (hm : ev.offsets.length ≤ m + 1) {F : Nat}
    (hF : F = ev.offsets.length + ev.edges.length + 1) {l : List (Id m × Id m)} {q : List Nat}
    (h : collectLog ev d F ⟨0, 0⟩ = .ok (l, q)) :
    (d = true → q = []) ∧ q.length ≤ ev.offsets.length - 2 ∧ q.Pairwise (· < ·) := by
  subst hF
  have hag := c193_agrees ev d (ev.offsets.length + ev.edges.length + 1) ⟨0, 0⟩
  rw [h] at hag
  have := c193_searches hm hag.symm
  rw [h] at this
  simp only [Except.ok.injEq, Prod.mk.injEq, true_and] at this
  rw [this]
  refine ⟨fun hd => ?_, ?_, List.pairwise_lt_range.filter _⟩
  · simp [Searched, hd]
  · rcases Nat.lt_or_ge ev.offsets.length 2 with h2 | h2
    · rw [show ev.offsets.length - 1 = 0 by omega]
      simp
    · obtain ⟨c, hc⟩ : ∃ c, ev.offsets.length - 1 = c + 1 := ⟨ev.offsets.length - 2, by omega⟩
      rw [hc, List.range_succ_eq_map, List.filter_cons]
      have : ¬ Searched ev d 0 := by rintro ⟨-, t, -, ht⟩; omega
      rw [if_neg (by simpa using this)]
      refine (List.length_filter_le _ _).trans ?_
      simp
      omega

/-- A path of four nodes: a search for each but the first. -/
example : EdgeVec.edgeIndices (m := 9) (k := 3) ⟨[0, 1, 3, 5, 6], [1, 0, 2, 1, 3, 2], none⟩ false =
      .ok [(0, 1), (1, 2), (2, 3)] ∧
    collectLog (m := 9) (k := 3) ⟨[0, 1, 3, 5, 6], [1, 0, 2, 1, 3, 2], none⟩ false 12 ⟨0, 0⟩ =
      .ok ([(0, 1), (1, 2), (2, 3)], [1, 2, 3]) := by decide +kernel

end Verif.Props
