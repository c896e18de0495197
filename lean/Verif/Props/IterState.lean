import Verif.Model.IterState
import Verif.Model.Traversal
import Verif.Proof.Loops
import Verif.Proof.Zip
import Verif.Props.RawCsr

/-! C190: iterators after their end, and after a panic. -/

namespace Verif.Props

open Verif Verif.Spec EdgeVec EdgeIter

variable {m k : Nat} {NL EL : Type}

theorem skip_keep (ev : EdgeVec m k) : ∀ F it, skipEmpty ev F it =
    match skipKeep ev F it with
    | (some p, _) => .error p
    | (none, it') => .ok it' := by
  intro F
  induction F with
  | zero => intro it; rfl
  | succ F ih =>
    intro it
    unfold skipEmpty skipKeep
    cases ev.hasNode (Id.new it.currNode) with
    | error p => rfl
    | ok b =>
      cases b with
      | false => rfl
      | true =>
        simp only [bind_ok, if_true]
        cases ev.degree (Id.new it.currNode) with
        | error p => rfl
        | ok d =>
          simp only [bind_ok]
          split
          · exact ih _
          · rfl

/-- **C190.** The iterator with its state answers as the one without. -/
theorem c190_agrees (ev : EdgeVec m k) (d : Bool) : ∀ F it, next ev d F it =
    match nextKeep ev d F it with
    | (.error p, _) => .error p
    | (.ok none, _) => .ok none
    | (.ok (some e), it') => .ok (some (e, it')) := by
  intro F
  induction F with
  | zero => intro it; rfl
  | succ F ih =>
    intro it
    unfold next nextKeep
    rw [skip_keep]
    rcases skipKeep ev (F + 1) it with ⟨_ | p, it'⟩
    · simp only [bind_ok]
      cases ev.hasNode (Id.new it'.currNode) with
      | error p => rfl
      | ok b =>
        cases b with
        | false => rfl
        | true =>
          simp only [bind_ok, if_true]
          cases ev.neighbors (Id.new it'.currNode) with
          | error p => rfl
          | ok nb =>
            simp only [bind_ok]
            cases pick nb d it'.currNode it'.currIdx with
            | error p => rfl
            | ok o =>
              cases o with
              | none => simp only [bind_ok]; exact ih _
              | some i =>
                simp only [bind_ok, yieldAt]
                cases index nb i with
                | error p => rfl
                | ok t => rfl
    · rfl

/-- Where the inner loop stops it stops again. -/
theorem skip_again {ev : EdgeVec m k} : ∀ F {it it' : EdgeIter} {o : Option Panic}, skipKeep ev F it = (o, it') →
    o ≠ some .diverge → ∀ F', 1 ≤ F' → skipKeep ev F' it' = (o, it') := by
  intro F
  induction F with
  | zero => intro it it' o h ho; cases h; exact absurd rfl ho
  | succ F ih =>
    intro it it' o h ho F' hF
    unfold skipKeep at h
    obtain ⟨F', rfl⟩ : ∃ g, F' = g + 1 := ⟨F' - 1, by omega⟩
    cases hh : ev.hasNode (Id.new it.currNode) with
    | error p => rw [hh] at h; cases h; unfold skipKeep; rw [hh]
    | ok b =>
      rw [hh] at h
      cases b with
      | false => cases h; unfold skipKeep; rw [hh]
      | true =>
        simp only at h
        cases hd : ev.degree (Id.new it.currNode) with
        | error p => rw [hd] at h; cases h; unfold skipKeep; rw [hh]; simp only; rw [hd]
        | ok d =>
          rw [hd] at h
          simp only at h
          split at h
          · exact ih h ho _ hF
          · rename_i hlt
            cases h
            unfold skipKeep
            rw [hh]; simp only; rw [hd]; simp only
            rw [if_neg hlt]

theorem pick_within {nb : List (Id m)} {d : Bool} {n idx : Nat} (h : idx < nb.length) :
    ∃ o, pick nb d n idx = .ok o ∧ ∀ i, o = some i → i < nb.length := by
  unfold pick
  split
  · exact ⟨_, rfl, fun i e => by cases e; exact h⟩
  · have hi : index nb idx = .ok nb[idx] := by
      unfold index
      rw [List.getElem?_eq_getElem h]
      rfl
    rw [hi, bind_ok]
    split
    · rcases binarySearch_total nb (Id.new n) with ⟨i, e1, e2⟩ | ⟨i, e1, -⟩
      · rw [e1, bind_ok]
        exact ⟨_, rfl, fun j e => by cases e; exact (List.getElem?_eq_some_iff.1 e2).1⟩
      · rw [e1, bind_ok]
        refine ⟨_, rfl, fun j e => ?_⟩
        split at e
        · cases e; assumption
        · cases e
    · exact ⟨_, rfl, fun i e => by cases e; exact h⟩

/-- A row that is not passed has an entry at the index. -/
theorem kept_within {ev : EdgeVec m k} {F : Nat} {it : EdgeIter} {nb : List (Id m)}
    (h : skipKeep ev (F + 1) it = (none, it)) (hh : ev.hasNode (Id.new it.currNode) = .ok true)
    (hn : ev.neighbors (Id.new it.currNode) = .ok nb) : it.currIdx < nb.length := by
  unfold skipKeep at h
  rw [hh] at h
  simp only at h
  rw [(c156_degree ev (Id.new it.currNode)).2.2.2 nb hn] at h
  simp only at h
  by_contra hc
  rw [if_pos (by omega)] at h
  have : ∀ F (a : EdgeIter) o b, skipKeep ev F a = (o, b) → a.currNode ≤ b.currNode := by
    intro F
    induction F with
    | zero => intro a o b h; cases h; exact le_refl _
    | succ F ih =>
      intro a o b h
      unfold skipKeep at h
      split at h
      · cases h; exact le_refl _
      · cases h; exact le_refl _
      · split at h
        · cases h; exact le_refl _
        · split at h
          · have := ih _ _ _ h
            simp only at this
            omega
          · cases h; exact le_refl _
  have := this _ _ _ _ h
  simp only at this
  omega

/-- **C190.** After a `None` the iterator answers `None` to every further call, whatever the arrays hold; and after a
panic that was caught every further call panics in the same way. The fields do not move any more. -/
theorem c190_stays {ev : EdgeVec m k} {d : Bool} : ∀ F {it it' : EdgeIter} {r : Res (Option (Id m × Id m))},
    nextKeep ev d F it = (r, it') → (∀ e, r ≠ .ok (some e)) → r ≠ .error .diverge →
    ∀ F', 1 ≤ F' → nextKeep ev d F' it' = (r, it') := by
  intro F
  induction F with
  | zero => intro it it' r h _ hd; cases h; exact absurd rfl hd
  | succ F ih =>
    intro it it' r h hr hd F' hF
    unfold nextKeep at h
    rcases hs : skipKeep ev (F + 1) it with ⟨o, it1⟩
    rw [hs] at h
    obtain ⟨F', rfl⟩ : ∃ g, F' = g + 1 := ⟨F' - 1, by omega⟩
    cases o with
    | some p =>
      cases h
      unfold nextKeep
      rw [skip_again _ hs (fun e => hd (by cases e; rfl)) _ hF]
    | none =>
      have ha := skip_again _ hs (by simp)
      simp only at h
      cases hh : ev.hasNode (Id.new it1.currNode) with
      | error p =>
        rw [hh] at h; cases h
        unfold nextKeep
        rw [ha _ hF]; simp only; rw [hh]
      | ok b =>
        rw [hh] at h
        cases b with
        | false =>
          cases h
          unfold nextKeep
          rw [ha _ hF]; simp only; rw [hh]
        | true =>
          simp only at h
          cases hn : ev.neighbors (Id.new it1.currNode) with
          | error p =>
            rw [hn] at h; cases h
            unfold nextKeep
            rw [ha _ hF]; simp only; rw [hh]; simp only; rw [hn]
          | ok nb =>
            rw [hn] at h
            simp only at h
            obtain ⟨o, hp, hw⟩ := pick_within (d := d) (n := it1.currNode) (kept_within (ha 1 (le_refl _)) hh hn)
            rw [hp] at h
            cases o with
            | none => exact ih h hr hd _ hF
            | some i =>
              exfalso
              simp only at h
              have hi : index nb i = .ok (nb[i]'(hw i rfl)) := by
                unfold index
                rw [List.getElem?_eq_getElem (hw i rfl)]
                rfl
              rw [hi] at h
              cases h
              exact hr _ rfl

theorem skip_mono {ev : EdgeVec m k} : ∀ F {it it' : EdgeIter} {o : Option Panic}, skipKeep ev F it = (o, it') →
    o ≠ some .diverge → ∀ F', F ≤ F' → skipKeep ev F' it = (o, it') := by
  intro F
  induction F with
  | zero => intro it it' o h ho; cases h; exact absurd rfl ho
  | succ F ih =>
    intro it it' o h ho F' hF
    obtain ⟨F', rfl⟩ : ∃ g, F' = g + 1 := ⟨F' - 1, by omega⟩
    unfold skipKeep at h ⊢
    split at h
    · exact h
    · exact h
    · split at h
      · exact h
      · split at h
        · rename_i hge
          simp only [if_pos hge]
          exact ih h ho _ (by omega)
        · rename_i hge
          simp only [if_neg hge]
          exact h

theorem keep_mono {ev : EdgeVec m k} {d : Bool} : ∀ F {it it' : EdgeIter} {r : Res (Option (Id m × Id m))},
    nextKeep ev d F it = (r, it') → r ≠ .error .diverge → ∀ F', F ≤ F' → nextKeep ev d F' it = (r, it') := by
  intro F
  induction F with
  | zero => intro it it' r h hr; cases h; exact absurd rfl hr
  | succ F ih =>
    intro it it' r h hr F' hF
    obtain ⟨F', rfl⟩ : ∃ g, F' = g + 1 := ⟨F' - 1, by omega⟩
    unfold nextKeep at h ⊢
    rcases hs : skipKeep ev (F + 1) it with ⟨o, it1⟩
    rw [hs] at h
    have ho : o ≠ some .diverge := by
      rintro rfl
      cases h
      exact hr rfl
    rw [skip_mono _ hs ho _ hF]
    cases o with
    | some p => exact h
    | none =>
      simp only at h ⊢
      cases hh : ev.hasNode (Id.new it1.currNode) with
      | error p => rw [hh] at h; exact h
      | ok b =>
        rw [hh] at h
        cases b with
        | false => exact h
        | true =>
          simp only at h ⊢
          cases hn : ev.neighbors (Id.new it1.currNode) with
          | error p => rw [hn] at h; exact h
          | ok nb =>
            rw [hn] at h
            simp only at h ⊢
            cases hp : pick nb d it1.currNode it1.currIdx with
            | error p => rw [hp] at h; exact h
            | ok o =>
              rw [hp] at h
              cases o with
              | none => exact ih h hr _ (by omega)
              | some i => exact h

theorem answers_stay {ev : EdgeVec m k} {d : Bool} {F : Nat} {it : EdgeIter} {r : Res (Option (Id m × Id m))}
    (h : nextKeep ev d F it = (r, it)) : ∀ n, answers ev d F n it = List.replicate n r
  | 0 => rfl
  | n + 1 => by
    unfold answers
    rw [h]
    simp only [List.replicate_succ]
    rw [answers_stay h n]

/-- What is answered once the edges are used up: `None`, or the panic that ended them. -/
def ending : Option Panic → Res (Option (Id m × Id m))
  | none => .ok none
  | some p => .error p

/-- **C190.** Whatever an enumeration gives and however it ends (`trace`, C179), calling `next` `n` times gives the edges
and then the end again and again. -/
theorem c190_answers {ev : EdgeVec m k} {d : Bool} : ∀ F {it : EdgeIter} {l : List (Id m × Id m)} {o : Option Panic},
    trace ev d F it = (l, o) → o ≠ some .diverge → ∀ F', F ≤ F' → ∀ n,
    answers ev d F' n it = (l.map (fun e => Except.ok (some e)) ++ List.replicate n (ending o)).take n := by
  intro F
  induction F with
  | zero => intro it l o h ho; cases h; exact absurd rfl ho
  | succ F ih =>
    intro it l o h ho F' hF n
    cases n with
    | zero => rfl
    | succ n =>
      unfold trace at h
      rw [c190_agrees] at h
      rcases hk : nextKeep ev d (F + 1) it with ⟨r, it'⟩
      rw [hk] at h
      have hlast : ∀ o' : Option Panic, r = ending o' → l = [] → o = o' → answers ev d F' (n + 1) it =
          (l.map (fun e => Except.ok (some e)) ++ List.replicate (n + 1) (ending o)).take (n + 1) := by
        rintro o' rfl rfl rfl
        have hr : (ending o : Res (Option (Id m × Id m))) ≠ .error .diverge := by
          intro e
          cases o with
          | none => cases e
          | some p => exact ho (by simp only [ending, Except.error.injEq] at e; rw [e])
        have hs : ∀ e, (ending o : Res (Option (Id m × Id m))) ≠ .ok (some e) := by
          intro e he
          cases o <;> cases he
        unfold answers
        rw [keep_mono _ hk hr _ hF]
        simp only
        rw [answers_stay (c190_stays _ hk hs hr F' (by omega))]
        simp [List.replicate_succ]
      cases r with
      | error p => simp only at h; exact hlast (some p) rfl (by cases h; rfl) (by cases h; rfl)
      | ok x =>
        cases x with
        | none => simp only at h; exact hlast none rfl (by cases h; rfl) (by cases h; rfl)
        | some e =>
          simp only [Prod.mk.injEq] at h
          obtain ⟨rfl, rfl⟩ := h
          unfold answers
          rw [keep_mono _ hk (by simp) _ hF]
          simp only [List.map_cons, List.cons_append, List.take_succ_cons]
          congr 1
          rw [ih rfl ho F' (by omega) n]
          rw [List.replicate_succ', ← List.append_assoc, List.take_append_of_le_length
            (l₂ := [ending _]) (by simp)]

/-- **C190.** So however often `next` is called on `edge_indices()` of a graph whose rows are sound: the edges come once
each in their order, and then `None`, for ever. -/
theorem c190_edge_indices {ev : EdgeVec m k} {d : Bool} {l : List (Id m × Id m)} (h : ev.edgeIndices d = .ok l)
    {F : Nat} (hF : ev.offsets.length + ev.edges.length + 1 ≤ F) (n : Nat) :
    answers ev d F n ⟨0, 0⟩ = (l.map (fun e => Except.ok (some e)) ++ List.replicate n (Except.ok none)).take n := by
  unfold EdgeVec.edgeIndices at h
  rw [collect_trace] at h
  rcases ht : trace ev d (ev.offsets.length + ev.edges.length + 1) ⟨0, 0⟩ with ⟨l', o⟩
  rw [ht] at h
  cases o with
  | none =>
    cases h
    exact c190_answers _ ht (by simp) F hF n
  | some p => cases h

/-- **C190.** And of a graph where listing the edges panics: the edges before the damage, and then the panic, at every
call. It is not skipped by catching it. -/
theorem c190_panics {ev : EdgeVec m k} {d : Bool} {p : Panic} (h : ev.edgeIndices d = .error p) (hp : p ≠ .diverge)
    {F : Nat} (hF : ev.offsets.length + ev.edges.length + 1 ≤ F) :
    ∃ l : List (Id m × Id m), ∀ n,
      answers ev d F n ⟨0, 0⟩ = (l.map (fun e => Except.ok (some e)) ++ List.replicate n (Except.error p)).take n := by
  unfold EdgeVec.edgeIndices at h
  rw [collect_trace] at h
  rcases ht : trace ev d (ev.offsets.length + ev.edges.length + 1) ⟨0, 0⟩ with ⟨l', o⟩
  rw [ht] at h
  cases o with
  | none => cases h
  | some q =>
    simp only [Except.error.injEq] at h
    subst h
    exact ⟨l', fun n => c190_answers _ ht (by simpa using hp) F hF n⟩

/-- **C190.** A search that is over stays over. -/
theorem c190_bfs {g : GView m k NL EL} {s s' : Traversal m} (h : Bfs.next g s = .ok (none, s')) :
    s' = s ∧ Bfs.next g s' = .ok (none, s') := by
  have key : s' = s := by
    unfold Bfs.next at h
    obtain ⟨s1, h1, h⟩ := bind_eq_ok h
    cases hw : s1.work with
    | cons n rest =>
      rw [hw] at h
      obtain ⟨s2, -, h⟩ := bind_eq_ok h
      cases h
    | nil =>
      rw [hw] at h
      cases h
      unfold Traversal.refill at h1
      split at h1
      · split at h1
        · obtain ⟨b, -, h1⟩ := bind_eq_ok h1
          cases h1
          simp at hw
        · cases h1; rfl
      · cases h1; rfl
  subst key
  exact ⟨rfl, h⟩

/-- **C190.** So does one in depth. -/
theorem c190_dfs {g : GView m k NL EL} {s s' : Traversal m} (h : Dfs.next g s = .ok (none, s')) :
    s' = s ∧ Dfs.next g s' = .ok (none, s') := by
  have key : s' = s := by
    unfold Dfs.next at h
    obtain ⟨s1, h1, h⟩ := bind_eq_ok h
    cases hw : s1.work.getLast? with
    | some n =>
      rw [hw] at h
      obtain ⟨s2, -, h⟩ := bind_eq_ok h
      cases h
    | none =>
      rw [hw] at h
      cases h
      unfold Traversal.refill at h1
      split at h1
      · split at h1
        · obtain ⟨b, -, h1⟩ := bind_eq_ok h1
          cases h1
          simp at hw
        · cases h1; rfl
      · cases h1; rfl
  subst key
  exact ⟨rfl, h⟩

/-- A directed graph whose last row points beyond the edges, and the same with the row put right. -/
example : EdgeVec.edgeIndices (m := 9) (k := 3) ⟨[0, 1, 2, 9], [1, 0], none⟩ true = .error .indexOutOfBounds ∧
    answers (m := 9) (k := 3) ⟨[0, 1, 2, 9], [1, 0], none⟩ true 7 5 ⟨0, 0⟩ =
      [.ok (some (0, 1)), .ok (some (1, 0)), .error .indexOutOfBounds, .error .indexOutOfBounds,
        .error .indexOutOfBounds] ∧
    EdgeVec.edgeIndices (m := 9) (k := 3) ⟨[0, 1, 2, 2], [1, 0], none⟩ true = .ok [(0, 1), (1, 0)] ∧
    answers (m := 9) (k := 3) ⟨[0, 1, 2, 2], [1, 0], none⟩ true 7 4 ⟨0, 0⟩ =
      [.ok (some (0, 1)), .ok (some (1, 0)), .ok none, .ok none] := by decide +kernel

end Verif.Props
