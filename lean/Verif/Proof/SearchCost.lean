import Verif.Model.Capacity
import Verif.Spec.SearchCost
import Verif.Proof.SearchMoment

/-! What the restarts of a search cost. -/

namespace Verif.Traversal

open Verif.Spec

variable {m k : Nat} {NL EL : Type} {g : GView m k NL EL} {A : AGraph (Id m) NL EL}

/-- Ids that are no nodes are never marked discovered. -/
def Kept (A : AGraph (Id m) NL EL) (n : Nat) (b : BitSet) : Prop :=
  b.length = n ∧ ∀ i, i < n → A.node (Id.new i) = none → b.contains i = true

theorem Id.new_val (n : Id m) : (Id.new n.val : Id m) = n := Fin.ext (Nat.mod_eq_of_lt n.isLt)

theorem Kept.put {n : Nat} {b b' : BitSet} (h : Kept A n b) {x : Id m} (hx : (A.node x).isSome)
    (hp : b.put x.val false = .ok b') : Kept A n b' := by
  unfold BitSet.put at hp
  split at hp
  · rename_i hlt
    cases hp
    refine ⟨by rw [List.length_set]; exact h.1, fun i hi hn => ?_⟩
    rw [BitSet.contains_set hlt]
    split
    · rename_i e
      subst e
      rw [Id.new_val] at hn
      rw [hn] at hx
      cases hx
    · exact h.2 i hi hn
  · cases hp

theorem Kept.discover {n : Nat} {l : List (Id m)} (hl : ∀ x ∈ l, (A.node x).isSome) {st st' : Traversal m}
    (h : Kept A n st.undiscovered) (hd : l.foldlM discover st = .ok st') : Kept A n st'.undiscovered := by
  induction l generalizing st with
  | nil => cases hd; exact h
  | cons x l ih =>
    rw [List.foldlM_cons] at hd
    obtain ⟨s1, h1, h2⟩ := bind_eq_ok hd
    refine ih (fun y hy => hl y (List.mem_cons_of_mem _ hy)) ?_ h2
    unfold Traversal.discover at h1
    split at h1
    · obtain ⟨b, h3, h4⟩ := bind_eq_ok h1
      cases h4
      exact h.put (hl x (List.mem_cons_self ..)) h3
    · cases h1; exact h

theorem Kept.next {pop : List (Id m) → Option (Id m × List (Id m))} (hs : Shows g A) {n : Nat}
    {st st' : Traversal m} {y : Id m} (hx : (A.node y).isSome) (h : Kept A n st.undiscovered)
    (hn : nextWith pop g st = .ok (some y, st')) : Kept A n st'.undiscovered := by
  unfold nextWith at hn
  obtain ⟨s1, h1, h2⟩ := bind_eq_ok hn
  have hk : Kept A n s1.undiscovered := by
    unfold refill at h1
    split at h1
    · split at h1
      · rename_i x hx
        obtain ⟨b, h3, h4⟩ := bind_eq_ok h1
        cases h4
        unfold nextUnvisited at hx
        obtain ⟨i, h5, rfl⟩ := Option.map_eq_some_iff.1 hx
        refine h.put ?_ h3
        have := List.find?_some h5
        rw [hs.hasNode] at this
        exact this
      · cases h1; exact h
    · cases h1; exact h
  cases hq : pop s1.work with
  | none => rw [hq] at h2; cases h2
  | some q =>
    obtain ⟨x, rest⟩ := q
    rw [hq] at h2
    obtain ⟨s2, h3, h4⟩ := bind_eq_ok h2
    cases h4
    unfold expand at h3
    obtain ⟨l, h5, h6⟩ := bind_eq_ok h3
    obtain ⟨l', e1, -, e2, -⟩ := hs.neighbors _ hx
    rw [h5] at e1
    cases e1
    exact Kept.discover (st := ⟨rest, s1.undiscovered⟩) (fun z hz => (hs.ends _ z ((e2 z).1 hz)).2) hk h6

theorem filter_range_split {p : Nat → Bool} {n x : Nat} (hx : x < n) (hp : p x = true) :
    ∃ t, (List.range n).filter p = (List.range x).filter p ++ x :: t := by
  obtain ⟨c, rfl⟩ : ∃ c, n = x + 1 + c := ⟨n - x - 1, by omega⟩
  rw [List.range_add, List.filter_append, List.range_succ, List.filter_append]
  simp only [List.filter_cons, hp, if_true, List.filter_nil]
  exact ⟨_, by rw [List.append_assoc]; rfl⟩

/-- A restart asks about the ids below the node found that are no nodes, and about that node. -/
theorem asked_restart (hs : Shows g A) {n : Nat} {V : List (Id m)} {st : Traversal m} (hi : SInv A V st)
    (hk : Kept A n st.undiscovered) (hm : n ≤ m + 1) (hw : st.work = []) {x : Id m} (hx : (A.node x).isSome)
    (hv : x ∉ V) (hle : ∀ y, (A.node y).isSome → y ∉ V → x ≤ y) :
    (asked g st).length = 1 + A.missing x.val := by
  have hxn : x.val < n := by rw [← hk.1]; exact hi.len x hx
  have hc : st.undiscovered.contains x.val = true := by
    rw [hi.bits x hx, hw, List.append_nil]; exact hv
  have low : (List.range x.val).filter (fun i => st.undiscovered.contains i) =
      (List.range x.val).filter (fun i => (A.node (Id.new i)).isNone) := by
    refine List.filter_congr (fun i hi' => ?_)
    have hlt := List.mem_range.1 hi'
    have hval : (Id.new i : Id m).val = i := Id_new_lt (by omega)
    cases hn : A.node (Id.new i) with
    | none => rw [hk.2 i (by omega) hn]; rfl
    | some l =>
      have h1 := hi.bits (Id.new i) (by rw [hn]; rfl)
      rw [hval, hw, List.append_nil] at h1
      have : Id.new i ∈ V := by
        by_contra hc
        have := hle _ (by rw [hn]; rfl) hc
        rw [Fin.le_def, hval] at this
        omega
      have : ¬ st.undiscovered.contains i = true := fun h => h1.1 h this
      simpa using this
  obtain ⟨t, ht⟩ := filter_range_split (p := fun i => st.undiscovered.contains i) hxn hc
  have ho : st.undiscovered.ones = (List.range x.val).filter (fun i => (A.node (Id.new i)).isNone) ++ x.val :: t := by
    unfold BitSet.ones
    rw [hk.1, ht, low]
  have hno : ∀ i ∈ (List.range x.val).filter (fun i => (A.node (Id.new i)).isNone), g.hasNode (Id.new i) = false := by
    intro i hi'
    rw [hs.hasNode]
    have := (List.mem_filter.1 hi').2
    cases h : A.node (Id.new i) with
    | none => rfl
    | some l => rw [h] at this; cases this
  have hyes : g.hasNode (Id.new x.val) = true := by rw [Id.new_val, hs.hasNode]; exact hx
  unfold asked
  rw [if_pos (by rw [hw]; rfl), ho, List.takeWhile_append_of_pos (fun i hi' => by rw [hno i hi']; rfl),
    List.takeWhile_cons_of_neg (by rw [hyes]; decide), List.append_nil, List.find?_append,
    List.find?_eq_none.2 (fun i hi' => by rw [hno i hi']; decide), Option.none_or, List.find?_cons_of_pos (by exact hyes)]
  unfold AGraph.missing
  rw [List.countP_eq_length_filter, List.length_append]
  simp only [Option.toList_some, List.length_singleton]
  omega

theorem takeWhile_all {X : Type} {p : X → Bool} : ∀ {l : List X}, (∀ x ∈ l, p x = true) → l.takeWhile p = l := by
  intro l
  induction l with
  | nil => intro _; rfl
  | cons a l ih =>
    intro h
    rw [List.takeWhile_cons_of_pos (h a (List.mem_cons_self ..)), ih (fun x hx => h x (List.mem_cons_of_mem _ hx))]

/-- The last call asks about all ids that are no nodes. -/
theorem asked_last (hs : Shows g A) {n : Nat} {V : List (Id m)} {st : Traversal m} (hi : SInv A V st)
    (hk : Kept A n st.undiscovered) (hm : n ≤ m + 1) (hw : st.work = []) (hall : ∀ y, (A.node y).isSome → y ∈ V) :
    (asked g st).length = A.missing n := by
  have low : st.undiscovered.ones = (List.range n).filter (fun i => (A.node (Id.new i)).isNone) := by
    unfold BitSet.ones
    rw [hk.1]
    refine List.filter_congr (fun i hi' => ?_)
    have hlt := List.mem_range.1 hi'
    have hval : (Id.new i : Id m).val = i := Id_new_lt (by omega)
    cases hn : A.node (Id.new i) with
    | none => rw [hk.2 i (by omega) hn]; rfl
    | some l =>
      have h1 := hi.bits (Id.new i) (by rw [hn]; rfl)
      rw [hval, hw, List.append_nil] at h1
      have : ¬ st.undiscovered.contains i = true := fun h => h1.1 h (hall _ (by rw [hn]; rfl))
      simpa using this
  have hno : ∀ i ∈ (List.range n).filter (fun i => (A.node (Id.new i)).isNone), g.hasNode (Id.new i) = false := by
    intro i hi'
    rw [hs.hasNode]
    have := (List.mem_filter.1 hi').2
    cases h : A.node (Id.new i) with
    | none => rfl
    | some l => rw [h] at this; cases this
  unfold asked
  rw [if_pos (by rw [hw]; rfl), low, takeWhile_all (fun i hi' => by rw [hno i hi']; rfl),
    List.find?_eq_none.2 (fun i hi' => by rw [hno i hi']; decide)]
  unfold AGraph.missing
  rw [List.countP_eq_length_filter]
  simp

/-- The nodes of `l` a search restarts at, `V` having been visited before. -/
def restarts (A : AGraph (Id m) NL EL) : List (Id m) → List (Id m) → List (Id m)
  | _, [] => []
  | V, x :: l => if V.any (fun u => (A.edge u x).isSome) then restarts A (V ++ [x]) l
      else x :: restarts A (V ++ [x]) l

theorem mem_restarts {l : List (Id m)} : ∀ {V : List (Id m)}, l.Nodup → ∀ x,
    (x ∈ restarts A V l ↔ x ∈ l ∧ (∀ u ∈ V, A.edge u x = none) ∧ ∀ u, [u, x].Sublist l → A.edge u x = none) := by
  induction l with
  | nil => intro V _ x; simp [restarts]
  | cons y l ih =>
    intro V hnd x
    obtain ⟨h1, h2⟩ := List.nodup_cons.1 hnd
    have ih := ih (V := V ++ [y]) h2 x
    have sub : ∀ u, [u, x].Sublist (y :: l) ↔ [u, x].Sublist l ∨ (u = y ∧ x ∈ l) := by
      intro u
      constructor
      · intro h
        cases h with
        | cons _ h => exact .inl h
        | cons_cons _ h => exact .inr ⟨rfl, List.singleton_sublist.1 h⟩
      · rintro (h | ⟨rfl, h⟩)
        · exact h.cons _
        · exact (List.singleton_sublist.2 h).cons_cons _
    have hany : V.any (fun u => (A.edge u y).isSome) = true ↔ ¬ ∀ u ∈ V, A.edge u y = none := by
      rw [List.any_eq_true]
      constructor
      · rintro ⟨u, hu, he⟩ hc
        rw [hc u hu] at he; cases he
      · intro hc
        by_contra hn
        refine hc (fun u hu => ?_)
        by_contra he
        exact hn ⟨u, hu, Option.isSome_iff_ne_none.2 he⟩
    have main : x ∈ restarts A (V ++ [y]) l ↔ x ∈ l ∧ (∀ u ∈ V, A.edge u x = none) ∧
        ∀ u, [u, x].Sublist (y :: l) → A.edge u x = none := by
      rw [ih]
      constructor
      · rintro ⟨a, b, c⟩
        refine ⟨a, fun u hu => b u (List.mem_append_left _ hu), fun u hu => ?_⟩
        rcases (sub u).1 hu with h | ⟨rfl, -⟩
        · exact c u h
        · exact b u (by simp)
      · rintro ⟨a, b, c⟩
        refine ⟨a, fun u hu => ?_, fun u hu => c u ((sub u).2 (.inl hu))⟩
        rcases List.mem_append.1 hu with h | h
        · exact b u h
        · rw [List.mem_singleton.1 h]; exact c y ((sub y).2 (.inr ⟨rfl, a⟩))
    unfold restarts
    by_cases hxy : x = y
    · subst hxy
      have hno : x ∉ restarts A (V ++ [x]) l := fun h => h1 (main.1 h).1
      have hs : ∀ u, ¬ [u, x].Sublist (x :: l) := by
        intro u hu
        rcases (sub u).1 hu with h | h
        · exact h1 (h.subset (by simp))
        · exact h1 h.2
      split
      · rename_i hc
        exact ⟨fun h => absurd h hno, fun h => absurd h.2.1 (hany.1 hc)⟩
      · rename_i hc
        have hc := not_not.1 (fun h => hc (hany.2 h))
        exact ⟨fun _ => ⟨List.mem_cons_self .., hc, fun u hu => absurd hu (hs u)⟩, fun _ => List.mem_cons_self ..⟩
    · have e : x ∈ y :: l ↔ x ∈ l := by rw [List.mem_cons]; exact or_iff_right hxy
      rw [e]
      split
      · exact main
      · rw [List.mem_cons, or_iff_right hxy]; exact main

theorem restarts_sublist (l : List (Id m)) : ∀ V : List (Id m), (restarts A V l).Sublist l := by
  induction l with
  | nil => intro V; exact List.Sublist.refl _
  | cons x l ih =>
    intro V
    unfold restarts
    split
    · exact (ih _).cons _
    · exact (ih _).cons_cons _

theorem Steps.snoc {next : Traversal m → Res (Option (Id m) × Traversal m)} {s s' s'' : Traversal m}
    {l : List (Id m)} {x : Id m} (h : Steps next s l s') (hn : next s' = .ok (some x, s'')) :
    Steps next s (l ++ [x]) s'' := by
  induction h with
  | nil s => exact .cons hn (.nil _)
  | cons h1 _ ih => exact .cons h1 (ih hn)

theorem Asks.steps {next : Traversal m → Res (Option (Id m) × Traversal m)} {s s' : Traversal m}
    {l : List (Id m)} {c : Nat} (h : Asks g next s l c s') : Steps next s l s' := by
  induction h with
  | nil s => exact .nil _
  | cons h1 _ ih => exact .cons h1 ih

theorem Steps.asks (g : GView m k NL EL) {next : Traversal m → Res (Option (Id m) × Traversal m)} {s s' : Traversal m}
    {l : List (Id m)} (h : Steps next s l s') : ∃ c, Asks g next s l c s' := by
  induction h with
  | nil s => exact ⟨_, .nil _⟩
  | cons h1 _ ih => obtain ⟨c, hc⟩ := ih; exact ⟨_, .cons h1 hc⟩

/-- What a search asks altogether, from any moment after the first node on. -/
theorem asks_count {pop : List (Id m) → Option (Id m × List (Id m))} (hp : Pops pop) (hs : Shows g A)
    {start : Option (Id m)} {s : Id m} (hn : (A.node s).isSome)
    (h : start = some s ∨ (start = none ∧ g.nodeIndices.head? = some s)) {st0 : Traversal m}
    (hnew : Traversal.new g start = .ok st0) {n : Nat} (hm : n ≤ m + 1)
    {st st' : Traversal m} {l : List (Id m)} {c : Nat} (ha : Asks g (nextWith pop g) st l c st') :
    ∀ V, V ≠ [] → Steps (nextWith pop g) st0 V st → Kept A n st.undiscovered →
      Kept A n st'.undiscovered ∧ c = ((restarts A V l).map (fun x => 1 + A.missing x.val)).sum := by
  induction ha with
  | nil s => intro V _ _ hk; exact ⟨hk, rfl⟩
  | @cons a b d x l c h1 h2 ih =>
    intro V hne hV hk
    obtain ⟨hi, hwait⟩ := moment hp hs hn h hnew hV
    obtain ⟨-, hnext⟩ := next_cases hp hs hi
    have hex : ∃ y, (A.node y).isSome ∧ y ∉ V := by
      by_contra hc
      have := (next_cases hp hs hi).1 (fun y hy => by by_contra hv; exact hc ⟨y, hy, hv⟩)
      rw [h1] at this
      cases this
    obtain ⟨x', b', e1, e2, e3, e4, e5⟩ := hnext hex
    rw [h1] at e1
    cases e1
    obtain ⟨k1, k2⟩ := ih (V ++ [x]) (by simp) (hV.snoc h1) (hk.next hs e3 h1)
    refine ⟨k1, ?_⟩
    unfold restarts
    by_cases hw : a.work = []
    · have hno : ¬ V.any (fun u => (A.edge u x).isSome) = true := by
        intro hc
        obtain ⟨u, hu, he⟩ := List.any_eq_true.1 hc
        have := (hwait x).2 ⟨e2, .inr ⟨u, hu, he⟩⟩
        rw [hw] at this
        cases this
      rw [if_neg hno, asked_restart hs hi hk hm hw e3 e2 (e5 hw), List.map_cons, List.sum_cons, k2]
    · have hyes : V.any (fun u => (A.edge u x).isSome) = true := by
        obtain ⟨-, h | ⟨u, hu, he⟩⟩ := (hwait x).1 (e4 hw)
        · exact absurd h.1 hne
        · exact List.any_eq_true.2 ⟨u, hu, he⟩
      have ha0 : asked g a = [] := by
        unfold asked
        rw [if_neg (fun h => hw (List.length_eq_zero_iff.1 h))]
      rw [if_pos hyes, ha0, k2, List.length_nil, Nat.zero_add]

end Verif.Traversal
