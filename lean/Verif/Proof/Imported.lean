import Verif.Proof.CaughtSearch
import Verif.Proof.FrozenSearch
import Verif.Spec.Sound

/-! Searches of graphs whose records need not fit together: they see the ids up to the recorded maximum. -/

set_option linter.unusedSectionVars false

namespace Verif

open Spec Traversal

variable {m k : Nat} {NL EL : Type}

namespace GraphMap

/-- What a search sees of a record. -/
def trimNode (M : Id m) (n : Id m) (nd : NodeMap m k) : NodeMap m k :=
  ⟨n, none, nd.neighbors.filter (fun p => decide (p.1 ≤ M)), []⟩

/-- What a search sees of a graph with recorded maximum `M`. -/
def trim (g : GraphMap m k NL EL) (M : Id m) : GraphMap m k NL EL :=
  ⟨true, (g.nodeMap.filter (fun p => decide (p.1 ≤ M))).map (fun p => (p.1, trimNode M p.1 p.2)), 0, ⟨[]⟩, ⟨[]⟩,
    some M⟩

theorem get_filter {V : Type} (M : Id m) : ∀ (l : List (Id m × V)) (n : Id m),
    AL.get (l.filter (fun p => decide (p.1 ≤ M))) n = if n ≤ M then AL.get l n else none := by
  intro l n
  induction l with
  | nil => simp [AL.get]
  | cons p l ih =>
    obtain ⟨a, v⟩ := p
    rw [List.filter_cons]
    by_cases ha : a ≤ M
    · rw [if_pos (by simpa using ha)]
      simp only [AL.get]
      rw [ih]
      by_cases e : a = n
      · subst e; simp [ha]
      · simp [e]
    · rw [if_neg (by simpa using ha), ih]
      simp only [AL.get]
      by_cases e : a = n
      · subst e; simp [ha]
      · simp [e]

theorem getNode_trim (g : GraphMap m k NL EL) (M n : Id m) :
    (g.trim M).getNode n = if n ≤ M then (g.getNode n).map (trimNode M n) else none := by
  unfold getNode trim
  simp only
  rw [AL.get_map_val, get_filter]
  split <;> rfl

theorem hasNode_trim (g : GraphMap m k NL EL) (M n : Id m) :
    (g.trim M).hasNode n = (g.hasNode n && decide (n ≤ M)) := by
  have h := getNode_trim g M n
  unfold getNode at h
  unfold hasNode
  rw [h]
  by_cases e : n ≤ M <;> simp [e]

theorem outE_trim (g : GraphMap m k NL EL) (M a b : Id m) :
    (g.trim M).outE a b = if a ≤ M ∧ b ≤ M then g.outE a b else none := by
  unfold outE
  rw [getNode_trim]
  by_cases e : a ≤ M
  · rw [if_pos e]
    cases g.getNode a with
    | none => simp
    | some nd =>
      simp only [Option.map_some, Option.bind_some, trimNode, e, true_and]
      exact get_filter M nd.neighbors b
  · simp [e]

theorem trim_cinv {g : GraphMap m k NL EL} (hp : Proper g) (M : Id m) : (g.trim M).CInv := by
  have hmem : ∀ n nd, g.getNode n = some nd → (n, nd) ∈ g.nodeMap := fun n nd h => AL.get_mem h
  refine ⟨⟨?_, ?_, ?_, ?_⟩, ?_, List.nodup_nil, List.nodup_nil, ?_⟩
  · have h : AL.keys (g.trim M).nodeMap = (AL.keys g.nodeMap).filter (fun x => decide (x ≤ M)) := by
      unfold AL.keys trim
      simp only [List.map_map, List.filter_map]
      rfl
    rw [h]
    exact hp.keys.filter _
  · intro n nd h
    rw [getNode_trim] at h
    split at h
    · obtain ⟨nd', -, rfl⟩ := Option.map_eq_some_iff.1 h; rfl
    · cases h
  · intro n nd h
    rw [getNode_trim] at h
    split at h
    · obtain ⟨nd', h', rfl⟩ := Option.map_eq_some_iff.1 h
      have := hp.neighbors _ (hmem n nd' h')
      have e : AL.keys (trimNode M n nd').neighbors =
          (nd'.neighbors.map Prod.fst).filter (fun x => decide (x ≤ M)) := by
        unfold AL.keys trimNode
        simp only [List.filter_map]
        rfl
      rw [e]
      exact this.filter _
    · cases h
  · intro n nd h
    rw [getNode_trim] at h
    split at h
    · obtain ⟨nd', h', rfl⟩ := Option.map_eq_some_iff.1 h
      exact List.Pairwise.nil
    · cases h
  · intro h; cases h
  · intro n h
    rw [hasNode_trim, Bool.and_eq_true, decide_eq_true_eq] at h
    exact ⟨M, rfl, h.2⟩

theorem trim_targets (g : GraphMap m k NL EL) (M : Id m) : (g.trim M).TargetsBound := by
  intro s t h
  rw [outE_trim] at h
  split at h
  · rename_i e; exact ⟨M, rfl, e.2⟩
  · cases h

end GraphMap

namespace Traversal

/-- The state knows no id above `M`. -/
def Within (M : Id m) (st : Traversal m) : Prop :=
  st.undiscovered.length = M.val + 1 ∧ ∀ x ∈ st.work, x ≤ M

theorem contains_lt {b : BitSet} {i : Nat} (h : b.contains i = true) : i < b.length := by
  by_contra hn
  unfold BitSet.contains at h
  rw [List.getD_eq_getElem?_getD, List.getElem?_eq_none (by omega)] at h
  cases h

theorem within_discover {M : Id m} : ∀ (l : List (Id m)) {st st' : Traversal m}, Within M st →
    l.foldlM discover st = .ok st' → Within M st'
  | [], st, st', h, e => by obtain rfl := Except.ok.inj e; exact h
  | a :: l, st, st', h, e => by
    rw [List.foldlM_cons] at e
    obtain ⟨s1, e1, e2⟩ := bind_eq_ok e
    refine within_discover l (st := s1) ⟨(discover_length e1).trans h.1, ?_⟩ e2
    unfold discover at e1
    split at e1
    · rename_i hc
      obtain ⟨b, e3, e4⟩ := bind_eq_ok e1
      obtain rfl := Except.ok.inj e4
      intro x hx
      rcases List.mem_append.1 hx with hx | hx
      · exact h.2 x hx
      · rw [List.mem_singleton] at hx
        subst hx
        have := contains_lt hc
        have hl := h.1
        rw [Fin.le_def]; omega
    · obtain rfl := Except.ok.inj e1; exact h.2

variable {g : GraphMap m k NL EL}

theorem refill_trim {M : Id m} {st : Traversal m} (h : Within M st) :
    st.refill (g.trim M).view = st.refill g.view := by
  unfold refill nextUnvisited
  have : st.undiscovered.ones.find? (fun i => (g.trim M).view.hasNode (Id.new i)) =
      st.undiscovered.ones.find? (fun i => g.view.hasNode (Id.new i)) := by
    have key : ∀ l : List Nat, (∀ i ∈ l, i < M.val + 1) →
        l.find? (fun i => (g.trim M).view.hasNode (Id.new i)) = l.find? (fun i => g.view.hasNode (Id.new i)) := by
      intro l
      induction l with
      | nil => intro _; rfl
      | cons a l ih =>
        intro hl
        have ha := hl a (List.mem_cons_self ..)
        have e : (g.trim M).view.hasNode (Id.new a) = g.view.hasNode (Id.new a) := by
          show (g.trim M).hasNode (Id.new a) = g.hasNode (Id.new a)
          rw [GraphMap.hasNode_trim]
          have : (Id.new a : Id m) ≤ M := by
            rw [Fin.le_def]
            have hM := M.isLt
            have : (Id.new a : Id m).val = a := Nat.mod_eq_of_lt (by omega)
            omega
          simp [this]
        rw [List.find?_cons, List.find?_cons, e, ih (fun i hi => hl i (List.mem_cons_of_mem _ hi))]
    refine key _ fun i hi => ?_
    rw [BitSet.ones, List.mem_filter, List.mem_range] at hi
    rw [← h.1]; exact hi.1
  rw [this]

theorem within_refill {M : Id m} {st st' : Traversal m} (h : Within M st) {v : GView m k NL EL}
    (e : st.refill v = .ok st') : Within M st' := by
  refine ⟨(refill_length e).trans h.1, ?_⟩
  unfold refill at e
  split at e
  · split at e
    · rename_i n hn
      obtain ⟨b, e1, e2⟩ := bind_eq_ok e
      obtain rfl := Except.ok.inj e2
      intro x hx
      rcases List.mem_append.1 hx with hx | hx
      · exact h.2 x hx
      · rw [List.mem_singleton] at hx
        subst hx
        unfold BitSet.put at e1
        split at e1
        · rename_i hlt; rw [Fin.le_def]; have := h.1; omega
        · cases e1
    · obtain rfl := Except.ok.inj e; exact h.2
  · obtain rfl := Except.ok.inj e; exact h.2

theorem expand_trim {M : Id m} {n : Id m} (hn : n ≤ M) {st : Traversal m} (h : Within M st) :
    expand (g.trim M).view n st = expand g.view n st := by
  unfold expand
  show (do let l ← (g.trim M).neighbors n; l.foldlM discover st) = (do let l ← g.neighbors n; l.foldlM discover st)
  unfold GraphMap.neighbors
  rw [GraphMap.getNode_trim, if_pos hn]
  cases g.getNode n with
  | none => rfl
  | some nd =>
    simp only [Option.map_some, pure_ok, bind_ok]
    rw [discover_low (c := M.val + 1) (l := nd.neighborIds) h.1]
    congr 1
    unfold NodeMap.neighborIds GraphMap.trimNode AL.keys
    simp only [List.filter_map]
    congr 1
    refine List.filter_congr fun p _ => ?_
    simp only [Function.comp, Fin.le_def, Nat.lt_succ_iff]

theorem nextWith_trim {M : Id m} {pop : List (Id m) → Option (Id m × List (Id m))} (hp : Pops pop)
    {st : Traversal m} (h : Within M st) :
    nextWith pop (g.trim M).view st = nextWith pop g.view st ∧
      ∀ o st', nextWith pop g.view st = .ok (o, st') → Within M st' := by
  unfold nextWith
  rw [refill_trim h]
  cases hr : st.refill g.view with
  | error p => exact ⟨rfl, fun o st' e => by cases e⟩
  | ok s1 =>
    have h1 := within_refill h hr
    rw [bind_ok, bind_ok]
    by_cases hne : s1.work = []
    · rw [hne, hp.nil]
      refine ⟨rfl, fun o st' e => ?_⟩
      cases e; exact h1
    · obtain ⟨x, rest, e1, e2⟩ := hp.cons s1.work hne
      rw [e1]
      simp only
      have hx : x ≤ M := h1.2 x (e2.mem_iff.2 (List.mem_cons_self ..))
      have hw : Within M (⟨rest, s1.undiscovered⟩ : Traversal m) :=
        ⟨h1.1, fun y hy => h1.2 y (e2.mem_iff.2 (List.mem_cons_of_mem _ hy))⟩
      rw [expand_trim hx hw]
      refine ⟨rfl, fun o st' e => ?_⟩
      obtain ⟨s2, e3, e4⟩ := bind_eq_ok e
      cases e4
      unfold expand at e3
      obtain ⟨l, -, e5⟩ := bind_eq_ok e3
      exact within_discover l hw e5

theorem drain_trim {M : Id m} {pop : List (Id m) → Option (Id m × List (Id m))} (hp : Pops pop) :
    ∀ (fuel : Nat) {st : Traversal m}, Within M st →
      drain (nextWith pop (g.trim M).view) fuel st = drain (nextWith pop g.view) fuel st
  | 0, _, _ => rfl
  | fuel + 1, st, h => by
    unfold drain
    obtain ⟨h1, h2⟩ := nextWith_trim (g := g) hp h
    rw [h1]
    cases hn : nextWith pop g.view st with
    | error p => rfl
    | ok q =>
      obtain ⟨o, s1⟩ := q
      cases o with
      | none => rfl
      | some x =>
        rw [bind_ok, bind_ok]
        simp only
        rw [drain_trim hp fuel (h2 _ _ hn)]

end Traversal

end Verif
