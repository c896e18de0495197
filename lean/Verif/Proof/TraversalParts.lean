import Verif.Proof.TraversalSpec
import Mathlib.Data.Fintype.Card

/-! Searches that go on from any work list and any bits. -/

namespace Verif

open Verif.Spec

variable {m k : Nat} {NL EL : Type}

namespace Traversal

/-- The loop over neighbours, whatever the state. -/
theorem discover_any : ∀ (l : List (Id m)) (st : Traversal m), l.Nodup →
    ∃ st', l.foldlM discover st = .ok st' ∧
      st'.work = st.work ++ l.filter (fun n => st.undiscovered.contains n.val) ∧
      st'.undiscovered.length = st.undiscovered.length ∧
      (∀ n : Id m, st'.undiscovered.contains n.val =
        (st.undiscovered.contains n.val && decide (n ∉ l))) ∧
      ∀ i, m < i → st'.undiscovered.contains i = st.undiscovered.contains i := by
  intro l
  induction l with
  | nil => intro st _; exact ⟨st, rfl, by simp, rfl, by simp, fun _ _ => rfl⟩
  | cons a l ih =>
    intro st hd
    obtain ⟨hd1, hd2⟩ := List.nodup_cons.1 hd
    rw [List.foldlM_cons]
    by_cases hc : st.undiscovered.contains a.val = true
    · have hlt : a.val < st.undiscovered.length := by
        have := BitSet.mem_ones.2 hc
        rw [BitSet.ones, List.mem_filter, List.mem_range] at this
        exact this.1
      have e : discover st a = .ok ⟨st.work ++ [a], st.undiscovered.set a.val false⟩ := by
        unfold discover
        rw [if_pos hc, BitSet.put_ok hlt]; rfl
      rw [e, bind_ok]
      obtain ⟨st', h1, h2, h3, h4, h5⟩ := ih ⟨st.work ++ [a], st.undiscovered.set a.val false⟩ hd2
      refine ⟨st', h1, ?_, by rw [h3]; exact List.length_set, ?_, ?_⟩
      · rw [h2, List.filter_cons, if_pos hc]
        show st.work ++ [a] ++ _ = _
        rw [List.append_assoc, List.singleton_append]
        congr 2
        apply List.filter_congr
        intro x hx
        show BitSet.contains (st.undiscovered.set a.val false) x.val = _
        rw [BitSet.contains_set hlt, if_neg]
        intro e
        exact hd1 ((Fin.ext e : a = x) ▸ hx)
      · intro n
        rw [h4]
        show (BitSet.contains (st.undiscovered.set a.val false) n.val && _) = _
        rw [BitSet.contains_set hlt]
        by_cases e : a = n
        · subst e; simp
        · rw [if_neg (fun h => e (Fin.ext h))]
          have : n ≠ a := fun h => e h.symm
          simp [this]
      · intro i hi
        rw [h5 i hi]
        show BitSet.contains (st.undiscovered.set a.val false) i = _
        rw [BitSet.contains_set hlt, if_neg]
        have := a.isLt
        omega
    · have e : discover st a = .ok st := by unfold discover; rw [if_neg hc]; rfl
      rw [e, bind_ok]
      obtain ⟨st', h1, h2, h3, h4, h5⟩ := ih st hd2
      refine ⟨st', h1, ?_, h3, ?_, h5⟩
      · rw [h2, List.filter_cons, if_neg hc]
      · intro n
        rw [h4]
        by_cases e : n = a
        · subst e; simp [hc]
        · simp [e]

variable {g : GView m k NL EL} {A : AGraph (Id m) NL EL}

/-- The nodes that are still to be discovered. -/
def todo (A : AGraph (Id m) NL EL) (b : BitSet) : Finset (Id m) :=
  Finset.univ.filter (fun n => b.contains n.val = true ∧ (A.node n).isSome = true)

/-- A set bit that stands for no id of its own but is taken for a node. -/
def Wraps (A : AGraph (Id m) NL EL) (b : BitSet) : Prop :=
  ∃ i, m < i ∧ b.contains i = true ∧ (A.node (Id.new i)).isSome = true

/-- One call with an entry that is a node. -/
theorem next_any {pop : List (Id m) → Option (Id m × List (Id m))} (hs : Shows g A)
    {st : Traversal m} (hne : st.work ≠ []) {x : Id m} {rest : List (Id m)}
    (hpop : pop st.work = some (x, rest)) (hx : (A.node x).isSome = true) :
    ∃ (news : List (Id m)) (st' : Traversal m), nextWith pop g st = .ok (some x, st') ∧
      st'.work = rest ++ news ∧ news.Nodup ∧
      (∀ n, n ∈ news ↔ (A.edge x n).isSome = true ∧ st.undiscovered.contains n.val = true) ∧
      (∀ n : Id m, st'.undiscovered.contains n.val =
        (st.undiscovered.contains n.val && decide (n ∉ news))) ∧
      ∀ i, m < i → st'.undiscovered.contains i = st.undiscovered.contains i := by
  obtain ⟨l, hl, hlt, hmem, -⟩ := hs.neighbors x hx
  have hnd : l.Nodup := hlt.imp (fun h => ne_of_lt h)
  obtain ⟨st', h1, h2, h3, h4, h5⟩ := discover_any l ⟨rest, st.undiscovered⟩ hnd
  refine ⟨l.filter (fun n => st.undiscovered.contains n.val), st', ?_, h2, hnd.filter _, ?_, ?_, h5⟩
  · unfold nextWith
    have hr : st.refill g = .ok st := by
      unfold refill
      rw [if_neg (by simpa using hne)]; rfl
    rw [hr, bind_ok]
    simp only [hpop]
    unfold expand
    rw [hl, bind_ok, h1, bind_ok]; rfl
  · intro n
    rw [List.mem_filter, hmem]
  · intro n
    rw [h4]
    show (st.undiscovered.contains n.val && decide (n ∉ l)) = _
    by_cases hb : st.undiscovered.contains n.val = true
    · simp [hb]
    · simp [hb]

/-- One call with an entry that is no node. -/
theorem next_absent {pop : List (Id m) → Option (Id m × List (Id m))}
    {st : Traversal m} (hne : st.work ≠ []) {x : Id m} {rest : List (Id m)}
    (hpop : pop st.work = some (x, rest)) {p : Panic} (hx : g.neighbors x = .error p) :
    nextWith pop g st = .error p := by
  unfold nextWith
  have hr : st.refill g = .ok st := by
    unfold refill
    rw [if_neg (by simpa using hne)]; rfl
  rw [hr, bind_ok]
  simp only [hpop]
  unfold expand
  rw [hx]; rfl

theorem todo_remove {b b' : BitSet} {news : List (Id m)} (hnd : news.Nodup)
    (hn : ∀ n ∈ news, b.contains n.val = true ∧ (A.node n).isSome = true)
    (hb : ∀ n : Id m, b'.contains n.val = (b.contains n.val && decide (n ∉ news))) :
    (todo A b').card + news.length = (todo A b).card := by
  have h1 : todo A b' = todo A b \ news.toFinset := by
    ext n
    simp only [todo, Finset.mem_filter, Finset.mem_univ, true_and, Finset.mem_sdiff, List.mem_toFinset, hb,
      Bool.and_eq_true, decide_eq_true_eq]
    tauto
  have h2 : news.toFinset ⊆ todo A b := by
    intro n h
    rw [List.mem_toFinset] at h
    simp only [todo, Finset.mem_filter, Finset.mem_univ, true_and]
    exact hn n h
  rw [h1, ← List.toFinset_card_of_nodup hnd, Finset.card_sdiff_add_card_eq_card h2]

theorem refill_any (hs : Shows g A) {st : Traversal m} (hw : st.work = []) (hW : ¬ Wraps A st.undiscovered) :
    ((todo A st.undiscovered = ∅ ∧ st.refill g = .ok st) ∨
      ∃ (n : Id m) (b : BitSet), n ∈ todo A st.undiscovered ∧ st.refill g = .ok ⟨[n], b⟩ ∧
        b = st.undiscovered.set n.val false ∧ n.val < st.undiscovered.length) := by
  unfold refill
  rw [if_pos (by simp [hw])]
  unfold nextUnvisited
  cases hf : st.undiscovered.ones.find? (fun i => g.hasNode (Id.new i)) with
  | none =>
    left
    refine ⟨?_, rfl⟩
    ext n
    simp only [todo, Finset.mem_filter, Finset.mem_univ, true_and, Finset.notMem_empty, iff_false, not_and]
    intro h1 h2
    rw [List.find?_eq_none] at hf
    refine hf n.val (BitSet.mem_ones.2 h1) ?_
    rw [hs.hasNode]
    have : (Id.new n.val : Id m) = n := by
      apply Fin.ext; simp [Id.new, Nat.mod_eq_of_lt n.isLt]
    rw [this]; exact h2
  | some i =>
    right
    have hm := List.mem_of_find?_eq_some hf
    have hp := List.find?_some hf
    have hi := BitSet.mem_ones.1 hm
    have hlt : i < st.undiscovered.length := by
      rw [BitSet.ones, List.mem_filter, List.mem_range] at hm
      exact hm.1
    rw [hs.hasNode] at hp
    have him : i ≤ m := by
      by_contra h
      exact hW ⟨i, by omega, hi, hp⟩
    have hv : (Id.new i : Id m).val = i := by
      simp [Id.new, Nat.mod_eq_of_lt (show i < m + 1 by omega)]
    refine ⟨Id.new i, _, ?_, ?_, rfl, by rw [hv]; exact hlt⟩
    · simp only [todo, Finset.mem_filter, Finset.mem_univ, true_and]
      rw [hv]; exact ⟨hi, hp⟩
    · simp only [Option.map_some]
      rw [BitSet.put_ok (by rw [hv]; exact hlt), bind_ok, hw]; rfl

/-- What a search yields, each entry as often as it waits and each node to discover once more. -/
theorem drain_any {pop : List (Id m) → Option (Id m × List (Id m))} (hp : Pops pop) (hs : Shows g A) :
    ∀ (N : Nat) (st : Traversal m), st.work.length + (todo A st.undiscovered).card = N →
      (∀ n ∈ st.work, (A.node n).isSome = true) → ¬ Wraps A st.undiscovered →
      ∃ (l : List (Id m)) (st' : Traversal m), drain (nextWith pop g) (N + 1) st = .ok (l, st') ∧
        (∀ n, l.count n = st.work.count n + if n ∈ todo A st.undiscovered then 1 else 0) ∧
        st'.work = [] ∧ todo A st'.undiscovered = ∅ := by
  intro N
  induction N with
  | zero =>
    intro st hN hw hW
    have h1 : st.work = [] := List.eq_nil_of_length_eq_zero (by omega)
    have h2 : todo A st.undiscovered = ∅ := Finset.card_eq_zero.1 (by omega)
    rcases refill_any hs h1 hW with ⟨-, hr⟩ | ⟨n, b, hn, -⟩
    · refine ⟨[], st, ?_, by simp [h1, h2], h1, h2⟩
      show (nextWith pop g st >>= _) = _
      unfold nextWith
      rw [hr, bind_ok, h1, hp.nil]; rfl
    · rw [h2] at hn; exact absurd hn (Finset.notMem_empty n)
  | succ N ih =>
    -- with an entry waiting
    have key : ∀ (st : Traversal m), st.work ≠ [] → st.work.length + (todo A st.undiscovered).card = N + 1 →
        (∀ n ∈ st.work, (A.node n).isSome = true) → ¬ Wraps A st.undiscovered →
        ∃ (x : Id m) (st1 : Traversal m) (l : List (Id m)) (st' : Traversal m),
          nextWith pop g st = .ok (some x, st1) ∧ drain (nextWith pop g) (N + 1) st1 = .ok (l, st') ∧
          (∀ n, (x :: l).count n = st.work.count n + if n ∈ todo A st.undiscovered then 1 else 0) ∧
          st'.work = [] ∧ todo A st'.undiscovered = ∅ := by
      intro st hne hN hw hW
      obtain ⟨x, rest, hpop, hperm⟩ := hp.cons st.work hne
      obtain ⟨news, st1, h1, h2, h3, h4, h5, h6⟩ :=
        next_any hs hne hpop (hw x (hperm.mem_iff.2 (List.mem_cons_self ..)))
      have hnews : ∀ n ∈ news, st.undiscovered.contains n.val = true ∧ (A.node n).isSome = true :=
        fun n hn => ⟨((h4 n).1 hn).2, (hs.ends _ _ ((h4 n).1 hn).1).2⟩
      have hcard := todo_remove h3 hnews h5
      have hlen : st.work.length = rest.length + 1 := by rw [hperm.length_eq]; rfl
      obtain ⟨l, st', hl, hc, he1, he2⟩ := ih st1
        (by rw [h2, List.length_append]; omega)
        (by
          intro n hn
          rw [h2, List.mem_append] at hn
          rcases hn with hn | hn
          · exact hw n (hperm.mem_iff.2 (List.mem_cons_of_mem _ hn))
          · exact (hnews n hn).2)
        (by
          rintro ⟨i, hi, hb, hn⟩
          exact hW ⟨i, hi, by rw [← h6 i hi]; exact hb, hn⟩)
      refine ⟨x, st1, l, st', h1, hl, ?_, he1, he2⟩
      intro n
      have hmem : n ∈ todo A st1.undiscovered ↔ n ∈ todo A st.undiscovered ∧ n ∉ news := by
        simp only [todo, Finset.mem_filter, Finset.mem_univ, true_and, h5, Bool.and_eq_true,
          decide_eq_true_eq]
        tauto
      have hcn : news.count n = if n ∈ news then 1 else 0 := by
        split
        · next h => exact List.count_eq_one_of_mem h3 h
        · next h => exact List.count_eq_zero_of_not_mem h
      have hsub : n ∈ news → n ∈ todo A st.undiscovered := fun h => by
        simp only [todo, Finset.mem_filter, Finset.mem_univ, true_and]
        exact hnews n h
      rw [List.count_cons, hc, h2, List.count_append, hperm.count_eq, List.count_cons, hcn]
      by_cases a1 : n ∈ news
      · have a2 := hsub a1
        simp [a1, a2, hmem]; omega
      · simp [a1, hmem]; omega
    intro st hN hw hW
    by_cases hne : st.work = []
    · rcases refill_any hs hne hW with ⟨h2, -⟩ | ⟨n, b, hn, hr, hb, hlt⟩
      · rw [hne, h2] at hN; simp at hN
      · have hcont : ∀ i, b.contains i = if n.val = i then false else st.undiscovered.contains i := by
          intro i; rw [hb, BitSet.contains_set hlt]
        have hmem : ∀ x, x ∈ todo A b ↔ x ∈ todo A st.undiscovered ∧ x ≠ n := by
          intro x
          simp only [todo, Finset.mem_filter, Finset.mem_univ, true_and, hcont]
          by_cases e : n = x
          · subst e; simp
          · have : n.val ≠ x.val := fun h => e (Fin.ext h)
            simp [this, Ne.symm e]
        have hcard : (todo A b).card + 1 = (todo A st.undiscovered).card := by
          have : todo A b = (todo A st.undiscovered).erase n := by
            ext x; rw [hmem, Finset.mem_erase, and_comm]
          rw [this, Finset.card_erase_add_one hn]
        have hnode : (A.node n).isSome = true := by
          simp only [todo, Finset.mem_filter] at hn; exact hn.2.2
        obtain ⟨x, st1, l, st', h1, h2, h3, h4, h5⟩ := key ⟨[n], b⟩ (by simp)
          (by rw [hne] at hN; simp at hN ⊢; omega) (by simpa using hnode)
          (by
            rintro ⟨i, hi, hc, hx⟩
            refine hW ⟨i, hi, ?_, hx⟩
            simp only [hcont] at hc
            split at hc
            · cases hc
            · exact hc)
        refine ⟨x :: l, st', ?_, ?_, h4, h5⟩
        · show (nextWith pop g st >>= _) = _
          have : nextWith pop g st = nextWith pop g ⟨[n], b⟩ := by
            unfold nextWith
            rw [hr, bind_ok]
            have : refill g (⟨[n], b⟩ : Traversal m) = .ok ⟨[n], b⟩ := by
              unfold refill; rw [if_neg (by simp)]; rfl
            rw [this, bind_ok]
          rw [this, h1, bind_ok]
          show (drain (nextWith pop g) (N + 1) st1 >>= _) = _
          rw [h2, bind_ok]; rfl
        · intro y
          rw [h3, hne]
          by_cases e : y = n
          · subst e
            simp [hmem, hn]
          · have e' : n ≠ y := fun h => e h.symm
            simp [hmem, e, e']
    · obtain ⟨x, st1, l, st', h1, h2, h3, h4, h5⟩ := key st hne hN hw hW
      refine ⟨x :: l, st', ?_, h3, h4, h5⟩
      show (nextWith pop g st >>= _) = _
      rw [h1, bind_ok]
      show (drain (nextWith pop g) (N + 1) st1 >>= _) = _
      rw [h2, bind_ok]; rfl

/-- An entry that is no node is reached in the end. -/
theorem drain_absent {pop : List (Id m) → Option (Id m × List (Id m))} (hp : Pops pop) (hs : Shows g A)
    (habs : ∀ n, (A.node n).isSome = false → ∃ p, g.neighbors n = .error p) :
    ∀ (N : Nat) (st : Traversal m), st.work.length + (todo A st.undiscovered).card = N →
      (∃ n ∈ st.work, (A.node n).isSome = false) → ∀ f, N ≤ f →
      ∃ n ∈ st.work, (A.node n).isSome = false ∧
        ∃ p, g.neighbors n = .error p ∧ drain (nextWith pop g) f st = .error p := by
  intro N
  induction N with
  | zero =>
    rintro st hN ⟨n, hn, -⟩
    have h1 : st.work = [] := List.eq_nil_of_length_eq_zero (by omega)
    rw [h1] at hn; cases hn
  | succ N ih =>
    rintro st hN ⟨n0, hn0, hab⟩ f hf
    obtain ⟨f, rfl⟩ : ∃ f', f = f' + 1 := ⟨f - 1, by omega⟩
    have hne : st.work ≠ [] := List.ne_nil_of_mem hn0
    obtain ⟨x, rest, hpop, hperm⟩ := hp.cons st.work hne
    by_cases hx : (A.node x).isSome = true
    · obtain ⟨news, st1, h1, h2, h3, h4, h5, h6⟩ := next_any hs hne hpop hx
      have hnews : ∀ n ∈ news, st.undiscovered.contains n.val = true ∧ (A.node n).isSome = true :=
        fun n hn => ⟨((h4 n).1 hn).2, (hs.ends _ _ ((h4 n).1 hn).1).2⟩
      have hcard := todo_remove h3 hnews h5
      have hlen : st.work.length = rest.length + 1 := by rw [hperm.length_eq]; rfl
      have hrest : n0 ∈ rest := by
        rcases List.mem_cons.1 (hperm.mem_iff.1 hn0) with e | h
        · subst e; rw [hx] at hab; cases hab
        · exact h
      obtain ⟨n, hn, ha, p, hq, hd⟩ := ih st1 (by rw [h2, List.length_append]; omega)
        ⟨n0, by rw [h2]; exact List.mem_append_left _ hrest, hab⟩ f (by omega)
      refine ⟨n, ?_, ha, p, hq, ?_⟩
      · rw [h2, List.mem_append] at hn
        rcases hn with hn | hn
        · exact hperm.mem_iff.2 (List.mem_cons_of_mem _ hn)
        · rw [(hnews n hn).2] at ha; cases ha
      · show (nextWith pop g st >>= _) = _
        rw [h1, bind_ok]
        show (drain (nextWith pop g) f st1 >>= _) = _
        rw [hd]; rfl
    · have hx' : (A.node x).isSome = false := by simpa using hx
      obtain ⟨p, hq⟩ := habs x hx'
      refine ⟨x, hperm.mem_iff.2 (List.mem_cons_self ..), hx', p, hq, ?_⟩
      show (nextWith pop g st >>= _) = _
      rw [next_absent hne hpop hq]; rfl

/-- A bit that is taken for another node is never cleared. -/
theorem drain_wraps {pop : List (Id m) → Option (Id m × List (Id m))} (hp : Pops pop) (hs : Shows g A) :
    ∀ (f : Nat) (st : Traversal m), (∀ n ∈ st.work, (A.node n).isSome = true) →
      (∀ i ≤ m, i < st.undiscovered.length) →
      Wraps A st.undiscovered → drain (nextWith pop g) f st = .error .diverge := by
  intro f
  induction f with
  | zero => intro st _ _ _; rfl
  | succ f ih =>
    have key : ∀ st : Traversal m, st.work ≠ [] → (∀ n ∈ st.work, (A.node n).isSome = true) →
        (∀ i ≤ m, i < st.undiscovered.length) →
        Wraps A st.undiscovered → ∃ x st1, nextWith pop g st = .ok (some x, st1) ∧
          drain (nextWith pop g) f st1 = .error .diverge := by
      intro st hne hw hlen hW
      obtain ⟨x, rest, hpop, hperm⟩ := hp.cons st.work hne
      obtain ⟨news, st1, h1, h2, h3, h4, h5, h6⟩ :=
        next_any hs hne hpop (hw x (hperm.mem_iff.2 (List.mem_cons_self ..)))
      have hl := nextWith_length h1
      refine ⟨x, st1, h1, ih st1 ?_ (by rw [hl]; exact hlen) ?_⟩
      · intro n hn
        rw [h2, List.mem_append] at hn
        rcases hn with hn | hn
        · exact hw n (hperm.mem_iff.2 (List.mem_cons_of_mem _ hn))
        · exact (hs.ends _ _ ((h4 n).1 hn).1).2
      · obtain ⟨i, hi, hb, hn⟩ := hW
        exact ⟨i, hi, by rw [h6 i hi]; exact hb, hn⟩
    intro st hw hlen hW
    by_cases hne : st.work = []
    · obtain ⟨i0, hi0, hb0, hn0⟩ := hW
      obtain ⟨i, hf⟩ : ∃ i, st.undiscovered.ones.find? (fun i => g.hasNode (Id.new i)) = some i := by
        cases hf : st.undiscovered.ones.find? (fun i => g.hasNode (Id.new i)) with
        | none =>
          rw [List.find?_eq_none] at hf
          refine absurd ?_ (hf i0 (BitSet.mem_ones.2 hb0))
          rw [hs.hasNode]; exact hn0
        | some i => exact ⟨i, rfl⟩
      have hpi := List.find?_some hf
      rw [hs.hasNode] at hpi
      have hlt : (Id.new i : Id m).val < st.undiscovered.length := hlen _ (Nat.le_of_lt_succ (Id.new i).isLt)
      have hr : st.refill g = .ok ⟨[Id.new i], st.undiscovered.set (Id.new i : Id m).val false⟩ := by
        unfold refill
        rw [if_pos (by simp [hne])]
        unfold nextUnvisited
        rw [hf]
        simp only [Option.map_some]
        rw [BitSet.put_ok hlt, bind_ok, hne]; rfl
      obtain ⟨x, st1, h1, h2⟩ := key ⟨[Id.new i], st.undiscovered.set (Id.new i : Id m).val false⟩ (by simp)
        (by simpa using hpi) (by intro j hj; rw [List.length_set]; exact hlen j hj)
        ⟨i0, hi0, by
          show BitSet.contains (st.undiscovered.set _ false) i0 = true
          rw [BitSet.contains_set hlt, if_neg (by have := (Id.new i : Id m).isLt; omega)]
          exact hb0, hn0⟩
      show (nextWith pop g st >>= _) = _
      have : nextWith pop g st =
          nextWith pop g ⟨[Id.new i], st.undiscovered.set (Id.new i : Id m).val false⟩ := by
        unfold nextWith
        rw [hr, bind_ok]
        have : refill g (⟨[Id.new i], st.undiscovered.set (Id.new i : Id m).val false⟩ : Traversal m) =
            .ok ⟨[Id.new i], st.undiscovered.set (Id.new i : Id m).val false⟩ := by
          unfold refill; rw [if_neg (by simp)]; rfl
        rw [this, bind_ok]
      rw [this, h1, bind_ok]
      show (drain (nextWith pop g) f st1 >>= _) = _
      rw [h2]; rfl
    · obtain ⟨x, st1, h1, h2⟩ := key st hne hw hlen hW
      show (nextWith pop g st >>= _) = _
      rw [h1, bind_ok]
      show (drain (nextWith pop g) f st1 >>= _) = _
      rw [h2]; rfl

end Traversal

end Verif
