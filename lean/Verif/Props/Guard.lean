import Verif.Model.Guard
import Verif.Props.ConnComp

/-! Property theorems about `get_parent` and the guard of `parent()`: C37, C116. -/

namespace Verif.Props

open Verif.Spec ConnComp

variable {m : Nat}

/-- **C37** `get_parent` knows exactly the nodes that occurred in an edge; the parent is a node of the same
component, and a node is its own parent exactly if it is the root that `get_root` gives. -/
theorem c37_parent {E : List (Id m × Id m)} {c : ConnComp m} (H : History E c) (n : Id m) :
    ((c.getParent n).isSome ↔ Occurs E n) ∧ (∀ p, c.getParent n = some p → Occurs E p ∧ Linked E n p) ∧
    (c.getParent n = some n ↔ ∃ c', c.getRoot n = .ok (c', some n)) := by
  obtain ⟨rep, I⟩ := history_inv H
  obtain ⟨h, F⟩ := I.forest
  refine ⟨I.keys n, fun p hp => ?_, ?_⟩
  · obtain ⟨h1, h2, -⟩ := F.up n p hp
    exact ⟨(I.keys p).1 h1, (I.linked n p).1 h2.symm⟩
  · by_cases ho : Occurs E n
    · obtain ⟨c', h1, -⟩ := getRoot_ok I ho
      rw [h1]
      refine (F.root_iff ((I.keys n).2 ho)).trans ⟨fun e => ⟨c', by rw [e]⟩, ?_⟩
      rintro ⟨d, hd⟩
      exact Option.some.inj (congrArg Prod.snd (Except.ok.inj hd))
    · rw [getRoot_missing I ho]
      refine ⟨fun e => absurd ((I.keys n).1 ?_) ho, by rintro ⟨_, h⟩; cases h⟩
      show (c.getParent n).isSome = true
      rw [e]; rfl

/-! ### C116 -/

/-- **C116** Without guards the queries are those of C35 to C38. -/
theorem c116_no_guard (c : ConnComp m) : (∀ n, c.getRootWhile 0 n = c.getRoot n) ∧
    (∀ a b, c.isConnectedWhile 0 a b = c.isConnected a b) ∧
    ∀ n, c.getConnectedNodesWhile 0 n = c.getConnectedNodes n := by
  have loop : ∀ fuel (p : List (Id m × Id m)) n, rootLoopWhile 0 fuel p n = rootLoop fuel p n := by
    intro fuel
    induction fuel with
    | zero => intro p n; rfl
    | succ fuel ih =>
      intro p n
      unfold rootLoopWhile rootLoop mutParent
      simp only [if_true, pure_ok, bind_ok, ih]
  have root : ∀ (c : ConnComp m) n, c.getRootWhile 0 n = c.getRoot n := by
    intro c n
    unfold getRootWhile getRoot
    rw [loop]
  have coll : ∀ r l (c : ConnComp m), collectRootWhile 0 r c l = collectRoot r c l := by
    intro r l
    induction l with
    | nil => intro c; rfl
    | cons x l ih =>
      intro c
      unfold collectRootWhile collectRoot
      simp only [root, ih]
  refine ⟨root c, fun a b => ?_, fun n => ?_⟩
  · unfold isConnectedWhile isConnected
    simp only [root]
  · unfold getConnectedNodesWhile getConnectedNodes
    simp only [root, coll]

variable {E : List (Id m × Id m)} {c : ConnComp m} {r : Nat}

/-- **C116** While the caller keeps a guard, `get_root` answers for a node that is its own parent and panics
for every other: the path compression cannot write. -/
theorem c116_root (H : History E c) (hr : 0 < r) (n : Id m) :
    (¬ Occurs E n → c.getRootWhile r n = .error .nodeMissing) ∧
    (c.getParent n = some n → c.getRootWhile r n = .ok (c, some n)) ∧
    (Occurs E n → c.getParent n ≠ some n → c.getRootWhile r n = .error .explicit) := by
  obtain ⟨rep, I⟩ := history_inv H
  obtain ⟨h, F⟩ := I.forest
  unfold getRootWhile rootLoopWhile
  refine ⟨fun ho => ?_, fun hn => ?_, fun ho hn => ?_⟩
  · have e : AL.get c.parent n = none := by
      rw [← Option.not_isSome_iff_eq_none]; exact fun h => ho ((I.keys n).1 h)
    rw [if_pos (by rw [e]; simp)]
    unfold ConnComp.index
    rw [e]
    rfl
  · have hn' : AL.get c.parent n = some n := hn
    rw [if_neg (by rw [hn']; simp)]
    simp only [pure_ok, bind_ok, hn', Option.isSome_some, if_true]
  · have hn' : AL.get c.parent n ≠ some n := hn
    rw [if_pos hn']
    obtain ⟨q, hq⟩ := Option.isSome_iff_exists.1 ((I.keys n).2 ho)
    obtain ⟨qq, hqq⟩ := Option.isSome_iff_exists.1 (F.up n q hq).1
    unfold ConnComp.index mutParent
    simp only [hq, hqq, pure_ok, bind_ok, if_neg (by omega : ¬ r = 0), bind_error]

/-- **C116** `is_connected` then answers if a node is unknown, and for two nodes that are both their own
parents; it panics otherwise. -/
theorem c116_is_connected (H : History E c) (hr : 0 < r) (a b : Id m) :
    (¬ (Occurs E a ∧ Occurs E b) → c.isConnectedWhile r a b = .ok (c, false)) ∧
    (c.getParent a = some a → c.getParent b = some b →
      c.isConnectedWhile r a b = .ok (c, decide (a = b))) ∧
    (Occurs E a → Occurs E b → ¬ (c.getParent a = some a ∧ c.getParent b = some b) →
      c.isConnectedWhile r a b = .error .explicit) := by
  obtain ⟨rep, I⟩ := history_inv H
  have known : ∀ n, (AL.get c.parent n).isSome = true ↔ Occurs E n := I.keys
  have unk : ∀ n, ¬ Occurs E n → (AL.get c.parent n).isSome = false := fun n h =>
    Bool.eq_false_iff.2 (fun e => h ((known n).1 e))
  have both : Occurs E a → Occurs E b →
      (!(AL.get c.parent a).isSome || !(AL.get c.parent b).isSome) = false := by
    intro ha hb
    rw [(known a).2 ha, (known b).2 hb]; rfl
  have self : ∀ n, c.getParent n = some n → Occurs E n := fun n h =>
    (known n).1 (by show (c.getParent n).isSome = true; rw [h]; rfl)
  unfold isConnectedWhile
  refine ⟨fun h => ?_, fun ha hb => ?_, fun ha hb h => ?_⟩
  · have e : (!(AL.get c.parent a).isSome || !(AL.get c.parent b).isSome) = true := by
      by_cases ha : Occurs E a
      · rw [unk b (fun hb => h ⟨ha, hb⟩)]; simp
      · rw [unk a ha]; rfl
    rw [if_pos e]
    rfl
  · rw [if_neg (by rw [both (self a ha) (self b hb)]; simp), ((c116_root H hr a).2.1 ha)]
    simp only [bind_ok]
    rw [(c116_root H hr b).2.1 hb]
    simp [bind_ok, pure_ok]
  · rw [if_neg (by rw [both ha hb]; simp)]
    by_cases ea : c.getParent a = some a
    · rw [(c116_root H hr a).2.1 ea]
      simp only [bind_ok]
      rw [(c116_root H hr b).2.2 hb (fun e => h ⟨ea, e⟩)]
      rfl
    · rw [(c116_root H hr a).2.2 ha ea]
      rfl

/-- **C116** `get_connected_nodes` then answers if the node is unknown, and for known nodes as long as every
edge so far was a loop; otherwise it panics. -/
theorem c116_connected_nodes (H : History E c) (hr : 0 < r) (n : Id m) :
    (¬ Occurs E n → c.getConnectedNodesWhile r n = .ok (c, none)) ∧
    (Occurs E n → (∀ e ∈ E, e.1 = e.2) → c.getConnectedNodesWhile r n = .ok (c, some [n])) ∧
    (Occurs E n → (∃ e ∈ E, e.1 ≠ e.2) → c.getConnectedNodesWhile r n = .error .explicit) := by
  obtain ⟨rep, I⟩ := history_inv H
  obtain ⟨h, F⟩ := I.forest
  have self : ∀ x, Occurs E x → (c.getParent x = some x ↔ rep x = x) := fun x hx =>
    F.root_iff ((I.keys x).2 hx)
  have coll : ∀ (root : Id m) (l : List (Id m)), (∀ x ∈ l, c.getParent x = some x) →
      collectRootWhile r (some root) c l = .ok (c, l.filter (fun x => decide (x = root))) := by
    intro root l
    induction l with
    | nil => intro _; rfl
    | cons x l ih =>
      intro hl
      unfold collectRootWhile
      rw [(c116_root H hr x).2.1 (hl x (by simp))]
      simp only [bind_ok]
      rw [ih (fun y hy => hl y (by simp [hy]))]
      simp only [bind_ok, pure_ok, List.filter_cons, Option.some.injEq]
      by_cases e : x = root <;> simp [e]
  have stop : ∀ (root : Option (Id m)) (l : List (Id m)), (∀ x ∈ l, Occurs E x) →
      (∃ x ∈ l, c.getParent x ≠ some x) → collectRootWhile r root c l = .error .explicit := by
    intro root l
    induction l with
    | nil => rintro - ⟨x, hx, -⟩; cases hx
    | cons x l ih =>
      intro hl hx
      unfold collectRootWhile
      by_cases e : c.getParent x = some x
      · rw [(c116_root H hr x).2.1 e]
        simp only [bind_ok]
        rw [ih (fun y hy => hl y (by simp [hy])) (by
          obtain ⟨y, hy, hne⟩ := hx
          rcases List.mem_cons.1 hy with rfl | hy
          · exact absurd e hne
          · exact ⟨y, hy, hne⟩)]
        rfl
      · rw [(c116_root H hr x).2.2 (hl x (by simp)) e]
        rfl
  have keys : ∀ x, x ∈ AL.keys c.parent ↔ Occurs E x := fun x => by
    rw [← AL.get_isSome_iff]; exact I.keys x
  unfold getConnectedNodesWhile
  refine ⟨fun ho => ?_, fun ho hE => ?_, fun ho hE => ?_⟩
  · rw [if_neg (fun h => ho ((I.keys n).1 h))]
    rfl
  · have lk : ∀ a b, Linked E a b → a = b := by
      intro a b hab
      induction hab with
      | rel a b hab => exact hE _ hab
      | refl a => rfl
      | symm a b _ ih => exact ih.symm
      | trans a b c _ _ h1 h2 => exact h1.trans h2
    have own : ∀ x, Occurs E x → c.getParent x = some x := fun x hx =>
      (self x hx).2 (lk _ _ ((I.linked _ _).1 (F.rep_rep x)))
    rw [if_pos ((I.keys n).2 ho), (c116_root H hr n).2.1 (own n ho)]
    simp only [bind_ok]
    rw [coll n _ (fun x hx => own x ((keys x).1 hx))]
    simp only [bind_ok, pure_ok]
    have : (AL.keys c.parent).filter (fun x => decide (x = n)) = [n] := by
      rw [List.filter_eq, List.count_eq_one_of_mem F.nodup ((keys n).2 ho)]
      rfl
    rw [this]
  · obtain ⟨⟨a, b⟩, hab, hne⟩ := hE
    rw [if_pos ((I.keys n).2 ho)]
    by_cases e : c.getParent n = some n
    · rw [(c116_root H hr n).2.1 e]
      simp only [bind_ok]
      have ha : Occurs E a := ⟨_, hab, .inl rfl⟩
      have hb : Occurs E b := ⟨_, hab, .inr rfl⟩
      rw [stop (some n) _ (fun x hx => (keys x).1 hx) (by
        by_contra hcon
        have hcon : ∀ x ∈ AL.keys c.parent, c.getParent x = some x := fun x hx => by
          by_contra h; exact hcon ⟨x, hx, h⟩
        have e1 := (self a ha).1 (hcon a ((keys a).2 ha))
        have e2 := (self b hb).1 (hcon b ((keys b).2 hb))
        have := (I.linked a b).2 (Relation.EqvGen.rel _ _ hab)
        rw [e1, e2] at this
        exact hne this)]
      rfl
    · rw [(c116_root H hr n).2.2 ho e]
      rfl

/-- Non-vacuity: in `0 - 1 - 3`, `2 - 3` and so on a guard makes `get_root(2)` panic, but not that of the
root. -/
example : History pathEdges pathComp ∧ Occurs pathEdges 2 ∧ pathComp.getParent 2 ≠ some 2 ∧
    pathComp.getRootWhile 1 2 = .error .explicit ∧ (pathComp.getRootWhile 0 2).map Prod.snd = .ok (some 1) ∧
    pathComp.getRootWhile 1 1 = .ok (pathComp, some 1) ∧ ∃ e ∈ pathEdges, e.1 ≠ e.2 :=
  ⟨pathComp_history, by unfold Occurs; decide, by decide, by decide, by decide, by decide, by decide⟩

/-- A loop only. -/
example : History [(7, 7)] (⟨[(7, 7)], 1⟩ : ConnComp 9) ∧
    (⟨[(7, 7)], 1⟩ : ConnComp 9).getConnectedNodesWhile 1 7 = .ok (⟨[(7, 7)], 1⟩, some [7]) :=
  ⟨History.edge (E := []) (x := 7) (y := 7) History.empty (by decide), by decide⟩

end Verif.Props
