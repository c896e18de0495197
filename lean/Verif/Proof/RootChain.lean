import Verif.Proof.RootCost
import Verif.Proof.ConnCompGraph
import Verif.Proof.Csr

/-! The state after the edges of a path in order, and root queries as parts of the other calls. -/

namespace Verif.ConnComp

open Verif.Spec

variable {m : Nat}

theorem below_depth {p : List (Id m × Id m)} {rep : Id m → Id m} {h : Id m → Nat} (F : Forest p rep h)
    {n : Id m} {d : Nat} (D : Depth (AL.get p) n d) : d ≤ below p h n := by
  induction D with
  | root _ => exact Nat.zero_le _
  | @up n q d e hne _ ih =>
    obtain ⟨h1, -, h3, -⟩ := F.up n q e
    have := below_lt F.nodup ((AL.get_isSome_iff _ _).1 h1) (h3 hne)
    omega

theorem below_length {p : List (Id m × Id m)} {h : Id m → Nat} {n : Id m} (hs : (AL.get p n).isSome) :
    below p h n < p.length := by
  unfold below
  have e : (AL.keys p).length = p.length := by simp [AL.keys]
  rw [← e, List.length_filter_lt_length_iff_exists]
  exact ⟨n, (AL.get_isSome_iff _ _).1 hs, by simp⟩

theorem getRoot_root {c : ConnComp m} {n : Id m} (h : AL.get c.parent n = some n) :
    c.getRoot n = .ok (c, some n) := by
  unfold getRoot
  rw [rootLoop_root h, bind_ok]
  show Except.ok _ = _
  rw [if_pos (by rw [h]; rfl)]

theorem get_register (c : ConnComp m) (x a : Id m) : AL.get (c.register x).parent a =
    if a = x ∧ ¬ (AL.get c.parent x).isSome then some x else AL.get c.parent a := by
  unfold register
  by_cases e : (AL.get c.parent x).isSome
  · rw [if_pos e, if_neg (by simp [e])]
  · rw [if_neg e]
    show AL.get (AL.hinsert c.parent x x) a = _
    rw [AL.get_hinsert]
    by_cases ha : x = a
    · rw [if_pos ha, if_pos ⟨ha.symm, e⟩]
    · rw [if_neg ha, if_neg (fun h => ha h.1.symm)]

theorem register_count (c : ConnComp m) (x : Id m) (h : ¬ (AL.get c.parent x).isSome) :
    (c.register x).count ≠ 0 := by
  unfold register
  rw [if_neg h]; simp

theorem chain_step {c : ConnComp m} {N : Nat} (hN : N + 1 ≤ m)
    (hc : ∀ a : Id m, AL.get c.parent a = if a.val < N then some (Id.new (a.val + 1))
      else if a.val = N ∧ 0 < N then some a else none) :
    ∃ c', c.processEdge (Id.new N) (Id.new (N + 1)) = .ok c' ∧
      ∀ a : Id m, AL.get c'.parent a = if a.val < N + 1 then some (Id.new (a.val + 1))
        else if a.val = N + 1 ∧ 0 < N + 1 then some a else none := by
  have vx : (Id.new N : Id m).val = N := EdgeIter.Id_new_val (by omega)
  have vy : (Id.new (N + 1) : Id m).val = N + 1 := EdgeIter.Id_new_val hN
  have ext : ∀ {a : Id m} {i : Nat}, i ≤ m → (a = Id.new i ↔ a.val = i) := by
    intro a i hi
    rw [Fin.ext_iff, EdgeIter.Id_new_val hi]
  have g1 : ∀ a : Id m, AL.get (c.register (Id.new N)).parent a =
      if a.val < N then some (Id.new (a.val + 1)) else if a.val = N then some a else none := by
    intro a
    rw [get_register, hc, hc]
    simp only [ext (a := a) (i := N) (by omega), vx]
    by_cases h1 : a.val = N
    · have ha : a = Id.new N := (ext (by omega)).2 h1
      subst ha
      by_cases h2 : 0 < N <;> simp [vx, h2]
    · simp [h1]
  have n1 : ¬ (AL.get (c.register (Id.new N)).parent (Id.new (N + 1))).isSome := by
    rw [g1, vy]; simp
  have g2 : ∀ a : Id m, AL.get ((c.register (Id.new N)).register (Id.new (N + 1))).parent a =
      if a.val < N then some (Id.new (a.val + 1)) else if a.val = N ∨ a.val = N + 1 then some a else none := by
    intro a
    rw [get_register]
    simp only [ext (a := a) hN]
    by_cases h1 : a.val = N + 1
    · have ha : a = Id.new (N + 1) := (ext hN).2 h1
      rw [if_pos ⟨h1, n1⟩, if_neg (by omega), if_pos (.inr h1), ha]
    · rw [if_neg (fun h => h1 h.1), g1]
      simp [h1]
  have r1 := getRoot_root (c := (c.register (Id.new N)).register (Id.new (N + 1))) (n := Id.new N)
    (by rw [g2, vx]; simp)
  have r2 := getRoot_root (c := (c.register (Id.new N)).register (Id.new (N + 1))) (n := Id.new (N + 1))
    (by rw [g2, vy]; simp)
  have hne : (Id.new N : Id m) ≠ Id.new (N + 1) := by
    intro h
    have := congrArg Fin.val h
    rw [vx, vy] at this; omega
  refine ⟨⟨AL.hinsert ((c.register (Id.new N)).register (Id.new (N + 1))).parent (Id.new N) (Id.new (N + 1)),
    ((c.register (Id.new N)).register (Id.new (N + 1))).count - 1⟩, ?_, ?_⟩
  · unfold processEdge
    simp only
    rw [r1, bind_ok]
    simp only [unwrap, bind_ok]
    rw [r2, bind_ok]
    simp only [unwrap, bind_ok]
    rw [if_pos hne, if_neg (register_count _ _ n1)]
    rfl
  · intro a
    show AL.get (AL.hinsert _ _ _) a = _
    rw [AL.get_hinsert, g2]
    by_cases h1 : a.val = N
    · have ha : Id.new N = a := ((ext (by omega)).2 h1).symm
      rw [if_pos ha, if_pos (by omega), h1]
    · have ha : ¬ Id.new N = a := fun h => h1 ((ext (by omega)).1 h.symm)
      rw [if_neg ha]
      by_cases h2 : a.val < N
      · rw [if_pos h2, if_pos (by omega)]
      · have h3 : ¬ a.val < N + 1 := by omega
        rw [if_neg h2, if_neg h3]
        simp [h1]

theorem chain_state : ∀ N : Nat, N ≤ m → ∃ c : ConnComp m,
    (chainEdges m N).foldlM (fun c e => c.processEdge e.1 e.2) ConnComp.empty = .ok c ∧
    ∀ a : Id m, AL.get c.parent a = if a.val < N then some (Id.new (a.val + 1))
      else if a.val = N ∧ 0 < N then some a else none := by
  intro N
  induction N with
  | zero => intro _; exact ⟨ConnComp.empty, rfl, fun a => by simp [ConnComp.empty, AL.get]⟩
  | succ N ih =>
    intro hN
    obtain ⟨c, h1, h2⟩ := ih (by omega)
    obtain ⟨c', h3, h4⟩ := chain_step hN h2
    refine ⟨c', ?_, h4⟩
    unfold chainEdges
    rw [List.range_succ, List.map_append, List.foldlM_append]
    change (chainEdges m N).foldlM (fun c e => c.processEdge e.1 e.2) ConnComp.empty >>= _ = _
    rw [h1, bind_ok]
    simp only [List.map_cons, List.map_nil, List.foldlM_cons, List.foldlM_nil]
    rw [h3, bind_ok]
    rfl

theorem chain_depth {c : ConnComp m} {N : Nat} (hN : N ≤ m) (h0 : 0 < N)
    (hc : ∀ a : Id m, AL.get c.parent a = if a.val < N then some (Id.new (a.val + 1))
      else if a.val = N ∧ 0 < N then some a else none) :
    ∀ j, j ≤ N → Depth (AL.get c.parent) (Id.new (N - j)) j := by
  intro j
  induction j with
  | zero =>
    intro _
    refine .root ?_
    rw [hc, EdgeIter.Id_new_val (by omega)]
    simp [h0]
  | succ j ih =>
    intro hj
    refine .up (q := Id.new (N - j)) ?_ ?_ (ih (by omega))
    · rw [hc, EdgeIter.Id_new_val (by omega), if_pos (by omega)]
      congr 2
      omega
    · intro h
      have := congrArg Fin.val h
      rw [EdgeIter.Id_new_val (by omega), EdgeIter.Id_new_val (by omega)] at this
      omega

theorem Forest.turns {p : List (Id m × Id m)} {rep : Id m → Id m} {h : Id m → Nat} (F : Forest p rep h)
    {n : Id m} (hs : (AL.get p n).isSome) : ∃ t, Turns p n t := by
  obtain ⟨d, D⟩ := F.depth (h n) n le_rfl hs
  exact ⟨_, turns_depth d _ _ F D⟩

theorem work_root {E : List (Id m × Id m)} {c c' : ConnComp m} {q t : Nat} {n : Id m} {r}
    (W : Work E c q t) (hr : c.getRoot n = .ok (c', r)) : ∃ u, Turns c.parent n u ∧ Work E c' (q + 1) (t + u) := by
  obtain ⟨⟨rep, I⟩, -⟩ := work_cost W
  obtain ⟨h, F⟩ := I.forest
  have ho : Occurs E n := by
    by_contra ho
    rw [getRoot_missing I ho] at hr; cases hr
  obtain ⟨u, hu⟩ := F.turns ((I.keys n).2 ho)
  exact ⟨u, hu, .root W hr hu⟩

theorem work_edge {E : List (Id m × Id m)} {c : ConnComp m} {q t : Nat} (W : Work E c q t) (x y : Id m) :
    ∃ c' t', c.processEdge x y = .ok c' ∧ Work (E ++ [(x, y)]) c' (q + 2) t' := by
  obtain ⟨⟨rep, I⟩, -⟩ := work_cost W
  obtain ⟨h, F⟩ := I.forest
  obtain ⟨c', e, -, -⟩ := inv_edge I x y
  obtain ⟨F1, n1, s1⟩ := register_forest F I.count x
  obtain ⟨F2, n2, s2⟩ := register_forest F1 n1 y
  obtain ⟨u1, hu1⟩ := F2.turns ((s2 x).2 (.inr ((s1 x).2 (.inl rfl))))
  have e' := e
  unfold processEdge at e'
  simp only at e'
  obtain ⟨⟨c1, r1⟩, hr1, e'⟩ := bind_eq_ok e'
  obtain ⟨-, F3, k3, -⟩ := getRoot_cost F2 ((s2 x).2 (.inr ((s1 x).2 (.inl rfl)))) hr1 hu1 le_rfl
  obtain ⟨u2, hu2⟩ := F3.turns (n := y) (by rw [isSome_keys k3]; exact (s2 y).2 (.inl rfl))
  exact ⟨c', _, e, .edge W hu1 hr1 hu2 e⟩

theorem work_edges : ∀ (E' E : List (Id m × Id m)) (c : ConnComp m) (q t : Nat), Work E c q t →
    ∃ c' t', E'.foldlM (fun c e => c.processEdge e.1 e.2) c = .ok c' ∧
      Work (E ++ E') c' (q + 2 * E'.length) t' := by
  intro E'
  induction E' with
  | nil => intro E c q t W; exact ⟨c, t, rfl, by simpa using W⟩
  | cons e E' ih =>
    intro E c q t W
    obtain ⟨c1, t1, h1, W1⟩ := work_edge W e.1 e.2
    obtain ⟨c2, t2, h2, W2⟩ := ih _ _ _ _ W1
    refine ⟨c2, t2, ?_, ?_⟩
    · rw [List.foldlM_cons, h1, bind_ok, h2]
    · rw [List.append_assoc] at W2
      have : q + 2 * (e :: E').length = q + 2 + 2 * E'.length := by rw [List.length_cons]; omega
      rw [this]
      exact W2

theorem work_collect {E : List (Id m × Id m)} {r : Option (Id m)} : ∀ (ns : List (Id m)) (c : ConnComp m)
    (q t : Nat) (c' : ConnComp m) (l : List (Id m)), Work E c q t → collectRoot r c ns = .ok (c', l) →
    ∃ t', Work E c' (q + ns.length) t' := by
  intro ns
  induction ns with
  | nil => intro c q t c' l W h; cases h; exact ⟨t, W⟩
  | cons n ns ih =>
    intro c q t c' l W h
    rw [collectRoot] at h
    obtain ⟨⟨c1, r1⟩, h1, h⟩ := bind_eq_ok h
    obtain ⟨⟨c2, l2⟩, h2, h⟩ := bind_eq_ok h
    cases h
    obtain ⟨u, -, W1⟩ := work_root W h1
    obtain ⟨t', W2⟩ := ih _ _ _ _ _ W1 h2
    refine ⟨t', ?_⟩
    have : q + (n :: ns).length = q + 1 + ns.length := by rw [List.length_cons]; omega
    rw [this]
    exact W2

theorem work_history {E : List (Id m × Id m)} {c : ConnComp m} {q t : Nat} (W : Work E c q t) :
    History E c := by
  induction W with
  | empty => exact .empty
  | root _ h _ ih => exact .root ih h
  | edge _ _ _ _ h ih => exact .edge ih h
  | rehash _ h ih => exact .rehash ih h

theorem runDetection_ends {k : Nat} {NL EL : Type} {g : GView m k NL EL} {E : List (Id m × Id m)}
    (hE : g.edges.map (fun e => (e.src, e.dst)) = E) (c : ConnComp m) :
    c.runDetection g = E.foldlM (fun c e => c.processEdge e.1 e.2) c := by
  subst hE
  unfold runDetection
  rw [List.foldlM_map]

end Verif.ConnComp
