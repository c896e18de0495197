import Verif.Spec.RootCost
import Verif.Proof.ConnComp
import Mathlib.Data.Nat.Log
import Mathlib.Algebra.Order.BigOperators.Group.Finset

/-! The cost of `get_root`: halving paths, and a potential that pays for long ones. -/

namespace Verif.ConnComp

open Verif.Spec Relation

variable {m : Nat}

/-- One step towards the root. -/
def Up (p : List (Id m × Id m)) (a b : Id m) : Prop := AL.get p a = some b

theorem up_unique {p : List (Id m × Id m)} {a b c : Id m} (h : Up p a b) (h' : Up p a c) : b = c := by
  unfold Up at h h'
  rw [h] at h'; exact Option.some.inj h'

variable {p : List (Id m × Id m)} {rep : Id m → Id m} {h : Id m → Nat}

theorem Forest.path (F : Forest p rep h) {a b : Id m} (r : ReflTransGen (Up p) a b) :
    a = b ∨ h b < h a := by
  induction r with
  | refl => exact .inl rfl
  | @tail b c _ e ih =>
    obtain ⟨-, -, h3, -⟩ := F.up b c e
    by_cases hc : c = b
    · subst hc; exact ih
    · rcases ih with rfl | ih
      · exact .inr (h3 hc)
      · exact .inr ((h3 hc).trans ih)

theorem Forest.path_key (F : Forest p rep h) {a b : Id m} (r : ReflTransGen (Up p) a b)
    (ha : (AL.get p a).isSome) : (AL.get p b).isSome := by
  induction r with
  | refl => exact ha
  | @tail b c _ e _ => exact (F.up b c e).1

/-- Two ends of paths from the same node lie on one path. -/
theorem path_total {a b c : Id m} (r : ReflTransGen (Up p) a b) (r' : ReflTransGen (Up p) a c) :
    ReflTransGen (Up p) b c ∨ ReflTransGen (Up p) c b :=
  Relation.ReflTransGen.total_of_right_unique (fun _ _ _ h h' => up_unique h h') r r'

theorem depth_congr {p' : List (Id m × Id m)} {n : Id m} {d : Nat} (F : Forest p rep h)
    (D : Depth (AL.get p) n d) (hp : ∀ y, h y ≤ h n → AL.get p' y = AL.get p y) :
    Depth (AL.get p') n d := by
  induction D with
  | root e => exact .root (by rw [hp _ le_rfl]; exact e)
  | @up n q d e hne _ ih =>
    have hlt := (F.up n q e).2.2.1 hne
    exact .up (by rw [hp _ le_rfl]; exact e) hne (ih (fun y hy => hp y (by omega)))

theorem Forest.depth (F : Forest p rep h) : ∀ (b : Nat) (n : Id m), h n ≤ b → (AL.get p n).isSome →
    ∃ d, Depth (AL.get p) n d := by
  intro b
  induction b with
  | zero =>
    intro n hb hs
    obtain ⟨q, hq⟩ := Option.isSome_iff_exists.1 hs
    obtain ⟨-, -, h3, -⟩ := F.up n q hq
    by_cases e : q = n
    · exact ⟨0, .root (by rw [hq, e])⟩
    · have := h3 e; omega
  | succ b ih =>
    intro n hb hs
    obtain ⟨q, hq⟩ := Option.isSome_iff_exists.1 hs
    obtain ⟨h1, -, h3, -⟩ := F.up n q hq
    by_cases e : q = n
    · exact ⟨0, .root (by rw [hq, e])⟩
    · have := h3 e
      obtain ⟨d, hd⟩ := ih q (by omega) h1
      exact ⟨d + 1, .up hq e hd⟩

theorem Depth.unique {par : Id m → Option (Id m)} {n : Id m} {d d' : Nat} (D : Depth par n d)
    (D' : Depth par n d') : d = d' := by
  induction D generalizing d' with
  | root e =>
    cases D' with
    | root _ => rfl
    | up e' hne _ => rw [e] at e'; exact absurd (Option.some.inj e').symm hne
  | up e hne _ ih =>
    cases D' with
    | root e' => rw [e] at e'; exact absurd (Option.some.inj e') hne
    | up e' _ D' => rw [e] at e'; cases e'; rw [ih D']

/-! ### The number of turns -/

/-- One turn of the loop. -/
theorem rootLoop_turn {f : Nat} {n q qq : Id m} (h1 : AL.get p n = some q) (h2 : AL.get p q = some qq)
    (hne : q ≠ n) : rootLoop (f + 1) p n = rootLoop f (AL.hinsert p n qq) qq := by
  rw [rootLoop, if_pos (by rw [h1]; simpa using hne)]
  have e1 : index p n = .ok q := by unfold index; rw [h1]; rfl
  have e2 : index p q = .ok qq := by unfold index; rw [h2]; rfl
  rw [e1, bind_ok, e2, bind_ok]

theorem rootLoop_root {f : Nat} {n : Id m} (h1 : AL.get p n = some n) :
    rootLoop (f + 1) p n = .ok (p, n) := by
  rw [rootLoop, if_neg (by rw [h1]; simp)]; rfl

theorem turns_depth {rep : Id m → Id m} {h : Id m → Nat} : ∀ (d : Nat) (p : List (Id m × Id m)) (n : Id m),
    Forest p rep h → Depth (AL.get p) n d → Turns p n ((d + 1) / 2) := by
  intro d
  induction d using Nat.strong_induction_on with
  | _ d ih =>
    intro p n F D f
    cases D with
    | root e =>
      cases f with
      | zero => simp [rootLoop]
      | succ f => rw [rootLoop_root e]; simp
    | @up _ q d e hne D =>
      cases f with
      | zero => simp [rootLoop]
      | succ f =>
        cases D with
        | root e2 =>
          rw [rootLoop_turn e e2 hne]
          have e3 : AL.get (AL.hinsert p n q) q = some q := by
            rw [AL.get_hinsert, if_neg (fun h => hne h.symm)]; exact e2
          cases f with
          | zero => simp [rootLoop]
          | succ f => rw [rootLoop_root e3]; simp
        | @up _ qq d e2 hne2 D =>
          rw [rootLoop_turn e e2 hne]
          obtain ⟨F', hlt, -, -, -⟩ := F.halve e e2 hne
          have D' : Depth (AL.get (AL.hinsert p n qq)) qq d := depth_congr F D (by
            intro y hy
            rw [AL.get_hinsert, if_neg]
            rintro rfl; omega)
          rw [ih d (by omega) _ _ F' D' f]
          omega

theorem Forest.get_congr {p' : List (Id m × Id m)} (F : Forest p rep h) (hk : (AL.keys p').Nodup)
    (hg : ∀ x, AL.get p' x = AL.get p x) : Forest p' rep h :=
  ⟨hk, fun n e => F.fresh n (by rw [← hg]; exact e), fun n q e => by rw [hg]; exact F.up n q (by rw [← hg]; exact e)⟩

/-- Halving: the node asked about is half as deep afterwards, and no node is deeper. -/
theorem rootLoop_depth {rep : Id m → Id m} {h : Id m → Nat} : ∀ (d : Nat) (f : Nat) (p : List (Id m × Id m))
    (n : Id m) (r : List (Id m × Id m) × Id m), Forest p rep h → Depth (AL.get p) n d →
    rootLoop f p n = .ok r → Depth (AL.get r.1) n ((d + 1) / 2) ∧
      (∀ y, h n < h y → AL.get r.1 y = AL.get p y) ∧
      ∀ x e, Depth (AL.get p) x e → ∃ e' ≤ e, Depth (AL.get r.1) x e' := by
  intro d
  induction d using Nat.strong_induction_on with
  | _ d ih =>
    intro f p n r F D hr
    cases f with
    | zero => cases hr
    | succ f =>
    cases D with
    | root e =>
      rw [rootLoop_root e] at hr; cases hr
      exact ⟨.root e, fun _ _ => rfl, fun x e h => ⟨e, le_rfl, h⟩⟩
    | @up _ q d e hne D =>
      cases D with
      | root e2 =>
        rw [rootLoop_turn e e2 hne] at hr
        have e3 : AL.get (AL.hinsert p n q) q = some q := by
          rw [AL.get_hinsert, if_neg (fun h => hne h.symm)]; exact e2
        have hg : ∀ x, AL.get (AL.hinsert p n q) x = AL.get p x := by
          intro x
          rw [AL.get_hinsert]
          split
          · rename_i h; rw [← h, e]
          · rfl
        cases f with
        | zero => cases hr
        | succ f =>
          rw [rootLoop_root e3] at hr; cases hr
          have hg' : AL.get (AL.hinsert p n q) = AL.get p := funext hg
          simp only [hg']
          exact ⟨.up e hne (.root e2), fun _ _ => trivial, fun x e h => ⟨e, le_rfl, h⟩⟩
      | @up _ qq d e2 hne2 D =>
        rw [rootLoop_turn e e2 hne] at hr
        obtain ⟨F', hlt, -, -, -⟩ := F.halve e e2 hne
        have hqn : qq ≠ n := by rintro rfl; omega
        have D' : Depth (AL.get (AL.hinsert p n qq)) qq d := depth_congr F D (by
          intro y hy
          rw [AL.get_hinsert, if_neg]
          rintro rfl; omega)
        obtain ⟨i1, i2, i3⟩ := ih d (by omega) f _ _ r F' D' hr
        refine ⟨?_, ?_, ?_⟩
        · have : (d + 1 + 1 + 1) / 2 = (d + 1) / 2 + 1 := by omega
          rw [this]
          refine .up ?_ hqn i1
          rw [i2 n hlt, AL.get_hinsert, if_pos rfl]
        · intro y hy
          rw [i2 y (by omega), AL.get_hinsert, if_neg]
          rintro rfl; omega
        · intro x e0 Dx
          have : ∃ e' ≤ e0, Depth (AL.get (AL.hinsert p n qq)) x e' := by
            induction Dx with
            | @root a ea =>
              refine ⟨0, le_rfl, .root ?_⟩
              rw [AL.get_hinsert, if_neg]
              · exact ea
              · rintro rfl
                rw [e] at ea; exact hne (Option.some.inj ea)
            | @up a b c ea hab Db ihb =>
              by_cases hn : n = a
              · subst hn
                rw [e] at ea; cases ea
                have hd := Depth.unique Db (.up e2 hne2 D)
                subst hd
                exact ⟨d + 1, by omega, .up (by rw [AL.get_hinsert, if_pos rfl]) hqn D'⟩
              · obtain ⟨e', h1, h2⟩ := ihb
                exact ⟨e' + 1, by omega, .up (by rw [AL.get_hinsert, if_neg hn]; exact ea) hab h2⟩
          obtain ⟨e', h1, h2⟩ := this
          obtain ⟨e'', h3, h4⟩ := i3 x e' h2
          exact ⟨e'', h3.trans h1, h4⟩

/-! ### The potential -/

open Classical in
/-- The nodes of the tree below `v`. -/
noncomputable def tree (p : List (Id m × Id m)) (v : Id m) : Finset (Id m) :=
  Finset.univ.filter (fun x => (AL.get p x).isSome ∧ ReflTransGen (Up p) x v)

theorem mem_tree {v x : Id m} : x ∈ tree p v ↔ (AL.get p x).isSome ∧ ReflTransGen (Up p) x v := by
  simp [tree]

/-- The logarithms of the sizes of all trees. -/
noncomputable def potential (p : List (Id m × Id m)) : Nat := ∑ v, Nat.log 2 (tree p v).card

theorem tree_congr {p' : List (Id m × Id m)} (hg : ∀ x, AL.get p' x = AL.get p x) (v : Id m) :
    tree p' v = tree p v := by
  have : Up p' = Up p := by funext a b; unfold Up; rw [hg]
  ext x
  rw [mem_tree, mem_tree, this, hg]

theorem potential_congr {p' : List (Id m × Id m)} (hg : ∀ x, AL.get p' x = AL.get p x) :
    potential p' = potential p := by
  unfold potential
  simp only [tree_congr hg]

theorem tree_card_le (hk : (AL.keys p).Nodup) (v : Id m) : (tree p v).card ≤ p.length := by
  have : tree p v ⊆ (AL.keys p).toFinset := by
    intro x hx
    rw [mem_tree] at hx
    rw [List.mem_toFinset]
    exact (AL.get_isSome_iff _ _).1 hx.1
  refine (Finset.card_le_card this).trans ?_
  refine (List.toFinset_card_le _).trans ?_
  unfold AL.keys; simp

/-- A turn that moves `n` from its parent `q` to its grandparent `qq`. -/
theorem halve_path (F : Forest p rep h) {n q qq : Id m} (h1 : AL.get p n = some q) (h2 : AL.get p q = some qq)
    (hne : q ≠ n) (hne2 : qq ≠ q) (x v : Id m) :
    ReflTransGen (Up (AL.hinsert p n qq)) x v ↔
      ReflTransGen (Up p) x v ∧ (v = q → ¬ ReflTransGen (Up p) x n) := by
  obtain ⟨F', hlt, -, -, -⟩ := F.halve h1 h2 hne
  have hq := (F.up n q h1).2.2.1 hne
  have hqq := (F.up q qq h2).2.2.1 hne2
  have un : Up (AL.hinsert p n qq) n qq := by unfold Up; rw [AL.get_hinsert, if_pos rfl]
  have uo : ∀ a b, a ≠ n → (Up (AL.hinsert p n qq) a b ↔ Up p a b) := by
    intro a b ha
    unfold Up
    rw [AL.get_hinsert, if_neg (fun e => ha e.symm)]
  have fw : ∀ a b, ReflTransGen (Up (AL.hinsert p n qq)) a b → ReflTransGen (Up p) a b := by
    intro a b r
    induction r with
    | refl => exact .refl
    | @tail b c _ e ih =>
      by_cases hb : b = n
      · subst hb
        have := up_unique un e
        subst this
        exact (ih.tail h1).tail h2
      · exact ih.tail ((uo b c hb).1 e)
  have toN : ∀ a, ReflTransGen (Up p) a n → ReflTransGen (Up (AL.hinsert p n qq)) a n := by
    intro a r
    induction r using Relation.ReflTransGen.head_induction_on with
    | refl => exact .refl
    | @head a b e _ ih =>
      by_cases ha : a = n
      · subst ha; exact .refl
      · exact .head ((uo a b ha).2 e) ih
  constructor
  · intro r
    refine ⟨fw _ _ r, ?_⟩
    rintro rfl hn
    rcases path_total r (toN x hn) with e | e
    · rcases F'.path e with e | e
      · exact hne e
      · omega
    · rcases Relation.ReflTransGen.cases_head e with e | ⟨c, e1, e2⟩
      · exact hne e.symm
      · have := up_unique un e1
        subst this
        rcases F'.path e2 with e | e
        · exact hne2 e
        · omega
  · rintro ⟨r, hv⟩
    by_cases hvq : v = q
    · subst hvq
      have hv' := hv rfl
      clear hv
      induction r using Relation.ReflTransGen.head_induction_on with
      | refl => exact .refl
      | @head a b e _ ih =>
        have ha : a ≠ n := by rintro rfl; exact hv' .refl
        exact .head ((uo a b ha).2 e) (ih (fun hb => hv' (.head e hb)))
    · clear hv
      induction r using Relation.ReflTransGen.head_induction_on with
      | refl => exact .refl
      | @head a b e _ ih =>
        by_cases ha : a = n
        · subst ha
          have := up_unique (p := p) h1 e
          subst this
          rcases Relation.ReflTransGen.cases_head ih with e | ⟨c, e1, e2⟩
          · exact absurd e.symm hvq
          · have h3 : Up p q c := (uo q c hne).1 e1
            have := up_unique (p := p) h2 h3
            subst this
            exact .head un e2
        · exact .head ((uo a b ha).2 e) ih

theorem isSome_keys {p' : List (Id m × Id m)} (hk : AL.keys p' = AL.keys p) (x : Id m) :
    (AL.get p' x).isSome ↔ (AL.get p x).isSome := by
  rw [AL.get_isSome_iff, AL.get_isSome_iff, hk]

theorem potential_one {p' : List (Id m × Id m)} {q : Id m}
    (hv : ∀ v, v ≠ q → Nat.log 2 (tree p' v).card = Nat.log 2 (tree p v).card) :
    potential p' + Nat.log 2 (tree p q).card = potential p + Nat.log 2 (tree p' q).card := by
  unfold potential
  rw [← Finset.add_sum_erase _ _ (Finset.mem_univ q),
    ← Finset.add_sum_erase _ (fun v => Nat.log 2 (tree p v).card) (Finset.mem_univ q),
    Finset.sum_congr rfl (g := fun v => Nat.log 2 (tree p v).card) (fun v hv' => hv v (Finset.ne_of_mem_erase hv'))]
  omega

theorem halve_trees (F : Forest p rep h) {n q qq : Id m} (h1 : AL.get p n = some q) (h2 : AL.get p q = some qq)
    (hne : q ≠ n) (hne2 : qq ≠ q) :
    (∀ v, v ≠ q → tree (AL.hinsert p n qq) v = tree p v) ∧
    (tree (AL.hinsert p n qq) q).card + (tree p n).card = (tree p q).card ∧
    0 < (tree (AL.hinsert p n qq) q).card := by
  obtain ⟨F', hlt, -, hk, -⟩ := F.halve h1 h2 hne
  have hq := (F.up n q h1).2.2.1 hne
  have hs := isSome_keys hk
  refine ⟨?_, ?_, ?_⟩
  · intro v hv
    ext x
    rw [mem_tree, mem_tree, halve_path F h1 h2 hne hne2, hs]
    simp [hv]
  · rw [← Finset.card_union_of_disjoint]
    · congr 1
      ext x
      rw [Finset.mem_union, mem_tree, mem_tree, mem_tree, halve_path F h1 h2 hne hne2, hs]
      constructor
      · rintro (⟨a, b, -⟩ | ⟨a, b⟩)
        · exact ⟨a, b⟩
        · exact ⟨a, b.tail h1⟩
      · rintro ⟨a, b⟩
        by_cases hx : ReflTransGen (Up p) x n
        · exact .inr ⟨a, hx⟩
        · exact .inl ⟨a, b, fun _ => hx⟩
    · rw [Finset.disjoint_left]
      intro x hx hx'
      rw [mem_tree, halve_path F h1 h2 hne hne2] at hx
      exact hx.2.2 rfl (mem_tree.1 hx').2
  · rw [Finset.card_pos]
    refine ⟨q, mem_tree.2 ⟨by rw [hs, h2]; rfl, .refl⟩⟩

theorem log_halves {a b c e : Nat} (hb : 0 < b) (ha : 0 < a) (hab : b + a = c) (hce : c ≤ e) :
    1 + Nat.log 2 b + Nat.log 2 a ≤ Nat.log 2 c + Nat.log 2 e := by
  have two : ∀ x, 0 < x → 2 * x ≤ c → Nat.log 2 x + 1 ≤ Nat.log 2 c := by
    intro x hx h
    rw [← Nat.log_mul_base (by omega) (by omega), mul_comm]
    exact Nat.log_mono_right h
  have m1 : Nat.log 2 a ≤ Nat.log 2 e := Nat.log_mono_right (by omega)
  have m2 : Nat.log 2 b ≤ Nat.log 2 e := Nat.log_mono_right (by omega)
  by_cases hl : 2 * b ≤ c
  · have := two b hb hl; omega
  · have := two a ha (by omega); omega

theorem length_keys {p' : List (Id m × Id m)} (hk : AL.keys p' = AL.keys p) : p'.length = p.length := by
  have := congrArg List.length hk
  unfold AL.keys at this
  simpa using this

/-- The turns of one call are paid for by the potential, up to a logarithm. -/
theorem rootLoop_cost {rep : Id m → Id m} {h : Id m → Nat} {L : Nat} : ∀ (d : Nat) (f : Nat)
    (p : List (Id m × Id m)) (n : Id m) (r : List (Id m × Id m) × Id m), Forest p rep h →
    Depth (AL.get p) n d → rootLoop f p n = .ok r → Nat.log 2 p.length ≤ L →
    (d + 1) / 2 + potential r.1 + Nat.log 2 (tree p n).card ≤ potential p + L + 1 := by
  intro d
  induction d using Nat.strong_induction_on with
  | _ d ih =>
    intro f p n r F D hr hL
    have hn : Nat.log 2 (tree p n).card ≤ L := (Nat.log_mono_right (tree_card_le F.nodup n)).trans hL
    cases f with
    | zero => cases hr
    | succ f =>
    cases D with
    | root e =>
      rw [rootLoop_root e] at hr; cases hr
      show (0 + 1) / 2 + potential p + _ ≤ _
      omega
    | @up _ q d e hne D =>
      cases D with
      | root e2 =>
        rw [rootLoop_turn e e2 hne] at hr
        have e3 : AL.get (AL.hinsert p n q) q = some q := by
          rw [AL.get_hinsert, if_neg (fun h => hne h.symm)]; exact e2
        have hg : ∀ x, AL.get (AL.hinsert p n q) x = AL.get p x := by
          intro x
          rw [AL.get_hinsert]
          split
          · rename_i h; rw [← h, e]
          · rfl
        cases f with
        | zero => cases hr
        | succ f =>
          rw [rootLoop_root e3] at hr; cases hr
          show (0 + 1 + 1) / 2 + potential (AL.hinsert p n q) + _ ≤ _
          rw [potential_congr hg]
          omega
      | @up _ qq d e2 hne2 D =>
        rw [rootLoop_turn e e2 hne] at hr
        obtain ⟨F', hlt, -, hk, -⟩ := F.halve e e2 hne
        have D' : Depth (AL.get (AL.hinsert p n qq)) qq d := depth_congr F D (by
          intro y hy
          rw [AL.get_hinsert, if_neg]
          rintro rfl; omega)
        have i := ih d (by omega) f _ _ r F' D' hr (by rw [length_keys hk]; exact hL)
        obtain ⟨t1, t2, t3⟩ := halve_trees F e e2 hne hne2
        rw [t1 qq hne2] at i
        have p1 := potential_one (p := p) (p' := AL.hinsert p n qq) (q := q) (fun v hv => by rw [t1 v hv])
        have hsub : tree p q ⊆ tree p qq := by
          intro x hx
          rw [mem_tree] at hx ⊢
          exact ⟨hx.1, hx.2.tail e2⟩
        have l := log_halves t3 (Finset.card_pos.2 ⟨n, mem_tree.2 ⟨by rw [e]; rfl, .refl⟩⟩) t2
          (Finset.card_le_card hsub)
        omega

theorem turns_unique {n : Id m} {t t' : Nat} (h1 : Turns p n t) (h2 : Turns p n t') : t = t' := by
  have a := (h2 t).1 ((h1 t).2 le_rfl)
  have b := (h1 t').1 ((h2 t').2 le_rfl)
  omega

/-- What a call of `get_root` at a known node does to the parent map. -/
theorem getRoot_cost {rep : Id m → Id m} {h : Id m → Nat} {c c' : ConnComp m} {n : Id m} {r t L}
    (F : Forest c.parent rep h) (hs : (AL.get c.parent n).isSome) (hr : c.getRoot n = .ok (c', r))
    (ht : Turns c.parent n t) (hL : Nat.log 2 c.parent.length ≤ L) :
    r = some (rep n) ∧ Forest c'.parent rep h ∧ AL.keys c'.parent = AL.keys c.parent ∧
    t + potential c'.parent ≤ potential c.parent + (L + 1) := by
  have hb : below c.parent h n < c.parent.length + 1 := by
    unfold below
    have := List.length_filter_le (fun x => decide (h x < h n)) (AL.keys c.parent)
    have e : (AL.keys c.parent).length = c.parent.length := by simp [AL.keys]
    omega
  obtain ⟨p', e, F', hk, -⟩ := rootLoop_ok _ _ _ F hs hb
  obtain ⟨d, D⟩ := F.depth (h n) n le_rfl hs
  have hc := rootLoop_cost d _ _ _ _ F D e hL
  have := turns_unique ht (turns_depth d _ _ F D)
  subst this
  unfold getRoot at hr
  rw [e, bind_ok] at hr
  cases hr
  refine ⟨?_, F', hk, ?_⟩
  · rw [if_pos]
    rw [isSome_keys hk, F.rep_root hs]; rfl
  · show _ + potential p' ≤ _
    simp only at hc
    omega

theorem register_cost {rep : Id m → Id m} {h : Id m → Nat} {c : ConnComp m} (F : Forest c.parent rep h)
    (x : Id m) : potential (c.register x).parent = potential c.parent := by
  unfold register
  by_cases e : (AL.get c.parent x).isSome
  · rw [if_pos e]
  · rw [if_neg e]
    show potential (AL.hinsert c.parent x x) = _
    have en : AL.get c.parent x = none := by simpa using e
    have ux : Up (AL.hinsert c.parent x x) x x := by unfold Up; rw [AL.get_hinsert, if_pos rfl]
    have uo : ∀ a b, a ≠ x → (Up (AL.hinsert c.parent x x) a b ↔ Up c.parent a b) := by
      intro a b ha
      unfold Up
      rw [AL.get_hinsert, if_neg (fun e => ha e.symm)]
    have hk : ∀ a, a ≠ x → ((AL.get (AL.hinsert c.parent x x) a).isSome ↔ (AL.get c.parent a).isSome) := by
      intro a ha
      rw [AL.get_hinsert, if_neg (fun e => ha e.symm)]
    have fx : ∀ b, ReflTransGen (Up (AL.hinsert c.parent x x)) x b → b = x := by
      intro b r
      induction r with
      | refl => rfl
      | tail _ e ih => subst ih; exact (up_unique ux e).symm
    have same : ∀ a b, a ≠ x → (AL.get c.parent a).isSome →
        (ReflTransGen (Up (AL.hinsert c.parent x x)) a b ↔ ReflTransGen (Up c.parent) a b) := by
      intro a b ha hs
      constructor
      · intro r
        have : ReflTransGen (Up c.parent) a b ∧ (AL.get c.parent b).isSome := by
          induction r with
          | refl => exact ⟨.refl, hs⟩
          | @tail b d _ e ih =>
            have hb : b ≠ x := by rintro rfl; rw [en] at ih; cases ih.2
            have := (uo b d hb).1 e
            exact ⟨ih.1.tail this, (F.up b d this).1⟩
        exact this.1
      · intro r
        have : ReflTransGen (Up (AL.hinsert c.parent x x)) a b ∧ (AL.get c.parent b).isSome := by
          induction r with
          | refl => exact ⟨.refl, hs⟩
          | @tail b d _ e ih =>
            have hb : b ≠ x := by rintro rfl; rw [en] at ih; cases ih.2
            exact ⟨ih.1.tail ((uo b d hb).2 e), (F.up b d e).1⟩
        exact this.1
    unfold potential
    refine Finset.sum_congr rfl (fun v _ => ?_)
    by_cases hv : v = x
    · subst hv
      have t0 : tree c.parent v = ∅ := by
        ext a
        rw [mem_tree]
        simp only [Finset.notMem_empty, iff_false, not_and]
        intro hs r
        have := F.path_key r hs
        rw [en] at this; cases this
      have t1 : tree (AL.hinsert c.parent v v) v = {v} := by
        ext a
        rw [mem_tree, Finset.mem_singleton]
        constructor
        · rintro ⟨hs, r⟩
          by_contra ha
          have hs' := (hk a ha).1 hs
          have := F.path_key ((same a v ha hs').1 r) hs'
          rw [en] at this; cases this
        · rintro rfl
          exact ⟨by rw [AL.get_hinsert, if_pos rfl]; rfl, .refl⟩
      rw [t0, t1]; simp
    · congr 2
      ext a
      rw [mem_tree, mem_tree]
      by_cases ha : a = x
      · subst ha
        rw [en]
        constructor
        · rintro ⟨-, r⟩; exact absurd (fx v r) hv
        · rintro ⟨h, -⟩; cases h
      · rw [hk a ha]
        constructor
        · rintro ⟨h1, h2⟩; exact ⟨h1, (same a v ha h1).1 h2⟩
        · rintro ⟨h1, h2⟩; exact ⟨h1, (same a v ha h1).2 h2⟩

theorem hang_cost (hk : (AL.keys p).Nodup) {xr yr : Id m} {L : Nat}
    (hx : AL.get p xr = some xr) (hy : AL.get p yr = some yr) (hne : xr ≠ yr) (hL : Nat.log 2 p.length ≤ L) :
    AL.keys (AL.hinsert p xr yr) = AL.keys p ∧ potential (AL.hinsert p xr yr) ≤ potential p + L := by
  have hkey : AL.keys (AL.hinsert p xr yr) = AL.keys p := by
    rw [AL.keys_hinsert, if_pos]
    rw [← AL.get_isSome_iff, hx]; rfl
  refine ⟨hkey, ?_⟩
  have ux : Up (AL.hinsert p xr yr) xr yr := by unfold Up; rw [AL.get_hinsert, if_pos rfl]
  have uo : ∀ a b, a ≠ xr → (Up (AL.hinsert p xr yr) a b ↔ Up p a b) := by
    intro a b ha
    unfold Up
    rw [AL.get_hinsert, if_neg (fun e => ha e.symm)]
  have trees : ∀ v, v ≠ yr → tree (AL.hinsert p xr yr) v = tree p v := by
    intro v hv
    ext a
    rw [mem_tree, mem_tree, isSome_keys hkey]
    refine and_congr_right (fun _ => ⟨fun r => ?_, fun r => ?_⟩)
    · induction r with
      | refl => exact .refl
      | @tail b d _ e ih =>
        have hb : b ≠ xr := by
          rintro rfl
          exact hv (up_unique ux e).symm
        have e' := (uo b d hb).1 e
        have hb' : b ≠ yr := by
          rintro rfl
          exact hv (up_unique (p := p) hy e').symm
        exact (ih hb').tail e'
    · clear hv
      induction r with
      | refl => exact .refl
      | @tail b d _ e ih =>
        by_cases hb : b = xr
        · subst hb
          have := up_unique (p := p) hx e
          subst this
          exact ih
        · exact ih.tail ((uo b d hb).2 e)
  have p1 := potential_one (p := p) (p' := AL.hinsert p xr yr) (q := yr) (fun v hv => by rw [trees v hv])
  have hn : Nat.log 2 (tree (AL.hinsert p xr yr) yr).card ≤ L := by
    refine (Nat.log_mono_right (tree_card_le ?_ yr)).trans (?_ : Nat.log 2 (AL.hinsert p xr yr).length ≤ L)
    · rw [hkey]; exact hk
    · rw [length_keys hkey]; exact hL
  omega

theorem register_length (c : ConnComp m) (x : Id m) :
    c.parent.length ≤ (c.register x).parent.length := by
  have := congrArg List.length (register_keys c x)
  have e1 : ∀ p : List (Id m × Id m), (AL.keys p).length = p.length := by simp [AL.keys]
  rw [e1] at this
  rw [this]
  split <;> simp [e1]

/-- The invariant behind the amortised bound. -/
theorem work_cost {E : List (Id m × Id m)} {c : ConnComp m} {q t : Nat} (W : Work E c q t) :
    (∃ rep, Inv E rep c) ∧ ∀ L, Nat.log 2 c.parent.length ≤ L →
      t + potential c.parent ≤ q * (L + 1) + E.length * L := by
  induction W with
  | empty =>
    refine ⟨⟨_, inv_empty⟩, fun L _ => ?_⟩
    have : potential (ConnComp.empty : ConnComp m).parent = 0 := by
      unfold potential
      refine Finset.sum_eq_zero (fun v _ => ?_)
      have : tree (ConnComp.empty : ConnComp m).parent v = ∅ := by
        ext a; rw [mem_tree]; simp [ConnComp.empty, AL.get]
      rw [this]; simp
    omega
  | @root E c q t n u c' r _ hr ht ih =>
    obtain ⟨⟨rep, I⟩, hi⟩ := ih
    have ho : Occurs E n := by
      by_contra ho
      rw [getRoot_missing I ho] at hr; cases hr
    obtain ⟨c'', e, I', hk⟩ := getRoot_ok I ho
    rw [hr] at e; cases e
    refine ⟨⟨rep, I'⟩, fun L hL => ?_⟩
    rw [length_keys hk] at hL
    obtain ⟨h, F⟩ := I.forest
    have := (getRoot_cost F ((I.keys n).2 ho) hr ht hL).2.2.2
    have := hi L hL
    rw [Nat.add_mul, Nat.one_mul]
    omega
  | @edge E c q t x y c1 u1 r1 u2 c' _ ht1 hr1 ht2 he ih =>
    obtain ⟨⟨rep, I⟩, hi⟩ := ih
    obtain ⟨c'', e, I', hk⟩ := inv_edge I x y
    rw [he] at e; cases e
    refine ⟨⟨_, I'⟩, fun L hL => ?_⟩
    rw [length_keys hk] at hL
    obtain ⟨h, F⟩ := I.forest
    obtain ⟨F1, n1, s1⟩ := register_forest F I.count x
    obtain ⟨F2, n2, s2⟩ := register_forest F1 n1 y
    have l2 := (register_length c x).trans (register_length (c.register x) y)
    have hi := hi L ((Nat.log_mono_right l2).trans hL)
    rw [← register_cost F x, ← register_cost F1 y] at hi
    obtain ⟨rfl, F3, k3, g3⟩ := getRoot_cost (L := L) F2 ((s2 x).2 (.inr ((s1 x).2 (.inl rfl)))) hr1 ht1 hL
    have hy : (AL.get c1.parent y).isSome := by
      rw [isSome_keys k3]; exact (s2 y).2 (.inl rfl)
    unfold processEdge at he
    simp only at he
    rw [hr1, bind_ok] at he
    simp only [unwrap, pure_ok, bind_ok] at he
    obtain ⟨⟨c2, r2⟩, hr2, he⟩ := bind_eq_ok he
    obtain ⟨rfl, F4, k4, g4⟩ := getRoot_cost (L := L) F3 hy hr2 ht2 (by rw [length_keys k3]; exact hL)
    simp only [unwrap, pure_ok, bind_ok] at he
    have hlen : (E ++ [(x, y)]).length = E.length + 1 := by simp
    rw [hlen, Nat.add_mul, Nat.add_mul, Nat.one_mul]
    by_cases hxy : rep x ≠ rep y
    · rw [if_pos hxy] at he
      split at he
      · cases he
      · cases he
        have kx : (AL.get c2.parent x).isSome := by
          rw [isSome_keys k4, isSome_keys k3]
          exact (s2 x).2 (.inr ((s1 x).2 (.inl rfl)))
        have ky : (AL.get c2.parent y).isSome := by
          rw [isSome_keys k4]; exact hy
        obtain ⟨-, g5⟩ := hang_cost (L := L) F4.nodup (F4.rep_root kx) (F4.rep_root ky) hxy
          (by rw [length_keys k4, length_keys k3]; exact hL)
        show _ + potential (AL.hinsert c2.parent (rep x) (rep y)) ≤ _
        omega
    · rw [if_neg hxy] at he
      cases he
      omega
  | @rehash E c q t p _ hp ih =>
    obtain ⟨⟨rep, I⟩, hi⟩ := ih
    refine ⟨⟨rep, inv_rehash I hp⟩, fun L hL => ?_⟩
    obtain ⟨h, F⟩ := I.forest
    have := hi L (by rw [hp.length_eq]; exact hL)
    show _ + potential p ≤ _
    rw [potential_congr (AL.get_perm F.nodup hp)]
    exact this

end Verif.ConnComp
