import Verif.Proof.Traversal

/-! The order in which the searches yield nodes. -/

namespace Verif.Traversal

open Verif.Spec

variable {m k : Nat} {NL EL : Type} {g : GView m k NL EL} {A : AGraph (Id m) NL EL}

theorem first_append {V l : List (Id m)} {y : Id m} (h : A.firstSeen V y < V.length) :
    A.firstSeen (V ++ l) y = A.firstSeen V y := by
  unfold AGraph.firstSeen at *
  rw [List.findIdx_append, if_pos h]

theorem first_new {V : List (Id m)} {x y : Id m} (hV : ∀ u ∈ V, ¬ (A.edge u y).isSome)
    (hx : (A.edge x y).isSome) : A.firstSeen (V ++ [x]) y = V.length := by
  have h : V.findIdx (fun u => (A.edge u y).isSome) = V.length := by
    rw [List.findIdx_eq_length]
    intro u hu
    simpa using hV u hu
  unfold AGraph.firstSeen
  rw [List.findIdx_append, if_neg (by omega)]
  simp [List.findIdx_cons, hx]

theorem key_append {V l : List (Id m)} {y : Id m} (h : A.firstSeen V y < V.length) :
    A.seenKey (V ++ l) y = A.seenKey V y := by
  unfold AGraph.seenKey; rw [first_append h]

/-- What both searches keep within a segment: `V` the nodes yielded in it, `w` the work list. -/
structure JBase (A : AGraph (Id m) NL EL) (s : Id m) (V w : List (Id m)) : Prop where
  start : (V = [] ∧ w = [s]) ∨ ∃ r, V = s :: r
  seen : V ≠ [] → ∀ y ∈ w, A.firstSeen V y < V.length
  order : A.SearchOrder V
  reach : ∀ y ∈ V ++ w, A.Reaches s y

theorem JBase.step {s : Id m} {V w rest news : List (Id m)} {x : Id m} (h : JBase A s V w)
    (hperm : w.Perm (x :: rest)) (hclosed : ∀ t ∈ news, ∀ u ∈ V, ¬ (A.edge u t).isSome)
    (hnew : ∀ t ∈ news, (A.edge x t).isSome) : JBase A s (V ++ [x]) (rest ++ news) := by
  have hxr : A.Reaches s x := h.reach x (List.mem_append_right _ (hperm.mem_iff.2 (List.mem_cons_self ..)))
  have hfx : V ≠ [] → A.firstSeen V x < V.length := fun hne =>
    h.seen hne x (hperm.mem_iff.2 (List.mem_cons_self ..))
  refine ⟨?_, ?_, ?_, ?_⟩
  · right
    rcases h.start with ⟨hV, hw⟩ | ⟨r, hr⟩
    · rw [hw] at hperm
      have := List.perm_singleton.1 hperm.symm
      injection this with h1 h2
      exact ⟨[], by rw [hV, h1]; rfl⟩
    · exact ⟨r ++ [x], by rw [hr]; rfl⟩
  · intro _ y hy
    rw [List.length_append, List.length_singleton]
    rcases List.mem_append.1 hy with hc | hc
    · by_cases hne : V = []
      · rcases h.start with ⟨_, hw⟩ | ⟨r, hr⟩
        · rw [hw] at hperm
          have := List.perm_singleton.1 hperm.symm
          injection this with h1 h2
          rw [h2] at hc; cases hc
        · rw [hne] at hr; cases hr
      · have := h.seen hne y (hperm.mem_iff.2 (List.mem_cons_of_mem _ hc))
        rw [first_append this]; omega
    · rw [first_new (hclosed y hc) (hnew y hc)]; omega
  · intro i hi hpos
    rw [List.length_append, List.length_singleton] at hi
    by_cases hlt : i < V.length
    · rw [List.getElem_append_left hlt]
      have := h.order i hlt hpos
      rw [first_append (by omega)]; exact this
    · have hi' : i = V.length := by omega
      subst hi'
      rw [List.getElem_append_right (le_refl _)]
      simp only [Nat.sub_self, List.getElem_singleton]
      have := hfx (by intro hc; rw [hc] at hpos; cases hpos)
      rw [first_append this]; exact this
  · intro y hy
    rw [List.append_assoc] at hy
    rcases List.mem_append.1 hy with hc | hc
    · exact h.reach y (List.mem_append_left _ hc)
    · rcases List.mem_append.1 hc with hc | hc
      · rw [List.mem_singleton.1 hc]; exact hxr
      · rcases List.mem_append.1 hc with hc | hc
        · exact h.reach y (List.mem_append_right _ (hperm.mem_iff.2 (List.mem_cons_of_mem _ hc)))
        · obtain ⟨n, hn⟩ := hxr
          exact ⟨n + 1, hn.step (hnew y hc)⟩

/-- A segment of a search, with the facts special to the kind of search left open as `J`. -/
theorem run_segment {pop : List (Id m) → Option (Id m × List (Id m))} (hp : Pops pop) (hs : Shows g A)
    (J : List (Id m) → List (Id m) → Prop) (s : Id m)
    (hJ : ∀ V w x rest news, JBase A s V w → J V w → pop w = some (x, rest) → w.Perm (x :: rest) →
      news.Pairwise (· < ·) → (∀ t ∈ news, ∀ u ∈ V, ¬ (A.edge u t).isSome) →
      (∀ t ∈ news, (A.edge x t).isSome) → J (V ++ [x]) (rest ++ news))
    {V0 : List (Id m)} {b : BitSet} (h : SInv A V0 ⟨[s], b⟩)
    (hj : J [] [s]) :
    ∃ r st', Steps (nextWith pop g) ⟨[s], b⟩ (s :: r) st' ∧ st'.work = [] ∧
      SInv A (V0 ++ (s :: r)) st' ∧
      (∀ u ∈ V0 ++ (s :: r), ∀ t, (A.edge u t).isSome → t ∈ V0 ++ (s :: r)) ∧
      (∀ n, n ∈ s :: r ↔ A.Reaches s n ∧ n ∉ V0) ∧ A.SearchOrder (s :: r) ∧ J (s :: r) [] := by
  obtain ⟨l, st', h1, h2, h3, h4, h5⟩ := segment hp hs
    (fun V w => ∃ V1, V = V0 ++ V1 ∧ JBase A s V1 w ∧ J V1 w)
    (by
      rintro V w x rest news ⟨V1, rfl, hb, hj⟩ hnd hpop hperm hcl hsort hmem
      have hc : ∀ t ∈ news, ∀ u ∈ V1, ¬ (A.edge u t).isSome := by
        intro t ht u hu he
        exact ((hmem t).1 ht).2 (hcl u (List.mem_append_right _ hu) t he)
      have hn : ∀ t ∈ news, (A.edge x t).isSome := fun t ht => ((hmem t).1 ht).1
      exact ⟨V1 ++ [x], by rw [List.append_assoc], hb.step hperm hc hn,
        hJ V1 w x rest news hb hj hpop hperm hsort hc hn⟩)
    _ V0 ⟨[s], b⟩ (le_refl _) h
    ⟨[], by simp, ⟨.inl ⟨rfl, rfl⟩, fun hc => absurd rfl hc,
      fun i hi => absurd hi (Nat.not_lt_zero _),
      fun y hy => by
        rw [List.nil_append] at hy
        rw [List.mem_singleton.1 hy]; exact ⟨0, .here⟩⟩, hj⟩
  obtain ⟨V1, hV, hb, hj'⟩ := h4
  have hl : l = V1 := List.append_cancel_left hV
  subst hl
  have hne : l ≠ [] := h5 (List.cons_ne_nil _ _)
  obtain ⟨r, hr⟩ : ∃ r, l = s :: r := by
    rcases hb.start with ⟨hc, _⟩ | hc
    · exact absurd hc hne
    · exact hc
  subst hr
  have hcl : ∀ u ∈ V0 ++ (s :: r), ∀ t, (A.edge u t).isSome → t ∈ V0 ++ (s :: r) := by
    intro u hu t ht
    have := h3.closed u hu t ht
    rw [h2, List.append_nil] at this; exact this
  refine ⟨r, st', h1, h2, h3, hcl, ?_, hb.order, hj'⟩
  have hnd := h3.nodup
  rw [h2, List.append_nil, List.nodup_append'] at hnd
  intro n
  constructor
  · intro hn
    exact ⟨hb.reach n (List.mem_append_left _ hn), fun hc => hnd.2.2 hc hn⟩
  · rintro ⟨⟨c, hw⟩, hn⟩
    have key : ∀ c n, A.Walk s c n → n ∈ V0 ++ (s :: r) := by
      intro c n hw
      induction hw with
      | here => exact List.mem_append_right _ (List.mem_cons_self ..)
      | step _ he ih => exact hcl _ ih _ he
    rcases List.mem_append.1 (key c n hw) with hc | hc
    · exact absurd hc hn
    · exact hc

/-- The later segments. -/
theorem sweep_rest {pop : List (Id m) → Option (Id m × List (Id m))} (hp : Pops pop) (hs : Shows g A)
    (J : List (Id m) → List (Id m) → Prop)
    (hJ : ∀ s V w x rest news, JBase A s V w → J V w → pop w = some (x, rest) → w.Perm (x :: rest) →
      news.Pairwise (· < ·) → (∀ t ∈ news, ∀ u ∈ V, ¬ (A.edge u t).isSome) →
      (∀ t ∈ news, (A.edge x t).isSome) → J (V ++ [x]) (rest ++ news)) (hj : ∀ s, J [] [s]) :
    ∀ (c : Nat) (V : List (Id m)) (st : Traversal m), g.nodeIndices.length - V.length ≤ c →
      SInv A V st → st.work = [] →
      ∃ segs : List (List (Id m)), ∃ st', (∃ f, drain (nextWith pop g) f st = .ok (segs.flatten, st')) ∧
        st'.work = [] ∧ SInv A (V ++ segs.flatten) st' ∧
        (∀ n, n ∈ V ++ segs.flatten ↔ (A.node n).isSome) ∧
        ∀ i (hi : i < segs.length), ∃ s rest, segs[i] = s :: rest ∧
          (A.SearchOrder segs[i] ∧ J segs[i] []) ∧
          (∀ n, n ∈ segs[i] ↔ A.Reaches s n ∧ n ∉ V ++ (segs.take i).flatten) ∧
          ∀ n, (A.node n).isSome → n ∉ V ++ (segs.take i).flatten → s ≤ n := by
  intro c
  induction c with
  | zero =>
    intro V st hc h hw
    have hb := nodes_bound hs h.nodup h.nodes
    have hnd := h.nodup
    rw [hw, List.append_nil] at hb hnd
    have hall : ∀ n, n ∈ V ↔ (A.node n).isSome := by
      intro n
      constructor
      · exact fun hn => h.nodes n (List.mem_append_left _ hn)
      · intro hn
        have hsub : V.Subperm g.nodeIndices := List.subperm_of_subset hnd
          (fun x hx => (hs.memNodes x).2 (h.nodes x (List.mem_append_left _ hx)))
        have := hsub.perm_of_length_le (by omega)
        exact this.mem_iff.2 ((hs.memNodes n).2 hn)
    refine ⟨[], st, ⟨1, ?_⟩, hw, by simpa using h, by simpa using hall, by simp⟩
    show (nextWith pop g st >>= _) = _
    rw [next_done hp hs h.toWInv hw (fun n hn => (hall n).2 hn), bind_ok]; rfl
  | succ c ih =>
    intro V st hc h hw
    by_cases hex : ∃ n, (A.node n).isSome ∧ n ∉ V
    · obtain ⟨s, hn, hv, hmin, hinv, hnext⟩ := next_restart (pop := pop) hs h hw hex
      obtain ⟨r, st1, h1, h2, h3, h4, h5, h6, h7⟩ := run_segment hp hs J s (hJ s) hinv (hj s)
      obtain ⟨segs, st', ⟨f, i1⟩, i2, i3, i4, i5⟩ := ih (V ++ (s :: r)) st1
        (by
          have hb := nodes_bound hs h3.nodup h3.nodes
          simp only [List.length_append, List.length_cons] at hb ⊢
          omega) h3 h2
      have hsteps : Steps (nextWith pop g) st (s :: r) st1 := by
        cases h1 with
        | cons a b => exact .cons (hnext.trans a) b
      refine ⟨(s :: r) :: segs, st', ⟨_, hsteps.drain i1⟩, i2, ?_, ?_, ?_⟩
      · rw [List.flatten_cons, ← List.append_assoc]; exact i3
      · rw [List.flatten_cons, ← List.append_assoc]; exact i4
      · intro i hi
        cases i with
        | zero =>
          refine ⟨s, r, rfl, ⟨h6, h7⟩, ?_, ?_⟩
          · simpa using h5
          · simpa using hmin
        | succ i =>
          obtain ⟨s', r', j1, j2, j3, j4⟩ := i5 i (by simpa using hi)
          refine ⟨s', r', by simpa using j1, by simpa using j2, ?_, ?_⟩
          · simpa only [List.getElem_cons_succ, List.take_succ_cons, List.flatten_cons,
              List.append_assoc] using j3
          · simpa only [List.take_succ_cons, List.flatten_cons, List.append_assoc] using j4
    · have hall : ∀ n, (A.node n).isSome → n ∈ V := by
        intro n hn
        by_contra hc
        exact hex ⟨n, hn, hc⟩
      refine ⟨[], st, ⟨1, ?_⟩, hw, by simpa using h, ?_, by simp⟩
      · show (nextWith pop g st >>= _) = _
        rw [next_done hp hs h.toWInv hw hall, bind_ok]; rfl
      · intro n
        rw [List.flatten_nil, List.append_nil]
        exact ⟨fun hn => h.nodes n (List.mem_append_left _ hn), hall n⟩

/-- Order facts special to a queue. -/
def JQueue (A : AGraph (Id m) NL EL) (V w : List (Id m)) : Prop :=
  ∀ s T, V ++ w = s :: T → T.Pairwise (fun a b => A.seenKey V a < A.seenKey V b)

/-- Order facts special to a stack. -/
structure JStack (A : AGraph (Id m) NL EL) (V w : List (Id m)) : Prop where
  top : V ≠ [] → w.Pairwise (fun a b => A.seenKey V a < A.seenKey V b)
  past : ∀ i j (hi : i < V.length) (hj : j < V.length), i < j → A.firstSeen V V[j] < i →
    A.seenKey V V[j] < A.seenKey V V[i]
  next : ∀ i (hi : i < V.length), ∀ y ∈ w, A.firstSeen V y < i → A.seenKey V y < A.seenKey V V[i]

theorem key_lt {V : List (Id m)} {a b : Id m} : A.seenKey V a < A.seenKey V b ↔
    A.firstSeen V a < A.firstSeen V b ∨ (A.firstSeen V a = A.firstSeen V b ∧ a < b) :=
  Prod.Lex.toLex_lt_toLex

theorem news_sorted {V news : List (Id m)} {x : Id m} (hsort : news.Pairwise (· < ·))
    (hc : ∀ t ∈ news, ∀ u ∈ V, ¬ (A.edge u t).isSome) (hn : ∀ t ∈ news, (A.edge x t).isSome) :
    news.Pairwise (fun a b => A.seenKey (V ++ [x]) a < A.seenKey (V ++ [x]) b) := by
  refine hsort.imp_of_mem ?_
  intro a b ha hb hab
  rw [key_lt, first_new (hc a ha) (hn a ha), first_new (hc b hb) (hn b hb)]
  exact .inr ⟨rfl, hab⟩

theorem queue_step {s : Id m} {V w : List (Id m)} {x : Id m} {rest news : List (Id m)}
    (hb : JBase A s V w) (hj : JQueue A V w) (hpop : popFront w = some (x, rest))
    (hsort : news.Pairwise (· < ·)) (hc : ∀ t ∈ news, ∀ u ∈ V, ¬ (A.edge u t).isSome)
    (hn : ∀ t ∈ news, (A.edge x t).isSome) : JQueue A (V ++ [x]) (rest ++ news) := by
  have hw : w = x :: rest := by
    cases w with
    | nil => cases hpop
    | cons a l => injection hpop with h; injection h with h1 h2; rw [h1, h2]
  intro s' T' hT'
  obtain ⟨T, hT⟩ : ∃ T, V ++ w = s :: T := by
    rcases hb.start with ⟨h1, h2⟩ | ⟨r, h1⟩
    · exact ⟨[], by rw [h1, h2]; rfl⟩
    · exact ⟨r ++ w, by rw [h1]; rfl⟩
  have e : (V ++ [x]) ++ (rest ++ news) = s :: (T ++ news) := by
    have : (V ++ [x]) ++ (rest ++ news) = (V ++ w) ++ news := by rw [hw]; simp
    rw [this, hT]; rfl
  rw [e] at hT'
  injection hT' with e1 e2
  subst e1; subst e2
  have hseen : ∀ y ∈ T, A.firstSeen V y < V.length := by
    intro y hy
    rcases hb.start with ⟨h1, h2⟩ | ⟨r, h1⟩
    · rw [h1, h2] at hT
      injection hT with _ h
      rw [← h] at hy; cases hy
    · have hT2 : r ++ w = T := by rw [h1] at hT; injection hT
      rw [← hT2] at hy
      rcases List.mem_append.1 hy with hy | hy
      · obtain ⟨i, hi, rfl⟩ := List.mem_iff_getElem.1 hy
        have := hb.order (i + 1) (by rw [h1]; simpa using hi) (Nat.succ_pos _)
        have e2 : V[i + 1]'(by rw [h1]; simpa using hi) = r[i] := by simp [h1]
        rw [e2] at this
        have hl : V.length = r.length + 1 := by rw [h1]; rfl
        omega
      · exact hb.seen (by rw [h1]; exact List.cons_ne_nil _ _) y hy
  rw [List.pairwise_append]
  refine ⟨?_, news_sorted hsort hc hn, ?_⟩
  · refine (hj s T hT).imp_of_mem ?_
    intro a b ha hb' hab
    rw [key_append (hseen a ha), key_append (hseen b hb')]; exact hab
  · intro a ha b hb'
    rw [key_lt, first_append (hseen a ha), first_new (hc b hb') (hn b hb')]
    exact .inl (hseen a ha)

theorem stack_step {s : Id m} {V w : List (Id m)} {x : Id m} {rest news : List (Id m)}
    (hb : JBase A s V w) (hj : JStack A V w) (hpop : popBack w = some (x, rest))
    (hsort : news.Pairwise (· < ·)) (hc : ∀ t ∈ news, ∀ u ∈ V, ¬ (A.edge u t).isSome)
    (hn : ∀ t ∈ news, (A.edge x t).isSome) : JStack A (V ++ [x]) (rest ++ news) := by
  have hw : w = rest ++ [x] := by
    unfold popBack at hpop
    rw [Option.map_eq_some_iff] at hpop
    obtain ⟨y, hy, hpop⟩ := hpop
    injection hpop with h1 h2
    subst h1
    rw [← h2]
    exact (List.dropLast_append_getLast? _ hy).symm
  have hnil : V = [] → rest = [] := by
    intro hV
    rcases hb.start with ⟨_, h2⟩ | ⟨r, h1⟩
    · rw [h2] at hw
      have := congrArg List.length hw
      simp at this
      exact this
    · rw [h1] at hV; cases hV
  have hseen : ∀ y ∈ rest, A.firstSeen V y < V.length := by
    intro y hy
    have hne : V ≠ [] := by
      intro hV
      rw [hnil hV] at hy; cases hy
    exact hb.seen hne y (by rw [hw]; exact List.mem_append_left _ hy)
  have hord : ∀ i (hi : i < V.length), 0 < i → A.firstSeen V V[i] < V.length := fun i hi hp =>
    lt_trans (hb.order i hi hp) hi
  refine ⟨?_, ?_, ?_⟩
  · intro _
    rw [List.pairwise_append]
    refine ⟨?_, news_sorted hsort hc hn, ?_⟩
    · by_cases hV : V = []
      · rw [hnil hV]; exact List.Pairwise.nil
      · have := hj.top hV
        rw [hw, List.pairwise_append] at this
        refine this.1.imp_of_mem ?_
        intro a b ha hb' hab
        rw [key_append (hseen a ha), key_append (hseen b hb')]; exact hab
    · intro a ha b hb'
      rw [key_lt, first_append (hseen a ha), first_new (hc b hb') (hn b hb')]
      exact .inl (hseen a ha)
  · intro i j hi hj' hij hlt
    rw [List.length_append, List.length_singleton] at hi hj'
    have hiV : i < V.length := by omega
    rw [List.getElem_append_left hiV]
    have hki : A.seenKey V V[i] = A.seenKey (V ++ [x]) V[i] ∨ i = 0 := by
      rcases Nat.eq_zero_or_pos i with h | h
      · exact .inr h
      · exact .inl (key_append (hord i hiV h)).symm
    have hipos : 0 < i := by omega
    rw [key_append (hord i hiV hipos)]
    by_cases hjV : j < V.length
    · rw [List.getElem_append_left hjV] at hlt ⊢
      have hs := hord j hjV (by omega)
      rw [first_append hs] at hlt
      rw [key_append hs]
      exact hj.past i j hiV hjV hij hlt
    · have hje : j = V.length := by omega
      subst hje
      have e : (V ++ [x])[V.length]'(by simp) = x := by simp
      rw [e] at hlt ⊢
      have hne : V ≠ [] := by intro h; rw [h] at hiV; cases hiV
      have hs := hb.seen hne x (by rw [hw]; simp)
      rw [first_append hs] at hlt
      rw [key_append hs]
      exact hj.next i hiV x (by rw [hw]; simp) hlt
  · intro i hi y hy hlt
    rw [List.length_append, List.length_singleton] at hi
    rcases List.mem_append.1 hy with hy | hy
    · have hs := hseen y hy
      rw [first_append hs] at hlt
      rw [key_append hs]
      by_cases hiV : i < V.length
      · rw [List.getElem_append_left hiV, key_append (hord i hiV (by omega))]
        exact hj.next i hiV y (by rw [hw]; exact List.mem_append_left _ hy) hlt
      · have hie : i = V.length := by omega
        subst hie
        have e : (V ++ [x])[V.length]'(by simp) = x := by simp
        have hne : V ≠ [] := by intro h; rw [h] at hlt; exact absurd hlt (Nat.not_lt_zero _)
        have hsx := hb.seen hne x (by rw [hw]; simp)
        rw [e, key_append hsx]
        have := hj.top hne
        rw [hw, List.pairwise_append] at this
        exact this.2.2 y hy x (by simp)
    · rw [first_new (hc y hy) (hn y hy)] at hlt
      omega

theorem firstIn_of {l : List (Id m)} (h1 : A.SearchOrder l) (h2 : JQueue A l []) : A.FirstIn l := by
  refine ⟨h1, ?_⟩
  intro i j hi hj hpos hij
  cases l with
  | nil => cases hi
  | cons s T =>
    have := h2 s T (by simp)
    cases i with
    | zero => omega
    | succ i =>
      cases j with
      | zero => omega
      | succ j =>
        exact (List.pairwise_iff_getElem.1 this) i j (by simpa using hi) (by simpa using hj) (by omega)

theorem lastIn_of {l : List (Id m)} (h1 : A.SearchOrder l) (h2 : JStack A l []) : A.LastIn l :=
  ⟨h1, h2.past⟩

/-- The whole run of a search whose start node is marked. -/
theorem sweep {pop : List (Id m) → Option (Id m × List (Id m))} (hp : Pops pop) (hs : Shows g A)
    (J : List (Id m) → List (Id m) → Prop)
    (hJ : ∀ s V w x rest news, JBase A s V w → J V w → pop w = some (x, rest) → w.Perm (x :: rest) →
      news.Pairwise (· < ·) → (∀ t ∈ news, ∀ u ∈ V, ¬ (A.edge u t).isSome) →
      (∀ t ∈ news, (A.edge x t).isSome) → J (V ++ [x]) (rest ++ news)) (hj : ∀ s, J [] [s])
    {s : Id m} {b : BitSet} (h : SInv A [] ⟨[s], b⟩) :
    ∃ l st', (∃ f, drain (nextWith pop g) f ⟨[s], b⟩ = .ok (l, st')) ∧
      nextWith pop g st' = .ok (none, st') ∧
      A.Sweep s (fun l => A.SearchOrder l ∧ J l []) l := by
  obtain ⟨r, st1, h1, h2, h3, h4, h5, h6, h7⟩ := run_segment (V0 := []) hp hs J s (hJ s) h
    (hj s)
  obtain ⟨segs, st', ⟨f, i1⟩, i2, i3, i4, i5⟩ := sweep_rest hp hs J hJ hj _ ([] ++ (s :: r)) st1
    (le_refl _) h3 h2
  have hd := h1.drain i1
  have hnd := i3.nodup
  rw [i2, List.append_nil, List.nil_append] at hnd
  rw [List.nil_append] at i3 i4
  refine ⟨_, st', ⟨_, hd⟩, next_done hp hs i3.toWInv i2 (fun n hn => (i4 n).2 hn), hnd, i4,
    (s :: r) :: segs, by simp, ⟨r, rfl⟩, ?_⟩
  intro i hi
  cases i with
  | zero => exact ⟨s, r, rfl, ⟨h6, h7⟩, by simpa using h5, fun h => absurd h (Nat.lt_irrefl _)⟩
  | succ i =>
    obtain ⟨s', r', j1, j2, j3, j4⟩ := i5 i (by simpa using hi)
    rw [List.nil_append] at j3 j4
    refine ⟨s', r', by simpa using j1, by simpa using j2, ?_, fun _ => ?_⟩
    · simpa only [List.getElem_cons_succ, List.take_succ_cons, List.flatten_cons] using j3
    · simpa only [List.take_succ_cons, List.flatten_cons] using j4

end Verif.Traversal
