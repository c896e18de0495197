import Verif.Proof.LdbcRead

/-! Which files a relation or kind of node reads. -/

namespace Verif

open Spec GraphMap

namespace Ldbc

theorem tail_canonical {digit : Char → Bool} (t : List Char) (h : ∀ c ∈ t, c = '_' ∨ digit c = true) :
    tailMatches digit (t ++ ['.', 'c', 's', 'v']) = true := by
  induction t with
  | nil => rfl
  | cons c t ih =>
    rw [List.cons_append, tailMatches, ih (fun c hc => h c (by simp [hc]))]
    rcases h c (by simp) with rfl | hc
    · simp
    · simp [hc]

theorem start_canonical {digit : Char → Bool} {start name : String} (h : Canonical digit start name) :
    startMatches digit start name.toList = true := by
  obtain ⟨t, ht, hn⟩ := h
  unfold startMatches
  rw [hn, List.append_assoc, List.drop_left, tail_canonical t ht, Bool.and_true]
  exact List.isPrefixOf_iff_prefix.2 (List.prefix_append _ _)

/-- The part of a start before its last character, which is an underscore after a small letter. -/
def EndsWell (start : List Char) : Prop :=
  ∃ p c, start = p ++ [c, '_'] ∧ c ∈ "abcdefghijklmnopqrstuvwxyz".toList

instance (start : List Char) : Decidable (EndsWell start) :=
  decidable_of_iff (start.drop (start.length - 1) = ['_'] ∧ ∃ c ∈ "abcdefghijklmnopqrstuvwxyz".toList,
      (start.take (start.length - 1)).getLast? = some c) (by
    constructor
    · rintro ⟨h1, c, hc, h2⟩
      obtain ⟨l, hl⟩ := List.getLast?_eq_some_iff.1 h2
      refine ⟨l, c, ?_, hc⟩
      rw [← List.take_append_drop (start.length - 1) start, h1, hl]
      simp
    · rintro ⟨p, c, rfl, hc⟩
      have : (p ++ [c, '_']).length - 1 = (p ++ [c]).length := by simp
      rw [this, show p ++ [c, '_'] = (p ++ [c]) ++ ['_'] by simp, List.drop_left, List.take_left]
      exact ⟨rfl, c, hc, by simp⟩)

/-- A start that occurs in a canonical name occurs in its start. -/
theorem infix_canonical {digit : Char → Bool} (hd : DigitTable digit) {X Y t : List Char}
    (hX : EndsWell X) (hY : EndsWell Y) (ht : ∀ c ∈ t, c = '_' ∨ digit c = true)
    (h : Y <:+: X ++ t ++ ['.', 'c', 's', 'v']) : Y <:+: X := by
  obtain ⟨y, c, rfl, hc⟩ := hY
  obtain ⟨x, c', rfl, hc'⟩ := hX
  have hno : ∀ c ∈ "abcdefghijklmnopqrstuvwxyz".toList, c ≠ '_' := by decide
  obtain ⟨a, b, h⟩ := h
  -- where the underscore after `c` is
  have hlast : ∀ (u v w : List Char), u ++ [c, '_'] ++ v = w ++ ['.', 'c', 's', 'v'] →
      ∃ v', v = v' ++ ['.', 'c', 's', 'v'] := by
    intro u v w e
    have e2 := congrArg List.reverse e
    simp only [List.reverse_append, List.reverse_cons, List.reverse_nil, List.nil_append,
      List.cons_append, List.append_assoc] at e2
    rw [show v = v.reverse.reverse by simp]
    match hv : v.reverse with
    | [] => rw [hv] at e2; simp at e2
    | [c1] => rw [hv] at e2; simp at e2
    | [c1, c2] => rw [hv] at e2; simp at e2
    | [c1, c2, c3] => rw [hv] at e2; simp at e2
    | c1 :: c2 :: c3 :: c4 :: r =>
      rw [hv] at e2
      simp at e2
      obtain ⟨rfl, rfl, rfl, rfl, -⟩ := e2
      exact ⟨r.reverse, by simp⟩
  obtain ⟨b', rfl⟩ := hlast (a ++ y) b (x ++ [c', '_'] ++ t) (by rw [← h]; simp)
  have h2 : (a ++ y) ++ ([c, '_'] ++ b') = (x ++ [c', '_']) ++ t := by
    have : ((a ++ y) ++ ([c, '_'] ++ b')) ++ ['.', 'c', 's', 'v'] =
        ((x ++ [c', '_']) ++ t) ++ ['.', 'c', 's', 'v'] := by rw [← h]; simp
    exact List.append_cancel_right this
  rw [List.append_eq_append_iff] at h2
  rcases h2 with ⟨z, hz1, hz2⟩ | ⟨z, hz1, hz2⟩
  · -- `c` starts inside the start of the name
    match z, hz2 with
    | [], hz2 =>
      exfalso
      have : c ∈ t := by simp at hz2; rw [← hz2]; simp
      rcases ht c this with rfl | hx
      · exact hno _ hc rfl
      · rw [hd c hc] at hx; cases hx
    | [z1], hz2 =>
      exfalso
      simp at hz2
      have : (x ++ [c', '_']).getLast? = some z1 := by rw [hz1]; simp
      simp at this
      subst this
      exact hno _ hc hz2.1
    | z1 :: z2 :: z3, hz2 =>
      simp at hz2
      obtain ⟨rfl, rfl, hz2⟩ := hz2
      exact ⟨a, z3, by rw [hz1]; simp⟩
  · exfalso
    have : c ∈ t := by rw [hz2]; simp
    rcases ht c this with rfl | hx
    · exact hno _ hc rfl
    · rw [hd c hc] at hx; cases hx

/-- The starts of the scheme. -/
def starts : List String := Scheme.init.nodes.map (·.start) ++ Scheme.init.relations.map (·.start)

/-- All places where a list occurs in another. -/
def occurs (Y X : List Char) : Bool := X.tails.any (fun s => Y.isPrefixOf s)

theorem occurs_iff (Y X : List Char) : occurs Y X = true ↔ Y <:+: X := by
  unfold occurs
  rw [List.any_eq_true]
  constructor
  · rintro ⟨s, hs, hp⟩
    obtain ⟨a, rfl⟩ := (List.mem_tails _ _).1 hs
    obtain ⟨b, rfl⟩ := List.isPrefixOf_iff_prefix.1 hp
    exact ⟨a, b, by simp⟩
  · rintro ⟨a, b, h⟩
    refine ⟨Y ++ b, (List.mem_tails _ _).2 ⟨a, by rw [← h]; simp⟩, ?_⟩
    exact List.isPrefixOf_iff_prefix.2 (List.prefix_append _ _)

set_option maxRecDepth 100000 in
theorem starts_end : ∀ X ∈ starts, EndsWell X.toList := by decide

set_option maxRecDepth 100000 in
theorem starts_apart : ∀ x ∈ Scheme.init.relations, ∀ X ∈ starts, occurs x.start.toList X.toList = true →
    x.start = X := by decide

set_option maxRecDepth 100000 in
theorem starts_tail : ∀ n ∈ Scheme.init.nodes, ∀ X ∈ starts, n.start.toList.isPrefixOf X.toList = true →
    n.start = X ∨ ∃ c ∈ "abcdefghijklmnopqrstuvwxyz".toList,
      (X.toList.drop n.start.toList.length).head? = some c ∧
      4 ≤ (X.toList.drop n.start.toList.length).length ∧
      (X.toList.drop n.start.toList.length).tail.take 3 ≠ ['c', 's', 'v'] := by decide

theorem nodes_start : ∀ n ∈ Scheme.init.nodes, n.start ∈ starts := by decide

theorem relations_start : ∀ x ∈ Scheme.init.relations, x.start ∈ starts := by
  intro x hx
  unfold starts
  exact List.mem_append_right _ (List.mem_map_of_mem hx)

/-- A relation reads exactly the canonical files with its own start. -/
theorem relation_match {digit : Char → Bool} (hd : DigitTable digit) {x : Relation}
    (hx : x ∈ Scheme.init.relations) {X name : String} (hX : X ∈ starts) (h : Canonical digit X name) :
    x.isMatch digit name = true ↔ x.start = X := by
  unfold Relation.isMatch
  constructor
  · intro hm
    obtain ⟨s, hs, hm⟩ := List.any_eq_true.1 hm
    obtain ⟨a, ha⟩ := (List.mem_tails _ _).1 hs
    unfold startMatches at hm
    rw [Bool.and_eq_true] at hm
    obtain ⟨b, hb⟩ := List.isPrefixOf_iff_prefix.1 hm.1
    obtain ⟨t, ht, hn⟩ := h
    apply starts_apart x hx X hX
    rw [occurs_iff]
    refine infix_canonical hd (starts_end X hX) (starts_end _ (relations_start x hx)) ht ⟨a, b, ?_⟩
    rw [← hn, ← ha, ← hb]
    simp
  · rintro rfl
    exact List.any_eq_true.2 ⟨name.toList, (List.mem_tails _ _).2 (List.suffix_refl _), start_canonical h⟩

/-- So does a kind of node. -/
theorem node_match {digit : Char → Bool} (hd : DigitTable digit) {n : Node}
    (hx : n ∈ Scheme.init.nodes) {X name : String} (hX : X ∈ starts) (h : Canonical digit X name) :
    n.isMatch digit name = true ↔ n.start = X := by
  unfold Node.isMatch
  constructor
  · intro hm
    unfold startMatches at hm
    rw [Bool.and_eq_true] at hm
    obtain ⟨b, hb⟩ := List.isPrefixOf_iff_prefix.1 hm.1
    obtain ⟨t, ht, hn⟩ := h
    have hin := infix_canonical hd (starts_end X hX) (starts_end _ (nodes_start n hx)) ht
      ⟨[], b, by rw [← hn, ← hb]; simp⟩
    have hle := hin.length_le
    have hpre : n.start.toList <+: X.toList :=
      List.prefix_of_prefix_length_le (l₃ := X.toList ++ t ++ ['.', 'c', 's', 'v']) ⟨b, by rw [hb, hn]⟩
        ⟨t ++ ['.', 'c', 's', 'v'], by simp⟩ hle
    rcases starts_tail n hx X hX (List.isPrefixOf_iff_prefix.2 hpre) with e | ⟨c, hc, h1, h2, h3⟩
    · exact e
    · exfalso
      obtain ⟨R, hR⟩ := hpre
      rw [← hR, List.drop_left] at h1 h2 h3
      have hm2 := hm.2
      rw [hn, ← hR, List.append_assoc, List.append_assoc, List.drop_left] at hm2
      match R, h1, h2, h3 with
      | c0 :: c1 :: c2 :: c3 :: r, h1, h2, h3 =>
        cases h1
        rw [List.cons_append, tailMatches] at hm2
        have hno : ∀ c ∈ "abcdefghijklmnopqrstuvwxyz".toList, c ≠ '_' := by decide
        simp [hd c hc, hno c hc, List.isPrefixOf] at hm2
        simp at h3
        exact h3 hm2.2.1.symm hm2.2.2.1.symm hm2.2.2.2.symm
  · rintro rfl
    exact start_canonical h

/-! ### How many records -/

theorem sum_swap {X Y : Type} (f : X → Y → Nat) (xs : List X) (ys : List Y) :
    (xs.map (fun x => (ys.map (f x)).sum)).sum = (ys.map (fun y => (xs.map (fun x => f x y)).sum)).sum := by
  induction xs with
  | nil => simp
  | cons x xs ih =>
    rw [List.map_cons, List.sum_cons, ih]
    clear ih
    induction ys with
    | nil => rfl
    | cons y ys ih2 => simp only [List.map_cons, List.sum_cons] at ih2 ⊢; omega

theorem sum_const {X : Type} (p : X → Bool) (n : Nat) (xs : List X) :
    (xs.map (fun x => if p x then n else 0)).sum = n * (xs.filter p).length := by
  induction xs with
  | nil => rfl
  | cons x xs ih =>
    rw [List.map_cons, List.sum_cons, ih, List.filter_cons]
    cases p x
    · simp
    · simp [Nat.mul_add]; omega

theorem edges_count (digit : Char → Bool) (s : Scheme) (files : List File) :
    ((events digit s files).filter Event.isEdge).length =
      (files.map (fun f => (body s.delimiter f.bytes).length *
        (s.relations.filter (fun x => x.isMatch digit f.name)).length)).sum := by
  unfold events
  rw [List.filter_append, List.length_append]
  have e1 : (s.nodes.flatMap (fun n => (files.filter (fun f => n.isMatch digit f.name)).flatMap
      (fun f => (body s.delimiter f.bytes).map (nodeEvent n)))).filter Event.isEdge = [] := by
    rw [List.filter_eq_nil_iff]
    intro e he
    simp only [List.mem_flatMap, List.mem_map] at he
    obtain ⟨n, -, f, -, r, -, rfl⟩ := he
    simp [nodeEvent, Event.isEdge]
  have e2 : (s.relations.flatMap (fun x => (files.filter (fun f => x.isMatch digit f.name)).flatMap
      (fun f => (body s.delimiter f.bytes).map (relEvent x)))).filter Event.isEdge =
      s.relations.flatMap (fun x => (files.filter (fun f => x.isMatch digit f.name)).flatMap
      (fun f => (body s.delimiter f.bytes).map (relEvent x))) := by
    rw [List.filter_eq_self]
    intro e he
    simp only [List.mem_flatMap, List.mem_map] at he
    obtain ⟨n, -, f, -, r, -, rfl⟩ := he
    rfl
  rw [e1, e2]
  simp only [List.length_nil, Nat.zero_add, flatMap_filter, List.length_flatMap]
  rw [sum_swap]
  congr 1
  apply List.map_congr_left
  intro f _
  rw [← sum_const]
  congr 1
  apply List.map_congr_left
  intro x _
  split <;> simp

end Ldbc

end Verif
