import Verif.Proof.Ldbc

/-! Rows that cannot be read; what a sequence of records describes; how often a file is read. -/

namespace Verif

open Spec GraphMap

namespace Ldbc

variable {m k : Nat}

/-! ### Bad rows -/

/-- Going through rows of which some may be bad. -/
def go : List (Option Event) → State m k → Res (Option (State m k))
  | [], s => pure (some s)
  | none :: _, _ => pure none
  | some e :: l, s => do
    let s ← evStep s e
    go l s

theorem go_eq (l : List (Option Event)) : ∀ s : State m k,
    go l s = ((before l).foldlM evStep s >>= fun s => pure (if none ∈ l then none else some s)) := by
  induction l with
  | nil => intro s; rfl
  | cons a l ih =>
    intro s
    cases a with
    | none => rw [go, before]; simp [pure_ok, bind_ok]
    | some e =>
      rw [go, before, List.foldlM_cons]
      cases evStep s e with
      | error x => rfl
      | ok s' =>
        rw [bind_ok, bind_ok, ih]
        simp

theorem go_append (l l' : List (Option Event)) : ∀ s : State m k,
    go (l ++ l') s = (go l s >>= fun o => match o with
      | none => pure none
      | some s => go l' s) := by
  induction l with
  | nil => intro s; rfl
  | cons a l ih =>
    intro s
    cases a with
    | none => rfl
    | some e =>
      rw [List.cons_append, go, go]
      cases evStep s e with
      | error x => rfl
      | ok s' => rw [bind_ok, bind_ok, ih]

theorem feed_go {f : Record → State m k → Res (State m k)} {ev : Record → Event} {P : Record → Prop}
    [DecidablePred P] : ∀ (rs : List Record) (s : State m k),
    (∀ r ∈ rs, P r → ∀ s, f r s = evStep s (ev r)) →
    feed f (rs.map (fun r => if P r then some r else none)) s =
      go (rs.map (fun r => if P r then some (ev r) else none)) s := by
  intro rs
  induction rs with
  | nil => intro s _; rfl
  | cons r rs ih =>
    intro s h
    rw [List.map_cons, List.map_cons]
    by_cases hr : P r
    · rw [if_pos hr, if_pos hr, feed, go, h r (by simp) hr]
      cases evStep s (ev r) with
      | error e => rfl
      | ok s' =>
        rw [bind_ok, bind_ok]
        exact ih s' (fun r hr => h r (by simp [hr]))
    · rw [if_neg hr, if_neg hr]; rfl

theorem loop_go {X : Type} {f : X → State m k → Res (Option (State m k))} {ev : X → List (Option Event)} :
    ∀ (xs : List X) (s : State m k), (∀ x ∈ xs, ∀ s, f x s = go (ev x) s) →
    loop f xs s = go (xs.flatMap ev) s := by
  intro xs
  induction xs with
  | nil => intro s _; rfl
  | cons x xs ih =>
    intro s h
    rw [loop, List.flatMap_cons, go_append, h x (by simp)]
    cases go (ev x) s with
    | error e => rfl
    | ok o =>
      cases o with
      | none => rfl
      | some s' => exact ih s' (fun x hx => h x (by simp [hx]))

theorem records_ok (utf8 : Text → Bool) (sep : Byte) (bytes : List Byte) :
    records utf8 sep bytes = (body sep bytes).map (fun r =>
      if RowOk utf8 sep bytes r then some r else none) := by
  rw [records_eq]
  apply List.map_congr_left
  intro r _
  unfold RowOk
  simp only [List.all_eq_true]

theorem body_header {sep : Byte} {bytes : List Byte} {r : Record} (h : r ∈ body sep bytes) :
    (Csv.parse sep bytes).head? = some ((Csv.parse sep bytes).headD []) := by
  unfold body at h
  cases hp : Csv.parse sep bytes with
  | nil => rw [hp] at h; cases h
  | cons a l => rfl

/-- Loading a directory is going through its rows up to the first bad one. -/
theorem fromPath_reads {digit : Char → Bool} (utf8 : Text → Bool) {s : Scheme} {files : List File}
    (h : Columns digit s files) (d : Bool) :
    (s.fromPath digit utf8 d (some files) : Res (Option (GraphMap m k Text Text))) =
      ((before (reads digit utf8 s files)).foldlM evStep (⟨GraphMap.new d, []⟩ : State m k) >>=
        fun st => pure (if none ∈ reads digit utf8 s files then none else some st.graph)) := by
  have e : (s.fromPath digit utf8 d (some files) : Res (Option (GraphMap m k Text Text))) =
      (go (reads digit utf8 s files) (⟨GraphMap.new d, []⟩ : State m k) >>= fun o => pure (o.map (·.graph))) := by
    unfold Scheme.fromPath reads
    simp only [flatMap_filter]
    rw [go_append, loop_go (ev := fun n => files.flatMap (fun f => if n.isMatch digit f.name then
        (body s.delimiter f.bytes).map (fun r =>
          if RowOk utf8 s.delimiter f.bytes r then some (nodeEvent n r) else none) else []))]
    · cases go (s.nodes.flatMap _) (⟨GraphMap.new d, []⟩ : State m k) with
      | error e => rfl
      | ok o =>
        cases o with
        | none => rfl
        | some st =>
          simp only [bind_ok]
          rw [loop_go (ev := fun x => files.flatMap (fun f => if x.isMatch digit f.name then
            (body s.delimiter f.bytes).map (fun r =>
              if RowOk utf8 s.delimiter f.bytes r then some (relEvent x r) else none) else []))]
          intro x hx st
          apply loop_go
          intro f hf st
          split
          · rename_i hm
            rw [records_ok]
            apply feed_go
            intro r hr hp st
            have := h.2 x hx f hf hm _ (body_header hr)
            rw [← hp.1] at this
            exact addEdge_ev x st this.1 this.2
          · rfl
    · intro n hn st
      apply loop_go
      intro f hf st
      split
      · rename_i hm
        rw [records_ok]
        apply feed_go
        intro r hr hp st
        have := h.1 n hn f hf hm _ (body_header hr)
        rw [← hp.1] at this
        exact addNode_ev n st this.1 this.2
      · rfl
  rw [e, go_eq]
  cases (before _).foldlM evStep (⟨GraphMap.new d, []⟩ : State m k) with
  | error x => rfl
  | ok st =>
    simp only [bind_ok, pure_ok]
    split <;> rfl

theorem before_all {l : List (Option Event)} (h : none ∉ l) : (before l).map some = l := by
  induction l with
  | nil => rfl
  | cons a l ih =>
    cases a with
    | none => simp at h
    | some e => rw [before, List.map_cons, ih (fun hc => h (by simp [hc]))]

theorem flatMap_some {X : Type} {f : X → List (Option Event)} {g : X → List Event} {l : List X}
    (h : none ∉ l.flatMap f) (hx : ∀ x ∈ l, none ∉ f x → f x = (g x).map some) :
    l.flatMap f = (l.flatMap g).map some := by
  induction l with
  | nil => rfl
  | cons a l ih =>
    rw [List.flatMap_cons, List.mem_append, not_or] at h
    rw [List.flatMap_cons, List.flatMap_cons, List.map_append,
      ih h.2 (fun x hm => hx x (by simp [hm])), hx a (by simp) h.1]

theorem map_rows {f : Record → Event} {P : Record → Prop} [DecidablePred P] {l : List Record}
    (h : none ∉ l.map (fun r => if P r then some (f r) else none)) :
    l.map (fun r => if P r then some (f r) else none) = (l.map f).map some := by
  rw [List.map_map]
  apply List.map_congr_left
  intro r hr
  by_cases hp : P r
  · rw [if_pos hp]; rfl
  · exfalso; apply h; rw [List.mem_map]; exact ⟨r, hr, if_neg hp⟩

/-- Without bad rows the events are all rows. -/
theorem before_reads {digit : Char → Bool} {utf8 : Text → Bool} {s : Scheme} {files : List File}
    (h : none ∉ reads digit utf8 s files) : before (reads digit utf8 s files) = events digit s files := by
  have e : reads digit utf8 s files = (events digit s files).map some := by
    unfold reads events
    unfold reads at h
    rw [List.mem_append, not_or] at h
    rw [List.map_append]
    congr 1
    · refine flatMap_some h.1 (fun n _ hn => ?_)
      refine flatMap_some hn (fun f _ hf => ?_)
      exact map_rows hf
    · refine flatMap_some h.2 (fun n _ hn => ?_)
      refine flatMap_some hn (fun f _ hf => ?_)
      exact map_rows hf
  rw [e]
  generalize events digit s files = l
  induction l with
  | nil => rfl
  | cons a l ih => rw [List.map_cons, before, ih]

/-! ### What records describe -/

theorem described_snoc (d : Bool) (es : List Event) (e : Event) :
    described d (es ++ [e]) = e.apply d (described d es) := by
  unfold described
  rw [List.foldl_append]
  rfl

theorem firsts_snoc (es : List Event) (e : Event) :
    firsts (es ++ [e]) = e.keys.foldl mention (firsts es) := by
  unfold firsts
  rw [List.flatMap_append, List.foldl_append]
  simp

theorem foldl_mention_mem (l : List Text) : ∀ (ks : List Text) (a : Text),
    a ∈ l.foldl mention ks ↔ a ∈ ks ∨ a ∈ l := by
  induction l with
  | nil => intro ks a; simp
  | cons b l ih => intro ks a; rw [List.foldl_cons, ih, mention_mem, List.mem_cons, or_assoc]

theorem foldl_mention_nodup (l : List Text) : ∀ (ks : List Text), ks.Nodup → (l.foldl mention ks).Nodup := by
  induction l with
  | nil => intro ks h; exact h
  | cons b l ih => intro ks h; exact ih _ (mention_nodup h b)

theorem foldl_mention_prefix (l : List Text) : ∀ ks : List Text, ks <+: l.foldl mention ks := by
  induction l with
  | nil => intro ks; exact List.prefix_refl _
  | cons b l ih =>
    intro ks
    refine List.IsPrefix.trans ?_ (ih (mention ks b))
    unfold mention
    split
    · exact List.prefix_refl _
    · exact List.prefix_append _ _

theorem meet_node (A : AGraph Text Text Text) (key kind x : Text) :
    (meet A key kind).node x = if x = key ∧ A.node key = none then some (some kind) else A.node x := by
  unfold meet
  cases h : A.node key with
  | none =>
    simp only [Option.isSome_none, Bool.false_eq_true, if_false, and_true]
    unfold AGraph.addNode
    simp only
  | some l => simp

theorem meet_edge (A : AGraph Text Text Text) (key kind x y : Text) :
    (meet A key kind).edge x y = A.edge x y := by
  unfold meet
  split <;> rfl

theorem edge_apply_node (d : Bool) (A : AGraph Text Text Text) (s ks t kt l x : Text) :
    ((Event.edge s ks t kt l).apply d A).node x =
      (A.node x).or ((Event.kind x (.edge s ks t kt l)).map some) := by
  show (if (x = s ∨ x = t) ∧ (meet (meet A s ks) t kt).node x = none then some none
    else (meet (meet A s ks) t kt).node x) = _
  simp only [meet_node, Event.kind]
  by_cases hs : x = s
  · subst hs
    cases hx : A.node x with
    | some y =>
      by_cases ht : x = t
      · subst ht; simp [hx]
      · simp [hx, ht]
    | none =>
      by_cases ht : x = t
      · subst ht; simp [hx]
      · simp [hx, ht]
  · by_cases ht : x = t
    · subst ht
      cases hx : A.node x with
      | some y => simp [hx, hs]
      | none => simp [hx, hs, Ne.symm hs]
    · cases hx : A.node x with
      | some y => simp [hx, hs, ht]
      | none => simp [hx, hs, ht, Ne.symm hs, Ne.symm ht]

theorem edge_apply_edge (d : Bool) (A : AGraph Text Text Text) (s ks t kt l a b : Text) :
    ((Event.edge s ks t kt l).apply d A).edge a b =
      if AGraph.same d s t a b then some (some l) else A.edge a b := by
  show (if AGraph.same d s t a b then some (some l) else (meet (meet A s ks) t kt).edge a b) = _
  rw [meet_edge, meet_edge]

/-- Labels of nodes: the last node record, or the kind in the first relation record. -/
theorem described_node (d : Bool) (es : List Event) (x : Text) :
    (described d es).node x =
      ((es.reverse.findSome? (Event.names x)).or (es.findSome? (Event.kind x))).map some := by
  induction es using List.reverseRecOn with
  | nil => rfl
  | append_singleton es e ih =>
    rw [described_snoc, List.reverse_append, List.reverse_singleton, List.singleton_append,
      List.findSome?_cons, List.findSome?_append]
    cases e with
    | node key l =>
      show (if x = key then some (some l) else (described d es).node x) = _
      rw [ih]
      by_cases h : x = key
      · subst h; simp [Event.names]
      · simp [Event.names, Event.kind, h, Ne.symm h]
    | edge s ks t kt l =>
      rw [edge_apply_node, ih]
      simp only [Event.names, List.findSome?_cons, List.findSome?_nil]
      cases es.reverse.findSome? (Event.names x) <;> cases es.findSome? (Event.kind x) <;>
        cases Event.kind x (.edge s ks t kt l) <;> rfl

/-- Labels of edges: the last relation record. -/
theorem described_edge (d : Bool) (es : List Event) (a b : Text) :
    (described d es).edge a b = (es.reverse.findSome? (Event.joins d a b)).map some := by
  induction es using List.reverseRecOn with
  | nil => rfl
  | append_singleton es e ih =>
    rw [described_snoc, List.reverse_append, List.reverse_singleton, List.singleton_append,
      List.findSome?_cons]
    cases e with
    | node key l => exact ih
    | edge s ks t kt l =>
      rw [edge_apply_edge, ih]
      simp only [Event.joins]
      by_cases h : AGraph.same d s t a b
      · rw [if_pos h, if_pos h]; rfl
      · rw [if_neg h, if_neg h]

/-- Records of relations with one label tell nothing new the second time. -/
theorem described_twice (d : Bool) (A E B : List Event) (l : Text)
    (h : ∀ e ∈ E, ∃ s ks t kt, e = .edge s ks t kt l) :
    described d (A ++ (E ++ E) ++ B) = described d (A ++ E ++ B) := by
  have hn : ∀ x, E.reverse.findSome? (Event.names x) = none := by
    intro x
    rw [List.findSome?_eq_none_iff]
    intro e he
    obtain ⟨s, ks, t, kt, rfl⟩ := h e (List.mem_reverse.1 he)
    rfl
  have hj : ∀ a b y, E.reverse.findSome? (Event.joins d a b) = some y → y = l := by
    intro a b y hy
    obtain ⟨e, he, hy⟩ := List.exists_of_findSome?_eq_some hy
    obtain ⟨s, ks, t, kt, rfl⟩ := h e (List.mem_reverse.1 he)
    simp only [Event.joins] at hy
    split at hy
    · cases hy; rfl
    · cases hy
  apply GraphMap.AGraph_ext
  · intro x
    rw [described_node, described_node]
    simp only [List.reverse_append, List.findSome?_append, hn, List.append_assoc]
    congr 1
    congr 1
    cases List.findSome? (Event.kind x) A <;> cases List.findSome? (Event.kind x) E <;> rfl
  · intro a b
    rw [described_edge, described_edge]
    simp only [List.reverse_append, List.findSome?_append]
    cases List.findSome? (Event.joins d a b) B.reverse <;>
      cases List.findSome? (Event.joins d a b) E.reverse <;> rfl

/-- … and no new keys. -/
theorem firsts_twice (A E B : List Event) : firsts (A ++ (E ++ E) ++ B) = firsts (A ++ E ++ B) := by
  unfold firsts
  simp only [List.flatMap_append, List.foldl_append]
  congr 1
  have : ∀ (l : List Text) (ks : List Text), (∀ a ∈ l, a ∈ ks) → l.foldl mention ks = ks := by
    intro l
    induction l with
    | nil => intro ks _; rfl
    | cons a l ih =>
      intro ks hk
      have e : mention ks a = ks := if_pos (hk a (by simp))
      rw [List.foldl_cons, e]
      exact ih ks (fun b hb => hk b (by simp [hb]))
  exact this _ _ (fun a ha => (foldl_mention_mem _ _ _).2 (.inr ha))

theorem twice_twice (d : Bool) (N : List Event) (R : Relation → List Event)
    (hR : ∀ x, ∀ e ∈ R x, ∃ s ks t kt, e = .edge s ks t kt (ascii x.edgeLabel)) (A B C : List Relation)
    (x y : Relation) :
    described d (N ++ (A ++ ([x] ++ [x]) ++ (B ++ ([y] ++ [y]) ++ C)).flatMap R) =
      described d (N ++ (A ++ [x] ++ (B ++ [y] ++ C)).flatMap R) ∧
    firsts (N ++ (A ++ ([x] ++ [x]) ++ (B ++ ([y] ++ [y]) ++ C)).flatMap R) =
      firsts (N ++ (A ++ [x] ++ (B ++ [y] ++ C)).flatMap R) := by
  have e : ∀ x, [x].flatMap R = R x := fun x => by simp
  have p1 : N ++ (A ++ ([x] ++ [x]) ++ (B ++ ([y] ++ [y]) ++ C)).flatMap R =
      (N ++ A.flatMap R) ++ (R x ++ R x) ++ (B ++ ([y] ++ [y]) ++ C).flatMap R := by
    simp only [List.flatMap_append, e, List.append_assoc]
  have p2 : (N ++ A.flatMap R) ++ R x ++ (B ++ ([y] ++ [y]) ++ C).flatMap R =
      (N ++ A.flatMap R ++ R x ++ B.flatMap R) ++ (R y ++ R y) ++ C.flatMap R := by
    simp only [List.flatMap_append, e, List.append_assoc]
  have p3 : (N ++ A.flatMap R ++ R x ++ B.flatMap R) ++ R y ++ C.flatMap R =
      N ++ (A ++ [x] ++ (B ++ [y] ++ C)).flatMap R := by
    simp only [List.flatMap_append, e, List.append_assoc]
  constructor
  · rw [p1, described_twice d _ _ _ _ (hR x), p2, described_twice d _ _ _ _ (hR y), p3]
  · rw [p1, firsts_twice, p2, firsts_twice, p3]

end Ldbc

end Verif
