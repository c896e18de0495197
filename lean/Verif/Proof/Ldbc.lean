import Verif.Spec.Ldbc
import Verif.Proof.Build
import Verif.Proof.SetOps

/-! Loading LDBC data. -/

namespace Verif

open Spec GraphMap

namespace Ldbc

variable {m k : Nat}

/-- One record, seen as an event. -/
def evStep (s : State m k) : Event → Res (State m k)
  | .node key l => do
    let p ← (match AL.get s.ids key with
      | some i => pure (i, s.ids)
      | none => do
        let i ← nextId s.graph
        pure (i, AL.hinsert s.ids key i) : Res (Id m × List (Text × Id m)))
    let q ← s.graph.addNode p.1 (some l)
    pure ⟨q.1, p.2⟩
  | .edge a ka b kb l => do
    let p ← entry' a ka s
    let q ← entry' b kb p.1
    let e ← q.1.graph.addEdge p.2 q.2 (some l)
    pure { q.1 with graph := e.1 }
where
  /-- `entry` with the label given. -/
  entry' (key kind : Text) (s : State m k) : Res (State m k × Id m) :=
    match AL.get s.ids key with
    | some i => pure (s, i)
    | none => do
      let i ← nextId s.graph
      let q ← s.graph.addNode i (some kind)
      pure (⟨q.1, AL.hinsert s.ids key i⟩, i)

theorem field_ok {r : Record} {i : Nat} (h : i < r.length) : field r i = .ok (r.getD i []) := by
  unfold field
  rw [List.getElem?_eq_getElem h]
  simp [List.getD, h]
  rfl

theorem field_lt {r : Record} {i : Nat} {f : Text} (h : field r i = .ok f) : i < r.length := by
  unfold field at h
  by_cases hi : i < r.length
  · exact hi
  · rw [List.getElem?_eq_none (by omega)] at h
    cases h

theorem addNode_ev (n : Node) {r : Record} (s : State m k) (h1 : n.idIndex < r.length)
    (h2 : n.labelIndex < r.length) : n.addNode r s = evStep s (nodeEvent n r) := by
  unfold Node.addNode nodeEvent evStep
  rw [field_ok h1, field_ok h2, bind_ok]
  simp only [bind_ok]
  rfl

theorem addNode_bounds {n : Node} {r : Record} {s s' : State m k} (h : n.addNode r s = .ok s') :
    n.idIndex < r.length ∧ n.labelIndex < r.length := by
  unfold Node.addNode at h
  obtain ⟨f, h1, h⟩ := bind_eq_ok h
  obtain ⟨p, -, h⟩ := bind_eq_ok h
  obtain ⟨l, h2, h⟩ := bind_eq_ok h
  exact ⟨field_lt h1, field_lt h2⟩

theorem addEdge_ev (x : Relation) {r : Record} (s : State m k) (h1 : x.startIndex < r.length)
    (h2 : x.targetIndex < r.length) : x.addEdge r s = evStep s (relEvent x r) := by
  unfold Relation.addEdge relEvent evStep
  rw [field_ok h1, field_ok h2, bind_ok, bind_ok]
  rfl

theorem addEdge_bounds {x : Relation} {r : Record} {s s' : State m k} (h : x.addEdge r s = .ok s') :
    x.startIndex < r.length ∧ x.targetIndex < r.length := by
  unfold Relation.addEdge at h
  obtain ⟨f, h1, h⟩ := bind_eq_ok h
  obtain ⟨l, h2, h⟩ := bind_eq_ok h
  exact ⟨field_lt h1, field_lt h2⟩

/-! ### Loops -/

theorem records_eq (utf8 : Text → Bool) (sep : Byte) (bytes : List Byte) :
    records utf8 sep bytes = (body sep bytes).map (fun r =>
      if r.length = ((Csv.parse sep bytes).headD []).length ∧ r.all utf8 = true then some r else none) := by
  unfold records body
  cases Csv.parse sep bytes <;> rfl

theorem feed_good {f : Record → State m k → Res (State m k)} {ev : Record → Event} :
    ∀ (rs : List Record) (s : State m k), (∀ r ∈ rs, ∀ s, f r s = evStep s (ev r)) →
    feed f (rs.map some) s = (some <$> (rs.map ev).foldlM evStep s) := by
  intro rs
  induction rs with
  | nil => intro s _; rfl
  | cons r rs ih =>
    intro s h
    rw [List.map_cons, feed, List.map_cons, List.foldlM_cons, h r (by simp)]
    cases evStep s (ev r) with
    | error e => rfl
    | ok s' =>
      rw [bind_ok, bind_ok]
      exact ih s' (fun r hr => h r (by simp [hr]))

theorem feed_bad {f : Record → State m k → Res (State m k)} {P : Record → Prop}
    (hP : ∀ r s s', f r s = .ok s' → P r) : ∀ (rs : List (Option Record)) (s s' : State m k),
    feed f rs s = .ok (some s') → ∀ r ∈ rs, ∃ x, r = some x ∧ P x := by
  intro rs
  induction rs with
  | nil => intro _ _ _ _ h; cases h
  | cons r rs ih =>
    intro s s' h
    cases r with
    | none => rw [feed] at h; cases h
    | some r =>
      rw [feed] at h
      obtain ⟨s1, h1, h2⟩ := bind_eq_ok h
      intro x hx
      rcases List.mem_cons.1 hx with rfl | hx
      · exact ⟨r, rfl, hP r s s1 h1⟩
      · exact ih s1 s' h2 x hx

theorem loop_good {X : Type} {f : X → State m k → Res (Option (State m k))} {ev : X → List Event} :
    ∀ (xs : List X) (s : State m k), (∀ x ∈ xs, ∀ s, f x s = some <$> (ev x).foldlM evStep s) →
    loop f xs s = (some <$> (xs.flatMap ev).foldlM evStep s) := by
  intro xs
  induction xs with
  | nil => intro s _; rfl
  | cons x xs ih =>
    intro s h
    rw [loop, List.flatMap_cons, List.foldlM_append, h x (by simp)]
    cases (ev x).foldlM evStep s with
    | error e => rfl
    | ok s' => exact ih s' (fun x hx => h x (by simp [hx]))

theorem loop_bad {X : Type} {f : X → State m k → Res (Option (State m k))} {P : X → Prop}
    (hP : ∀ x s s', f x s = .ok (some s') → P x) : ∀ (xs : List X) (s s' : State m k),
    loop f xs s = .ok (some s') → ∀ x ∈ xs, P x := by
  intro xs
  induction xs with
  | nil => intro _ _ _ _ h; cases h
  | cons x xs ih =>
    intro s s' h
    rw [loop] at h
    obtain ⟨o, h1, h2⟩ := bind_eq_ok h
    cases o with
    | none => cases h2
    | some s1 =>
      intro y hy
      rcases List.mem_cons.1 hy with rfl | hy
      · exact hP y s s1 h1
      · exact ih s1 s' h2 y hy

theorem flatMap_filter {X Y : Type} (p : X → Bool) (f : X → List Y) (l : List X) :
    (l.filter p).flatMap f = l.flatMap (fun x => if p x then f x else []) := by
  induction l with
  | nil => rfl
  | cons a l ih =>
    rw [List.filter_cons, List.flatMap_cons]
    cases p a <;> simp [ih]

theorem records_good {utf8 : Text → Bool} {sep : Byte} {i j : Nat} {bytes : List Byte}
    (h : Readable utf8 sep i j bytes) : records utf8 sep bytes = (body sep bytes).map some := by
  rw [records_eq]
  apply List.map_congr_left
  intro r hr
  obtain ⟨h1, h2, -⟩ := h r hr
  rw [if_pos ⟨h1, List.all_eq_true.2 h2⟩]

/-- Loading a readable directory is going through its events. -/
theorem fromPath_good {digit : Char → Bool} {utf8 : Text → Bool} {s : Scheme} {files : List File}
    (h : AllReadable digit utf8 s files) (d : Bool) :
    (s.fromPath digit utf8 d (some files) : Res (Option (GraphMap m k Text Text))) =
      ((events digit s files).foldlM evStep (⟨GraphMap.new d, []⟩ : State m k) >>=
        fun st => pure (some st.graph)) := by
  unfold Scheme.fromPath events
  simp only [flatMap_filter]
  rw [loop_good (ev := fun n => files.flatMap (fun f => if n.isMatch digit f.name then
      (body s.delimiter f.bytes).map (nodeEvent n) else [])), List.foldlM_append]
  · cases (s.nodes.flatMap _).foldlM evStep (⟨GraphMap.new d, []⟩ : State m k) with
    | error e => rfl
    | ok st =>
      simp only [Functor.map, Except.map, bind_ok]
      rw [loop_good (ev := fun x => files.flatMap (fun f => if x.isMatch digit f.name then
        (body s.delimiter f.bytes).map (relEvent x) else []))]
      · cases (s.relations.flatMap _).foldlM evStep st <;> rfl
      · intro x hx st
        apply loop_good
        intro f hf st
        split
        · rename_i hm
          have hr := h.2 x hx f hf hm
          rw [records_good hr]
          apply feed_good
          intro r hrr st
          exact addEdge_ev x st (hr r hrr).2.2.1 (hr r hrr).2.2.2
        · rfl
  · intro n hn st
    apply loop_good
    intro f hf st
    split
    · rename_i hm
      have hr := h.1 n hn f hf hm
      rw [records_good hr]
      apply feed_good
      intro r hrr st
      exact addNode_ev n st (hr r hrr).2.2.1 (hr r hrr).2.2.2
    · rfl

theorem readable_of_records {utf8 : Text → Bool} {sep : Byte} {i j : Nat} {bytes : List Byte}
    (h : ∀ r ∈ records utf8 sep bytes, ∃ x, r = some x ∧ (i < x.length ∧ j < x.length)) :
    Readable utf8 sep i j bytes := by
  intro r hr
  rw [records_eq] at h
  obtain ⟨x, hx, h1⟩ := h _ (List.mem_map_of_mem hr)
  split at hx
  · rename_i hc
    cases hx
    exact ⟨hc.1, List.all_eq_true.1 hc.2, h1⟩
  · cases hx

/-- A directory that is loaded is readable. -/
theorem fromPath_readable {digit : Char → Bool} {utf8 : Text → Bool} {s : Scheme} {files : List File}
    {d : Bool} {g : GraphMap m k Text Text} (h : s.fromPath digit utf8 d (some files) = .ok (some g)) :
    AllReadable digit utf8 s files := by
  unfold Scheme.fromPath at h
  simp only at h
  obtain ⟨o, h1, h2⟩ := bind_eq_ok h
  cases o with
  | none => cases h2
  | some s1 =>
    obtain ⟨o, h3, h4⟩ := bind_eq_ok h2
    cases o with
    | none => cases h4
    | some s2 =>
      constructor
      · intro n hn
        refine loop_bad (P := fun n : Node => ∀ f ∈ files, n.isMatch digit f.name = true →
          Readable utf8 s.delimiter n.idIndex n.labelIndex f.bytes) ?_ _ _ _ h1 n hn
        intro n st st' hl
        refine loop_bad (P := fun f : File => n.isMatch digit f.name = true →
          Readable utf8 s.delimiter n.idIndex n.labelIndex f.bytes) ?_ _ _ _ hl
        intro f st st' hf hm
        rw [if_pos hm] at hf
        exact readable_of_records (feed_bad
          (P := fun x => n.idIndex < x.length ∧ n.labelIndex < x.length)
          (fun r a b => addNode_bounds) _ _ _ hf)
      · intro n hn
        refine loop_bad (P := fun n : Relation => ∀ f ∈ files, n.isMatch digit f.name = true →
          Readable utf8 s.delimiter n.startIndex n.targetIndex f.bytes) ?_ _ _ _ h3 n hn
        intro n st st' hl
        refine loop_bad (P := fun f : File => n.isMatch digit f.name = true →
          Readable utf8 s.delimiter n.startIndex n.targetIndex f.bytes) ?_ _ _ _ hl
        intro f st st' hf hm
        rw [if_pos hm] at hf
        exact readable_of_records (feed_bad
          (P := fun x => n.startIndex < x.length ∧ n.targetIndex < x.length)
          (fun r a b => addEdge_bounds) _ _ _ hf)

/-! ### Ids -/

theorem mention_mem (ks : List Text) (key a : Text) : a ∈ mention ks key ↔ a ∈ ks ∨ a = key := by
  unfold mention
  split
  · rename_i h
    constructor
    · exact .inl
    · rintro (h' | rfl)
      · exact h'
      · exact h
  · simp

theorem mention_nodup {ks : List Text} (h : ks.Nodup) (key : Text) : (mention ks key).Nodup := by
  unfold mention
  split
  · exact h
  · rename_i hk
    rw [List.nodup_append]
    exact ⟨h, by simp, by rintro a ha b hb rfl; simp at hb; exact hk (hb ▸ ha)⟩

theorem mention_get {ks : List Text} {key a : Text} {x : Nat} (h : ks[x]? = some a) :
    (mention ks key)[x]? = some a := by
  unfold mention
  split
  · exact h
  · rw [List.getElem?_append_left (List.getElem?_eq_some_iff.1 h).1]; exact h

theorem mention_get_ne {ks : List Text} {key a : Text} {x : Nat} (h : (mention ks key)[x]? = some a)
    (hne : a ≠ key) : ks[x]? = some a := by
  unfold mention at h
  split at h
  · exact h
  · by_cases hx : x < ks.length
    · rwa [List.getElem?_append_left hx] at h
    · rw [List.getElem?_append_right (by omega)] at h
      have := List.mem_of_getElem? h
      simp at this
      exact absurd this hne

theorem get_inj {ks : List Text} (h : ks.Nodup) {a : Text} {x y : Nat} (hx : ks[x]? = some a)
    (hy : ks[y]? = some a) : x = y := by
  obtain ⟨h1, e1⟩ := List.getElem?_eq_some_iff.1 hx
  obtain ⟨h2, e2⟩ := List.getElem?_eq_some_iff.1 hy
  exact (List.Nodup.getElem_inj_iff h).1 (e1.trans e2.symm)

/-- What holds while loading: `ks` are the keys so far, `A` is the graph over keys, `ops` are the calls made. -/
structure LInv (d : Bool) (nl el : List Text) (n : Nat) (ks : List Text) (A : AGraph Text Text Text)
    (st : State m k) (ops : List (Op m k Text Text)) : Prop where
  run : (new d : GraphMap m k Text Text).exec ops = .ok st.graph
  adds : ∀ op ∈ ops, op.isAdd = true
  nlabs : ∀ op ∈ ops, ∀ x, op.nodeLab = some x → x ∈ nl
  elabs : ∀ op ∈ ops, ∀ x, op.edgeLab = some x → x ∈ el
  count : (ops.filter Op.addsEdge).length = n
  nodup : ks.Nodup
  len : ks.length ≤ m + 1
  ids : ∀ key, AL.get st.ids key = (ks.idxOf? key).map Id.new
  low : ∀ i ∈ ops.flatMap touched, i.val < ks.length
  all : ∀ i : Id m, i.val < ks.length → i ∈ ops.flatMap touched
  node : ∀ i : Id m, (Spec.run d ops).node i = (ks[i.val]?).bind A.node
  edge : ∀ i j : Id m, (Spec.run d ops).edge i j =
    (ks[i.val]?).bind fun a => (ks[j.val]?).bind fun b => A.edge a b
  mem : ∀ a, (A.node a).isSome = true ↔ a ∈ ks
  ends : ∀ a b, (A.edge a b).isSome = true → a ∈ ks ∧ b ∈ ks

section inv

variable {d : Bool} {nl el : List Text} {n : Nat} {ks : List Text} {A : AGraph Text Text Text}
  {st : State m k} {ops : List (Op m k Text Text)}

theorem LInv.max (h : LInv d nl el n ks A st ops) :
    (ks = [] → st.graph.maxSeenId = none) ∧
    (ks ≠ [] → ∃ x, st.graph.maxSeenId = some x ∧ x.val + 1 = ks.length) := by
  have hm := run_isMax List.nodup_nil List.nodup_nil (exec_run h.run)
  unfold maxSeenId
  constructor
  · intro hk
    cases hx : st.graph.maxId with
    | none => rfl
    | some x =>
      have := h.low x (hm.2 x hx).1
      rw [hk] at this
      simp at this
  · intro hk
    have hpos : 0 < ks.length := List.length_pos_iff.2 hk
    have hlen := h.len
    have hl := h.all ⟨ks.length - 1, by omega⟩ (by show ks.length - 1 < _; omega)
    cases hx : st.graph.maxId with
    | none =>
      rw [hm.1 hx] at hl
      cases hl
    | some x =>
      refine ⟨x, rfl, ?_⟩
      obtain ⟨a1, a2⟩ := hm.2 x hx
      have b1 := h.low x a1
      have b2 : ks.length - 1 ≤ x.val := a2 _ hl
      omega

theorem LInv.next (h : LInv d nl el n ks A st ops) (hm : 0 < m) (hk : ks.length < m + 1) :
    nextId st.graph = .ok (Id.new ks.length) := by
  unfold nextId
  by_cases h0 : ks = []
  · rw [h.max.1 h0, h0]; rfl
  · obtain ⟨x, hx, hl⟩ := h.max.2 h0
    rw [hx]
    simp only
    unfold Id.increment
    rw [if_neg (by omega), dif_pos (by omega)]
    congr 1
    apply Fin.ext
    show x.val + 1 = ks.length % (m + 1)
    rw [Nat.mod_eq_of_lt hk, hl]

theorem LInv.next_over (h : LInv d nl el n ks A st ops) (hm : 0 < m) (hk : ks.length = m + 1) :
    nextId st.graph = .error .overflow := by
  unfold nextId
  obtain ⟨x, hx, hl⟩ := h.max.2 (by rintro rfl; simp at hk)
  rw [hx]
  simp only
  unfold Id.increment
  rw [if_neg (by omega), dif_neg (by omega)]

theorem LInv.inv (h : LInv d nl el n ks A st ops) : st.graph.Inv :=
  ((exec_run h.run).reachable List.nodup_nil List.nodup_nil).inv

theorem exec_single {g g' : GraphMap m k Text Text} {op : Op m k Text Text} (h : g.apply op = .ok g') :
    g.exec [op] = .ok g' := by
  unfold exec
  rw [List.foldlM_cons, h, bind_ok]
  rfl

/-- Adding (or relabelling) the node of a key. -/
theorem LInv.addNode (h : LInv d nl el n ks A st ops) (key l : Text) (hl : l ∈ nl) {i : Id m}
    (hi : (mention ks key)[i.val]? = some key) {ids : List (Text × Id m)}
    (hids : ∀ x, AL.get ids x = ((mention ks key).idxOf? x).map Id.new) :
    ∃ g b, st.graph.addNode i (some l) = .ok (g, b) ∧
      LInv d nl el n (mention ks key) (A.addNode key (some l)) ⟨g, ids⟩ (ops ++ [.addNode i (some l)]) := by
  obtain ⟨g, nl', lid, -, h1, -⟩ := addNode_spec h.inv.toNWF i (some l)
  have hnd := mention_nodup h.nodup key
  have hrun : Spec.run d (ops ++ [Op.addNode i (some l)]) = (Spec.run d ops).addNode i (some l) := by
    unfold Spec.run
    rw [List.foldl_append]
    rfl
  have hlow : ∀ x, x < ks.length → x < (mention ks key).length := by
    intro x hx
    unfold mention
    split
    · exact hx
    · rw [List.length_append]; omega
  refine ⟨g, _, h1, ?_⟩
  constructor
  · rw [exec_append, h.run, bind_ok]
    exact exec_single (by unfold apply; simp only [h1, bind_ok]; rfl)
  · intro op ho
    rcases List.mem_append.1 ho with ho | ho
    · exact h.adds op ho
    · rw [List.mem_singleton.1 ho]; rfl
  · intro op ho x hx
    rcases List.mem_append.1 ho with ho | ho
    · exact h.nlabs op ho x hx
    · rw [List.mem_singleton.1 ho] at hx
      cases hx
      exact hl
  · intro op ho x hx
    rcases List.mem_append.1 ho with ho | ho
    · exact h.elabs op ho x hx
    · rw [List.mem_singleton.1 ho] at hx
      cases hx
  · rw [List.filter_append, List.length_append, h.count]; rfl
  · exact hnd
  · unfold mention
    split
    · exact h.len
    · rename_i hk
      have e : mention ks key = ks ++ [key] := if_neg hk
      have h2 : (mention ks key)[ks.length]? = some key := by rw [e]; simp
      have := get_inj hnd h2 hi
      have := i.isLt
      rw [List.length_append, List.length_singleton]
      omega
  · exact hids
  · intro x hx
    rw [List.flatMap_append, List.mem_append] at hx
    rcases hx with hx | hx
    · exact hlow _ (h.low x hx)
    · simp [touched] at hx
      rw [hx]
      exact (List.getElem?_eq_some_iff.1 hi).1
  · intro x hx
    rw [List.flatMap_append, List.mem_append]
    by_cases hxk : x.val < ks.length
    · exact .inl (h.all x hxk)
    · right
      simp only [List.flatMap_cons, List.flatMap_nil, touched, List.append_nil, List.mem_singleton]
      apply Fin.ext
      obtain ⟨y, hy⟩ : ∃ y, (mention ks key)[x.val]? = some y := ⟨_, List.getElem?_eq_getElem hx⟩
      by_cases hyk : y = key
      · subst hyk; exact get_inj hnd hy hi
      · have := mention_get_ne hy hyk
        exact absurd (List.getElem?_eq_some_iff.1 this).1 hxk
  · intro x
    rw [hrun]
    show (if x = i then some (some l) else (Spec.run d ops).node x) =
      ((mention ks key)[x.val]?).bind (fun y => if y = key then some (some l) else A.node y)
    by_cases hx : x = i
    · rw [if_pos hx, hx, hi]; simp
    · rw [if_neg hx, h.node]
      cases hy : (mention ks key)[x.val]? with
      | none =>
        cases hz : ks[x.val]? with
        | none => rfl
        | some z => rw [mention_get hz] at hy; cases hy
      | some y =>
        have hyk : y ≠ key := by
          rintro rfl; exact hx (Fin.ext (get_inj hnd hy hi))
        rw [mention_get_ne hy hyk]
        simp [hyk]
  · intro x y
    rw [hrun]
    show (Spec.run d ops).edge x y = _
    rw [h.edge]
    by_cases hk : key ∈ ks
    · have : mention ks key = ks := if_pos hk
      rw [this]; rfl
    · have hn1 : ∀ b, A.edge key b = none := by
        intro b
        cases he : A.edge key b with
        | none => rfl
        | some l => exact absurd (h.ends key b (by rw [he]; rfl)).1 hk
      have hn2 : ∀ a, A.edge a key = none := by
        intro a
        cases he : A.edge a key with
        | none => rfl
        | some l => exact absurd (h.ends a key (by rw [he]; rfl)).2 hk
      have key1 : ∀ (z : Id m) (F : Text → Option (Option Text)), F key = none →
          (ks[z.val]?).bind F = ((mention ks key)[z.val]?).bind F := by
        intro z F hF
        cases hy : (mention ks key)[z.val]? with
        | none =>
          cases hz : ks[z.val]? with
          | none => rfl
          | some w => rw [mention_get hz] at hy; cases hy
        | some w =>
          by_cases hw : w = key
          · subst hw
            cases hz : ks[z.val]? with
            | none => simp [hF]
            | some v => rw [mention_get hz] at hy; cases hy; rfl
          · rw [mention_get_ne hy hw]
      rw [key1 x _ (by cases ks[y.val]? <;> simp [hn1])]
      congr 1
      funext a
      exact key1 y _ (hn2 a)
  · intro a
    rw [mention_mem]
    show (if a = key then some (some l) else A.node a).isSome = true ↔ _
    split
    · simp [*]
    · rename_i hne; rw [h.mem]; simp [hne]
  · intro a b he
    have := h.ends a b he
    exact ⟨(mention_mem _ _ _).2 (.inl this.1), (mention_mem _ _ _).2 (.inl this.2)⟩

/-- Adding an edge between known keys. -/
theorem LInv.addEdge (h : LInv d nl el n ks A st ops) {a b : Text} {i j : Id m} (ha : ks[i.val]? = some a)
    (hb : ks[j.val]? = some b) (l : Text) (hl : l ∈ el) :
    ∃ g r, st.graph.addEdge i j (some l) = .ok (g, r) ∧
      LInv d nl el (n + 1) ks (A.addEdge d a b (some l)) ⟨g, st.ids⟩ (ops ++ [.addEdge i j (some l)]) := by
  obtain ⟨g, el', lid, -, h1, -⟩ := addEdge_spec h.inv.toNWF i j (some l)
  have hrun : Spec.run d (ops ++ [Op.addEdge i j (some l)]) = (Spec.run d ops).addEdge d i j (some l) := by
    unfold Spec.run
    rw [List.foldl_append]
    rfl
  have hsome : ∀ {x : Id m} {y : Text}, ks[x.val]? = some y → (A.node y).isSome = true :=
    fun hx => (h.mem _).2 (List.mem_of_getElem? hx)
  have hnode : (A.addEdge d a b (some l)).node = A.node := by
    funext y
    show (if (y = a ∨ y = b) ∧ A.node y = none then some none else A.node y) = _
    rw [if_neg]
    rintro ⟨rfl | rfl, hn⟩
    · have := hsome ha; rw [hn] at this; cases this
    · have := hsome hb; rw [hn] at this; cases this
  refine ⟨g, _, h1, ?_⟩
  constructor
  · rw [exec_append, h.run, bind_ok]
    exact exec_single (by unfold apply; simp only [h1, bind_ok]; rfl)
  · intro op ho
    rcases List.mem_append.1 ho with ho | ho
    · exact h.adds op ho
    · rw [List.mem_singleton.1 ho]; rfl
  · intro op ho x hx
    rcases List.mem_append.1 ho with ho | ho
    · exact h.nlabs op ho x hx
    · rw [List.mem_singleton.1 ho] at hx
      cases hx
  · intro op ho x hx
    rcases List.mem_append.1 ho with ho | ho
    · exact h.elabs op ho x hx
    · rw [List.mem_singleton.1 ho] at hx
      cases hx
      exact hl
  · rw [List.filter_append, List.length_append, h.count]; rfl
  · exact h.nodup
  · exact h.len
  · exact h.ids
  · intro x hx
    rw [List.flatMap_append, List.mem_append] at hx
    rcases hx with hx | hx
    · exact h.low x hx
    · simp [touched] at hx
      rcases hx with rfl | rfl
      · exact (List.getElem?_eq_some_iff.1 ha).1
      · exact (List.getElem?_eq_some_iff.1 hb).1
  · intro x hx
    rw [List.flatMap_append, List.mem_append]
    exact .inl (h.all x hx)
  · intro x
    rw [hrun, hnode, ← h.node]
    show (if (x = i ∨ x = j) ∧ (Spec.run d ops).node x = none then some none else _) = _
    rw [if_neg]
    rintro ⟨rfl | rfl, hn⟩
    · rw [h.node, ha] at hn
      have := hsome ha
      rw [Option.bind_some] at hn
      rw [hn] at this
      cases this
    · rw [h.node, hb] at hn
      have := hsome hb
      rw [Option.bind_some] at hn
      rw [hn] at this
      cases this
  · intro x y
    rw [hrun]
    show (if AGraph.same d i j x y then some (some l) else (Spec.run d ops).edge x y) =
      (ks[x.val]?).bind fun p => (ks[y.val]?).bind fun q =>
        if AGraph.same d a b p q then some (some l) else A.edge p q
    have inj : ∀ {x z : Id m} {p : Text}, ks[x.val]? = some p → ks[z.val]? = some p → x = z :=
      fun h1 h2 => Fin.ext (get_inj h.nodup h1 h2)
    rw [h.edge]
    cases hx : ks[x.val]? with
    | none =>
      rw [if_neg]
      · rfl
      · rintro (⟨rfl, rfl⟩ | ⟨-, rfl, rfl⟩)
        · rw [ha] at hx; cases hx
        · rw [hb] at hx; cases hx
    | some p =>
      cases hy : ks[y.val]? with
      | none =>
        rw [if_neg]
        · rfl
        · rintro (⟨rfl, rfl⟩ | ⟨-, rfl, rfl⟩)
          · rw [hb] at hy; cases hy
          · rw [ha] at hy; cases hy
      | some q =>
        simp only [Option.bind_some]
        have : AGraph.same d i j x y ↔ AGraph.same d a b p q := by
          constructor
          · rintro (⟨rfl, rfl⟩ | ⟨hd, rfl, rfl⟩)
            · rw [ha] at hx; rw [hb] at hy; cases hx; cases hy; exact .inl ⟨rfl, rfl⟩
            · rw [hb] at hx; rw [ha] at hy; cases hx; cases hy; exact .inr ⟨hd, rfl, rfl⟩
          · rintro (⟨rfl, rfl⟩ | ⟨hd, rfl, rfl⟩)
            · exact .inl ⟨inj hx ha, inj hy hb⟩
            · exact .inr ⟨hd, inj hx hb, inj hy ha⟩
        simp only [this]
  · intro x
    rw [hnode]; exact h.mem x
  · intro x y he
    have he : (if AGraph.same d a b x y then some (some l) else A.edge x y).isSome = true := he
    split at he
    · rename_i hs
      have m1 := List.mem_of_getElem? ha
      have m2 := List.mem_of_getElem? hb
      rcases hs with ⟨rfl, rfl⟩ | ⟨-, rfl, rfl⟩
      · exact ⟨m1, m2⟩
      · exact ⟨m2, m1⟩
    · exact h.ends x y he

theorem LInv.get_some (h : LInv d nl el n ks A st ops) {key : Text} (hk : key ∈ ks) :
    ∃ i : Id m, AL.get st.ids key = some i ∧ ks[i.val]? = some key := by
  obtain ⟨x, hx⟩ := Option.isSome_iff_exists.1 (List.isSome_idxOf?.2 hk)
  obtain ⟨hlt, he, -⟩ := List.findIdx?_eq_some_iff_getElem.1 (show ks.findIdx? (· == key) = some x from hx)
  have hlen := h.len
  refine ⟨Id.new x, by rw [h.ids, hx]; rfl, ?_⟩
  have : (Id.new x : Id m).val = x := Nat.mod_eq_of_lt (by omega)
  rw [this, List.getElem?_eq_getElem hlt]
  simpa using he

theorem LInv.get_none (h : LInv d nl el n ks A st ops) {key : Text} (hk : key ∉ ks) :
    AL.get st.ids key = none := by
  rw [h.ids, List.idxOf?_eq_none_iff.2 hk]; rfl

/-- The table after a new key. -/
theorem LInv.ids_new (h : LInv d nl el n ks A st ops) {key : Text} (hk : key ∉ ks) (x : Text) :
    AL.get (AL.hinsert st.ids key (Id.new ks.length)) x = ((mention ks key).idxOf? x).map Id.new := by
  have e : mention ks key = ks ++ [key] := if_neg hk
  rw [AL.get_hinsert, e, h.ids]
  unfold List.idxOf?
  rw [List.findIdx?_append]
  by_cases hx : key = x
  · subst hx
    have : List.findIdx? (· == key) ks = none := List.idxOf?_eq_none_iff.2 hk
    simp [this]
  · have h2 : List.findIdx? (· == x) [key] = none := by simp [List.findIdx?_cons, hx]
    rw [h2]
    simp [Ne.symm hx, hx]

/-- `entry` on a key. -/
theorem LInv.entry (h : LInv d nl el n ks A st ops) (hm : 0 < m) (key kind : Text) (hl : kind ∈ nl)
    (hlen : (mention ks key).length ≤ m + 1) :
    ∃ st' i ops', evStep.entry' key kind st = .ok (st', i) ∧ (mention ks key)[i.val]? = some key ∧
      LInv d nl el n (mention ks key) (meet A key kind) st' ops' := by
  unfold evStep.entry'
  by_cases hk : key ∈ ks
  · obtain ⟨i, h1, h2⟩ := h.get_some hk
    have e : mention ks key = ks := if_pos hk
    have e2 : meet A key kind = A := if_pos ((h.mem key).2 hk)
    rw [h1, e, e2]
    exact ⟨st, i, ops, rfl, h2, h⟩
  · have e : mention ks key = ks ++ [key] := if_neg hk
    have e2 : meet A key kind = A.addNode key (some kind) := if_neg (fun hc => hk ((h.mem key).1 hc))
    rw [e, List.length_append, List.length_singleton] at hlen
    have hi : (mention ks key)[(Id.new ks.length : Id m).val]? = some key := by
      have : (Id.new ks.length : Id m).val = ks.length := Nat.mod_eq_of_lt (by omega)
      rw [this, e]
      simp
    obtain ⟨g, b, h1, h2⟩ := h.addNode key kind hl hi (h.ids_new hk)
    rw [h.get_none hk]
    simp only
    rw [h.next hm (by omega), bind_ok, h1, bind_ok, e2]
    exact ⟨_, _, _, rfl, hi, h2⟩

theorem LInv.entry_over (h : LInv d nl el n ks A st ops) (hm : 0 < m) (key kind : Text)
    (hlen : m + 1 < (mention ks key).length) : evStep.entry' key kind st = .error .overflow := by
  have hk : key ∉ ks := by
    intro hk
    rw [show mention ks key = ks from if_pos hk] at hlen
    exact absurd h.len (by omega)
  rw [show mention ks key = ks ++ [key] from if_neg hk, List.length_append, List.length_singleton] at hlen
  have := h.len
  unfold evStep.entry'
  rw [h.get_none hk]
  simp only
  rw [h.next_over hm (by omega), bind_error]

/-- One record. -/
theorem LInv.step (h : LInv d nl el n ks A st ops) (hm : 0 < m) (e : Event)
    (hn : ∀ x ∈ e.nodeLabels, x ∈ nl) (he : ∀ x ∈ e.edgeLabels, x ∈ el)
    (hlen : (e.keys.foldl mention ks).length ≤ m + 1) :
    ∃ st' ops', evStep st e = .ok st' ∧
      LInv d nl el (n + if e.isEdge then 1 else 0) (e.keys.foldl mention ks) (e.apply d A) st' ops' := by
  cases e with
  | node key l =>
    have hl : l ∈ nl := hn l (by simp [Event.nodeLabels])
    show ∃ st' ops', evStep st (.node key l) = .ok st' ∧
      LInv d nl el (n + 0) (mention ks key) (A.addNode key (some l)) st' ops'
    have hlen : (mention ks key).length ≤ m + 1 := hlen
    unfold evStep
    simp only
    by_cases hk : key ∈ ks
    · obtain ⟨i, h1, h2⟩ := h.get_some hk
      have e : mention ks key = ks := if_pos hk
      obtain ⟨g, b, h3, h4⟩ := h.addNode key l hl (i := i) (ids := st.ids) (by rw [e]; exact h2)
        (by rw [e]; exact h.ids)
      rw [h1]
      simp only [pure_ok, bind_ok]
      rw [h3, bind_ok]
      exact ⟨_, _, rfl, h4⟩
    · have e : mention ks key = ks ++ [key] := if_neg hk
      rw [e, List.length_append, List.length_singleton] at hlen
      have hi : (mention ks key)[(Id.new ks.length : Id m).val]? = some key := by
        have : (Id.new ks.length : Id m).val = ks.length := Nat.mod_eq_of_lt (by omega)
        rw [this, e]
        simp
      obtain ⟨g, b, h1, h2⟩ := h.addNode key l hl hi (h.ids_new hk)
      rw [h.get_none hk]
      simp only
      rw [h.next hm (by omega)]
      simp only [pure_ok, bind_ok]
      rw [h1, bind_ok]
      exact ⟨_, _, rfl, h2⟩
  | edge a ka b kb l =>
    have hlen : (mention (mention ks a) b).length ≤ m + 1 := hlen
    have hle : (mention ks a).length ≤ (mention (mention ks a) b).length := by
      generalize mention ks a = K
      unfold mention
      split
      · exact le_refl _
      · rw [List.length_append]; omega
    obtain ⟨s1, i, o1, h1, h2, h3⟩ := h.entry hm a ka (hn ka (by simp [Event.nodeLabels])) (by omega)
    obtain ⟨s2, j, o2, h4, h5, h6⟩ := h3.entry hm b kb (hn kb (by simp [Event.nodeLabels])) hlen
    obtain ⟨g, r, h7, h8⟩ := h6.addEdge (mention_get h2) h5 l (he l (by simp [Event.edgeLabels]))
    show ∃ st' ops', evStep st (.edge a ka b kb l) = .ok st' ∧
      LInv d nl el (n + 1) (mention (mention ks a) b)
        ((meet (meet A a ka) b kb).addEdge d a b (some l)) st' ops'
    unfold evStep
    simp only
    rw [h1, bind_ok]
    simp only
    rw [h4, bind_ok]
    simp only
    rw [h7, bind_ok]
    exact ⟨_, _, rfl, h8⟩

theorem LInv.step_over (h : LInv d nl el n ks A st ops) (hm : 0 < m) (e : Event)
    (hn : ∀ x ∈ e.nodeLabels, x ∈ nl) (hlen : m + 1 < (e.keys.foldl mention ks).length) :
    evStep st e = .error .overflow := by
  cases e with
  | node key l =>
    have hlen : m + 1 < (mention ks key).length := hlen
    have := h.entry_over hm key l hlen
    unfold evStep
    simp only
    have hk : key ∉ ks := by
      intro hk
      rw [show mention ks key = ks from if_pos hk] at hlen
      exact absurd h.len (by omega)
    rw [show mention ks key = ks ++ [key] from if_neg hk, List.length_append, List.length_singleton] at hlen
    have := h.len
    rw [h.get_none hk]
    simp only
    rw [h.next_over hm (by omega), bind_error, bind_error]
  | edge a ka b kb l =>
    have hlen : m + 1 < (mention (mention ks a) b).length := hlen
    unfold evStep
    simp only
    by_cases h1 : m + 1 < (mention ks a).length
    · rw [h.entry_over hm a ka h1, bind_error]
    · obtain ⟨s1, i, o1, e1, -, h3⟩ := h.entry hm a ka (hn ka (by simp [Event.nodeLabels])) (by omega)
      rw [e1, bind_ok]
      simp only
      rw [h3.entry_over hm b kb hlen, bind_error]

end inv

theorem foldl_mention_le (l : List Text) : ∀ ks : List Text, ks.length ≤ (l.foldl mention ks).length := by
  induction l with
  | nil => intro ks; exact le_refl _
  | cons a l ih =>
    intro ks
    refine le_trans ?_ (ih (mention ks a))
    unfold mention
    split
    · exact le_refl _
    · rw [List.length_append]; omega

theorem events_ok {d : Bool} {nl el : List Text} (hm : 0 < m) : ∀ (es : List Event) {n : Nat} {ks : List Text}
    {A : AGraph Text Text Text} {st : State m k} {ops : List (Op m k Text Text)},
    LInv d nl el n ks A st ops → (∀ e ∈ es, ∀ x ∈ e.nodeLabels, x ∈ nl) →
    (∀ e ∈ es, ∀ x ∈ e.edgeLabels, x ∈ el) →
    ((es.flatMap Event.keys).foldl mention ks).length ≤ m + 1 →
    ∃ st' ops', es.foldlM evStep st = .ok st' ∧
      LInv d nl el (n + (es.filter Event.isEdge).length) ((es.flatMap Event.keys).foldl mention ks)
        (es.foldl (Event.apply d) A) st' ops' := by
  intro es
  induction es with
  | nil => intro n ks A st ops h _ _ _; exact ⟨st, ops, rfl, h⟩
  | cons e es ih =>
    intro n ks A st ops h hn he hlen
    rw [List.flatMap_cons, List.foldl_append] at hlen ⊢
    obtain ⟨s1, o1, h1, h2⟩ := h.step hm e (hn e (by simp)) (he e (by simp))
      (le_trans (foldl_mention_le _ _) hlen)
    obtain ⟨s2, o2, h3, h4⟩ := ih h2 (fun e h => hn e (by simp [h])) (fun e h => he e (by simp [h])) hlen
    refine ⟨s2, o2, by rw [List.foldlM_cons, h1, bind_ok, h3], ?_⟩
    have : n + ((e :: es).filter Event.isEdge).length =
        n + (if e.isEdge then 1 else 0) + (es.filter Event.isEdge).length := by
      rw [List.filter_cons]
      cases e.isEdge <;> simp <;> omega
    rw [this]
    exact h4

theorem events_over {d : Bool} {nl el : List Text} (hm : 0 < m) : ∀ (es : List Event) {n : Nat}
    {ks : List Text} {A : AGraph Text Text Text} {st : State m k} {ops : List (Op m k Text Text)},
    LInv d nl el n ks A st ops → (∀ e ∈ es, ∀ x ∈ e.nodeLabels, x ∈ nl) →
    (∀ e ∈ es, ∀ x ∈ e.edgeLabels, x ∈ el) →
    m + 1 < ((es.flatMap Event.keys).foldl mention ks).length →
    es.foldlM evStep st = .error .overflow := by
  intro es
  induction es with
  | nil => intro n ks A st ops h _ _ hl; exact absurd h.len (by simpa using hl)
  | cons e es ih =>
    intro n ks A st ops h hn he hlen
    rw [List.flatMap_cons, List.foldl_append] at hlen
    rw [List.foldlM_cons]
    by_cases hc : (e.keys.foldl mention ks).length ≤ m + 1
    · obtain ⟨s1, o1, h1, h2⟩ := h.step hm e (hn e (by simp)) (he e (by simp)) hc
      rw [h1, bind_ok]
      exact ih h2 (fun e h => hn e (by simp [h])) (fun e h => he e (by simp [h])) hlen
    · rw [h.step_over hm e (hn e (by simp)) (by omega), bind_error]

theorem linv_start (d : Bool) (nl el : List Text) :
    LInv d nl el 0 [] AGraph.empty (⟨new d, []⟩ : State m k) [] := by
  constructor
  · rfl
  · simp
  · simp
  · simp
  · rfl
  · exact List.nodup_nil
  · simp
  · intro key; rfl
  · simp
  · intro i h; simp at h
  · intro i; rfl
  · intro i j; rfl
  · intro a; simp [AGraph.empty]
  · intro a b h; simp [AGraph.empty] at h

end Ldbc

end Verif
