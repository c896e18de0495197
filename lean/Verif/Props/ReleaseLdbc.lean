import Verif.Proof.ReleaseLdbc
import Verif.Props.Ldbc

/-! Property theorems about loading LDBC data in a release build: C119. -/

namespace Verif.Props

open GraphMap Spec Ldbc

variable {m k : Nat}

/-! ### C119 -/

/-- The state with the counter of a 64-bit machine. -/
def wrapState (st : State m k) : State m k := ⟨st.graph.wrapped, st.ids⟩

theorem nextId_release {g : GraphMap m k Text Text} (h : nextId g ≠ .error .overflow) :
    nextId g = .ok (nextIdRelease g.wrapped) := by
  unfold nextId at h ⊢
  unfold nextIdRelease
  have e : g.wrapped.maxSeenId = g.maxSeenId := rfl
  rw [e]
  cases hm : g.maxSeenId with
  | none => rfl
  | some i =>
    rw [hm] at h
    dsimp only at h ⊢
    unfold Id.increment at h ⊢
    unfold Id.incrementRelease Id.new
    have := i.isLt
    split
    · rename_i h0
      congr 1
      apply Fin.ext
      subst h0
      show i.val = (i.val + 1) % (0 + 1)
      omega
    · split
      · congr 1
        apply Fin.ext
        show i.val + 1 = (i.val + 1) % (m + 1)
        rw [Nat.mod_eq_of_lt (by omega)]
      · rename_i h0 h1
        rw [if_neg h0, dif_neg h1] at h
        exact absurd rfl h

theorem addNode_agrees (n : Node) (r : Record) (st : State m k) (h : n.addNode r st ≠ .error .overflow) :
    n.addNodeRelease r (wrapState st) = (n.addNode r st).map wrapState := by
  unfold Node.addNode at h
  unfold Node.addNodeRelease Node.addNode
  cases h1 : field r n.idIndex with
  | error e => rfl
  | ok f =>
    rw [h1, bind_ok] at h
    rw [bind_ok, bind_ok]
    have wrapAdd : ∀ (i : Id m) (ids : List (Text × Id m)),
        (do let l ← field r n.labelIndex
            let q ← st.graph.wrapped.addNode i (some l)
            pure (⟨q.1, ids⟩ : State m k)) =
        Except.map wrapState (do
            let l ← field r n.labelIndex
            let q ← st.graph.addNode i (some l)
            pure (⟨q.1, ids⟩ : State m k)) := by
      intro i ids
      cases field r n.labelIndex with
      | error e => rfl
      | ok l =>
        rw [bind_ok, bind_ok]
        unfold wrapped
        rw [addNode_recount]
        cases hq : st.graph.addNode i (some l) with
        | error e => rfl
        | ok q =>
          show Except.ok (State.mk (recount _ q.1) _) = Except.ok (State.mk (recount _ q.1) _)
          rw [addNode_count hq]
    dsimp only at h ⊢
    show (do
      let l ← field r n.labelIndex
      let q ← st.graph.wrapped.addNode (match AL.get st.ids (ascii n.name ++ f) with
        | some i => (i, st.ids)
        | none => (nextIdRelease st.graph.wrapped, AL.hinsert st.ids (ascii n.name ++ f) (nextIdRelease st.graph.wrapped))).1
          (some l)
      pure (⟨q.1, (match AL.get st.ids (ascii n.name ++ f) with
        | some i => (i, st.ids)
        | none => (nextIdRelease st.graph.wrapped, AL.hinsert st.ids (ascii n.name ++ f)
          (nextIdRelease st.graph.wrapped))).2⟩ : State m k)) = _
    cases h2 : AL.get st.ids (ascii n.name ++ f) with
    | some i => exact wrapAdd i st.ids
    | none =>
      rw [h2] at h
      dsimp only at h ⊢
      have hn : nextId st.graph ≠ .error .overflow := by
        intro hc; rw [hc] at h; exact h rfl
      rw [nextId_release hn, bind_ok]
      exact wrapAdd _ _

theorem entry_agrees (key : Text) (kind : String) (st : State m k) (h : entry key kind st ≠ .error .overflow) :
    entryRelease key kind (wrapState st) = (entry key kind st).map (fun p => (wrapState p.1, p.2)) := by
  unfold entry at h
  unfold entryRelease entry
  show (match AL.get st.ids key with | some i => _ | none => _) = _
  cases h2 : AL.get st.ids key with
  | some i => rfl
  | none =>
    rw [h2] at h
    dsimp only at h ⊢
    have hn : nextId st.graph ≠ .error .overflow := by
      intro hc; rw [hc] at h; exact h rfl
    rw [nextId_release hn, bind_ok]
    show st.graph.wrapped.addNode (nextIdRelease st.graph.wrapped) _ >>= _ = _
    unfold wrapped
    rw [addNode_recount]
    cases hq : st.graph.addNode (nextIdRelease (recount (st.graph.numEdges % word) st.graph))
        (some (ascii kind)) with
    | error e => rfl
    | ok q =>
      show Except.ok (State.mk (recount _ q.1) _, _) = Except.ok (State.mk (recount _ q.1) _, _)
      rw [addNode_count hq]
      rfl

theorem addEdge_agrees (x : Relation) (r : Record) (st : State m k) (h : x.addEdge r st ≠ .error .overflow) :
    x.addEdgeRelease r (wrapState st) = (x.addEdge r st).map wrapState := by
  unfold Relation.addEdge at h
  unfold Relation.addEdgeRelease Relation.addEdge
  cases h1 : field r x.startIndex with
  | error e => rfl
  | ok a =>
    cases h2 : field r x.targetIndex with
    | error e => rfl
    | ok b =>
      rw [h1, h2, bind_ok, bind_ok] at h
      rw [bind_ok, bind_ok, bind_ok, bind_ok]
      have e1 : entry (ascii x.startLabel ++ a) x.startLabel st ≠ .error .overflow := by
        intro hc; rw [hc] at h; exact h rfl
      rw [entry_agrees _ _ _ e1]
      cases h3 : entry (ascii x.startLabel ++ a) x.startLabel st with
      | error e => rfl
      | ok p =>
        rw [h3, bind_ok] at h
        show entryRelease _ _ (wrapState p.1) >>= _ = Except.map _ (entry _ _ p.1 >>= _)
        have e2 : entry (ascii x.targetLabel ++ b) x.targetLabel p.1 ≠ .error .overflow := by
          intro hc; rw [hc] at h; exact h rfl
        rw [entry_agrees _ _ _ e2]
        cases h4 : entry (ascii x.targetLabel ++ b) x.targetLabel p.1 with
        | error e => rfl
        | ok q =>
          show q.1.graph.wrapped.addEdgeRelease p.2 q.2 _ >>= _ = Except.map _ (q.1.graph.addEdge p.2 q.2 _ >>= _)
          rw [addEdge_release]
          cases q.1.graph.addEdge p.2 q.2 (some (ascii x.edgeLabel)) <;> rfl

theorem feed_agrees {f f' : Record → State m k → Res (State m k)}
    (hf : ∀ r st, f r st ≠ .error .overflow → f' r (wrapState st) = (f r st).map wrapState) :
    ∀ (rs : List (Option Record)) (st : State m k), feed f rs st ≠ .error .overflow →
      feed f' rs (wrapState st) = (feed f rs st).map (Option.map wrapState) := by
  intro rs
  induction rs with
  | nil => intro st _; rfl
  | cons r rs ih =>
    intro st h
    cases r with
    | none => rfl
    | some r =>
      unfold feed at h ⊢
      have h1 : f r st ≠ .error .overflow := by intro hc; rw [hc] at h; exact h rfl
      rw [hf r st h1]
      cases h2 : f r st with
      | error e => rfl
      | ok st' =>
        rw [h2, bind_ok] at h
        exact ih st' h

theorem loop_agrees {X : Type} {f f' : X → State m k → Res (Option (State m k))}
    (hf : ∀ x st, f x st ≠ .error .overflow → f' x (wrapState st) = (f x st).map (Option.map wrapState)) :
    ∀ (xs : List X) (st : State m k), loop f xs st ≠ .error .overflow →
      loop f' xs (wrapState st) = (loop f xs st).map (Option.map wrapState) := by
  intro xs
  induction xs with
  | nil => intro st _; rfl
  | cons x xs ih =>
    intro st h
    unfold loop at h ⊢
    have h1 : f x st ≠ .error .overflow := by intro hc; rw [hc] at h; exact h rfl
    rw [hf x st h1]
    cases h2 : f x st with
    | error e => rfl
    | ok o =>
      rw [h2, bind_ok] at h
      cases o with
      | none => rfl
      | some st' => exact ih st' h

/-- **C119.** Unless the checked build runs out of ids, a release build loads the same graph (its edge counter
modulo 2^64), and fails or panics in the same cases. -/
theorem c119_agrees (digit : Char → Bool) (utf8 : Text → Bool) (s : Scheme) (d : Bool) (dir : Option (List File))
    (h : (s.fromPath digit utf8 d dir : Res (Option (GraphMap m k Text Text))) ≠ .error .overflow) :
    (s.fromPathRelease digit utf8 d dir : Res (Option (GraphMap m k Text Text))) =
      (s.fromPath digit utf8 d dir).map (Option.map wrapped) := by
  cases dir with
  | none => rfl
  | some files =>
    unfold Scheme.fromPath at h
    unfold Scheme.fromPathRelease Scheme.fromPath
    dsimp only at h ⊢
    have inner : ∀ {Y : Type} (is : Y → String → Bool) (f f' : Y → Record → State m k → Res (State m k)),
        (∀ y r st, f y r st ≠ .error .overflow → f' y r (wrapState st) = (f y r st).map wrapState) →
        ∀ (y : Y) (st : State m k),
        loop (fun (x : File) st => if is y x.name then feed (f y) (records utf8 s.delimiter x.bytes) st
          else pure (some st)) files st ≠ .error .overflow →
        loop (fun (x : File) st => if is y x.name then feed (f' y) (records utf8 s.delimiter x.bytes) st
          else pure (some st)) files (wrapState st) =
        (loop (fun (x : File) st => if is y x.name then feed (f y) (records utf8 s.delimiter x.bytes) st
          else pure (some st)) files st).map (Option.map wrapState) := by
      intro Y is f f' hf y st hne
      refine loop_agrees ?_ files st hne
      intro x st hx
      split
      · rename_i hi
        rw [if_pos hi] at hx
        exact feed_agrees (hf y) _ _ hx
      · rfl
    have hstart : (⟨GraphMap.new d, []⟩ : State m k) = wrapState ⟨GraphMap.new d, []⟩ := rfl
    conv_lhs => rw [hstart]
    have h1 := loop_agrees (m := m) (k := k) (inner (fun (n : Node) => n.isMatch digit) (fun n => n.addNode)
      (fun n => n.addNodeRelease) addNode_agrees) s.nodes ⟨GraphMap.new d, []⟩
      (by intro hc; rw [hc] at h; exact h rfl)
    rw [h1]
    cases h2 : loop (fun (n : Node) =>
        loop (fun (f : File) st =>
          if n.isMatch digit f.name then feed n.addNode (records utf8 s.delimiter f.bytes) st
          else pure (some st)) files) s.nodes (⟨GraphMap.new d, []⟩ : State m k) with
    | error e => rfl
    | ok o =>
      rw [h2, bind_ok] at h
      cases o with
      | none => rfl
      | some st =>
        dsimp only at h
        show (loop _ s.relations (wrapState st) >>= _) = Except.map _ (loop _ s.relations st >>= _)
        have h3 := loop_agrees (m := m) (k := k) (inner (fun (n : Relation) => n.isMatch digit)
          (fun n => n.addEdge) (fun n => n.addEdgeRelease) addEdge_agrees) s.relations st
          (by intro hc; rw [hc] at h; exact h rfl)
        rw [h3]
        cases loop (fun (r : Relation) =>
          loop (fun (f : File) st =>
            if r.isMatch digit f.name then feed r.addEdge (records utf8 s.delimiter f.bytes) st
            else pure (some st)) files) s.relations st with
        | error e => rfl
        | ok o => cases o <;> rfl

/-- **C119.** With any number of keys, a release build loads a readable directory without complaint. The keys, in
the order in which they are first mentioned, take the ids `0, 1, .., m`; every further key is given the id `0`
again. The graph is what the corresponding calls make of it (`calls`): in particular, each such key renames
node `0`, and its relations are attached to node `0`. -/
theorem c119_loaded {digit : Char → Bool} {utf8 : Text → Bool} {s : Scheme} {files : List File} (d : Bool)
    (h : AllReadable digit utf8 s files) :
    ∃ g : GraphMap m k Text Text, s.fromPathRelease digit utf8 d (some files) = .ok (some g.wrapped) ∧
      Run (new d) (calls [] (events digit s files)) g ∧
      (∀ i : Id m, g.hasNode i = true ↔ i.val < (firsts (events digit s files)).length) ∧
      (∀ key ∈ firsts (events digit s files),
        g.hasNode (seat (firsts (events digit s files)) key) = true) := by
  obtain ⟨st, g, h1, h2⟩ := (rinv_start (m := m) (k := k) d).steps (events digit s files)
  refine ⟨g, ?_, exec_run h2.run, h2.has, fun key hk => (h2.has _).2 (seat_lt hk)⟩
  rw [fromPathRelease_good h, h1, bind_ok, h2.graph]
  rfl

/-- **C119.** So when there are more keys than ids, the checked build panics and the release build returns a graph
in which different keys share node `0`. -/
theorem c119_too_many {digit : Char → Bool} {utf8 : Text → Bool} {s : Scheme} {files : List File} (d : Bool)
    (hm : 0 < m) (h : AllReadable digit utf8 s files)
    (hlen : m + 1 < (firsts (events digit s files)).length) :
    (s.fromPath digit utf8 d (some files) : Res (Option (GraphMap m k Text Text))) = .error .overflow ∧
    (∃ g : GraphMap m k Text Text, s.fromPathRelease digit utf8 d (some files) = .ok (some g)) ∧
    ∃ a b, a ∈ firsts (events digit s files) ∧ b ∈ firsts (events digit s files) ∧ a ≠ b ∧
      (seat (firsts (events digit s files)) a : Id m) = Id.new 0 ∧
      (seat (firsts (events digit s files)) b : Id m) = Id.new 0 := by
  refine ⟨c53_too_many d hm h hlen, ?_, ?_⟩
  · obtain ⟨g, h1, -⟩ := c119_loaded (m := m) (k := k) d h
    exact ⟨_, h1⟩
  · have hnd : (firsts (events digit s files)).Nodup := by
      obtain ⟨st, g, -, h2⟩ := (rinv_start (m := m) (k := k) d).steps (events digit s files)
      exact h2.nodup
    generalize firsts (events digit s files) = ks at *
    refine ⟨ks[0], ks[m + 1], List.getElem_mem _, List.getElem_mem _, ?_, ?_, ?_⟩
    · intro hc
      have := (List.Nodup.getElem_inj_iff hnd).1 hc
      omega
    · unfold seat
      rw [List.Nodup.idxOf_getElem hnd]
      simp
    · unfold seat
      rw [List.Nodup.idxOf_getElem hnd, if_neg (by omega)]

/-- Two places and one person too many for two ids: the third and the fourth key become node `0`. -/
example : ∃ g : GraphMap 1 9 Text Text,
    Scheme.init.fromPathRelease isDigit (fun _ => true) true (some ldbcDir) = .ok (some g) ∧
    g.nodeIndices = [0, 1] ∧ g.getNodeLabel 0 = some (ascii "person") ∧ g.hasEdge 0 0 = true ∧
    (Scheme.init.fromPath isDigit (fun _ => true) true (some ldbcDir) :
      Res (Option (GraphMap 1 9 Text Text))) = .error .overflow := by
  obtain ⟨g, h⟩ : ∃ g : GraphMap 1 9 Text Text,
    Scheme.init.fromPathRelease isDigit (fun _ => true) true (some ldbcDir) = .ok (some g) := ⟨_, rfl⟩
  refine ⟨g, h, ?_⟩
  cases h
  refine ⟨by decide, by decide, by decide, rfl⟩

end Verif.Props
