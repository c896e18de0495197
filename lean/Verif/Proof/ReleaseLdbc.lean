import Verif.Proof.Release
import Verif.Proof.Ldbc
import Verif.Spec.Release

/-! Loading LDBC data in a release build. -/

namespace Verif

open Spec GraphMap

namespace Ldbc

variable {m k : Nat}

/-- One record, seen as an event. -/
def evStepRelease (s : State m k) : Event → Res (State m k)
  | .node key l => do
    let p := (match AL.get s.ids key with
      | some i => (i, s.ids)
      | none => (nextIdRelease s.graph, AL.hinsert s.ids key (nextIdRelease s.graph)))
    let q ← s.graph.addNode p.1 (some l)
    pure ⟨q.1, p.2⟩
  | .edge a ka b kb l => do
    let p ← entry' a ka s
    let q ← entry' b kb p.1
    let e ← q.1.graph.addEdgeRelease p.2 q.2 (some l)
    pure { q.1 with graph := e.1 }
where
  /-- `entryRelease` with the label given. -/
  entry' (key kind : Text) (s : State m k) : Res (State m k × Id m) :=
    match AL.get s.ids key with
    | some i => pure (s, i)
    | none => do
      let i := nextIdRelease s.graph
      let q ← s.graph.addNode i (some kind)
      pure (⟨q.1, AL.hinsert s.ids key i⟩, i)

theorem addNodeRelease_ev (n : Node) {r : Record} (s : State m k) (h1 : n.idIndex < r.length)
    (h2 : n.labelIndex < r.length) : n.addNodeRelease r s = evStepRelease s (nodeEvent n r) := by
  unfold Node.addNodeRelease nodeEvent evStepRelease
  rw [field_ok h1, field_ok h2, bind_ok]
  simp only [bind_ok]
  rfl

theorem addEdgeRelease_ev (x : Relation) {r : Record} (s : State m k) (h1 : x.startIndex < r.length)
    (h2 : x.targetIndex < r.length) : x.addEdgeRelease r s = evStepRelease s (relEvent x r) := by
  unfold Relation.addEdgeRelease relEvent evStepRelease
  rw [field_ok h1, field_ok h2, bind_ok, bind_ok]
  rfl

theorem feed_step (step : State m k → Event → Res (State m k)) {f : Record → State m k → Res (State m k)}
    {ev : Record → Event} : ∀ (rs : List Record) (s : State m k), (∀ r ∈ rs, ∀ s, f r s = step s (ev r)) →
    feed f (rs.map some) s = (some <$> (rs.map ev).foldlM step s) := by
  intro rs
  induction rs with
  | nil => intro s _; rfl
  | cons r rs ih =>
    intro s h
    rw [List.map_cons, feed, List.map_cons, List.foldlM_cons, h r (by simp)]
    cases step s (ev r) with
    | error e => rfl
    | ok s' =>
      rw [bind_ok, bind_ok]
      exact ih s' (fun r hr => h r (by simp [hr]))

theorem loop_step (step : State m k → Event → Res (State m k)) {X : Type}
    {f : X → State m k → Res (Option (State m k))} {ev : X → List Event} :
    ∀ (xs : List X) (s : State m k), (∀ x ∈ xs, ∀ s, f x s = some <$> (ev x).foldlM step s) →
    loop f xs s = (some <$> (xs.flatMap ev).foldlM step s) := by
  intro xs
  induction xs with
  | nil => intro s _; rfl
  | cons x xs ih =>
    intro s h
    rw [loop, List.flatMap_cons, List.foldlM_append, h x (by simp)]
    cases (ev x).foldlM step s with
    | error e => rfl
    | ok s' => exact ih s' (fun x hx => h x (by simp [hx]))

theorem fromPathRelease_good {digit : Char → Bool} {utf8 : Text → Bool} {s : Scheme} {files : List File}
    (h : AllReadable digit utf8 s files) (d : Bool) :
    (s.fromPathRelease digit utf8 d (some files) : Res (Option (GraphMap m k Text Text))) =
      ((events digit s files).foldlM evStepRelease (⟨GraphMap.new d, []⟩ : State m k) >>=
        fun st => pure (some st.graph)) := by
  unfold Scheme.fromPathRelease events
  simp only [flatMap_filter]
  rw [loop_step evStepRelease (ev := fun n => files.flatMap (fun f => if n.isMatch digit f.name then
      (body s.delimiter f.bytes).map (nodeEvent n) else [])), List.foldlM_append]
  · cases (s.nodes.flatMap _).foldlM evStepRelease (⟨GraphMap.new d, []⟩ : State m k) with
    | error e => rfl
    | ok st =>
      simp only [Functor.map, Except.map, bind_ok]
      rw [loop_step evStepRelease (ev := fun x => files.flatMap (fun f => if x.isMatch digit f.name then
        (body s.delimiter f.bytes).map (relEvent x) else []))]
      · cases (s.relations.flatMap _).foldlM evStepRelease st <;> rfl
      · intro x hx st
        apply loop_step
        intro f hf st
        split
        · rename_i hm
          have hr := h.2 x hx f hf hm
          rw [records_good hr]
          apply feed_step
          intro r hrr st
          exact addEdgeRelease_ev x st (hr r hrr).2.2.1 (hr r hrr).2.2.2
        · rfl
  · intro n hn st
    apply loop_step
    intro f hf st
    split
    · rename_i hm
      have hr := h.1 n hn f hf hm
      rw [records_good hr]
      apply feed_step
      intro r hrr st
      exact addNodeRelease_ev n st (hr r hrr).2.2.1 (hr r hrr).2.2.2
    · rfl

/-- What holds while loading: `ks` are the keys so far, `ops` the calls made, `g` the graph with an exact counter. -/
structure RInv (d : Bool) (ks : List Text) (st : State m k) (ops : List (Op m k Text Text))
    (g : GraphMap m k Text Text) : Prop where
  run : (new d : GraphMap m k Text Text).exec ops = .ok g
  graph : st.graph = g.wrapped
  nodup : ks.Nodup
  ids : ∀ key, AL.get st.ids key = if key ∈ ks then some (seat ks key) else none
  has : ∀ i : Id m, g.hasNode i = true ↔ i.val < ks.length
  maxNone : ks = [] → g.maxId = none
  maxSome : ks ≠ [] → ∃ x, g.maxId = some x ∧ x.val = min (ks.length - 1) m

section

variable {d : Bool} {ks : List Text} {st : State m k} {ops : List (Op m k Text Text)}
  {g : GraphMap m k Text Text}

theorem RInv.inv (h : RInv d ks st ops g) : g.Inv :=
  ((exec_run h.run).reachable List.nodup_nil List.nodup_nil).inv

theorem idxOf_mention {ks : List Text} {key a : Text} (h : a ∈ ks) : (mention ks key).idxOf a = ks.idxOf a := by
  unfold mention
  split
  · rfl
  · exact List.idxOf_append_of_mem h

theorem idxOf_mention_new {ks : List Text} {key : Text} (h : key ∉ ks) :
    (mention ks key).idxOf key = ks.length := by
  unfold mention
  rw [if_neg h, List.idxOf_append_of_notMem h]
  simp

theorem seat_mention {ks : List Text} {key a : Text} (h : a ∈ ks) :
    (seat (mention ks key) a : Id m) = seat ks a := by
  unfold seat; rw [idxOf_mention h]

theorem seat_lt {ks : List Text} {a : Text} (h : a ∈ ks) : (seat ks a : Id m).val < ks.length := by
  have h1 := List.idxOf_lt_length_of_mem h
  unfold seat Id.new
  split
  · show ks.idxOf a % (m + 1) < _
    rw [Nat.mod_eq_of_lt (by omega)]
    exact h1
  · show 0 % (m + 1) < _
    rw [Nat.zero_mod]
    omega

theorem RInv.next (h : RInv d ks st ops g) {key : Text} (hk : key ∉ ks) :
    nextIdRelease st.graph = seat (mention ks key) key := by
  unfold nextIdRelease
  rw [h.graph]
  show (match g.maxId with | some i => _ | none => _) = _
  unfold seat
  rw [idxOf_mention_new hk]
  by_cases h0 : ks = []
  · rw [h.maxNone h0, h0]
    simp
  · obtain ⟨x, hx, hv⟩ := h.maxSome h0
    have hpos : 0 < ks.length := List.length_pos_iff.2 h0
    rw [hx]
    dsimp only
    unfold Id.incrementRelease
    split
    · congr 1
      omega
    · have : x.val + 1 = m + 1 := by omega
      rw [this]
      apply Fin.ext
      show (m + 1) % (m + 1) = 0 % (m + 1)
      simp

theorem mention_length (ks : List Text) (key : Text) :
    (mention ks key).length = if key ∈ ks then ks.length else ks.length + 1 := by
  unfold mention
  split <;> simp

theorem mem_mention (ks : List Text) (key : Text) : key ∈ mention ks key := (mention_mem _ _ _).2 (.inr rfl)

/-- Adding the node of a key. -/
theorem RInv.addNode (h : RInv d ks st ops g) (key l : Text) {ids : List (Text × Id m)}
    (hids : ∀ x, AL.get ids x = if x ∈ mention ks key then some (seat (mention ks key) x) else none) :
    ∃ g' b, st.graph.addNode (seat (mention ks key) key) (some l) = .ok (g'.wrapped, b) ∧
      RInv d (mention ks key) ⟨g'.wrapped, ids⟩ (ops ++ [.addNode (seat (mention ks key) key) (some l)]) g' := by
  obtain ⟨g', nl, lid, -, a2, -, -, a5, -, -, a8, a9, -⟩ :=
    addNode_spec h.inv.toNWF (seat (mention ks key) key) (some l)
  have hhas : ∀ i, g'.hasNode i = true ↔ i.val < (mention ks key).length := by
    intro i
    rw [hasNode_eq_labE]
    show (g'.rep.node i).isSome = true ↔ _
    rw [a9]
    show (if i = _ then some lid else g.labE i).isSome = true ↔ _
    split
    · rename_i hi
      rw [hi]
      exact ⟨fun _ => seat_lt (mem_mention ks key), fun _ => rfl⟩
    · rename_i hi
      rw [← hasNode_eq_labE, h.has i, mention_length]
      split
      · rfl
      · rename_i hk
        constructor
        · intro h; omega
        · intro hlt
          by_contra hc
          have he : i.val = ks.length := by omega
          apply hi
          have := i.isLt
          unfold seat
          rw [idxOf_mention_new hk, if_pos (by omega)]
          apply Fin.ext
          show i.val = ks.length % (m + 1)
          rw [Nat.mod_eq_of_lt (by omega), he]
  have hne : mention ks key ≠ [] := List.ne_nil_of_mem (mem_mention ks key)
  refine ⟨g', !g.hasNode (seat (mention ks key) key), ?_, ?_, rfl, mention_nodup h.nodup key, hids, hhas, fun hc => absurd hc hne, fun _ => ?_⟩
  · rw [h.graph]
    unfold wrapped
    rw [addNode_recount, a2, a5]
    rfl
  · rw [exec_append, h.run, bind_ok]
    exact exec_single (by unfold apply; simp only [a2, bind_ok]; rfl)
  · rw [a8]
    have hsl := seat_lt (m := m) (mem_mention ks key)
    by_cases hk : key ∈ ks
    · have e : mention ks key = ks := if_pos hk
      rw [e] at hsl ⊢
      rw [if_pos ((h.has _).2 hsl)]
      exact h.maxSome (List.ne_nil_of_mem hk)
    · rw [mention_length, if_neg hk]
      by_cases hm : ks.length ≤ m
      · have hs : (seat (mention ks key) key : Id m).val = ks.length := by
          unfold seat
          rw [idxOf_mention_new hk, if_pos hm]
          exact Nat.mod_eq_of_lt (by omega)
        have hno : ¬ (g.hasNode (seat (mention ks key) key) = true) := by rw [h.has]; omega
        rw [if_neg hno]
        by_cases h0 : ks = []
        · rw [h.maxNone h0]
          refine ⟨_, rfl, ?_⟩
          rw [hs]; omega
        · obtain ⟨x, hx, hv⟩ := h.maxSome h0
          have hpos : 0 < ks.length := List.length_pos_iff.2 h0
          rw [hx]
          unfold bumpMax
          dsimp only
          rw [if_pos (by show x.val < _; omega)]
          refine ⟨_, rfl, ?_⟩
          rw [hs]; omega
      · have hyes : g.hasNode (seat (mention ks key) key) = true := by
          rw [h.has]
          have := (seat (mention ks key) key : Id m).isLt
          omega
        rw [if_pos hyes]
        obtain ⟨x, hx, hv⟩ := h.maxSome (by rintro rfl; simp at hm)
        refine ⟨x, hx, ?_⟩
        omega

theorem RInv.entry (h : RInv d ks st ops g) (key kind : Text) :
    ∃ st' g', evStepRelease.entry' key kind st = .ok (st', seat (mention ks key) key) ∧
      RInv d (mention ks key) st' (ops ++ enter ks key kind) g' := by
  unfold evStepRelease.entry' enter
  rw [h.ids key]
  by_cases hk : key ∈ ks
  · have e : mention ks key = ks := if_pos hk
    rw [if_pos hk, if_pos hk, e, List.append_nil]
    exact ⟨st, g, rfl, h⟩
  · rw [if_neg hk, if_neg hk]
    dsimp only
    rw [h.next hk]
    obtain ⟨g', b, h1, h2⟩ := h.addNode key kind
      (ids := AL.hinsert st.ids key (seat (mention ks key) key)) (by
        intro x
        rw [AL.get_hinsert]
        by_cases hx : key = x
        · subst hx; rw [if_pos rfl, if_pos (mem_mention ks key)]
        · rw [if_neg hx, h.ids]
          by_cases hm : x ∈ ks
          · rw [if_pos hm, if_pos ((mention_mem _ _ _).2 (.inl hm)), seat_mention hm]
          · rw [if_neg hm, if_neg]
            rw [mention_mem]
            rintro (h | h)
            · exact hm h
            · exact hx h.symm)
    rw [h1]
    exact ⟨_, g', rfl, h2⟩

theorem RInv.step (h : RInv d ks st ops g) (e : Event) :
    ∃ st' g', evStepRelease st e = .ok st' ∧ RInv d (e.keys.foldl mention ks) st' (ops ++ callsOf ks e) g' := by
  cases e with
  | node key l =>
    unfold evStepRelease callsOf
    dsimp only
    rw [h.ids key]
    by_cases hk : key ∈ ks
    · have e : mention ks key = ks := if_pos hk
      rw [if_pos hk]
      dsimp only
      obtain ⟨g', b, h1, h2⟩ := h.addNode key l (ids := st.ids) (by rw [e]; exact h.ids)
      have hs : (seat ks key : Id m) = seat (mention ks key) key := by rw [e]
      rw [hs, h1]
      exact ⟨_, g', rfl, h2⟩
    · rw [if_neg hk]
      dsimp only
      rw [h.next hk]
      obtain ⟨g', b, h1, h2⟩ := h.addNode key l
        (ids := AL.hinsert st.ids key (seat (mention ks key) key)) (by
          intro x
          rw [AL.get_hinsert]
          by_cases hx : key = x
          · subst hx; rw [if_pos rfl, if_pos (mem_mention ks key)]
          · rw [if_neg hx, h.ids]
            by_cases hm : x ∈ ks
            · rw [if_pos hm, if_pos ((mention_mem _ _ _).2 (.inl hm)), seat_mention hm]
            · rw [if_neg hm, if_neg]
              rw [mention_mem]
              rintro (h | h)
              · exact hm h
              · exact hx h.symm)
      rw [h1]
      exact ⟨_, g', rfl, h2⟩
  | edge a ka b kb l =>
    unfold evStepRelease callsOf
    dsimp only
    obtain ⟨s1, g1, p1, I1⟩ := h.entry a ka
    obtain ⟨s2, g2, p2, I2⟩ := I1.entry b kb
    rw [p1, bind_ok]
    dsimp only
    rw [p2, bind_ok]
    dsimp only
    have hs : (seat (mention ks a) a : Id m) = seat (mention (mention ks a) b) a :=
      (seat_mention (mem_mention ks a)).symm
    rw [hs, I2.graph, addEdge_release]
    have ha : g2.hasNode (seat (mention (mention ks a) b) a) = true :=
      (I2.has _).2 (seat_lt ((mention_mem _ _ _).2 (.inl (mem_mention ks a))))
    have hb : g2.hasNode (seat (mention (mention ks a) b) b) = true := (I2.has _).2 (seat_lt (mem_mention _ b))
    obtain ⟨g3, el, lid, -, c2, -, -, -, -, -, c8, c9, -⟩ := addEdge_spec I2.inv.toNWF
      (seat (mention (mention ks a) b) a) (seat (mention (mention ks a) b) b) (some l)
    rw [c2]
    refine ⟨_, g3, rfl, ?_, rfl, I2.nodup, I2.ids, ?_, ?_, ?_⟩
    · rw [List.append_assoc, ← List.append_assoc (enter ks a ka), ← List.append_assoc, ← List.append_assoc,
        exec_append, I2.run, bind_ok]
      exact exec_single (by unfold apply; simp only [c2, bind_ok]; rfl)
    · intro i
      rw [hasNode_eq_labE]
      show (g3.rep.node i).isSome = true ↔ i.val < (mention (mention ks a) b).length
      rw [c9, ← I2.has i]
      show (if (i = _ ∨ i = _) ∧ g2.labE i = none then some none else g2.labE i).isSome = true ↔ _
      rw [hasNode_eq_labE]
      split
      · rename_i hc
        rw [hasNode_eq_labE] at ha hb
        rcases hc with ⟨rfl | rfl, hn⟩
        · rw [hn] at ha; cases ha
        · rw [hn] at hb; cases hb
      · rfl
    · intro hc
      exact absurd hc (List.ne_nil_of_mem (mem_mention _ b))
    · intro hc
      have : g3.maxId = g2.maxId := by
        rw [c8]
        unfold seen
        rw [ha, hb]
        simp
      rw [this]
      exact I2.maxSome hc

theorem RInv.steps : ∀ (es : List Event) {ks : List Text} {st : State m k} {ops : List (Op m k Text Text)}
    {g : GraphMap m k Text Text}, RInv d ks st ops g →
    ∃ st' g', es.foldlM evStepRelease st = .ok st' ∧
      RInv d ((es.flatMap Event.keys).foldl mention ks) st' (ops ++ calls ks es) g' := by
  intro es
  induction es with
  | nil =>
    intro ks st ops g h
    refine ⟨st, g, rfl, ?_⟩
    show RInv d ks st (ops ++ []) g
    rw [List.append_nil]
    exact h
  | cons e es ih =>
    intro ks st ops g h
    obtain ⟨s1, g1, h1, I1⟩ := h.step e
    obtain ⟨s2, g2, h2, I2⟩ := ih I1
    refine ⟨s2, g2, ?_, ?_⟩
    · rw [List.foldlM_cons, h1, bind_ok, h2]
    · rw [List.flatMap_cons, List.foldl_append]
      show RInv d _ s2 (ops ++ (callsOf ks e ++ calls _ es)) g2
      rw [← List.append_assoc]
      exact I2

theorem rinv_start (d : Bool) : RInv d [] (⟨GraphMap.new d, []⟩ : State m k) [] (GraphMap.new d) :=
  ⟨rfl, rfl, List.nodup_nil, fun _ => rfl, fun i => by simp [hasNode, GraphMap.new, AL.get, withLabelMap],
    fun _ => rfl, fun h => absurd rfl h⟩

end

end Ldbc

end Verif
