import Verif.Spec.Overdump
import Verif.Proof.Crash

/-! Interrupted dumps over files that are already there. -/

namespace Verif

variable {m k : Nat} {NL EL : Type}

/-! ### Loading, file by file -/

theorem TypedMap.new_numbers {w : Nat} (hw : 0 < w) (p : String) (x : World) :
    (TypedMap.new w p x).toOption.map (fun t => t.read t.full) = (x.numbers w p).join := by
  unfold TypedMap.new World.numbers
  cases x.files p with
  | none => rfl
  | some bs =>
    simp only
    by_cases h : bs = []
    · subst h; rfl
    · rw [if_neg (by simpa using h), if_neg h]
      unfold TypedMap.withMmap
      rw [if_neg (by omega)]
      unfold TypedMap.read TypedMap.full
      simp only [Nat.zero_add]
      rfl

theorem TypedMap.new_ids {w : Nat} (hw : 0 < w) (p : String) (x : World) :
    (TypedMap.new w p x).toOption.map (fun t => (t.ids : List (Id m))) = (x.idsIn w p).join := by
  have h := TypedMap.new_numbers hw p x
  unfold World.idsIn
  cases hn : x.numbers w p with
  | none =>
    rw [hn] at h
    cases ht : TypedMap.new w p x with
    | error e => rfl
    | ok t => rw [ht] at h; cases h
  | some o =>
    rw [hn] at h
    cases o with
    | none =>
      cases ht : TypedMap.new w p x with
      | error e => rfl
      | ok t => rw [ht] at h; cases h
    | some l =>
      cases ht : TypedMap.new w p x with
      | error e => rw [ht] at h; cases h
      | ok t => rw [ht] at h; cases h; rfl

theorem World.numbers_absent {w : Nat} {p : String} {x : World} : x.numbers w p = some none ↔
    x.files p = none := by
  unfold World.numbers
  cases x.files p with
  | none => simp
  | some bs => by_cases h : bs = [] <;> simp [h]

theorem mapIfPresent_ids {w : Nat} (hw : 0 < w) (p : String) (x : World) :
    (mapIfPresent w p x).toOption.map (fun o => o.map (fun t => (t.ids : List (Id m)))) = x.idsIn w p := by
  unfold mapIfPresent
  cases hf : x.files p with
  | none =>
    unfold World.idsIn
    rw [World.numbers_absent.2 hf]; rfl
  | some bs =>
    have h := TypedMap.new_ids (m := m) hw p x
    simp only [Option.isSome_some, if_true]
    cases ht : TypedMap.new w p x with
    | error e =>
      rw [ht] at h
      cases hi : (x.idsIn w p : Seen (List (Id m))) with
      | none => rfl
      | some o =>
        rw [hi] at h
        cases o with
        | some l => cases h
        | none =>
          exfalso
          unfold World.idsIn at hi
          cases hn : x.numbers w p with
          | none => rw [hn] at hi; cases hi
          | some o =>
            rw [hn] at hi
            cases o with
            | some l => cases hi
            | none => rw [World.numbers_absent.1 hn] at hf; cases hf
    | ok t =>
      rw [ht] at h
      cases hi : (x.idsIn w p : Seen (List (Id m))) with
      | none => rw [hi] at h; cases h
      | some o => rw [hi] at h; cases o with
        | none => cases h
        | some l => cases h; rfl

theorem toOption_bind {X Y : Type} (r : Res X) (f : X → Res Y) :
    (r >>= f).toOption = r.toOption.bind fun a => (f a).toOption := by
  cases r <;> rfl

theorem EdgeVec.openMmap_seen {w v : Nat} (hw : 0 < w) (hv : 0 < v) (pre : String) (x : World) :
    (EdgeVec.openMmap w v pre x : Res (EdgeVec m k)).toOption = (do
      let o ← (x.numbers 8 (pre ++ ".offsets")).join
      let e ← (x.idsIn w (pre ++ ".edges")).join
      let l ← x.idsIn v (pre ++ ".labels")
      pure ⟨o, e, l⟩) := by
  unfold openMmap
  simp only [toOption_bind]
  rw [← TypedMap.new_numbers (by decide), ← TypedMap.new_ids (m := m) hw, ← mapIfPresent_ids (m := k) hv]
  cases TypedMap.new 8 (pre ++ ".offsets") x with
  | error e => rfl
  | ok o =>
    cases TypedMap.new w (pre ++ ".edges") x with
    | error e => rfl
    | ok e =>
      cases mapIfPresent v (pre ++ ".labels") x <;> rfl

theorem MmapGraph.new_seen [DecidableEq NL] [DecidableEq EL] {w v : Nat} (hw : 0 < w) (hv : 0 < v)
    (nl : Codec NL) (el : Codec EL) (pre : String) (x : World) :
    (MmapGraph.new w v nl el pre x : Res (MmapGraph m k NL EL)).toOption =
      (x.dumped w v nl el pre : Dumped m k NL EL).load := by
  have path : ∀ a b : String, pre ++ a ++ b = pre ++ (a ++ b) := fun a b => String.append_assoc
  have hins : (if (x.files (pre ++ "_IN" ++ ".offsets")).isSome then do
      let e ← EdgeVec.openMmap w v (pre ++ "_IN") x
      pure (some e)
    else pure none : Res (Option (EdgeVec m k))).toOption = (x.dumped w v nl el pre : Dumped m k NL EL).ins := by
    have ho := EdgeVec.openMmap_seen (m := m) (k := k) hw hv (pre ++ "_IN") x
    rw [path, path, path] at ho
    rw [path]
    have e1 : "_IN" ++ ".offsets" = "_IN.offsets" := by decide
    have e2 : "_IN" ++ ".edges" = "_IN.edges" := by decide
    have e3 : "_IN" ++ ".labels" = "_IN.labels" := by decide
    rw [e1, e2, e3] at ho
    rw [e1]
    unfold Dumped.ins World.dumped
    by_cases hf : x.files (pre ++ "_IN.offsets") = none
    · simp only [World.numbers_absent.2 hf]; rw [hf]; rfl
    · rw [if_pos (Option.isSome_iff_ne_none.2 hf), toOption_bind, ho]
      simp only
      cases hn : x.numbers 8 (pre ++ "_IN.offsets") with
      | none => rfl
      | some o =>
        cases o with
        | none => exact absurd (World.numbers_absent.1 hn) hf
        | some io =>
          simp only [Option.join_some, Option.bind_eq_bind, Option.bind_some]
          cases (x.idsIn w (pre ++ "_IN.edges") : Seen (List (Id m))).join with
          | none => rfl
          | some ie =>
            cases (x.idsIn v (pre ++ "_IN.labels") : Seen (List (Id k))) <;> rfl
  have ho := EdgeVec.openMmap_seen (m := m) (k := k) hw hv (pre ++ "_OUT") x
  rw [path, path, path, show "_OUT" ++ ".offsets" = "_OUT.offsets" by decide,
    show "_OUT" ++ ".edges" = "_OUT.edges" by decide, show "_OUT" ++ ".labels" = "_OUT.labels" by decide] at ho
  have hl := mapIfPresent_ids (m := k) hv (pre ++ ".labels") x
  have hA : (x.dumped w v nl el pre : Dumped m k NL EL).outOffsets = x.numbers 8 (pre ++ "_OUT.offsets") := rfl
  have hB : (x.dumped w v nl el pre : Dumped m k NL EL).outEdges = x.idsIn w (pre ++ "_OUT.edges") := rfl
  have hC : (x.dumped w v nl el pre : Dumped m k NL EL).outLabels = x.idsIn v (pre ++ "_OUT.labels") := rfl
  have hE : (x.dumped w v nl el pre : Dumped m k NL EL).labels = x.idsIn v (pre ++ ".labels") := rfl
  have hF : (x.dumped w v nl el pre : Dumped m k NL EL).aux = if x.files (pre ++ "_aux.bin") = none
    then some none else (x.import (Codec.aux nl el) (pre ++ "_aux.bin")).map some := rfl
  unfold MmapGraph.new Dumped.load
  simp only [toOption_bind]
  rw [ho, hins, hA, hB, hC, hE, hF, ← hl]
  generalize (x.numbers 8 (pre ++ "_OUT.offsets")).join = A
  generalize (x.idsIn w (pre ++ "_OUT.edges") : Seen (List (Id m))).join = B
  generalize (x.idsIn v (pre ++ "_OUT.labels") : Seen (List (Id k))) = C
  generalize (x.dumped w v nl el pre : Dumped m k NL EL).ins = D at *
  cases A with
  | none => rfl
  | some oo => cases B with
    | none => rfl
    | some oe => cases C with
      | none => rfl
      | some ol => cases D with
        | none => rfl
        | some ins =>
          cases mapIfPresent v (pre ++ ".labels") x with
          | error e => rfl
          | ok ls =>
            simp only [Option.bind_eq_bind, Option.bind_some, Option.pure_def]
            show Option.bind (Except.toOption (MmapGraph.loadAux _ _ _ _ _ _)) _ = Option.bind _ _
            unfold MmapGraph.loadAux
            cases hf : x.files (pre ++ "_aux.bin") with
            | none =>
              simp only [Option.isSome_none, Bool.false_eq_true, if_false, if_true, Option.bind_some]
              unfold EdgeVec.numNodes
              by_cases h0 : oo = []
              · subst h0; rfl
              · have h1 : oo.length ≠ 0 := by simpa using h0
                simp only [if_neg h0, if_neg h1]
                rfl
            | some bs =>
              simp only [Option.isSome_some, if_true, reduceCtorEq, if_false]
              cases x.import (Codec.aux nl el) (pre ++ "_aux.bin") <;> rfl

/-! ### Writing, file by file -/

theorem World.numbers_congr {w : Nat} {p : String} {x y : World} (h : y.files p = x.files p) :
    y.numbers w p = x.numbers w p := by
  unfold World.numbers
  rw [h]

theorem World.idsIn_congr {w : Nat} {p : String} {x y : World} (h : y.files p = x.files p) :
    (y.idsIn w p : Seen (List (Id m))) = x.idsIn w p := by
  unfold World.idsIn
  rw [World.numbers_congr h]

/-- The numbers in a file that was written over as far as the room went. -/
theorem World.numbers_over {w R : Nat} (hw : 0 < w) {p : String} {x y : World} {l : List Nat} (hl : l ≠ [])
    (hs : ∀ n ∈ l, n < 256 ^ w)
    (h : y.files p = if R = 0 then x.files p else some ((typedBytes w l).take (R - 1))) :
    y.numbers w p = overArray w R l (x.numbers w p) := by
  unfold overArray
  by_cases h0 : R = 0
  · rw [if_pos h0] at h ⊢
    exact World.numbers_congr h
  · rw [if_neg h0] at h ⊢
    have hlen : 0 < l.length := List.length_pos_iff.2 hl
    have hlw : 0 < l.length * w := Nat.mul_pos hlen hw
    unfold World.numbers
    rw [h]
    by_cases h1 : R = 1
    · rw [if_pos h1, h1]; rfl
    · rw [if_neg h1]
      have hlen2 : ((typedBytes w l).take (R - 1)).length = min (R - 1) (l.length * w) := by
        rw [List.length_take, typedBytes_length]
      have hne : (typedBytes w l).take (R - 1) ≠ [] := by
        intro hc
        rw [hc] at hlen2
        simp only [List.length_nil] at hlen2
        omega
      simp only [if_neg hne]
      have hdiv : ((typedBytes w l).take (R - 1)).length / w = min ((R - 1) / w) l.length := by
        rw [hlen2]
        rcases Nat.le_total (R - 1) (l.length * w) with hle | hle
        · rw [Nat.min_eq_left hle, Nat.min_eq_left]
          calc (R - 1) / w ≤ l.length * w / w := Nat.div_le_div_right hle
            _ = l.length := Nat.mul_div_cancel _ hw
        · rw [Nat.min_eq_right hle, Nat.mul_div_cancel _ hw, Nat.min_eq_right]
          rw [Nat.le_div_iff_mul_le hw]; exact hle
      have key := typedBytes_take w l (R - 1) (min ((R - 1) / w) l.length)
        (le_trans (Nat.mul_le_mul_right w (Nat.min_le_left _ _)) (Nat.div_mul_le_self _ w))
        (Nat.min_le_right _ _)
      unfold TypedMap.read at key
      simp only [Nat.zero_add] at key
      rw [hdiv, key, ← List.take_eq_take_min]
      congr 2
      conv_rhs => rw [← List.map_id (l.take ((R - 1) / w))]
      exact List.map_congr_left (fun n hn => Nat.mod_eq_of_lt (hs n (List.mem_of_mem_take hn)))

theorem World.idsIn_over {w R : Nat} (hw : 0 < w) (hwm : m + 1 = 256 ^ w) {p : String} {x y : World}
    {l : List (Id m)} (hl : l ≠ [])
    (h : y.files p = if R = 0 then x.files p else some ((typedBytes w (l.map (·.val))).take (R - 1))) :
    (y.idsIn w p : Seen (List (Id m))) = overArray w R l (x.idsIn w p) := by
  unfold World.idsIn
  rw [World.numbers_over hw (by simpa using hl) (by
    intro n hn
    obtain ⟨i, -, rfl⟩ := List.mem_map.1 hn
    rw [← hwm]; exact i.isLt) h]
  unfold overArray
  split
  · rfl
  · split
    · rfl
    · have : ∀ i : Id m, Id.new i.val = i := fun i => Fin.ext (Nat.mod_eq_of_lt i.isLt)
      simp only [Option.map_some, ← List.map_take, List.map_map]
      congr 2
      conv_rhs => rw [← List.map_id (l.take ((R - 1) / w))]
      exact List.map_congr_left (fun i _ => this i)

/-- The files of an adjacency after they were written over as far as the room went. -/
theorem EdgeVec.order_over (w v : Nat) (ev : EdgeVec m k) (pre : String) (x : World) :
    let y := World.writes (ev.order w v pre) x
    let R1 := x.room - (1 + ev.offsets.length * 8)
    let R2 := R1 - (1 + ev.edges.length * w)
    (y.files (pre ++ ".offsets") = if x.room = 0 then x.files (pre ++ ".offsets")
      else some ((typedBytes 8 ev.offsets).take (x.room - 1))) ∧
    (y.files (pre ++ ".edges") = if R1 = 0 then x.files (pre ++ ".edges")
      else some ((typedBytes w (ev.edges.map (·.val))).take (R1 - 1))) ∧
    (y.files (pre ++ ".labels") = if ev.getLabels = [] ∨ R2 = 0 then x.files (pre ++ ".labels")
      else some ((typedBytes v (ev.getLabels.map (·.val))).take (R2 - 1))) := by
  intro y R1 R2
  have h1 : (".labels" : String) ≠ ".edges" := by decide
  have h2 : (".labels" : String) ≠ ".offsets" := by decide
  have h3 : (".edges" : String) ≠ ".offsets" := by decide
  have hy : y = World.writes (ev.order w v pre) x := rfl
  unfold order World.writes at hy
  by_cases hl : ev.getLabels = []
  · rw [if_pos hl] at hy
    simp only [List.append_nil, List.cons_append, List.nil_append, List.foldl_cons, List.foldl_nil] at hy
    rw [hy]
    simp only [World.write_files, World.write_room, typedBytes_length, List.length_map, prefix_inj,
      h1, h2, h3, h1.symm, h2.symm, h3.symm, if_true, if_false, hl, true_or, ite_self]
    refine ⟨?_, ?_, ?_⟩ <;> first | trivial | rfl
  · rw [if_neg hl] at hy
    simp only [List.cons_append, List.nil_append, List.foldl_cons, List.foldl_nil] at hy
    rw [hy]
    simp only [World.write_files, World.write_room, typedBytes_length, List.length_map, prefix_inj,
      h1, h2, h3, h1.symm, h2.symm, h3.symm, if_true, if_false, hl, false_or, ite_self]
    refine ⟨?_, ?_, ?_⟩ <;> first | trivial | rfl

/-- The same as loading sees it. -/
theorem EdgeVec.order_seen {w v : Nat} (hw : 0 < w) (hv : 0 < v) (hwm : m + 1 = 256 ^ w)
    (hvk : k + 1 = 256 ^ v) {ev : EdgeVec m k} (he : ev.Mappable) (pre : String) (x : World) :
    let y := World.writes (ev.order w v pre) x
    let R1 := x.room - (1 + ev.offsets.length * 8)
    let R2 := R1 - (1 + ev.edges.length * w)
    y.numbers 8 (pre ++ ".offsets") = overArray 8 x.room ev.offsets (x.numbers 8 (pre ++ ".offsets")) ∧
    (y.idsIn w (pre ++ ".edges") : Seen (List (Id m))) =
      overArray w R1 ev.edges (x.idsIn w (pre ++ ".edges")) ∧
    (y.idsIn v (pre ++ ".labels") : Seen (List (Id k))) =
      overLabels v R2 ev.getLabels (x.idsIn v (pre ++ ".labels")) := by
  intro y R1 R2
  obtain ⟨f1, f2, f3⟩ := order_over w v ev pre x
  refine ⟨World.numbers_over (by decide) he.offsets (fun n hn => by simpa using he.small n hn) f1,
    World.idsIn_over hw hwm he.edges f2, ?_⟩
  unfold overLabels
  by_cases hl : ev.getLabels = []
  · rw [if_pos hl]
    rw [if_pos (.inl hl)] at f3
    exact World.idsIn_congr f3
  · rw [if_neg hl]
    exact World.idsIn_over hv hvk hl (by simpa [hl] using f3)

namespace StaticGraph

variable [DecidableEq NL] [DecidableEq EL]

/-- All files after a dump that stopped anywhere, over any other files. -/
theorem dumped_over {w v : Nat} (hw : 0 < w) (hv : 0 < v) (hwm : m + 1 = 256 ^ w) (hvk : k + 1 = 256 ^ v)
    {nl : Codec NL} {el : Codec EL} {g : StaticGraph m k NL EL}
    (hnl : ∀ x ∈ g.nodeLabels.labels, nl.RoundTrips x) (hel : ∀ x ∈ g.edgeLabels.labels, el.RoundTrips x)
    (hns : nl.Stable) (hes : el.Stable) (hg : g.Mappable) (pre : String) (x : World) :
    ((g.dumpMmap w v nl el pre x).2.dumped w v nl el pre : Dumped m k NL EL) =
      g.interrupted w v (g.auxBytes nl el).length x.room (x.dumped w v nl el pre) := by
  have path : ∀ a b : String, pre ++ a ++ b = pre ++ (a ++ b) := fun a b => String.append_assoc
  rw [dumpMmap_writes]
  unfold order
  rw [World.writes_append, World.writes_append, World.writes_append]
  generalize hx1 : World.writes (g.edgeVec.order w v (pre ++ "_OUT")) x = x1
  generalize hx2 : World.writes ((g.inEdgeVec.map fun e => e.order w v (pre ++ "_IN")).getD []) x1 = x2
  generalize hx3 : World.writes ((g.labels.map fun ls =>
    [(pre ++ ".labels", typedBytes v (ls.map (·.val)))]).getD []) x2 = x3
  generalize hx4 : World.writes [(pre ++ "_aux.bin", g.auxBytes nl el)] x3 = x4
  have keep1 : ∀ suf, suf ∉ ["_OUT.offsets", "_OUT.edges", "_OUT.labels"] →
      x1.files (pre ++ suf) = x.files (pre ++ suf) := by
    intro suf hs
    rw [← hx1, World.writes_frame]
    intro hc
    rcases EdgeVec.order_names _ _ _ _ hc with h | h | h <;>
    · rw [path, prefix_inj] at h
      exact hs (by rw [h]; decide)
  have keep2 : ∀ suf, suf ∉ ["_IN.offsets", "_IN.edges", "_IN.labels"] →
      x2.files (pre ++ suf) = x1.files (pre ++ suf) := by
    intro suf hs
    rw [← hx2, World.writes_frame]
    cases g.inEdgeVec with
    | none => intro hc; cases hc
    | some e =>
      intro hc
      rcases EdgeVec.order_names _ _ _ _ hc with h | h | h <;>
      · rw [path, prefix_inj] at h
        exact hs (by rw [h]; decide)
  have keep3 : ∀ suf, suf ≠ ".labels" → x3.files (pre ++ suf) = x2.files (pre ++ suf) := by
    intro suf hs
    rw [← hx3, World.writes_frame]
    cases g.labels with
    | none => intro hc; cases hc
    | some e =>
      intro hc
      simp only [Option.map_some, Option.getD_some, List.map_cons, List.map_nil, List.mem_singleton,
        prefix_inj] at hc
      exact hs hc
  have keep4 : ∀ suf, suf ≠ "_aux.bin" → x4.files (pre ++ suf) = x3.files (pre ++ suf) := by
    intro suf hs
    rw [← hx4, World.writes_frame]
    intro hc
    simp only [List.map_cons, List.map_nil, List.mem_singleton, prefix_inj] at hc
    exact hs hc
  have r1 : x1.room = x.room - g.edgeVec.cost w v := by rw [← hx1, EdgeVec.order_room]
  have r2 : x2.room = x1.room - (g.inEdgeVec.map (·.cost w v)).getD 0 := by
    rw [← hx2]
    cases g.inEdgeVec with
    | none => rfl
    | some e => exact EdgeVec.order_room _ _ _ _ _
  have r3 : x3.room = x2.room - (g.labels.map fun ls => 1 + ls.length * v).getD 0 := by
    rw [← hx3]
    cases g.labels with
    | none => rfl
    | some ls =>
      show (x2.write _).room = _
      rw [World.write_room, typedBytes_length, List.length_map]
      rfl
  -- the out-edges
  obtain ⟨o1, o2, o3⟩ := EdgeVec.order_seen hw hv hwm hvk hg.out (pre ++ "_OUT") x
  have late : ∀ suf, suf ≠ "_aux.bin" → suf ≠ ".labels" → suf ∉ ["_IN.offsets", "_IN.edges", "_IN.labels"] →
      x4.files (pre ++ suf) = x1.files (pre ++ suf) := by
    intro suf h1 h2 h3
    rw [keep4 _ h1, keep3 _ h2, keep2 _ h3]
  simp only [hx1, path] at o1 o2 o3
  have e1 : "_OUT" ++ ".offsets" = "_OUT.offsets" := by decide
  have e2 : "_OUT" ++ ".edges" = "_OUT.edges" := by decide
  have e3 : "_OUT" ++ ".labels" = "_OUT.labels" := by decide
  have e4 : "_IN" ++ ".offsets" = "_IN.offsets" := by decide
  have e5 : "_IN" ++ ".edges" = "_IN.edges" := by decide
  have e6 : "_IN" ++ ".labels" = "_IN.labels" := by decide
  rw [e1, ← World.numbers_congr (late _ (by decide) (by decide) (by decide))] at o1
  rw [e2, ← World.idsIn_congr (late _ (by decide) (by decide) (by decide))] at o2
  rw [e3, ← World.idsIn_congr (late _ (by decide) (by decide) (by decide))] at o3
  -- the in-edges
  have late2 : ∀ suf, suf ≠ "_aux.bin" → suf ≠ ".labels" → x4.files (pre ++ suf) = x2.files (pre ++ suf) := by
    intro suf h1 h2
    rw [keep4 _ h1, keep3 _ h2]
  have hin : x4.numbers 8 (pre ++ "_IN.offsets") = (match g.inEdgeVec with
        | none => x.numbers 8 (pre ++ "_IN.offsets")
        | some e => overArray 8 x1.room e.offsets (x.numbers 8 (pre ++ "_IN.offsets"))) ∧
      (x4.idsIn w (pre ++ "_IN.edges") : Seen (List (Id m))) = (match g.inEdgeVec with
        | none => x.idsIn w (pre ++ "_IN.edges")
        | some e => overArray w (x1.room - (1 + e.offsets.length * 8)) e.edges
          (x.idsIn w (pre ++ "_IN.edges"))) ∧
      (x4.idsIn v (pre ++ "_IN.labels") : Seen (List (Id k))) = (match g.inEdgeVec with
        | none => x.idsIn v (pre ++ "_IN.labels")
        | some e => overLabels v (x1.room - (1 + e.offsets.length * 8) - (1 + e.edges.length * w)) e.getLabels
          (x.idsIn v (pre ++ "_IN.labels"))) := by
    rw [World.numbers_congr (late2 "_IN.offsets" (by decide) (by decide)),
      World.idsIn_congr (late2 "_IN.edges" (by decide) (by decide)),
      World.idsIn_congr (late2 "_IN.labels" (by decide) (by decide)),
      ← World.numbers_congr (keep1 "_IN.offsets" (by decide)), ← World.idsIn_congr (keep1 "_IN.edges" (by decide)),
      ← World.idsIn_congr (keep1 "_IN.labels" (by decide)), ← hx2]
    cases hi : g.inEdgeVec with
    | none => exact ⟨rfl, rfl, rfl⟩
    | some e =>
      have := EdgeVec.order_seen hw hv hwm hvk (hg.ins e hi) (pre ++ "_IN") x1
      simp only [path, e4, e5, e6] at this
      exact this
  obtain ⟨i1, i2, i3⟩ := hin
  -- the labels of nodes
  have hl : (x4.idsIn v (pre ++ ".labels") : Seen (List (Id k))) = (match g.labels with
      | none => x.idsIn v (pre ++ ".labels")
      | some ls => overArray v x2.room ls (x.idsIn v (pre ++ ".labels"))) := by
    have h21 : x2.files (pre ++ ".labels") = x.files (pre ++ ".labels") := by
      rw [keep2 _ (by decide), keep1 _ (by decide)]
    rw [World.idsIn_congr (keep4 ".labels" (by decide)), ← World.idsIn_congr h21, ← hx3]
    cases hl : g.labels with
    | none => rfl
    | some ls =>
      refine World.idsIn_over hv hvk (fun hc => hg.labels (by rw [hl, hc])) ?_
      show (x2.write _).files _ = _
      rw [World.write_files]
      simp only [if_true]
  -- the auxiliary file
  have ha : (if x4.files (pre ++ "_aux.bin") = none then some none
      else (x4.import (Codec.aux nl el) (pre ++ "_aux.bin")).map some : Seen (Aux NL EL)) =
      if x3.room = 0 then (if x.files (pre ++ "_aux.bin") = none then some none
        else (x.import (Codec.aux nl el) (pre ++ "_aux.bin")).map some)
      else if x3.room - 1 < (g.auxBytes nl el).length then none
      else some (some ⟨g.numNodes, g.numEdges, g.nodeLabels, g.edgeLabels⟩) := by
    have haux : x4.files (pre ++ "_aux.bin") = if x3.room = 0 then x.files (pre ++ "_aux.bin")
        else some ((g.auxBytes nl el).take (x3.room - 1)) := by
      rw [← hx4]
      show (x3.write _).files _ = _
      rw [World.write_files, keep3 _ (by decide), keep2 _ (by decide), keep1 _ (by decide)]
      simp only [if_true]
    have hrt := auxBytes_round hnl hel hg (nl := nl) (el := el)
    unfold World.import
    rw [haux]
    by_cases h0 : x3.room = 0
    · rw [if_pos h0, if_pos h0]
    · rw [if_neg h0, if_neg h0]
      simp only [reduceCtorEq, if_false, Option.bind_eq_bind, Option.bind_some]
      unfold auxBytes
      by_cases hn : x3.room - 1 < (g.auxBytes nl el).length
      · unfold auxBytes at hn
        rw [if_pos hn]
        have := Codec.prefix_fails (Codec.aux_stable hns hes)
          (x := ⟨g.numNodes, g.numEdges, g.nodeLabels, g.edgeLabels⟩)
          ⟨_, by have := hrt []; rw [List.append_nil] at this; exact this⟩
          (List.take_prefix (x3.room - 1) _) (by
            intro hc
            have := congrArg List.length hc
            rw [List.length_take] at this
            omega)
        rw [this]; rfl
      · unfold auxBytes at hn
        rw [if_neg hn, List.take_of_length_le (by omega)]
        have := hrt []
        rw [List.append_nil] at this
        rw [this]; rfl
  rw [r1] at i1 i2 i3 r2
  rw [r2] at hl r3
  rw [r3] at ha
  unfold World.dumped interrupted
  rw [o1, o2, o3, i1, i2, i3, hl, ha]
  rfl

/-- Loading after a dump that stopped anywhere, over any other files. -/
theorem load_interrupted {w v : Nat} (hw : 0 < w) (hv : 0 < v) (hwm : m + 1 = 256 ^ w) (hvk : k + 1 = 256 ^ v)
    {nl : Codec NL} {el : Codec EL} {g : StaticGraph m k NL EL}
    (hnl : ∀ x ∈ g.nodeLabels.labels, nl.RoundTrips x) (hel : ∀ x ∈ g.edgeLabels.labels, el.RoundTrips x)
    (hns : nl.Stable) (hes : el.Stable) (hg : g.Mappable) (pre : String) (x : World) :
    (MmapGraph.new w v nl el pre (g.dumpMmap w v nl el pre x).2 : Res (MmapGraph m k NL EL)).toOption =
      (g.interrupted w v (g.auxBytes nl el).length x.room (x.dumped w v nl el pre)).load := by
  rw [MmapGraph.new_seen hw hv, dumped_over hw hv hwm hvk hnl hel hns hes hg]

end StaticGraph

end Verif
