import Verif.Proof.MmapGraph
import Verif.Proof.Freeze
import Verif.Proof.GraphOps

/-! How much room dumping takes, and that frozen graphs can be dumped. -/

namespace Verif

open Spec

variable {m k : Nat} {NL EL : Type}

namespace World

/-- The effects needed for some files. -/
def cost (fs : List (String × List Byte)) : Nat := (fs.map (fun f => 1 + f.2.length)).sum

theorem cost_append (a b : List (String × List Byte)) : cost (a ++ b) = cost a + cost b := by
  simp [cost]

/-- Writing `fs` leaves what is left; nothing, if it failed. -/
structure Paid (x : World) (fs : List (String × List Byte)) (r : Bool × World) : Prop where
  room : r.2.room = x.room - cost fs
  fail : r.1 = false → r.2.room = 0
  done : cost fs ≤ x.room → r.1 = true

theorem Paid.nil (x : World) : Paid x [] (true, x) := ⟨by simp [cost], fun h => (by cases h), fun _ => rfl⟩

theorem paid_dump (path : String) (bs : List Byte) (x : World) : Paid x [(path, bs)] (x.dump path bs) := by
  rw [dump_eq]
  by_cases h : x.room = 0
  · rw [if_pos h]
    exact ⟨by simp [cost]; omega, fun _ => h, fun hc => absurd hc (by simp [cost]; omega)⟩
  · rw [if_neg h]
    refine ⟨?_, ?_, fun hc => ?_⟩
    · simp [cost, put]; omega
    · intro hf
      simp only [decide_eq_false_iff_not, Nat.not_le] at hf
      simp only [put]
      omega
    · simp only [cost, List.map_cons, List.map_nil, List.sum_cons, List.sum_nil] at hc
      simp only [decide_eq_true_eq]
      omega

theorem Paid.andThen {x : World} {fs fs' : List (String × List Byte)} {r : Bool × World}
    {f : World → Bool × World} (h : Paid x fs r) (hf : ∀ y, Paid y fs' (f y)) :
    Paid x (fs' ++ fs) (World.andThen r f) := by
  unfold World.andThen
  by_cases h1 : r.1 = true
  · rw [if_pos h1]
    refine ⟨?_, (hf r.2).fail, fun hc => (hf r.2).done ?_⟩
    · rw [(hf r.2).room, h.room, cost_append]
      omega
    · rw [h.room]
      rw [cost_append] at hc
      omega
  · rw [if_neg h1]
    rw [Bool.not_eq_true] at h1
    have h0 := h.fail h1
    refine ⟨?_, h.fail, fun hc => ?_⟩
    · have := h.room
      rw [cost_append]
      omega
    · rw [cost_append] at hc
      exact h.done (by omega)

theorem paid_ifSome {X : Type} {o : Option X} {f : X → World → Bool × World}
    {fs : X → List (String × List Byte)} (h : ∀ y x, Paid x (fs y) (f y x)) (x : World) :
    Paid x ((o.map fs).getD []) (ifSome o f x) := by
  cases o with
  | none => exact Paid.nil x
  | some y => exact h y x

end World

theorem EdgeVec.paid_dumpMmap (w v : Nat) (ev : EdgeVec m k) (pre : String) (x : World) :
    World.Paid x (ev.files w v pre) (ev.dumpMmap w v pre x) := by
  unfold dumpMmap files
  have h1 := World.paid_dump (pre ++ ".offsets") (typedBytes 8 ev.offsets) x
  have hrest : ∀ x, World.Paid x ((if ev.getLabels = [] then [] else
      [(pre ++ ".labels", typedBytes v (ev.getLabels.map (·.val)))]) ++
        [(pre ++ ".edges", typedBytes w (ev.edges.map (·.val)))])
      (World.andThen (x.dump (pre ++ ".edges") (typedBytes w (ev.edges.map (·.val)))) fun x =>
        if ev.getLabels = [] then (true, x)
        else x.dump (pre ++ ".labels") (typedBytes v (ev.getLabels.map (·.val)))) := by
    intro x
    refine World.Paid.andThen (World.paid_dump _ _ x) (fun y => ?_)
    by_cases hl : ev.getLabels = []
    · rw [if_pos hl, if_pos hl]; exact World.Paid.nil y
    · rw [if_neg hl, if_neg hl]; exact World.paid_dump _ _ y
  have := World.Paid.andThen h1 hrest
  rw [List.append_assoc] at this
  exact this

namespace StaticGraph

theorem paid_dumpArrays (w v : Nat) (g : StaticGraph m k NL EL) (pre : String) (x : World) :
    World.Paid x (g.files w v pre) (g.dumpArrays w v pre x) := by
  unfold dumpArrays files
  rw [← List.append_assoc]
  refine World.Paid.andThen (EdgeVec.paid_dumpMmap w v g.edgeVec (pre ++ "_OUT") x) (fun y => ?_)
  refine World.Paid.andThen (World.paid_ifSome (fun e y => EdgeVec.paid_dumpMmap w v e (pre ++ "_IN") y) y)
    (fun z => ?_)
  exact World.paid_ifSome
    (fs := fun ls : List (Id k) => [(pre ++ ".labels", typedBytes v (ls.map (·.val)))])
    (fun (ls : List (Id k)) y => World.paid_dump (pre ++ ".labels") (typedBytes v (ls.map (·.val))) y) z

variable [DecidableEq NL] [DecidableEq EL]

/-- The bytes of the auxiliary file. -/
def auxBytes (nl : Codec NL) (el : Codec EL) (g : StaticGraph m k NL EL) : List Byte :=
  (Codec.aux nl el).bytes ⟨g.numNodes, g.numEdges, g.nodeLabels, g.edgeLabels⟩

theorem dump_room (w v : Nat) (nl : Codec NL) (el : Codec EL) (g : StaticGraph m k NL EL) (pre : String)
    (x : World) : (g.dumpMmap w v nl el pre x).2.room =
      x.room - (World.cost (g.files w v pre) + 1 + (g.auxBytes nl el).length) := by
  rw [dumpMmap_eq]
  have h := paid_dumpArrays w v g pre x
  unfold World.andThen
  by_cases h1 : (g.dumpArrays w v pre x).1 = true
  · rw [if_pos h1]
    obtain ⟨ok, e1, -⟩ := World.export_eq (Codec.aux nl el)
      ⟨g.numNodes, g.numEdges, g.nodeLabels, g.edgeLabels⟩ (pre ++ "_aux.bin") (g.dumpArrays w v pre x).2
    rw [e1]
    have h2 := h.room
    by_cases h0 : (g.dumpArrays w v pre x).2.room = 0
    · rw [if_pos h0]; simp only; omega
    · rw [if_neg h0]; simp only [World.put, auxBytes]; omega
  · rw [if_neg h1]
    rw [Bool.not_eq_true] at h1
    have h2 := h.fail h1
    have h3 := h.room
    omega

end StaticGraph

theorem offsetsOf_le {Y : Type} (rows : List (List Y)) (o : Nat) (ho : o ∈ offsetsOf rows) :
    o ≤ rows.flatten.length := by
  obtain ⟨i, hi, rfl⟩ := List.getElem_of_mem ho
  rw [offsetsOf_length] at hi
  have h := offsetsOf_get rows (i := i) (by omega)
  rw [List.getElem?_eq_getElem (by rw [offsetsOf_length]; exact hi), Option.some.injEq] at h
  rw [h]
  conv_rhs => rw [← List.take_append_drop i rows, List.flatten_append, List.length_append]
  omega

theorem EdgeVec.mappable_of_encodes {e : EdgeVec m k} {rows : List (List (Id m × Id k))} {lab : Bool}
    (h : Encodes e rows lab) (hne : rows.flatten ≠ []) (hs : e.edges.length < 2 ^ 64) : e.Mappable := by
  refine ⟨?_, ?_, ?_⟩
  · intro hc
    have := congrArg List.length hc
    rw [h.offsets, offsetsOf_length] at this
    simp at this
  · rw [h.edges]; simpa using hne
  · rw [h.offsets]
    intro o ho
    have := offsetsOf_le rows o ho
    rw [h.edges, List.length_map] at hs
    omega

namespace GraphMap

theorem rows_flatten_ne {g : GraphMap m k NL EL} {M : Id m} (hM : ∀ n, g.hasNode n = true → n ≤ M)
    {s t : Id m} (he : g.hasEdge s t = true) : (g.rows (M.val + 1)).flatten ≠ [] := by
  rw [hasEdge_eq_outE] at he
  obtain ⟨nd, hnd⟩ := (hasNode_iff _ _).1 (outE_hasNode he)
  have ht : t ∈ nd.neighborIds := (mem_neighborIds_iff hnd t).2 he
  intro hc
  rw [List.flatten_eq_nil_iff] at hc
  have hs : s.val < M.val + 1 := by
    have : s.val ≤ M.val := hM s (outE_hasNode he)
    omega
  have := hc (g.rowOf s.val) (List.mem_map.2 ⟨s.val, List.mem_range.2 hs, rfl⟩)
  unfold rowOf at this
  rw [Id_new_self, hnd] at this
  simp only [List.map_eq_nil_iff] at this
  unfold NodeMap.neighborIds at ht
  rw [this] at ht
  cases ht

theorem inRows_flatten_ne {g : GraphMap m k NL EL} (hg : g.Inv) (hd : g.directed = true) {M : Id m}
    (hM : ∀ n, g.hasNode n = true → n ≤ M)
    {s t : Id m} (he : g.hasEdge s t = true) : (g.inRows (M.val + 1)).flatten ≠ [] := by
  rw [hasEdge_eq_outE] at he
  have hn := hg.target s t he
  obtain ⟨nd, hnd⟩ := (hasNode_iff _ _).1 hn
  have hin : s ∈ nd.inNeighborIds := (mem_inNeighbors_iff hnd s).2 ((hg.inSpec hd s t).2 he)
  intro hc
  rw [List.flatten_eq_nil_iff] at hc
  have hs : t.val < M.val + 1 := by
    have : t.val ≤ M.val := hM t hn
    omega
  have := hc (g.inRowOf t.val) (List.mem_map.2 ⟨t.val, List.mem_range.2 hs, rfl⟩)
  unfold inRowOf at this
  rw [Id_new_self, hnd] at this
  simp only [List.map_eq_nil_iff] at this
  unfold NodeMap.inNeighborIds at hin
  rw [this] at hin
  cases hin

/-- Rows name nodes only. -/
theorem rows_target {g : GraphMap m k NL EL} (hg : g.Inv) {M : Id m}
    (hM : ∀ n, g.hasNode n = true → n ≤ M) :
    ∀ r ∈ g.rows (M.val + 1), ∀ p ∈ r, p.1.val < M.val + 1 := by
  intro r hr p hp
  obtain ⟨i, -, rfl⟩ := List.mem_map.1 hr
  unfold rowOf at hp
  cases hnd : g.getNode (Id.new i) with
  | none => rw [hnd] at hp; cases hp
  | some nd =>
    rw [hnd] at hp
    obtain ⟨q, hq, rfl⟩ := List.mem_map.1 hp
    have hin : q.1 ∈ nd.neighborIds := List.mem_map.2 ⟨q, hq, rfl⟩
    have := hg.target _ _ ((mem_neighborIds_iff hnd q.1).1 hin)
    have : q.1.val ≤ M.val := hM _ this
    simp only
    omega

end GraphMap

end Verif
