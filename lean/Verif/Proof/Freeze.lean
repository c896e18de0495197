import Verif.Proof.Csr

/-! `into_static`. -/

namespace Verif

open Spec

variable {m k : Nat} {NL EL : Type}

theorem offsetsOf_snoc {X : Type} (rows : List (List X)) (r : List X) :
    offsetsOf (rows ++ [r]) = offsetsOf rows ++ [(rows ++ [r]).flatten.length] := by
  unfold offsetsOf
  rw [List.length_append, List.length_singleton, List.range_succ, List.map_append]
  congr 1
  · apply List.map_congr_left
    intro i hi
    rw [List.mem_range] at hi
    rw [List.take_append_of_le_length (by omega)]
  · rw [List.map_singleton, ← List.length_singleton (a := r), ← List.length_append, List.take_length]

namespace GraphMap

/-- The row `into_static` writes for node `i`. -/
def rowOf (g : GraphMap m k NL EL) (i : Nat) : List (Id m × Id k) :=
  match g.getNode (Id.new i) with
  | some nd => nd.neighbors.map (fun p => (p.1, p.2.getD Id.maxValue))
  | none => []

/-- The row of in-neighbours `into_static` writes for node `i`. -/
def inRowOf (g : GraphMap m k NL EL) (i : Nat) : List (Id m × Id k) :=
  match g.getNode (Id.new i) with
  | some nd => nd.inNeighbors.map (fun x => (x, Id.maxValue))
  | none => []

/-- The label id `into_static` writes for node `i`. -/
def lidOf (g : GraphMap m k NL EL) (i : Nat) : Id k :=
  ((g.getNode (Id.new i)).bind (·.label)).getD Id.maxValue

def rows (g : GraphMap m k NL EL) (j : Nat) : List (List (Id m × Id k)) := (List.range j).map g.rowOf

def inRows (g : GraphMap m k NL EL) (j : Nat) : List (List (Id m × Id k)) :=
  (List.range j).map g.inRowOf

theorem rows_succ (g : GraphMap m k NL EL) (j : Nat) : g.rows (j + 1) = g.rows j ++ [g.rowOf j] := by
  simp [rows, List.range_succ]

theorem inRows_succ (g : GraphMap m k NL EL) (j : Nat) :
    g.inRows (j + 1) = g.inRows j ++ [g.inRowOf j] := by
  simp [inRows, List.range_succ]

@[simp] theorem rows_length (g : GraphMap m k NL EL) (j : Nat) : (g.rows j).length = j := by
  simp [rows]

@[simp] theorem inRows_length (g : GraphMap m k NL EL) (j : Nat) : (g.inRows j).length = j := by
  simp [inRows]

/-- The state of the loop of `into_static` after `j` turns. -/
structure FrozenTo (g : GraphMap m k NL EL) (j : Nat) (st : Freeze m k) : Prop where
  nm : ∀ n : Id m, j ≤ n.val → AL.get st.nodeMap n = g.getNode n
  offset : st.offset = (g.rows j).flatten.length
  offsets : st.offsets = offsetsOf (g.rows j)
  edges : st.edges = (g.rows j).flatten.map Prod.fst
  edgeLabels : st.edgeLabels =
    if g.view.hasEdgeLabels then some ((g.rows j).flatten.map Prod.snd) else none
  nodeLabels : st.nodeLabels =
    if g.view.hasNodeLabels then some ((List.range j).map g.lidOf) else none
  ins : st.ins = if g.directed then
    some ((g.inRows j).flatten.length, offsetsOf (g.inRows j), (g.inRows j).flatten.map Prod.fst)
    else none

theorem frozen_init (g : GraphMap m k NL EL) : FrozenTo g 0 g.freezeInit := by
  refine ⟨fun n _ => rfl, rfl, rfl, rfl, rfl, rfl, ?_⟩
  unfold freezeInit
  simp only
  split <;> rfl

theorem frozen_turn {g : GraphMap m k NL EL} {j : Nat} {st : Freeze m k} (h : FrozenTo g j st)
    (nid : Id m) (hj : nid.val = j) : FrozenTo g (j + 1) (st.turn nid) := by
  have hid : (Id.new j : Id m) = nid := by
    apply Fin.ext
    rw [EdgeIter.Id_new_val (by have := nid.isLt; omega), hj]
  unfold Freeze.turn
  rw [h.nm nid (by omega)]
  cases hn : g.getNode nid with
  | some nd =>
    simp only
    have e1 : g.rowOf j = nd.neighbors.map (fun p => (p.1, p.2.getD Id.maxValue)) := by
      simp [rowOf, hid, hn]
    have e2 : g.inRowOf j = nd.inNeighbors.map (fun x => (x, Id.maxValue)) := by
      simp [inRowOf, hid, hn]
    have e3 : g.lidOf j = nd.label.getD Id.maxValue := by simp [lidOf, hid, hn]
    have l1 : (g.rows (j + 1)).flatten.length = st.offset + nd.neighbors.length := by
      rw [rows_succ, List.flatten_append, List.length_append, h.offset, e1]; simp
    have l2 : (g.inRows (j + 1)).flatten.length = (g.inRows j).flatten.length + nd.inNeighbors.length := by
      rw [inRows_succ, List.flatten_append, List.length_append, e2]; simp
    refine ⟨?_, ?_, ?_, ?_, ?_, ?_, ?_⟩
    · intro n hle
      show AL.get (AL.erase st.nodeMap nid) n = _
      rw [AL.get_erase, if_neg (by rintro rfl; omega), h.nm n (by omega)]
    · show st.offset + nd.neighbors.length = _
      rw [l1]
    · show st.offsets ++ [st.offset + nd.neighbors.length] = _
      rw [h.offsets, ← l1, rows_succ, offsetsOf_snoc]
    · show st.edges ++ AL.keys nd.neighbors = _
      rw [h.edges, rows_succ, List.flatten_append, List.map_append, e1]
      simp [AL.keys, Function.comp_def]
    · show st.edgeLabels.map _ = _
      rw [h.edgeLabels, rows_succ, List.flatten_append, List.map_append, e1]
      split
      · simp [Function.comp_def]
      · rfl
    · show st.nodeLabels.map _ = _
      rw [h.nodeLabels, List.range_succ, List.map_append]
      split
      · simp [e3]
      · rfl
    · show (st.ins.map _).map _ = _
      rw [h.ins]
      split
      · simp only [Option.map_some]
        rw [← l2, inRows_succ, offsetsOf_snoc, List.flatten_append, List.map_append, e2]
        simp [Function.comp_def]
      · rfl
  | none =>
    simp only
    have e1 : g.rowOf j = [] := by simp [rowOf, hid, hn]
    have e2 : g.inRowOf j = [] := by simp [inRowOf, hid, hn]
    have e3 : g.lidOf j = Id.maxValue := by simp [lidOf, hid, hn]
    have l1 : (g.rows (j + 1)).flatten.length = st.offset := by
      rw [rows_succ, List.flatten_append, List.length_append, h.offset, e1]; simp
    have l2 : (g.inRows (j + 1)).flatten.length = (g.inRows j).flatten.length := by
      rw [inRows_succ, List.flatten_append, List.length_append, e2]; simp
    refine ⟨?_, ?_, ?_, ?_, ?_, ?_, ?_⟩
    · intro n hle
      exact h.nm n (by omega)
    · show st.offset = _
      rw [l1]
    · show st.offsets ++ [st.offset] = _
      rw [h.offsets, ← l1, rows_succ, offsetsOf_snoc]
    · show st.edges = _
      rw [h.edges, rows_succ, List.flatten_append, List.map_append, e1]
      simp
    · show st.edgeLabels = _
      rw [h.edgeLabels, rows_succ, List.flatten_append, List.map_append, e1]
      simp
    · show st.nodeLabels.map _ = _
      rw [h.nodeLabels, List.range_succ, List.map_append]
      split
      · simp [e3]
      · rfl
    · show st.ins.map _ = _
      rw [h.ins]
      split
      · simp only [Option.map_some]
        rw [← l2, inRows_succ, offsetsOf_snoc, List.flatten_append, List.map_append, e2]
        simp
      · rfl

theorem increment_lt {i : Id m} (h : i.val < m) : i.increment = .ok ⟨i.val + 1, by omega⟩ := by
  unfold Id.increment
  rw [if_neg (by omega), dif_pos h]

theorem freeze_loop {g : GraphMap m k NL EL} (M : Id m) (hM : M.val < m) :
    ∀ fuel (nid : Id m) st, FrozenTo g nid.val st → nid.val ≤ M.val + 1 →
      M.val + 1 < nid.val + fuel →
      ∃ st', Freeze.loop fuel nid M st = .ok st' ∧ FrozenTo g (M.val + 1) st' := by
  intro fuel
  induction fuel with
  | zero => intro nid st h1 h2 h3; omega
  | succ f ih =>
    intro nid st h1 h2 h3
    unfold Freeze.loop
    by_cases h : nid ≤ M
    · have h' : nid.val ≤ M.val := h
      rw [if_pos h, increment_lt (by omega)]
      simp only [bind_ok]
      exact ih _ _ (frozen_turn h1 nid rfl) (by simp; omega) (by simp; omega)
    · rw [if_neg h]
      have h' : ¬ nid.val ≤ M.val := h
      have : nid.val = M.val + 1 := by omega
      exact ⟨st, rfl, this ▸ h1⟩

/-- Past the largest id the loop overflows, or never ends if there is only one id. -/
theorem freeze_loop_error (M : Id m) (hM : M.val = m) :
    ∀ fuel (nid : Id m) (st : Freeze m k), m < nid.val + fuel →
      Freeze.loop fuel nid M st = .error (if m = 0 then .diverge else .overflow) := by
  intro fuel
  induction fuel with
  | zero => intro nid st h3; have := nid.isLt; omega
  | succ f ih =>
    intro nid st h3
    have hn := nid.isLt
    unfold Freeze.loop
    rw [if_pos (show nid ≤ M from Fin.le_def.2 (by omega))]
    by_cases h0 : m = 0
    · subst h0
      simp only [Id.increment, if_true]
      show Freeze.loop f nid M _ = _
      clear ih
      induction f generalizing st with
      | zero => rfl
      | succ f ih' =>
        unfold Freeze.loop
        rw [if_pos (show nid ≤ M from Fin.le_def.2 (by omega))]
        simp only [Id.increment, if_true]
        exact ih' _ (by omega)
    · by_cases hlt : nid.val < m
      · rw [increment_lt hlt]
        simp only [bind_ok]
        exact ih _ _ (by simp; omega)
      · simp only [Id.increment, h0, if_false, hlt, dif_neg, not_false_eq_true]
        rfl

theorem max_spec {g : GraphMap m k NL EL} {M : Id m} (h : g.nodeIndices.max? = some M) :
    g.hasNode M = true ∧ ∀ n, g.hasNode n = true → n ≤ M := by
  have hmem : ∀ n, n ∈ g.nodeIndices ↔ g.hasNode n = true := by
    intro n
    unfold nodeIndices hasNode
    rw [AL.get_isSome_iff]
  have h1 := List.max?_eq_some_iff.1 h
  refine ⟨(hmem M).1 h1.1, fun n hn => h1.2 n ((hmem n).2 hn)⟩

theorem rows_sorted {g : GraphMap m k NL EL} (hg : g.NWF) (j : Nat) :
    ∀ r ∈ g.rows j, (r.map Prod.fst).Pairwise (· < ·) := by
  intro r hr
  obtain ⟨i, -, rfl⟩ := List.mem_map.1 hr
  unfold rowOf
  cases h : g.getNode (Id.new i) with
  | none => simp
  | some nd =>
    have := hg.sortedOut _ nd h
    simpa [Function.comp_def, AL.keys] using this

theorem inRows_sorted {g : GraphMap m k NL EL} (hg : g.NWF) (j : Nat) :
    ∀ r ∈ g.inRows j, (r.map Prod.fst).Pairwise (· < ·) := by
  intro r hr
  obtain ⟨i, -, rfl⟩ := List.mem_map.1 hr
  unfold inRowOf
  cases h : g.getNode (Id.new i) with
  | none => simp
  | some nd =>
    have := hg.sortedIn _ nd h
    simpa [Function.comp_def] using this

/-- What `into_static` returns: the rows of the nodes `0..=M`. -/
structure FrozenAs (g : GraphMap m k NL EL) (M : Id m) (r : StaticGraph m k NL EL) : Prop where
  directed : r.directed = g.directed
  numNodes : r.numNodes = g.nodeCount
  numEdges : r.numEdges = g.edgeCount
  out : Encodes r.edgeVec (g.rows (M.val + 1)) g.view.hasEdgeLabels
  inn : g.directed = true → ∃ iv, r.inEdgeVec = some iv ∧ Encodes iv (g.inRows (M.val + 1)) false
  noIn : g.directed = false → r.inEdgeVec = none
  labels : r.labels =
    if g.view.hasNodeLabels then some ((List.range (M.val + 1)).map g.lidOf) else none
  nodeLabels : r.nodeLabels = g.nodeLabels
  edgeLabels : r.edgeLabels = g.edgeLabels

theorem intoStatic_ok {g : GraphMap m k NL EL} (hg : g.NWF) {M : Id m}
    (hM : g.nodeIndices.max? = some M) (hlt : M.val < m) :
    ∃ r, g.intoStatic = .ok r ∧ FrozenAs g M r := by
  have h0 : (Id.new 0 : Id m).val = 0 := EdgeIter.Id_new_val (by omega)
  obtain ⟨st, h1, h2⟩ := freeze_loop (g := g) M hlt (m + 2) (Id.new 0) g.freezeInit
    (by rw [h0]; exact frozen_init g) (by omega) (by omega)
  have h3 : ∃ ev : EdgeVec m k, EdgeVec.fromRaw st.offsets st.edges st.edgeLabels = .ok ev ∧
      Encodes ev (g.rows (M.val + 1)) g.view.hasEdgeLabels := by
    rw [h2.edgeLabels, h2.offsets, h2.edges]
    cases hh : g.view.hasEdgeLabels with
    | true =>
      refine ⟨⟨offsetsOf (g.rows (M.val + 1)), (g.rows (M.val + 1)).flatten.map Prod.fst,
        some ((g.rows (M.val + 1)).flatten.map Prod.snd)⟩, ?_, rfl, rfl, rfl, rows_sorted hg _⟩
      simp only [EdgeVec.fromRaw, EdgeVec.withLabels, if_true]
      rw [if_neg (by rw [List.length_map, List.length_map]; simp)]
      rfl
    | false => exact ⟨⟨_, _, none⟩, rfl, rfl, rfl, rfl, rows_sorted hg _⟩
  obtain ⟨ev, h3, h4⟩ := h3
  have h5 : st.ins.map (fun i => (EdgeVec.new i.2.1 i.2.2 : EdgeVec m k)) =
      if g.directed then some (EdgeVec.new (offsetsOf (g.inRows (M.val + 1)))
        ((g.inRows (M.val + 1)).flatten.map Prod.fst)) else none := by
    rw [h2.ins]; split <;> rfl
  have hc : (g.directed && (if g.directed then some (EdgeVec.new (offsetsOf (g.inRows (M.val + 1)))
        ((g.inRows (M.val + 1)).flatten.map Prod.fst) : EdgeVec m k) else none).isNone) = false := by
    cases g.directed <;> rfl
  refine ⟨⟨g.directed, g.nodeCount, g.edgeCount, ev, if g.directed then some (EdgeVec.new
    (offsetsOf (g.inRows (M.val + 1))) ((g.inRows (M.val + 1)).flatten.map Prod.fst)) else none,
    st.nodeLabels, g.nodeLabels, g.edgeLabels⟩, ?_, ?_⟩
  · unfold intoStatic
    simp only [hM, unwrap, bind_ok, h1, h3]
    unfold StaticGraph.fromRaw
    rw [h5, EdgeVec.numNodes_eq h4, bind_ok, hc]
    simp only [Bool.false_eq_true, if_false]
    rfl
  · refine ⟨rfl, rfl, rfl, h4, ?_, ?_, h2.nodeLabels, rfl, rfl⟩
    · intro hd
      exact ⟨EdgeVec.new (offsetsOf (g.inRows (M.val + 1)))
        ((g.inRows (M.val + 1)).flatten.map Prod.fst), by simp [hd], rfl, rfl, rfl, inRows_sorted hg _⟩
    · intro hd; simp [hd]

theorem intoStatic_empty {g : GraphMap m k NL EL} (h : g.nodeMap = []) :
    g.intoStatic = .error .unwrapNone := by
  unfold intoStatic nodeIndices
  rw [h]
  rfl

theorem intoStatic_max {g : GraphMap m k NL EL} (h : g.hasNode Id.maxValue = true) :
    g.intoStatic = .error (if m = 0 then .diverge else .overflow) := by
  cases hM : g.nodeIndices.max? with
  | none =>
    rw [List.max?_eq_none_iff] at hM
    unfold hasNode at h
    rw [AL.get_isSome_iff] at h
    unfold nodeIndices at hM
    rw [hM] at h; cases h
  | some M =>
    have hv : M.val = m := by
      have := (max_spec hM).2 _ h
      have h2 : m ≤ M.val := this
      have := M.isLt
      omega
    unfold intoStatic
    rw [hM]
    simp only [unwrap, bind_ok]
    rw [freeze_loop_error M hv _ _ _ (by omega)]
    rfl

/-! ### Reading the rows back -/

variable {g : GraphMap m k NL EL}

theorem Id_new_self (n : Id m) : (Id.new n.val : Id m) = n :=
  Fin.ext (EdgeIter.Id_new_val (Nat.le_of_lt_succ n.isLt))

theorem rows_getElem (j i : Nat) (h : i < (g.rows j).length) : (g.rows j)[i] = g.rowOf i := by
  simp [rows]

theorem inRows_getElem (j i : Nat) (h : i < (g.inRows j).length) : (g.inRows j)[i] = g.inRowOf i := by
  simp [inRows]

theorem rowOf_fst (n : Id m) :
    (g.rowOf n.val).map Prod.fst = ((g.getNode n).map (·.neighborIds)).getD [] := by
  unfold rowOf
  rw [Id_new_self]
  cases g.getNode n <;> simp [NodeMap.neighborIds, AL.keys, Function.comp_def]

theorem inRowOf_fst (n : Id m) :
    (g.inRowOf n.val).map Prod.fst = ((g.getNode n).map (·.inNeighborIds)).getD [] := by
  unfold inRowOf
  rw [Id_new_self]
  cases g.getNode n <;> simp [NodeMap.inNeighborIds, Function.comp_def]

theorem mem_rowOf (hg : g.NWF) (n t : Id m) (l : Id k) :
    (t, l) ∈ g.rowOf n.val ↔ (g.outE n t).map (fun x => x.getD Id.maxValue) = some l := by
  unfold rowOf outE
  rw [Id_new_self]
  cases h : g.getNode n with
  | none => simp
  | some nd =>
    have hn : (AL.keys nd.neighbors).Nodup := sorted_nodup (hg.sortedOut n nd h)
    simp only [List.mem_map, Prod.mk.injEq, Option.bind_some, Option.map_eq_some_iff]
    constructor
    · rintro ⟨⟨a, b⟩, h1, rfl, rfl⟩
      exact ⟨b, AL.get_eq_of_mem hn h1, rfl⟩
    · rintro ⟨b, h1, rfl⟩
      exact ⟨(t, b), AL.get_mem h1, rfl, rfl⟩

end GraphMap

end Verif
