import Verif.Props.Density
import Verif.Props.Serde

/-! Property theorems about the files `vary_density` leaves: C96. -/

namespace Verif.Props

open GraphMap Spec Programs

variable {m k : Nat}

theorem toDigits_inj {a b : Nat} (h : Nat.toDigits 10 a = Nat.toDigits 10 b) : a = b := by
  have := congrArg (fun cs => Nat.ofDigitChars 10 cs 0) h
  simpa [Nat.ofDigitChars_ten_toDigits] using this

theorem underscore_cut {a b x y : List Char} (ha : '_' ∉ a) (hb : '_' ∉ b)
    (h : a ++ '_' :: x = b ++ '_' :: y) : a = b := by
  induction a generalizing b with
  | nil =>
    cases b with
    | nil => rfl
    | cons c b =>
      simp only [List.nil_append, List.cons_append, List.cons.injEq] at h
      exact absurd (by rw [h.1]; exact List.mem_cons_self) hb
  | cons d a ih =>
    cases b with
    | nil =>
      simp only [List.nil_append, List.cons_append, List.cons.injEq] at h
      exact absurd (by rw [h.1]; exact List.mem_cons_self) ha
    | cons c b =>
      simp only [List.cons_append, List.cons.injEq] at h
      rw [h.1, ih (fun q => ha (by simp [q])) (fun q => hb (by simp [q])) h.2]

theorem toString_toList (n : Nat) : (toString n).toList = Nat.toDigits 10 n := by
  show (Nat.repr n).toList = _
  simp [Nat.repr]

/-- The names of two graphs with as many nodes tell the numbers of edges. -/
theorem densityFile_edges {NL EL : Type} (file : String) {d d' : Nat} {g g' : GraphMap m k NL EL}
    (hn : g.nodeCount = g'.nodeCount) (h : densityFile file d g = densityFile file d' g') :
    g.edgeCount = g'.edgeCount := by
  have h := congrArg String.toList h
  unfold densityFile at h
  simp only [String.toList_append, toString_toList, hn, List.append_assoc] at h
  have h := List.append_cancel_left (List.append_cancel_left (List.append_cancel_left (List.append_cancel_left h)))
  have e : "_".toList = ['_'] := rfl
  simp only [e, List.cons_append, List.nil_append] at h
  exact toDigits_inj (underscore_cut (by simp) (by simp) h)

theorem exportAll_ok {NL EL : Type} (c : Codec (GraphMap m k NL EL))
    (name : Nat → GraphMap m k NL EL → String) : ∀ (l : List (Nat × GraphMap m k NL EL)) (w : World),
    (∀ p ∈ l, c.get (c.bytes p.2) = some (p.2, [])) → (l.map (fun p => name p.1 p.2)).Nodup →
    (l.map (fun p => (c.bytes p.2).length + 1)).sum ≤ w.room →
    ∃ w', exportAll c name l w = (.ok (), w') ∧ (∀ p ∈ l, w'.import c (name p.1 p.2) = some p.2) ∧
      ∀ q, (∀ p ∈ l, q ≠ name p.1 p.2) → w'.files q = w.files q := by
  intro l
  induction l with
  | nil => intro w _ _ _; exact ⟨w, rfl, by simp, fun _ _ => rfl⟩
  | cons p l ih =>
    intro w hc hn hr
    simp only [List.map_cons, List.sum_cons] at hr
    obtain ⟨ok, e1, e2⟩ := World.export_eq c p.2 (name p.1 p.2) w
    rw [if_neg (by omega)] at e1
    have hle : (c.bytes p.2).length ≤ w.room - 1 := by omega
    obtain rfl := e2 hle
    rw [List.take_of_length_le hle] at e1
    rw [List.map_cons, List.nodup_cons] at hn
    obtain ⟨w', b1, b2, b3⟩ := ih (w.put (name p.1 p.2) ⟨c.bytes p.2, w.room - 1 - (c.bytes p.2).length⟩)
      (fun q hq => hc q (by simp [hq])) hn.2 (by show _ ≤ w.room - 1 - (c.bytes p.2).length; omega)
    refine ⟨w', ?_, ?_, ?_⟩
    · rw [exportAll, e1]
      simp only [if_true]
      exact b1
    · intro q hq
      rcases List.mem_cons.1 hq with rfl | hq
      · have := b3 (name q.1 q.2) (fun p' hp' he => hn.1 (by rw [he]; exact List.mem_map_of_mem hp'))
        unfold World.import
        rw [this]
        simp only [World.put, if_true, Option.bind_eq_bind, Option.bind_some, hc q (by simp), Option.pure_def]
      · exact b2 q hq
    · intro q hq
      rw [b3 q (fun p' hp' => hq p' (by simp [hp']))]
      simp only [World.put, if_neg (hq p (by simp))]

/-- **C96.** What `vary_density` leaves on a disk with room: one file for each graph, no two of the same
name, that can be imported again to the same graph, and no other change; this holds also for the graphs
finished before the loop stops with a panic or goes on for ever. -/
theorem c96_files {g : GraphMap m k (List Byte) (List Byte)} (hg : Reachable g)
    (hd : g.isDirected = false) (hc : densityChecks g = .ok ()) {wd v : Nat} (hw : m + 1 = 256 ^ wd)
    (hv : k + 1 = 256 ^ v) {inFile : String} {w : World}
    (hin : w.import (Codec.graphMap (m := m) (k := k) wd v Programs.text Programs.text false) inFile = some g)
    {naming : String → String} (hinj : Function.Injective naming) {ds : List Nat} {fuel : Nat} {r : Rng}
    {l res} (h : densities g.nodeCount g.edgeCount fuel ds g r = (l, res))
    (hn : g.nodeCount < 2 ^ 64) (he : g.edgeCount + added g.nodeCount g.edgeCount ds < 2 ^ 64)
    (hnl : g.nodeLabels.len < 2 ^ 64) (hel : g.edgeLabels.len < 2 ^ 64)
    (cnl : ∀ y ∈ g.nodeLabels.items, y.length < 2 ^ 64) (cel : ∀ y ∈ g.edgeLabels.items, y.length < 2 ^ 64)
    (hroom : (l.map (fun p => ((Codec.graphMap (m := m) (k := k) wd v Programs.text Programs.text
      false).bytes p.2).length + 1)).sum ≤ w.room) :
    ∃ w', varyDensity m k wd v inFile naming ds fuel r w = (res, w') ∧
      (l.map (fun p => naming (densityFile inFile p.1 p.2))).Nodup ∧
      (∀ p ∈ l, w'.import (Codec.graphMap (m := m) (k := k) wd v Programs.text Programs.text false)
        (naming (densityFile inFile p.1 p.2)) = some p.2) ∧
      ∀ q, (∀ p ∈ l, q ≠ naming (densityFile inFile p.1 p.2)) → w'.files q = w.files q := by
  obtain ⟨x, y, z⟩ := c93_graphs hg hd hc h
  have mono : ∀ a b : Nat, a ≤ b → added g.nodeCount g.edgeCount (ds.take a) ≤
      added g.nodeCount g.edgeCount (ds.take b) := by
    intro a b hab
    unfold added
    exact (((List.take_prefix_take_left hab).sublist).map _).sum_le_sum (fun _ _ => Nat.zero_le _)
  have get : ∀ p ∈ l, ∃ i, l[i]? = some p := fun p hp => by
    obtain ⟨i, hi, rfl⟩ := List.getElem_of_mem hp
    exact ⟨i, List.getElem?_eq_getElem hi⟩
  have back : ∀ p ∈ l, (Codec.graphMap (m := m) (k := k) wd v Programs.text Programs.text false).get
      ((Codec.graphMap (m := m) (k := k) wd v Programs.text Programs.text false).bytes p.2) =
        some (p.2, []) := by
    intro p hp
    obtain ⟨i, hi⟩ := get p hp
    obtain ⟨q1, q2⟩ := z i p.1 p.2 hi
    have hdir : p.2.directed = false := q2.directed.trans hd
    have hlast := mono (i + 1) (max (i + 1) ds.length) (le_max_left _ _)
    rw [List.take_of_length_le (i := max (i + 1) ds.length) (le_max_right _ _)] at hlast
    have := graph_map_get (nl := Programs.text) (el := Programs.text) q1 hw hv (by rw [q2.nodeCount]; exact hn)
      (by rw [q2.edgeCount]; omega) (by rw [q2.nodeTable]; exact hnl) (by rw [q2.edgeTable]; exact hel)
      (by rw [q2.nodeTable]; exact fun y hy => text_round (cnl y hy))
      (by rw [q2.edgeTable]; exact fun y hy => text_round (cel y hy)) false []
    rw [List.append_nil, hdir] at this
    rw [this]
    obtain ⟨a, b⟩ := p
    cases b
    simp only at hdir
    rw [hdir]
  have dist : (l.map (fun p => naming (densityFile inFile p.1 p.2))).Nodup := by
    obtain ⟨-, -, hD⟩ := (checks_dense hg).1 hc
    obtain ⟨a1, a2, a3, -⟩ := c11_nodes hg
    obtain ⟨-, -, z'⟩ := densities_spec ds hg hd hD (dense_le a1 a3) h
    rw [List.Nodup, List.pairwise_iff_getElem]
    intro i j hi hj hij he
    simp only [List.length_map] at hi hj
    simp only [List.getElem_map] at he
    obtain ⟨-, qi⟩ := z i l[i].1 l[i].2 (List.getElem?_eq_getElem hi)
    obtain ⟨-, qj⟩ := z j l[j].1 l[j].2 (List.getElem?_eq_getElem hj)
    obtain ⟨-, -, tj⟩ := z' j l[j].1 l[j].2 (List.getElem?_eq_getElem hj)
    have hc1 := densityFile_edges inFile (qi.nodeCount.trans qj.nodeCount.symm) (hinj he)
    have hq := (c94_targets hg hd hc h (i := j) (d := l[j].1) (gi := l[j].2) (List.getElem?_eq_getElem hj)).1
    have hmem : l[j].1 ∈ ds.take (j + 1) := by
      obtain ⟨t, ht⟩ := x
      rw [← ht, List.take_append_of_le_length (by rw [List.length_map]; omega)]
      refine List.mem_take_iff_getElem.2 ⟨j, by rw [List.length_map]; omega, by simp⟩
    have hpos := tj _ hmem
    have hm := mono (i + 1) j (by omega)
    rw [qi.edgeCount, hq] at hc1
    omega
  obtain ⟨w', b1, b2, b3⟩ := exportAll_ok _ (fun d g => naming (densityFile inFile d g)) l w back dist hroom
  refine ⟨w', ?_, dist, b2, b3⟩
  unfold varyDensity
  simp only [hin, orPanic, pure_ok, bind_ok, hc, h, b1]

theorem exportAll_stops {NL EL : Type} (c : Codec (GraphMap m k NL EL))
    (name : Nat → GraphMap m k NL EL → String) (p : Nat × GraphMap m k NL EL) (l' : List _) :
    ∀ (l : List (Nat × GraphMap m k NL EL)) (w w' w'' : World), exportAll c name l w = (.ok (), w') →
    w'.export c p.2 (name p.1 p.2) = (false, w'') → exportAll c name (l ++ p :: l') w = (.error .explicit, w'')
  | [], w, w', w'', h, e => by
    cases h
    rw [List.nil_append, exportAll, e]
    rfl
  | q :: l, w, w', w'', h, e => by
    rw [exportAll] at h
    rw [List.cons_append, exportAll]
    by_cases hq : (w.export c q.2 (name q.1 q.2)).1 = true
    · simp only [hq, if_true] at h ⊢
      exact exportAll_stops c name p l' l _ w' w'' h e
    · simp only [hq] at h
      cases h

/-- **C96.** If an export reports a failure, `vary_density` panics at once: the disk is as that export left
it, whichever of the graphs it was. -/
theorem c96_failed_export {g : GraphMap m k (List Byte) (List Byte)} (hc : densityChecks g = .ok ())
    {wd v : Nat} {inFile : String} {w : World}
    (hin : w.import (Codec.graphMap (m := m) (k := k) wd v Programs.text Programs.text false) inFile = some g)
    {naming : String → String} {ds : List Nat} {fuel : Nat} {r : Rng} {l p l' res}
    (h : densities g.nodeCount g.edgeCount fuel ds g r = (l ++ p :: l', res)) {w' w'' : World}
    (hl : exportAll (Codec.graphMap (m := m) (k := k) wd v Programs.text Programs.text false)
      (fun d g => naming (densityFile inFile d g)) l w = (.ok (), w'))
    (he : w'.export (Codec.graphMap (m := m) (k := k) wd v Programs.text Programs.text false) p.2
      (naming (densityFile inFile p.1 p.2)) = (false, w'')) :
    varyDensity m k wd v inFile naming ds fuel r w = (.error .explicit, w'') := by
  unfold varyDensity
  simp only [hin, orPanic, pure_ok, bind_ok, hc, h,
    exportAll_stops _ (fun d g => naming (densityFile inFile d g)) p l' l w w' w'' hl he]

/-- **C96.** On a full disk it panics before anything is changed. -/
theorem c96_full_disk {g : GraphMap m k (List Byte) (List Byte)} (hc : densityChecks g = .ok ())
    {wd v : Nat} {inFile : String} {w : World}
    (hin : w.import (Codec.graphMap (m := m) (k := k) wd v Programs.text Programs.text false) inFile = some g)
    {naming : String → String} {ds : List Nat} {fuel : Nat} {r : Rng}
    (h : (densities g.nodeCount g.edgeCount fuel ds g r).1 ≠ []) (hw : w.room = 0) :
    varyDensity m k wd v inFile naming ds fuel r w = (.error .explicit, w) := by
  rcases e : densities g.nodeCount g.edgeCount fuel ds g r with ⟨l, res⟩
  rw [e] at h
  cases l with
  | nil => exact absurd rfl h
  | cons p l' =>
    refine c96_failed_export hc hin (l := []) e rfl ?_
    obtain ⟨ok, e1, -⟩ := World.export_eq (Codec.graphMap (m := m) (k := k) wd v Programs.text Programs.text
      false) p.2 (naming (densityFile inFile p.1 p.2)) w
    rw [e1, if_pos hw]

/-- Three nodes without edges. -/
def three : Res (GraphMap 255 255 (List Byte) (List Byte)) := (new false : GraphMap 255 255 _ _).exec
  [.addNode 0 (some [104]), .addNode 1 none, .addNode 2 none]

set_option maxRecDepth 8000 in
example : ∃ g, three = .ok g ∧ Reachable g ∧ densityChecks g = .ok () ∧
    ∃ w : World, w.import (Codec.graphMap (m := 255) (k := 255) 1 1 Programs.text Programs.text false) "in" = some g ∧
      (varyDensity 255 255 1 1 "in" ("out/" ++ ·) [1, 1] 5 (drawsOf [1, 2, 2, 1, 0, 2, 0, 1]) w).1 = .ok () ∧
      ((varyDensity 255 255 1 1 "in" ("out/" ++ ·) [1] 5 (drawsOf [1, 2]) w).2.import
        (Codec.graphMap (m := 255) (k := 255) 1 1 Programs.text Programs.text false)
          "out/in_3_1_1.graphmap").map (fun g => g.edgeIndices) = some [(1, 2)] := by
  obtain ⟨g, h⟩ : ∃ g, three = .ok g := ⟨_, rfl⟩
  refine ⟨g, h, (exec_run h).reachable List.nodup_nil List.nodup_nil, ?_, ((blank 1000).export (Codec.graphMap
    (m := 255) (k := 255) 1 1 Programs.text Programs.text false) g "in").2, ?_⟩ <;> cases h
  · decide
  · exact ⟨by rfl, by decide, by decide⟩

set_option maxRecDepth 8000 in
/-- A disk that is full after the graph to be read was put there. -/
example : ∃ g, three = .ok g ∧ densityChecks g = .ok () ∧
    (densities g.nodeCount g.edgeCount 5 [1] g (drawsOf [1, 2])).1 ≠ [] ∧
    ∃ w : World, w.room = 0 ∧
      w.import (Codec.graphMap (m := 255) (k := 255) 1 1 Programs.text Programs.text false) "in" = some g := by
  obtain ⟨g, h⟩ : ∃ g, three = .ok g := ⟨_, rfl⟩
  refine ⟨g, h, ?_, ?_, ⟨((blank 1000).export (Codec.graphMap (m := 255) (k := 255) 1 1 Programs.text
    Programs.text false) g "in").2.files, 0⟩, rfl, ?_⟩ <;> cases h
  · decide
  · decide
  · rfl

end Verif.Props
