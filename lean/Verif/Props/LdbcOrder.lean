import Verif.Props.LdbcText
import Verif.Spec.Iso

/-! C173: the order in which a directory lists its files. -/

namespace Verif.Props

open Spec Ldbc GraphMap

variable {m k : Nat}

theorem perm_reverse {X : Type} {l l' : List X} (h : l.Perm l') : l.reverse.Perm l'.reverse :=
  l.reverse_perm.trans (h.trans l'.reverse_perm.symm)

theorem perm_findSome {X Y : Type} {f : X → Option Y} {l l' : List X} (hp : l.Perm l')
    (hf : ∀ a ∈ l, ∀ b ∈ l, ∀ x y, f a = some x → f b = some y → x = y) : l.findSome? f = l'.findSome? f := by
  cases h : l.findSome? f with
  | none =>
    symm
    rw [List.findSome?_eq_none_iff] at h ⊢
    exact fun x hx => h x (hp.mem_iff.2 hx)
  | some y =>
    obtain ⟨a, ha, hy⟩ := List.exists_of_findSome?_eq_some h
    cases h' : l'.findSome? f with
    | none =>
      rw [List.findSome?_eq_none_iff] at h'
      rw [h' a (hp.mem_iff.1 ha)] at hy
      cases hy
    | some z =>
      obtain ⟨b, hb, hz⟩ := List.exists_of_findSome?_eq_some h'
      rw [hf a ha b (hp.mem_iff.2 hb) y z hy hz]

/-- The rows of the files that belong to one entry of the scheme. -/
def rowsFor (s : Scheme) (match_ : File → Bool) (files : List File) : List Record :=
  (files.filter match_).flatMap (fun f => body s.delimiter f.bytes)

theorem rowsFor_perm (s : Scheme) (p : File → Bool) {files files' : List File} (h : files.Perm files') :
    (rowsFor s p files).Perm (rowsFor s p files') := (h.filter p).flatMap_right _

theorem events_eq (digit : Char → Bool) (s : Scheme) (files : List File) :
    events digit s files =
      s.nodes.flatMap (fun n => (rowsFor s (fun f => n.isMatch digit f.name) files).map (nodeEvent n)) ++
      s.relations.flatMap (fun x => (rowsFor s (fun f => x.isMatch digit f.name) files).map (relEvent x)) := by
  unfold events rowsFor
  simp only [List.map_flatMap]

theorem flatMap_perm {X Y : Type} (l : List X) {f g : X → List Y} (h : ∀ x ∈ l, (f x).Perm (g x)) :
    (l.flatMap f).Perm (l.flatMap g) := by
  induction l with
  | nil => exact .refl _
  | cons x l ih =>
    rw [List.flatMap_cons, List.flatMap_cons]
    exact (h x List.mem_cons_self).append (ih (fun y hy => h y (List.mem_cons_of_mem _ hy)))

theorem events_perm (digit : Char → Bool) (s : Scheme) {files files' : List File} (h : files.Perm files') :
    (events digit s files).Perm (events digit s files') := by
  rw [events_eq, events_eq]
  exact (flatMap_perm _ (fun n _ => (rowsFor_perm s _ h).map _)).append
    (flatMap_perm _ (fun n _ => (rowsFor_perm s _ h).map _))

theorem last_flatMap {X Y Z : Type} (l : List X) {f g : X → List Y} {p : Y → Option Z}
    (h : ∀ x ∈ l, (f x).reverse.findSome? p = (g x).reverse.findSome? p) :
    (l.flatMap f).reverse.findSome? p = (l.flatMap g).reverse.findSome? p := by
  induction l with
  | nil => rfl
  | cons x l ih =>
    simp only [List.flatMap_cons, List.reverse_append, List.findSome?_append, h x List.mem_cons_self,
      ih (fun y hy => h y (List.mem_cons_of_mem _ hy))]

/-- The edges do not depend on the order of the files, nor do their labels: these are decided by the scheme. -/
theorem described_edges (digit : Char → Bool) (s : Scheme) (d : Bool) {files files' : List File}
    (h : files.Perm files') (a b : Text) :
    (described d (events digit s files)).edge a b = (described d (events digit s files')).edge a b := by
  rw [described_edge, described_edge, events_eq, events_eq]
  congr 1
  simp only [List.reverse_append, List.findSome?_append]
  congr 1
  · refine last_flatMap _ (fun x _ => perm_findSome (perm_reverse ((rowsFor_perm s _ h).map _)) ?_)
    · intro e he e' he' l l' hl hl'
      obtain ⟨r, -, rfl⟩ := List.mem_map.1 (List.mem_reverse.1 he)
      obtain ⟨r', -, rfl⟩ := List.mem_map.1 (List.mem_reverse.1 he')
      simp only [relEvent, Event.joins] at hl hl'
      split_ifs at hl hl'
      cases hl
      cases hl'
      rfl
  · refine last_flatMap _ (fun n _ => ?_)
    have : ∀ l : List Record, (l.map (nodeEvent n)).reverse.findSome? (Event.joins d a b) = none := by
      intro l
      rw [List.findSome?_eq_none_iff]
      intro e he
      obtain ⟨r, -, rfl⟩ := List.mem_map.1 (List.mem_reverse.1 he)
      rfl
    rw [this, this]

/-- No key is given two different labels by node records, or spoken of as of two kinds by relations. -/
def Settled (es : List Event) : Prop :=
  ∀ key, (∀ e ∈ es, ∀ e' ∈ es, ∀ l l', Event.names key e = some l → Event.names key e' = some l' → l = l') ∧
    ∀ e ∈ es, ∀ e' ∈ es, ∀ l l', Event.kind key e = some l → Event.kind key e' = some l' → l = l'

theorem described_nodes (d : Bool) {es es' : List Event} (h : es.Perm es') (hs : Settled es) (key : Text) :
    (described d es).node key = (described d es').node key := by
  rw [described_node, described_node]
  congr 2
  · refine perm_findSome (perm_reverse h) ?_
    intro a ha b hb
    exact (hs key).1 a (List.mem_reverse.1 ha) b (List.mem_reverse.1 hb)
  · exact perm_findSome h (hs key).2

theorem firsts_mem (es : List Event) (key : Text) : key ∈ firsts es ↔ ∃ e ∈ es, key ∈ e.keys := by
  unfold firsts
  rw [foldl_mention_mem, List.mem_flatMap]
  simp

theorem firsts_nodup (es : List Event) : (firsts es).Nodup := foldl_mention_nodup _ _ List.nodup_nil

theorem firsts_perm {es es' : List Event} (h : es.Perm es') : (firsts es).Perm (firsts es') := by
  rw [List.perm_ext_iff_of_nodup (firsts_nodup _) (firsts_nodup _)]
  intro a
  rw [firsts_mem, firsts_mem]
  simp only [h.mem_iff]

/-- Where a key of the one list is in the other. -/
def moved (ks ks' : List Text) (i : Id m) : Id m :=
  match ks[i.val]? with
  | some a => Id.new (ks'.idxOf a)
  | none => i

theorem moved_get {ks ks' : List Text} (hp : ks.Perm ks') (hl : ks.length ≤ m + 1) {i : Id m} {a : Text}
    (h : ks[i.val]? = some a) : ks'[(moved ks ks' i).val]? = some a := by
  have ha : a ∈ ks' := hp.mem_iff.1 (List.mem_of_getElem? h)
  have hlt : ks'.idxOf a < ks'.length := List.idxOf_lt_length_of_mem ha
  have hv : (moved ks ks' i).val = ks'.idxOf a := by
    unfold moved
    rw [h]
    show ks'.idxOf a % (m + 1) = _
    exact Nat.mod_eq_of_lt (by rw [hp.length_eq] at hl; omega)
  rw [hv, List.getElem?_eq_getElem hlt, List.getElem_idxOf]

theorem moved_inj {ks ks' : List Text} (hp : ks.Perm ks') (hn : ks.Nodup) (hl : ks.length ≤ m + 1) {i j : Id m}
    (hi : i.val < ks.length) (hj : j.val < ks.length) (h : (moved ks ks' i) = moved ks ks' j) : i = j := by
  have e1 := moved_get hp hl (List.getElem?_eq_getElem hi)
  have e2 := moved_get hp hl (List.getElem?_eq_getElem hj)
  rw [h, e2] at e1
  exact Fin.ext ((hn.getElem_inj_iff).1 (Option.some.inj e1.symm))

theorem moved_surj {ks ks' : List Text} (hp : ks.Perm ks') (hn : ks'.Nodup) (hl : ks.length ≤ m + 1) {j : Id m}
    (hj : j.val < ks'.length) : ∃ i : Id m, i.val < ks.length ∧ moved ks ks' i = j := by
  have ha : ks'[j.val] ∈ ks := hp.mem_iff.2 (List.getElem_mem hj)
  have hlt : ks.idxOf ks'[j.val] < ks.length := List.idxOf_lt_length_of_mem ha
  refine ⟨⟨ks.idxOf ks'[j.val], by omega⟩, hlt, ?_⟩
  have e := moved_get (m := m) (ks' := ks') hp hl (i := ⟨ks.idxOf ks'[j.val], by omega⟩) (a := ks'[j.val])
    (by rw [List.getElem?_eq_getElem hlt, List.getElem_idxOf])
  obtain ⟨h1, h2⟩ := List.getElem?_eq_some_iff.1 e
  exact Fin.ext ((hn.getElem_inj_iff).1 h2)

theorem numbered_node {ks : List Text} {d : Bool} {es : List Event} (hk : ks = firsts es) (i : Id m) :
    ((numbered ks (described d es) : AGraph (Id m) Text Text).node i).isSome ↔ i.val < ks.length := by
  show ((ks[i.val]?).bind (described d es).node).isSome = true ↔ _
  constructor
  · intro h
    by_contra hc
    rw [List.getElem?_eq_none (by omega)] at h
    cases h
  · intro h
    rw [List.getElem?_eq_getElem h, Option.bind_some]
    have hm : ks[i.val] ∈ firsts es := hk ▸ List.getElem_mem h
    obtain ⟨e, he, hke⟩ := (firsts_mem es _).1 hm
    exact (c53_represented d es he).1 _ hke

theorem readable_perm {digit : Char → Bool} {utf8 : Text → Bool} {s : Scheme} {files files' : List File}
    (h : files.Perm files') : AllReadable digit utf8 s files ↔ AllReadable digit utf8 s files' := by
  unfold AllReadable
  simp only [h.mem_iff]

/-- **C173.** Whether a directory is loaded does not depend on the order of its files, and neither does `edge_count`. -/
theorem c173_loads {digit : Char → Bool} {utf8 : Text → Bool} {s : Scheme} {files files' : List File} {d : Bool}
    (hm : 0 < m) (hp : files.Perm files') {g : GraphMap m k Text Text}
    (h : s.fromPath digit utf8 d (some files) = .ok (some g)) :
    ∃ g' : GraphMap m k Text Text, s.fromPath digit utf8 d (some files') = .ok (some g') ∧
      g'.edgeCount = g.edgeCount := by
  obtain ⟨h1, h2⟩ := c53_needed hm h
  have hE := events_perm digit s hp
  obtain ⟨st, ops, h3, h4⟩ := events_ok hm (events digit s files')
    (linv_start (m := m) (k := k) d ((events digit s files').flatMap Event.nodeLabels)
      ((events digit s files').flatMap Event.edgeLabels))
    (fun e he x hx => List.mem_flatMap.2 ⟨e, he, hx⟩) (fun e he x hx => List.mem_flatMap.2 ⟨e, he, hx⟩)
    (by
      show (firsts (events digit s files')).length ≤ m + 1
      rw [← (firsts_perm hE).length_eq]; exact h2)
  have h' : s.fromPath digit utf8 d (some files') = .ok (some st.graph) := by
    rw [fromPath_good ((readable_perm hp).1 h1), h3, bind_ok]; rfl
  refine ⟨st.graph, h', ?_⟩
  rw [c54_edge_count hm h, c54_edge_count hm h']
  exact (hp.symm.map _).sum_eq

/-- **C173.** The graphs differ in the ids of the nodes only: by the renaming of ids that keeps the keys, the nodes,
the edges and the labels of edges are the same, and the labels of nodes if no key is given two. -/
theorem c173_same {digit : Char → Bool} {utf8 : Text → Bool} {s : Scheme} {files files' : List File} {d : Bool}
    (hm : 0 < m) (hp : files.Perm files') {nl el : List Text} (hnl : nl.length ≤ k + 1) (hel : el.length ≤ k + 1)
    (hn : ∀ e ∈ events digit s files, ∀ x ∈ e.nodeLabels, x ∈ nl)
    (he : ∀ e ∈ events digit s files, ∀ x ∈ e.edgeLabels, x ∈ el) {g : GraphMap m k Text Text}
    (h : s.fromPath digit utf8 d (some files) = .ok (some g)) :
    ∃ (g' : GraphMap m k Text Text) (A B : AGraph (Id m) Text Text) (f : Id m → Id m),
      s.fromPath digit utf8 d (some files') = .ok (some g') ∧ Shows g.view A ∧ Shows g'.view B ∧
      g'.directed = g.directed ∧
      (∀ i : Id m, i.val < (firsts (events digit s files)).length →
        (firsts (events digit s files'))[(f i).val]? = (firsts (events digit s files))[i.val]?) ∧
      Set.BijOn f {n | (A.node n).isSome} {n | (B.node n).isSome} ∧
      (∀ i j, (A.node i).isSome → (A.node j).isSome → B.edge (f i) (f j) = A.edge i j) ∧
      (Settled (events digit s files) → A.Iso B f) := by
  obtain ⟨h1, h2⟩ := c53_needed hm h
  have hE := events_perm digit s hp
  have hK := firsts_perm hE
  have h2' := h2
  rw [hK.length_eq] at h2'
  obtain ⟨a, a1, -, a3, a4, -⟩ := c53_loaded (m := m) (k := k) d hm h1 h2 hnl hel hn he
  obtain ⟨b, b1, -, b3, b4, -⟩ := c53_loaded (m := m) (k := k) d hm ((readable_perm hp).1 h1) h2' hnl hel
    (fun e hm' => hn e (hE.mem_iff.2 hm')) (fun e hm' => he e (hE.mem_iff.2 hm'))
  rw [h] at a1
  cases a1
  have hget : ∀ i : Id m, i.val < (firsts (events digit s files)).length →
      (firsts (events digit s files'))[(moved (firsts (events digit s files)) (firsts (events digit s files')) i).val]? =
        (firsts (events digit s files))[i.val]? := fun i hi => by
    rw [List.getElem?_eq_getElem hi]
    exact moved_get hK h2 (List.getElem?_eq_getElem hi)
  have hbij : Set.BijOn (moved (firsts (events digit s files)) (firsts (events digit s files')))
      {n : Id m | ((numbered (firsts (events digit s files)) (described d (events digit s files)) :
        AGraph (Id m) Text Text).node n).isSome}
      {n : Id m | ((numbered (firsts (events digit s files')) (described d (events digit s files')) :
        AGraph (Id m) Text Text).node n).isSome} := by
    refine ⟨fun i hi => ?_, fun i hi j hj hij => ?_, fun j hj => ?_⟩
    · have hi := (numbered_node rfl i).1 hi
      refine (numbered_node rfl _).2 ?_
      have := hget i hi
      rw [List.getElem?_eq_getElem hi] at this
      exact (List.getElem?_eq_some_iff.1 this).1
    · exact moved_inj hK (firsts_nodup _) h2 ((numbered_node rfl i).1 hi) ((numbered_node rfl j).1 hj) hij
    · obtain ⟨i, hi, e⟩ := moved_surj hK (firsts_nodup _) h2 ((numbered_node rfl j).1 hj)
      exact ⟨i, (numbered_node rfl i).2 hi, e⟩
  have hedge : ∀ i j : Id m, ((numbered (firsts (events digit s files)) (described d (events digit s files)) :
        AGraph (Id m) Text Text).node i).isSome →
      ((numbered (firsts (events digit s files)) (described d (events digit s files)) :
        AGraph (Id m) Text Text).node j).isSome →
      (numbered (firsts (events digit s files')) (described d (events digit s files')) :
        AGraph (Id m) Text Text).edge (moved (firsts (events digit s files)) (firsts (events digit s files')) i)
          (moved (firsts (events digit s files)) (firsts (events digit s files')) j) =
      (numbered (firsts (events digit s files)) (described d (events digit s files)) :
        AGraph (Id m) Text Text).edge i j := by
    intro i j hi hj
    simp only [numbered, hget i ((numbered_node rfl i).1 hi), hget j ((numbered_node rfl j).1 hj),
      described_edges digit s d hp]
  refine ⟨b, _, _, _, b1, a4, b4, b3.trans a3.symm, hget, hbij, hedge, fun hs => ⟨hbij, fun i hi => ?_, hedge⟩⟩
  simp only [numbered, hget i ((numbered_node rfl i).1 hi), described_nodes d hE hs]

theorem settled_of {es : List Event}
    (h : ∀ key ∈ es.flatMap Event.keys, ∀ e ∈ es, ∀ e' ∈ es,
      ((Event.names key e).isSome → (Event.names key e').isSome → Event.names key e = Event.names key e') ∧
      ((Event.kind key e).isSome → (Event.kind key e').isSome → Event.kind key e = Event.kind key e')) :
    Settled es := by
  have hin : ∀ key, ∀ e ∈ es, (Event.names key e).isSome ∨ (Event.kind key e).isSome →
      key ∈ es.flatMap Event.keys := by
    intro key e he hk
    refine List.mem_flatMap.2 ⟨e, he, ?_⟩
    cases e <;> simp only [Event.names, Event.kind, Event.keys] at hk ⊢ <;> grind
  intro key
  constructor
  · intro e he e' he' l l' hl hl'
    have := ((h key (hin key e he (.inl (by rw [hl]; rfl))) e he e' he').1 (by rw [hl]; rfl) (by rw [hl']; rfl))
    rw [hl, hl'] at this
    exact Option.some.inj this
  · intro e he e' he' l l' hl hl'
    have := ((h key (hin key e he (.inr (by rw [hl]; rfl))) e he e' he').2 (by rw [hl]; rfl) (by rw [hl']; rfl))
    rw [hl, hl'] at this
    exact Option.some.inj this

set_option maxRecDepth 100000 in
/-- The example directory, listed backwards. -/
example : ∃ (g g' : GraphMap 9 19 Text Text) (A B : AGraph (Id 9) Text Text) (f : Id 9 → Id 9),
    Scheme.init.fromPath isDigit (fun _ => true) true (some ldbcDir) = .ok (some g) ∧
    Scheme.init.fromPath isDigit (fun _ => true) true (some ldbcDir.reverse) = .ok (some g') ∧
    Shows g.view A ∧ Shows g'.view B ∧ A.Iso B f := by
  have hl : ∃ g : GraphMap 9 19 Text Text,
      Scheme.init.fromPath isDigit (fun _ => true) true (some ldbcDir) = .ok (some g) := ⟨_, by rfl⟩
  obtain ⟨g, hg⟩ := hl
  obtain ⟨g', A, B, f, h1, h2, h3, -, -, -, -, h4⟩ := c173_same (by omega) ldbcDir.reverse_perm.symm
    (nl := (events isDigit Scheme.init ldbcDir).flatMap Event.nodeLabels)
    (el := (events isDigit Scheme.init ldbcDir).flatMap Event.edgeLabels)
    (by decide +kernel) (by decide +kernel) (fun e he x hx => List.mem_flatMap.2 ⟨e, he, hx⟩)
    (fun e he x hx => List.mem_flatMap.2 ⟨e, he, hx⟩) hg
  exact ⟨g, g', A, B, f, hg, h1, h2, h3, h4 (settled_of (by decide +kernel))⟩

/-- Two files that give the same place two labels. -/
def placeDir : List File :=
  [ldbcFile "place_0_0.csv" ["id|name|url|type", "7|Oslo|u|town", "1|Rome|u|city"],
   ldbcFile "place_1_0.csv" ["id|name|url|type", "1|Rome|u|capital"]]

set_option maxRecDepth 100000 in
/-- **C173.** Ids do depend on the order, and so does the label of a key that is given two. -/
theorem c173_moved : ∃ g g' : GraphMap 9 9 Text Text,
    Scheme.init.fromPath isDigit (fun _ => true) true (some placeDir) = .ok (some g) ∧
    Scheme.init.fromPath isDigit (fun _ => true) true (some placeDir.reverse) = .ok (some g') ∧
    g.getNodeLabel 1 = some (ascii "capital") ∧ g'.getNodeLabel 0 = some (ascii "city") ∧
    g.getNodeLabel 0 = some (ascii "town") ∧ g'.getNodeLabel 1 = some (ascii "town") :=
  ⟨_, _, by rfl, by rfl, by rfl, by rfl, by rfl, by rfl⟩

end Verif.Props
