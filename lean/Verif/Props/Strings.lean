import Verif.Model.Utf8
import Verif.Model.Programs
import Verif.Proof.Serde
import Verif.Proof.Values
import Verif.Props.Serde

/-! C166: graphs with `String` labels in `bincode` files. -/

namespace Verif.Props

open Spec Proof.Values Codec

variable {m k w v : Nat}

/-! ### One label -/

/-- **C166**, one label: a `String` is read exactly if the bytes are read and they are UTF-8. -/
theorem c166_string (bs : List Byte) (s : Str) (r : List Byte) :
    Codec.string.get bs = some (s, r) ↔ Programs.text.get bs = some (s.val, r) := by
  simp only [Codec.string, Programs.text, Option.bind_eq_bind, Option.bind_eq_some_iff]
  constructor
  · rintro ⟨⟨b, q⟩, hb, h⟩
    by_cases hu : utf8 b = true
    · simp only [hu, dif_pos, Option.pure_def, Option.some.injEq, Prod.mk.injEq] at h
      rw [hb, ← h.1, ← h.2]
    · simp [hu] at h
  · intro h
    exact ⟨_, h, by simp [s.property]⟩

/-- **C166**, one label: the bytes written are those of the text. -/
theorem c166_put (s : Str) : Codec.string.put s = Programs.text.put s.val := rfl

/-- **C166**, one label: a `String` comes back. -/
theorem c166_round (s : Str) (h : s.val.length < 2 ^ 64) : Codec.string.RoundTrips s := by
  intro r
  rw [c166_string]
  exact vec_round h (fun x _ => ident_round (m := 255) (w := 1) rfl x) r

/-- Reading with one format or with another and the values `f` between them. -/
def ReadsVia {X Y : Type} (f : X → Y) (c : Codec X) (d : Codec Y) : Prop :=
  ∀ bs x r, c.get bs = some (x, r) ↔ d.get bs = some (f x, r)

theorem via_many {X Y : Type} {f : X → Y} {c : Codec X} {d : Codec Y} (h : ReadsVia f c d) (n : Nat) (bs : List Byte)
    (l : List X) (r : List Byte) : c.getMany n bs = some (l, r) ↔ d.getMany n bs = some (l.map f, r) := by
  induction n generalizing bs l with
  | zero =>
    simp only [getMany, Option.some.injEq, Prod.mk.injEq]
    constructor
    · rintro ⟨rfl, rfl⟩; exact ⟨rfl, rfl⟩
    · rintro ⟨h1, rfl⟩
      exact ⟨(List.map_eq_nil_iff.1 h1.symm).symm, rfl⟩
  | succ n ih =>
    simp only [getMany, Option.bind_eq_bind, Option.bind_eq_some_iff, Option.pure_def, Option.some.injEq,
      Prod.mk.injEq]
    constructor
    · rintro ⟨⟨x, q⟩, hx, ⟨xs, t⟩, hxs, h1, rfl⟩
      subst h1
      exact ⟨_, (h _ _ _).1 hx, _, (ih _ _).1 hxs, rfl, rfl⟩
    · rintro ⟨⟨y, q⟩, hy, ⟨ys, t⟩, hys, h1, rfl⟩
      cases l with
      | nil => cases h1
      | cons x xs =>
        simp only [List.map_cons, List.cons.injEq] at h1
        rw [h1.1] at hy
        rw [h1.2] at hys
        exact ⟨_, (h _ _ _).2 hy, _, (ih _ _).2 hys, rfl, rfl⟩

theorem via_vec {X Y : Type} {f : X → Y} {c : Codec X} {d : Codec Y} (h : ReadsVia f c d) :
    ReadsVia (List.map f) (vec c) (vec d) := by
  intro bs l r
  simp only [vec, Option.bind_eq_bind, Option.bind_eq_some_iff]
  constructor
  · rintro ⟨p, hp, hq⟩
    exact ⟨p, hp, (via_many h _ _ _ _).1 hq⟩
  · rintro ⟨p, hp, hq⟩
    exact ⟨p, hp, (via_many h _ _ _ _).2 hq⟩

theorem via_string : ReadsVia Subtype.val Codec.string Programs.text := c166_string

/-! ### Tables -/

/-- **C166**, the tables of labels: read exactly if the table of byte strings is, with UTF-8 in it only. -/
theorem c166_table (bs : List Byte) (s : SetMap Str) (r : List Byte) :
    (setMap Codec.string).get bs = some (s, r) ↔
      (setMap Programs.text).get bs = some (tableValues Subtype.val s, r) := by
  simp only [setMap, Option.bind_eq_bind, Option.bind_eq_some_iff, Option.pure_def, Option.some.injEq,
    Prod.mk.injEq]
  constructor
  · rintro ⟨⟨l, t⟩, hl, h1, rfl⟩
    exact ⟨_, (via_vec via_string _ _ _).1 hl, by rw [← h1, from_values Subtype.val_injective], rfl⟩
  · rintro ⟨⟨l, t⟩, hl, h1, rfl⟩
    have hu : ∀ x ∈ l, utf8 x = true := by
      intro x hx
      have hm := (SetMap.mem_fromVec l x).2 hx
      rw [h1] at hm
      obtain ⟨y, -, e⟩ := List.mem_map.1 hm
      rw [← e]
      exact y.property
    have hz : l = (l.pmap Subtype.mk hu).map Subtype.val := by
      rw [List.map_pmap]
      simp
    refine ⟨(l.pmap Subtype.mk hu, t), (via_vec via_string _ _ _).2 (hz ▸ hl), ?_, rfl⟩
    apply table_inj Subtype.val_injective
    rw [from_values Subtype.val_injective, ← hz, h1]

/-- **C166**, the tables: the bytes written are those of the table of byte strings. -/
theorem c166_table_put (s : SetMap Str) :
    (setMap Codec.string).put s = (setMap Programs.text).put (tableValues Subtype.val s) := by
  simp only [setMap, vec, tableValues, List.length_map, List.flatMap_map]
  rfl

/-! ### Graphs -/

/-- **C166**: the file of a graph with `String` labels is that of the graph with the bytes as labels. -/
theorem c166_graph_bytes (d : Bool) (g : GraphMap m k Str Str) :
    (graphMap w v Codec.string Codec.string d).put g =
      (graphMap w v Programs.text Programs.text d).put (mapValues Subtype.val Subtype.val g) := by
  simp only [graphMap, c166_table_put, mapValues]

/-- **C166**: the same for frozen graphs. -/
theorem c166_static_bytes (d : Bool) (g : StaticGraph m k Str Str) :
    (staticGraph w v Codec.string Codec.string d).put g =
      (staticGraph w v Programs.text Programs.text d).put (staticValues Subtype.val Subtype.val g) := by
  simp only [staticGraph, c166_table_put, staticValues]

/-- **C166**: and for the auxiliary file of a mapped graph. -/
theorem c166_aux_bytes (a : Aux Str Str) :
    (Codec.aux Codec.string Codec.string).put a =
      (Codec.aux Programs.text Programs.text).put (auxValues Subtype.val Subtype.val a) := by
  simp only [Codec.aux, c166_table_put, auxValues]

/-- A table of byte strings all of which are UTF-8 is a table of `String`s. -/
theorem table_strings {s : SetMap (List Byte)} (h : ∀ x ∈ s.labels, utf8 x = true) :
    ∃ t : SetMap Str, tableValues Subtype.val t = s := by
  refine ⟨⟨s.labels.pmap Subtype.mk h⟩, ?_⟩
  obtain ⟨l⟩ := s
  simp [tableValues, List.map_pmap]

/-- **C166**: a graph with `String` labels is read exactly if the bytes are, and both tables hold UTF-8 only. -/
theorem c166_graph (d : Bool) (bs : List Byte) (g : GraphMap m k Str Str) (r : List Byte) :
    (graphMap w v Codec.string Codec.string d).get bs = some (g, r) ↔
      (graphMap w v Programs.text Programs.text d).get bs = some (mapValues Subtype.val Subtype.val g, r) := by
  simp only [graphMap, Option.bind_eq_bind, Option.bind_eq_some_iff, Option.pure_def, Option.some.injEq,
    Prod.mk.injEq]
  constructor
  · rintro ⟨a, ha, b, hb, ⟨c, c'⟩, hc, ⟨e, e'⟩, he, x, hx, rfl, rfl⟩
    exact ⟨a, ha, b, hb, _, (c166_table _ _ _).1 hc, _, (c166_table _ _ _).1 he, x, hx, rfl, rfl⟩
  · rintro ⟨a, ha, b, hb, ⟨c, c'⟩, hc, ⟨e, e'⟩, he, x, hx, h1, rfl⟩
    obtain ⟨g1, g2, g3, g4, g5, g6⟩ := g
    simp only [mapValues, GraphMap.mk.injEq] at h1
    obtain ⟨rfl, rfl, rfl, rfl, rfl, rfl⟩ := h1
    exact ⟨a, ha, b, hb, _, (c166_table _ _ _).2 hc, _, (c166_table _ _ _).2 he, x, hx, rfl, rfl⟩

/-- **C166**: the same for frozen graphs. -/
theorem c166_static (d : Bool) (bs : List Byte) (g : StaticGraph m k Str Str) (r : List Byte) :
    (staticGraph w v Codec.string Codec.string d).get bs = some (g, r) ↔
      (staticGraph w v Programs.text Programs.text d).get bs =
        some (staticValues Subtype.val Subtype.val g, r) := by
  simp only [staticGraph, Option.bind_eq_bind, Option.bind_eq_some_iff, Option.pure_def, Option.some.injEq,
    Prod.mk.injEq]
  constructor
  · rintro ⟨a, ha, b, hb, x, hx, y, hy, z, hz, ⟨c, c'⟩, hc, ⟨e, e'⟩, he, rfl, rfl⟩
    exact ⟨a, ha, b, hb, x, hx, y, hy, z, hz, _, (c166_table _ _ _).1 hc, _, (c166_table _ _ _).1 he, rfl, rfl⟩
  · rintro ⟨a, ha, b, hb, x, hx, y, hy, z, hz, ⟨c, c'⟩, hc, ⟨e, e'⟩, he, h1, rfl⟩
    obtain ⟨g1, g2, g3, g4, g5, g6, g7, g8⟩ := g
    simp only [staticValues, StaticGraph.mk.injEq] at h1
    obtain ⟨rfl, rfl, rfl, rfl, rfl, rfl, rfl, rfl⟩ := h1
    exact ⟨a, ha, b, hb, x, hx, y, hy, z, hz, _, (c166_table _ _ _).2 hc, _, (c166_table _ _ _).2 he, rfl, rfl⟩

/-- **C166**: and for the auxiliary file of a mapped graph. -/
theorem c166_aux (bs : List Byte) (a : Aux Str Str) (r : List Byte) :
    (Codec.aux Codec.string Codec.string).get bs = some (a, r) ↔
      (Codec.aux Programs.text Programs.text).get bs = some (auxValues Subtype.val Subtype.val a, r) := by
  simp only [Codec.aux, Option.bind_eq_bind, Option.bind_eq_some_iff, Option.pure_def, Option.some.injEq,
    Prod.mk.injEq]
  constructor
  · rintro ⟨x, hx, b, hb, ⟨c, c'⟩, hc, ⟨e, e'⟩, he, rfl, rfl⟩
    exact ⟨x, hx, b, hb, _, (c166_table _ _ _).1 hc, _, (c166_table _ _ _).1 he, rfl, rfl⟩
  · rintro ⟨x, hx, b, hb, ⟨c, c'⟩, hc, ⟨e, e'⟩, he, h1, rfl⟩
    obtain ⟨g1, g2, g3, g4⟩ := a
    simp only [auxValues, Aux.mk.injEq] at h1
    obtain ⟨rfl, rfl, rfl, rfl⟩ := h1
    exact ⟨x, hx, b, hb, _, (c166_table _ _ _).2 hc, _, (c166_table _ _ _).2 he, rfl, rfl⟩

/-! ### Files -/

/-- **C166**: importing a graph with `String` labels gives a graph exactly if importing it with byte strings as
labels does and every label is UTF-8; it is then the same graph. -/
theorem c166_import (d : Bool) (x : World) (path : String) :
    (∀ g : GraphMap m k Str Str,
        x.import (graphMap w v Codec.string Codec.string d) path = some g ↔
          x.import (graphMap w v Programs.text Programs.text d) path =
            some (mapValues Subtype.val Subtype.val g)) ∧
      (x.import (graphMap (m := m) (k := k) w v Codec.string Codec.string d) path = none ↔
        ∀ g : GraphMap m k (List Byte) (List Byte),
          x.import (graphMap w v Programs.text Programs.text d) path = some g →
            ∃ b, (b ∈ g.nodeLabels.labels ∨ b ∈ g.edgeLabels.labels) ∧ utf8 b = false) := by
  have h1 : ∀ g : GraphMap m k Str Str,
      x.import (graphMap w v Codec.string Codec.string d) path = some g ↔
        x.import (graphMap w v Programs.text Programs.text d) path =
          some (mapValues Subtype.val Subtype.val g) := by
    intro g
    simp only [World.import, Option.bind_eq_bind, Option.bind_eq_some_iff, Option.pure_def, Option.some.injEq]
    constructor
    · rintro ⟨bs, hb, ⟨y, r⟩, hy, rfl⟩
      exact ⟨bs, hb, _, (c166_graph d bs y r).1 hy, rfl⟩
    · rintro ⟨bs, hb, ⟨y, r⟩, hy, rfl⟩
      exact ⟨bs, hb, _, (c166_graph d bs g r).2 hy, rfl⟩
  refine ⟨h1, ?_⟩
  constructor
  · intro hn g hg
    by_contra hc
    push Not at hc
    obtain ⟨t, ht⟩ := table_strings (s := g.nodeLabels) (fun b hb => by simpa using hc b (Or.inl hb))
    obtain ⟨u, hu⟩ := table_strings (s := g.edgeLabels) (fun b hb => by simpa using hc b (Or.inr hb))
    have := (h1 ⟨g.directed, g.nodeMap, g.numEdges, t, u, g.maxId⟩).2 (by rw [hg]; simp only [mapValues, ht, hu])
    rw [hn] at this
    cases this
  · intro h
    cases hc : x.import (graphMap (m := m) (k := k) w v Codec.string Codec.string d) path with
    | none => rfl
    | some g =>
      obtain ⟨b, hb, hu⟩ := h _ ((h1 g).1 hc)
      rcases hb with hb | hb <;>
      · obtain ⟨y, -, rfl⟩ := List.mem_map.1 hb
        rw [y.property] at hu
        cases hu

/-- **C166**: the same for frozen graphs. -/
theorem c166_import_static (d : Bool) (x : World) (path : String) :
    (∀ g : StaticGraph m k Str Str,
        x.import (staticGraph w v Codec.string Codec.string d) path = some g ↔
          x.import (staticGraph w v Programs.text Programs.text d) path =
            some (staticValues Subtype.val Subtype.val g)) ∧
      (x.import (staticGraph (m := m) (k := k) w v Codec.string Codec.string d) path = none ↔
        ∀ g : StaticGraph m k (List Byte) (List Byte),
          x.import (staticGraph w v Programs.text Programs.text d) path = some g →
            ∃ b, (b ∈ g.nodeLabels.labels ∨ b ∈ g.edgeLabels.labels) ∧ utf8 b = false) := by
  have h1 : ∀ g : StaticGraph m k Str Str,
      x.import (staticGraph w v Codec.string Codec.string d) path = some g ↔
        x.import (staticGraph w v Programs.text Programs.text d) path =
          some (staticValues Subtype.val Subtype.val g) := by
    intro g
    simp only [World.import, Option.bind_eq_bind, Option.bind_eq_some_iff, Option.pure_def, Option.some.injEq]
    constructor
    · rintro ⟨bs, hb, ⟨y, r⟩, hy, rfl⟩
      exact ⟨bs, hb, _, (c166_static d bs y r).1 hy, rfl⟩
    · rintro ⟨bs, hb, ⟨y, r⟩, hy, rfl⟩
      exact ⟨bs, hb, _, (c166_static d bs g r).2 hy, rfl⟩
  refine ⟨h1, ?_⟩
  constructor
  · intro hn g hg
    by_contra hc
    push Not at hc
    obtain ⟨t, ht⟩ := table_strings (s := g.nodeLabels) (fun b hb => by simpa using hc b (Or.inl hb))
    obtain ⟨u, hu⟩ := table_strings (s := g.edgeLabels) (fun b hb => by simpa using hc b (Or.inr hb))
    have := (h1 ⟨g.directed, g.numNodes, g.numEdges, g.edgeVec, g.inEdgeVec, g.labels, t, u⟩).2
      (by rw [hg]; simp only [staticValues, ht, hu])
    rw [hn] at this
    cases this
  · intro h
    cases hc : x.import (staticGraph (m := m) (k := k) w v Codec.string Codec.string d) path with
    | none => rfl
    | some g =>
      obtain ⟨b, hb, hu⟩ := h _ ((h1 g).1 hc)
      rcases hb with hb | hb <;>
      · obtain ⟨y, -, rfl⟩ := List.mem_map.1 hb
        rw [y.property] at hu
        cases hu

/-- A graph with one node labelled by the single byte 255, which is no text. -/
def untold : GraphMap 255 255 (List Byte) (List Byte) :=
  ⟨true, [(3, ⟨3, some 0, [], []⟩)], 0, ⟨[[255]]⟩, ⟨[]⟩, some 3⟩

/-- **C166**, the check matters: a file that is read with byte strings as labels and refused with `String`s. -/
theorem c166_refused :
    (graphMap 1 1 Programs.text Programs.text true).get
        ((graphMap 1 1 Programs.text Programs.text true).bytes untold) = some (untold, []) ∧
      (graphMap (m := 255) (k := 255) 1 1 Codec.string Codec.string true).get
        ((graphMap 1 1 Programs.text Programs.text true).bytes untold) = none := by
  decide +kernel

/-- A graph with one node labelled "é". -/
def accented : GraphMap 255 255 Str Str :=
  ⟨true, [(3, ⟨3, some 0, [], []⟩)], 0, ⟨[⟨[195, 169], by decide⟩]⟩, ⟨[]⟩, some 3⟩

/-- The conditions can be met: that graph is read back. -/
example : (graphMap 1 1 Codec.string Codec.string true).get
    ((graphMap 1 1 Codec.string Codec.string true).bytes accented) = some (accented, []) := by
  decide +kernel

end Verif.Props
