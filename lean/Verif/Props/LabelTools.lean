import Verif.Props.BareStats
import Verif.Props.Relabel

/-! C200: `remove_labels` and `vary_labels` one after the other. -/

namespace Verif.Props

open GraphMap Spec Programs

variable {m k wd v : Nat}

/-- **C200.** Whatever `vary_labels` draws, nothing of it is left once labels are removed; removing them twice
is removing them once. -/
theorem c200_graphs (g : Plain m k) :
    g.removeLabels.removeLabels = g.removeLabels ∧
    (∀ r g', variedLabels g r = .ok g' → g'.removeLabels = g.removeLabels) ∧
    ∀ r, ∃ p, variedLabels g.removeLabels r = .error p := by
  have hin : ∀ o : Option (EdgeVec m k), (o.map (fun e => e.removeLabels)).map (fun e => e.removeLabels) =
      o.map (fun e => e.removeLabels) := by
    intro o; cases o <;> rfl
  refine ⟨?_, fun r g' h => ?_, fun r => ?_⟩
  · obtain ⟨d, a, b, ev, inn, l, nl, el⟩ := g
    simp only [StaticGraph.removeLabels, StaticGraph.removeEdgeLabels, StaticGraph.removeNodeLabels, hin]
    rfl
  · unfold variedLabels at h
    obtain ⟨nl, -, h⟩ := bind_eq_ok h
    obtain ⟨ls, -, h⟩ := bind_eq_ok h
    obtain ⟨ls', -, h⟩ := bind_eq_ok h
    cases h
    obtain ⟨d, a, b, ev, inn, l, nl, el⟩ := g
    simp only [StaticGraph.removeLabels, StaticGraph.removeEdgeLabels, StaticGraph.removeNodeLabels, hin]
    rfl
  · cases h : variedLabels g.removeLabels r with
    | error p => exact ⟨p, rfl⟩
    | ok g' =>
      unfold variedLabels at h
      obtain ⟨nl, -, h⟩ := bind_eq_ok h
      obtain ⟨ls, h, -⟩ := bind_eq_ok h
      cases h

/-- What `remove_labels` leaves on a disk with room, byte by byte. -/
theorem removeLabels_bytes (hw : m + 1 = 256 ^ wd) (hv : k + 1 = 256 ^ v) {inFile outFile : String} {w : World}
    {g : Plain m k} (h : w.import (.staticGraph wd v (.ident wd) (.ident wd) false) inFile = some g)
    (hroom : ((Codec.staticGraph wd v (.ident wd) (.ident wd) false).bytes g.removeLabels).length < w.room) :
    ∃ w', removeLabels m k wd v inFile outFile w = (.ok (), w') ∧
      w'.files outFile = some ((Codec.staticGraph wd v (.ident wd) (.ident wd) false).bytes g.removeLabels) ∧
      w'.import (.staticGraph wd v (.ident wd) (.ident wd) false) outFile = some g.removeLabels := by
  obtain ⟨bs, r, -, hb⟩ := import_get h
  have hc := Codec.ident_closed hw
  obtain ⟨hd, hW⟩ := Codec.staticGraph_writable hw hv hc hc hb
  have hr := round_nil (hW.removeLabels hw hv).round
  have hd' : g.removeLabels.directed = false := hd
  rw [hd'] at hr
  obtain ⟨a1, a2, -⟩ := export_import hr outFile w hroom
  refine ⟨(w.export (.staticGraph wd v (.ident wd) (.ident wd) false) g.removeLabels outFile).2, ?_, ?_, a2⟩
  · unfold removeLabels exported load
    rw [h]
    simp only [orPanic, bind_ok, pure_ok, a1, if_true]
  · obtain ⟨ok, e1, -⟩ := World.export_eq (Codec.staticGraph wd v (.ident wd) (.ident wd) false) g.removeLabels
      outFile w
    rw [e1, if_neg (by omega)]
    show (if _ then _ else _) = _
    rw [if_pos rfl, List.take_of_length_le (by omega)]

/-- **C200.** Of what `remove_labels` leaves, `vary_labels` can make nothing: it panics and leaves the disk
alone. A second `remove_labels` makes the same bytes again. -/
theorem c200_removed (hw : m + 1 = 256 ^ wd) (hv : k + 1 = 256 ^ v) {inFile outFile : String} {w : World}
    {g : Plain m k} (h : w.import (.staticGraph wd v (.ident wd) (.ident wd) false) inFile = some g)
    (hroom : ((Codec.staticGraph wd v (.ident wd) (.ident wd) false).bytes g.removeLabels).length < w.room) :
    ∃ w', removeLabels m k wd v inFile outFile w = (.ok (), w') ∧
      (∀ r out, ∃ p, varyLabels m k wd v outFile out r w' = (.error p, w')) ∧
      ∀ out room, ((Codec.staticGraph wd v (.ident wd) (.ident wd) false).bytes g.removeLabels).length < room →
        ∃ w2, removeLabels m k wd v outFile out { w' with room := room } = (.ok (), w2) ∧
          w2.files out = w'.files outFile := by
  obtain ⟨w', h1, h2, h3⟩ := removeLabels_bytes (outFile := outFile) hw hv h hroom
  refine ⟨w', h1, fun r out => ?_, fun out room hr => ?_⟩
  · refine c100_panics (fun g' hg' => ?_)
    rw [h3] at hg'
    cases hg'
    rfl
  · have h3' : ({ w' with room := room } : World).import (.staticGraph wd v (.ident wd) (.ident wd) false) outFile =
        some g.removeLabels := h3
    obtain ⟨w2, q1, q2, -⟩ := removeLabels_bytes (outFile := out) hw hv h3' (by rw [(c200_graphs g).1]; exact hr)
    exact ⟨w2, q1, by rw [q2, h2, (c200_graphs g).1]⟩

/-- **C200.** Files, on any disks, of a graph and of what `vary_labels` makes of it: `remove_labels` makes the same
bytes of both. -/
theorem c200_varied (hw : m + 1 = 256 ^ wd) (hv : k + 1 = 256 ^ v) {f1 f2 o1 o2 : String} {w1 w2 : World}
    {g g' : Plain m k} {r : Rng} (hg : variedLabels g r = .ok g')
    (h1 : w1.import (.staticGraph wd v (.ident wd) (.ident wd) false) f1 = some g)
    (h2 : w2.import (.staticGraph wd v (.ident wd) (.ident wd) false) f2 = some g')
    (r1 : ((Codec.staticGraph wd v (.ident wd) (.ident wd) false).bytes g.removeLabels).length < w1.room)
    (r2 : ((Codec.staticGraph wd v (.ident wd) (.ident wd) false).bytes g.removeLabels).length < w2.room) :
    ∃ x1 x2, removeLabels m k wd v f1 o1 w1 = (.ok (), x1) ∧ removeLabels m k wd v f2 o2 w2 = (.ok (), x2) ∧
      x1.files o1 = x2.files o2 ∧ (x1.files o1).isSome = true := by
  have e := (c200_graphs g).2.1 r g' hg
  obtain ⟨x1, a1, a2, -⟩ := removeLabels_bytes (outFile := o1) hw hv h1 r1
  obtain ⟨x2, b1, b2, -⟩ := removeLabels_bytes (outFile := o2) hw hv h2 (by rw [e]; exact r2)
  exact ⟨x1, x2, a1, b1, by rw [a2, b2, e], by rw [a2]; rfl⟩

/-- Non-vacuity: a graph with labels, and without. -/
example : (⟨false, 2, 1, ⟨[0, 1, 2], [1, 0], some [0, 0]⟩, none, some [0, 0], ⟨[7]⟩, ⟨[5]⟩⟩ : Plain 9 3).removeLabels =
    ⟨false, 2, 1, ⟨[0, 1, 2], [1, 0], none⟩, none, none, ⟨[]⟩, ⟨[]⟩⟩ := rfl

/-- Non-vacuity: whatever is drawn, there is a graph with other labels. -/
example (r : Rng) : ∃ g', variedLabels
    (⟨false, 2, 1, ⟨[0, 1, 2], [1, 0], some [0, 0]⟩, none, some [0, 0], ⟨[7]⟩, ⟨[5]⟩⟩ : Plain 255 255) r = .ok g' := by
  obtain ⟨g', h, -⟩ := variedLabels_ok (m := 255) (k := 255)
    (g := ⟨false, 2, 1, ⟨[0, 1, 2], [1, 0], some [0, 0]⟩, none, some [0, 0], ⟨[7]⟩, ⟨[5]⟩⟩) (by decide) rfl r
  exact ⟨g', h⟩

end Verif.Props
