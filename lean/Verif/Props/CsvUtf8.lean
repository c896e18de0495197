import Verif.Props.Csv
import Verif.Props.Utf8

/-! Property theorems about CSV files that are not UTF-8: C165. -/

namespace Verif.Props

open GraphMap Spec Csv

variable {m k : Nat} {NL EL X L : Type}

/-! ### Files that are texts -/

/-- **C165.** If all fields of a file are texts, its nodes and edges are those of C52. -/
theorem c165_same (c : Settings) (xf : Field X) (lf : Field L) {bs : List Byte}
    (h : ∀ r ∈ Csv.parse c.separator bs, ∀ f ∈ r, utf8 f = true) :
    nodeTexts c xf lf bs = nodeIter c xf lf bs ∧ edgeTexts c xf lf bs = edgeIter c xf lf bs := by
  unfold nodeTexts edgeTexts nodeIter edgeIter textRows Csv.rows
  cases hp : Csv.parse c.separator bs with
  | nil => exact ⟨rfl, rfl⟩
  | cons r rs =>
    rw [hp] at h
    have hr : r.all utf8 = true := List.all_eq_true.2 (h r (by simp))
    have hf : ∀ l : List (List (List Byte)), (∀ x ∈ l, x ∈ r :: rs) →
        l.filter (fun x => (c.flexible || decide (x.length = r.length)) && x.all utf8) =
        l.filter (fun x => c.flexible || decide (x.length = r.length)) := by
      intro l hl
      apply List.filter_congr
      intro x hx
      rw [List.all_eq_true.2 (h x (hl x hx)), Bool.and_true]
    have h1 := hf rs (fun x hx => by simp [hx])
    have h2 := hf (r :: rs) (fun x hx => hx)
    cases hc : c.hasHeaders <;> simp only [hr, if_true, Bool.false_eq_true, if_false, h1, h2] <;> trivial

/-- **C165.** Reading files whose fields are texts is reading as in C52. -/
theorem c165_read [DecidableEq NL] [DecidableEq EL] (c : Settings) (xf : Field (Id m)) (nf : Field NL)
    (ef : Field EL) {nodes : Option (List Byte)} {edges : List Byte} (g : GraphMap m k NL EL)
    (hn : ∀ bs, nodes = some bs → ∀ r ∈ Csv.parse c.separator bs, ∀ f ∈ r, utf8 f = true)
    (he : ∀ r ∈ Csv.parse c.separator edges, ∀ f ∈ r, utf8 f = true) :
    readTexts c xf nf ef nodes edges g = Csv.read c xf nf ef nodes edges g := by
  unfold readTexts Csv.read
  rw [(c165_same c xf ef he).2]
  cases nodes with
  | none => rfl
  | some bs =>
    simp only [(c165_same c xf nf (hn bs rfl)).1]

theorem pending_high (bs : List Byte) : ∀ st : Option (List (Nat × Nat)),
    (∀ l, st = some l → ∀ p ∈ l, 128 ≤ p.1) → ∀ l, bs.foldl utf8Step st = some l → ∀ p ∈ l, 128 ≤ p.1 := by
  induction bs with
  | nil => intro st h; exact h
  | cons b bs ih =>
    intro st h
    rw [List.foldl_cons]
    apply ih
    match st, h with
    | none, _ => intro l hl; cases hl
    | some [], _ =>
      intro l hl
      rw [first_step] at hl
      split_ifs at hl <;> cases hl <;> simp
    | some ((lo, hi) :: rest), h =>
      intro l hl
      rw [more_step] at hl
      split_ifs at hl
      cases hl
      exact fun p hp => h _ rfl p (by simp [hp])

/-- A byte below 128 stands between characters. -/
theorem low_byte {pre bs : List Byte} {b : Byte} (hb : b.val < 128)
    (h : (b :: bs).foldl utf8Step (pre.foldl utf8Step (some [])) = some []) :
    utf8 pre = true ∧ bs.foldl utf8Step (some []) = some [] := by
  have hlo := pending_high pre (some []) (by intro l hl; cases hl; simp)
  rw [utf8_fold]
  generalize pre.foldl utf8Step (some []) = st at h hlo
  rw [List.foldl_cons] at h
  match st, h, hlo with
  | none, h, _ => rw [show utf8Step none b = none from rfl, utf8_none] at h; cases h
  | some [], h, _ =>
    rw [first_step, if_pos hb] at h
    exact ⟨rfl, h⟩
  | some ((lo, hi) :: rest), h, hlo =>
    have := hlo _ rfl (lo, hi) (by simp)
    rw [more_step, if_neg (by simp only at this; omega), utf8_none] at h
    cases h

/-- The reader inside a text: the fields it has are texts, and so is the one it is in with what is to come. -/
structure InText (s : Scan) (bs : List Byte) : Prop where
  done : ∀ f ∈ s.fields, utf8 f = true
  fresh : s.mode = .startRecord ∨ s.mode = .afterCr → s.field = [] ∧ s.fields = []
  rest : bs.foldl utf8Step (s.field.foldl utf8Step (some [])) = some []

theorem fold_push (f : List Byte) (c : Byte) (bs : List Byte) :
    bs.foldl utf8Step ((f ++ [c]).foldl utf8Step (some [])) =
      (c :: bs).foldl utf8Step (f.foldl utf8Step (some [])) := by
  rw [List.foldl_append]; rfl

theorem plain_text {sep : Byte} (hs : sep.val < 128) {s : Scan} {c : Byte} {bs : List Byte}
    (h : InText s (c :: bs)) : InText (s.plain sep c).1 bs ∧
      ∀ r, (s.plain sep c).2 = some r → ∀ f ∈ r, utf8 f = true := by
  unfold Scan.plain
  split_ifs with h1 h2 h3
  · subst h1
    have := low_byte hs h.rest
    refine ⟨⟨?_, (by rintro (h | h) <;> cases h), this.2⟩, by simp⟩
    intro f hf
    rcases List.mem_append.1 hf with hf | hf
    · exact h.done f hf
    · rw [List.mem_singleton.1 hf]; exact this.1
  · have hc : c.val < 128 := by rw [h3]; decide
    have := low_byte hc h.rest
    refine ⟨⟨by simp, by simp, this.2⟩, ?_⟩
    intro r hr f hf
    cases hr
    rcases List.mem_append.1 hf with hf | hf
    · exact h.done f hf
    · rw [List.mem_singleton.1 hf]; exact this.1
  · have hc : c.val < 128 := by
      unfold isTerm at h2
      simp only [Bool.or_eq_true, decide_eq_true_eq] at h2
      rcases h2 with h2 | h2 <;> rw [h2] <;> decide
    have := low_byte hc h.rest
    refine ⟨⟨by simp, by simp, this.2⟩, ?_⟩
    intro r hr f hf
    cases hr
    rcases List.mem_append.1 hf with hf | hf
    · exact h.done f hf
    · rw [List.mem_singleton.1 hf]; exact this.1
  · exact ⟨⟨h.done, (by rintro (h | h) <;> cases h), by rw [fold_push]; exact h.rest⟩, by simp⟩

theorem first_text {sep : Byte} (hs : sep.val < 128) {s : Scan} {c : Byte} {bs : List Byte}
    (h : InText s (c :: bs)) : InText (s.first sep c).1 bs ∧
      ∀ r, (s.first sep c).2 = some r → ∀ f ∈ r, utf8 f = true := by
  unfold Scan.first
  split_ifs with h1
  · have := low_byte (by rw [h1]; decide) h.rest
    exact ⟨⟨h.done, (by rintro (h | h) <;> cases h), by rw [utf8_fold.1 this.1]; exact this.2⟩, by simp⟩
  · exact plain_text hs h

theorem line_text {sep : Byte} (hs : sep.val < 128) {s : Scan} {c : Byte} {bs : List Byte}
    (h : InText s (c :: bs)) : InText (s.line sep c).1 bs ∧
      ∀ r, (s.line sep c).2 = some r → ∀ f ∈ r, utf8 f = true := by
  unfold Scan.line
  split_ifs with h1
  · have hc : c.val < 128 := by
      unfold isTerm at h1
      simp only [Bool.or_eq_true, decide_eq_true_eq] at h1
      rcases h1 with h1 | h1 <;> rw [h1] <;> decide
    exact ⟨⟨by simp [Scan.start], by simp [Scan.start], (low_byte hc h.rest).2⟩, by simp⟩
  · exact first_text hs h

theorem step_text {sep : Byte} (hs : sep.val < 128) {s : Scan} {c : Byte} {bs : List Byte}
    (h : InText s (c :: bs)) : InText (s.step sep c).1 bs ∧
      ∀ r, (s.step sep c).2 = some r → ∀ f ∈ r, utf8 f = true := by
  unfold Scan.step
  split
  · exact line_text hs h
  · exact first_text hs h
  · exact plain_text hs h
  · split_ifs with h1
    · have := low_byte (by rw [h1]; decide) h.rest
      exact ⟨⟨h.done, (by rintro (h | h) <;> cases h), by rw [utf8_fold.1 this.1]; exact this.2⟩, by simp⟩
    · exact ⟨⟨h.done, (by rintro (h | h) <;> cases h), by rw [fold_push]; exact h.rest⟩, by simp⟩
  · split_ifs with h1
    · exact ⟨⟨h.done, (by rintro (h | h) <;> cases h), by rw [fold_push]; exact h.rest⟩, by simp⟩
    · exact plain_text hs h
  · split_ifs with h1
    · have hc : c.val < 128 := by rw [h1]; decide
      exact ⟨⟨by simp [Scan.start], by simp [Scan.start], (low_byte hc h.rest).2⟩, by simp⟩
    · exact line_text hs h

theorem text_records {sep : Byte} (hs : sep.val < 128) : ∀ (bs : List Byte) (s : Scan), InText s bs →
    ∀ r ∈ s.records sep bs, ∀ f ∈ r, utf8 f = true := by
  intro bs
  induction bs with
  | nil =>
    intro s h r hr f hf
    have : r = s.fields ++ [s.field] := by
      unfold Scan.records at hr
      split at hr <;> simp at hr <;> exact hr
    rw [this] at hf
    rcases List.mem_append.1 hf with hf | hf
    · exact h.done f hf
    · rw [List.mem_singleton.1 hf, utf8_fold]; exact h.rest
  | cons c bs ih =>
    intro s h r hr
    have hstep := step_text hs h
    unfold Scan.records at hr
    simp only at hr
    split at hr
    · exact ih _ hstep.1 r hr
    · next rec hrec =>
      rcases List.mem_cons.1 hr with rfl | hr
      · exact hstep.2 _ hrec
      · exact ih _ hstep.1 r hr

/-- **C165.** If a file as a whole is UTF-8 and the separator is an ASCII character, all its fields are. -/
theorem c165_file {sep : Byte} (hs : sep.val < 128) {bs : List Byte} (h : utf8 bs = true) :
    ∀ r ∈ Csv.parse sep bs, ∀ f ∈ r, utf8 f = true :=
  text_records hs bs Scan.start ⟨by simp [Scan.start], by simp [Scan.start], utf8_fold.1 h⟩

/-- **C165.** Separators given by name or as a text are ASCII characters. -/
theorem c165_separator {t : String} {sep : Byte} (h : separatorOf t = .ok sep) : sep.val < 128 := by
  unfold separatorOf at h
  simp only at h
  generalize (if t = "comma" then "," else if t = "space" then " " else if t = "tab" then "\t" else t) = u at h
  split_ifs at h with h1
  have hl : (bytesOf u).length = u.utf8ByteSize := by
    rw [c164_kept, List.length_map]
    rfl
  rw [not_not.1 h1] at hl
  cases hu : u.toList with
  | nil => rw [hu] at h; cases h
  | cons c l =>
    rw [hu] at h
    cases h
    unfold bytesOf at hl
    rw [hu, List.flatMap_cons, List.length_append, List.length_map] at hl
    have hc : c.val.toNat ≤ 127 := by
      unfold String.utf8EncodeChar at hl
      dsimp only at hl
      split_ifs at hl with a1 a2 a3
      · exact a1
      all_goals simp only [List.length_cons, List.length_nil] at hl; omega
    have : (Id.new c.toNat : Byte).val = c.val.toNat % 256 := rfl
    omega

/-! ### Files that are not -/

theorem headed {c : Settings} (hh : c.hasHeaders = true) {bs : List Byte} {hdr : List (List Byte)}
    {rs : List (List (List Byte))} (hp : Csv.parse c.separator bs = hdr :: rs) :
    textRows c bs = (if hdr.all utf8 then some hdr else none, (fitting c hdr rs).filter (fun r => r.all utf8)) := by
  unfold textRows fitting
  rw [hp]
  simp only [hh, if_true, List.filter_filter]
  congr 2
  funext x
  rw [Bool.and_comm]

theorem bare {c : Settings} (hh : c.hasHeaders = false) {bs : List Byte} {r : List (List Byte)}
    {rs : List (List (List Byte))} (hp : Csv.parse c.separator bs = r :: rs) :
    textRows c bs = (none, (fitting c r (r :: rs)).filter (fun r => r.all utf8)) := by
  unfold textRows fitting
  rw [hp]
  simp only [hh, Bool.false_eq_true, if_false, List.filter_filter]
  congr 2
  funext x
  rw [Bool.and_comm]

theorem names_text {hdr : List (List Byte)} {ns : List String} {o : String} (hok : HeaderOk hdr ns o)
    (hn : ∀ n ∈ o :: ns, utf8 (ascii n) = true) : hdr.all utf8 = true := by
  rw [List.all_eq_true]
  intro f hf
  rcases hok.2.1 f hf with ⟨n, hm, rfl⟩ | rfl
  · exact hn n (by simp [hm])
  · exact hn o (by simp)

/-- A node record read by position. -/
def nodeAt (xf : Field X) (lf : Field L) (row : List (List Byte)) : Option (X × Option L) :=
  (row[0]?.bind xf.parse).map (fun i => (i, row[1]?.bind lf.parse))

/-- An edge record read by position. -/
def edgeAt (xf : Field X) (lf : Field L) (row : List (List Byte)) : Option (X × X × Option L) :=
  match row[0]?.bind xf.parse, row[1]?.bind xf.parse with
  | some s, some t => some (s, t, row[2]?.bind lf.parse)
  | _, _ => none

theorem nodeSeq_at (xf : Field X) (lf : Field L) (row : List (List Byte)) : nodeSeq xf lf row = nodeAt xf lf row := by
  unfold nodeAt
  rcases row with _ | ⟨f, _ | ⟨l, row⟩⟩
  · rfl
  · simp only [nodeSeq]; cases hf : xf.parse f <;> simp [hf]
  · simp only [nodeSeq]; cases hf : xf.parse f <;> simp [hf]

theorem edgeSeq_at (xf : Field X) (lf : Field L) (row : List (List Byte)) : edgeSeq xf lf row = edgeAt xf lf row := by
  unfold edgeAt
  rcases row with _ | ⟨f, _ | ⟨f', _ | ⟨l, row⟩⟩⟩
  · rfl
  · simp only [edgeSeq]; cases hf : xf.parse f <;> simp [hf]
  · simp only [edgeSeq]; cases hf : xf.parse f <;> cases hf' : xf.parse f' <;> simp [hf, hf']
  · simp only [edgeSeq]; cases hf : xf.parse f <;> cases hf' : xf.parse f' <;> simp [hf, hf']

/-- **C165**, files with a proper header: rows with a field that is not UTF-8 are left out, the others are read
as in C52. -/
theorem c165_skips (c : Settings) (hh : c.hasHeaders = true) (xf : Field X) (lf : Field L)
    {bs : List Byte} {hdr : List (List Byte)} {rs : List (List (List Byte))}
    (hp : Csv.parse c.separator bs = hdr :: rs) :
    (HeaderOk hdr ["nodeId:ID"] ":LABEL" → nodeTexts c xf lf bs =
      ((fitting c hdr rs).filter (fun r => r.all utf8)).filterMap (nodeOf xf lf hdr)) ∧
    (HeaderOk hdr [":START_ID", ":END_ID"] ":TYPE" → edgeTexts c xf lf bs =
      ((fitting c hdr rs).filter (fun r => r.all utf8)).filterMap (edgeOf xf lf hdr)) := by
  refine ⟨fun hok => ?_, fun hok => ?_⟩
  · have hu := names_text hok (by decide)
    unfold nodeTexts
    rw [headed hh hp]
    simp only [hu, if_true]
    apply List.filterMap_congr
    intro row _
    rw [nodeMap_eq _ _ _ _ _ _ hok.1 (fun h hm => by simpa [idName, labelName] using hok.2.1 h hm)
      (by simp) (by simp)]
    simp only [Option.none_or, Option.getD_none]
    rfl
  · have hu := names_text hok (by decide)
    unfold edgeTexts
    rw [headed hh hp]
    simp only [hu, if_true]
    apply List.filterMap_congr
    intro row _
    rw [edgeMap_eq _ _ _ _ _ _ _ hok.1
      (fun h hm => by simpa [startName, endName, typeName, or_assoc] using hok.2.1 h hm)
      (by simp) (by simp) (by simp)]
    simp only [Option.none_or, Option.getD_none]
    unfold edgeOf
    change ((column hdr row ":START_ID").bind xf.parse).bind (fun i =>
      ((column hdr row ":END_ID").bind xf.parse).map fun j => (i, j, labelOf lf (column hdr row ":TYPE"))) = _
    cases (column hdr row ":START_ID").bind xf.parse <;>
      cases (column hdr row ":END_ID").bind xf.parse <;> rfl

/-- **C165**, files whose header is not UTF-8: the header is ignored, and the rows are read by position, as if
the reader had been told that there is no header. -/
theorem c165_header (c : Settings) (hh : c.hasHeaders = true) (xf : Field X) (lf : Field L)
    {bs : List Byte} {hdr : List (List Byte)} {rs : List (List (List Byte))}
    (hp : Csv.parse c.separator bs = hdr :: rs) (hu : hdr.all utf8 = false) :
    nodeTexts c xf lf bs = ((fitting c hdr rs).filter (fun r => r.all utf8)).filterMap (nodeAt xf lf) ∧
    edgeTexts c xf lf bs = ((fitting c hdr rs).filter (fun r => r.all utf8)).filterMap (edgeAt xf lf) ∧
    nodeTexts c xf lf bs = nodeTexts { c with hasHeaders := false } xf lf bs ∧
    edgeTexts c xf lf bs = edgeTexts { c with hasHeaders := false } xf lf bs := by
  have hb := bare (c := { c with hasHeaders := false }) rfl hp
  have hd := headed hh hp
  simp only [hu, Bool.false_eq_true, if_false] at hd
  have hf : (fitting { c with hasHeaders := false } hdr (hdr :: rs)).filter (fun r => r.all utf8) =
      (fitting c hdr rs).filter (fun r => r.all utf8) := by
    unfold fitting
    rw [List.filter_cons_of_pos (by simp), List.filter_cons_of_neg (by simp [hu])]
  rw [hf] at hb
  unfold nodeTexts edgeTexts
  rw [hd, hb]
  simp only
  exact ⟨List.filterMap_congr fun row _ => nodeSeq_at xf lf row,
    List.filterMap_congr fun row _ => edgeSeq_at xf lf row, trivial, trivial⟩

/-- **C165**, files without a header: rows with a field that is not UTF-8 are left out, the others are read as in
C52. -/
theorem c165_plain (c : Settings) (hh : c.hasHeaders = false) (xf : Field X) (lf : Field L)
    {bs : List Byte} {r : List (List Byte)} {rs : List (List (List Byte))}
    (hp : Csv.parse c.separator bs = r :: rs) :
    nodeTexts c xf lf bs = ((fitting c r (r :: rs)).filter (fun r => r.all utf8)).filterMap (nodeAt xf lf) ∧
    edgeTexts c xf lf bs = ((fitting c r (r :: rs)).filter (fun r => r.all utf8)).filterMap (edgeAt xf lf) := by
  unfold nodeTexts edgeTexts
  rw [bare hh hp]
  exact ⟨List.filterMap_congr fun row _ => nodeSeq_at xf lf row,
    List.filterMap_congr fun row _ => edgeSeq_at xf lf row⟩

/-! ### Files the library writes -/

variable [DecidableEq NL] [DecidableEq EL]

/-- **C165.** If ids and labels are written as texts, the check changes nothing in C51: what was written is read
back. -/
theorem c165_round_trip {g : GView m k NL EL} {A : AGraph (Id m) NL EL} (S : Shows g A) {c : Settings}
    (hs : SeparatorOk c.separator) (hh : c.hasHeaders = true)
    {xf : Field (Id m)} {nf : Field NL} {ef : Field EL}
    (hx : ∀ n, (A.node n).isSome = true → utf8 (xf.shown n) = true ∧ xf.parse (xf.shown n) = some n)
    (hn : ∀ n x, A.node n = some (some x) →
      utf8 (nf.shown x) = true ∧ nf.shown x ≠ [] ∧ nf.parse (nf.shown x) = some x)
    (he : ∀ s t x, A.edge s t = some (some x) →
      utf8 (ef.shown x) = true ∧ ef.shown x ≠ [] ∧ ef.parse (ef.shown x) = some x) :
    ∃ (nb eb : List Byte) (g' : GraphMap m k NL EL), Csv.write c.separator xf nf ef g = .ok (nb, eb) ∧
      readTexts c xf nf ef (some nb) eb (new g.directed) = .ok g' ∧ Reachable g' ∧
      g'.directed = g.directed ∧ Shows g'.view A ∧ g'.edgeCount = g.edgeIndices.length := by
  obtain ⟨nb, eb, g', h1, h2, h3⟩ := c51_round_trip (k := k) S hs hh (fun n h => (hx n h).2) (fun n x h => (hn n x h).2)
    (fun s t x h => (he s t x h).2)
  refine ⟨nb, eb, g', h1, ?_, h3⟩
  rw [write_ok S] at h1
  simp only [Except.ok.injEq, Prod.mk.injEq] at h1
  have nil : Csv.parse c.separator [] = [] := rfl
  have all : ∀ (hdr : List (List Byte)) (rs : List (List (List Byte))), hdr ≠ [] → hdr.all utf8 = true →
      (∀ r ∈ rs, r ≠ [] ∧ ∀ f ∈ r, utf8 f = true) →
      ∀ r ∈ Csv.parse c.separator (writeAll c.separator hdr rs), ∀ f ∈ r, utf8 f = true := by
    intro hdr rs h0 hu hr
    unfold writeAll
    split_ifs with hrs
    · rw [nil]; simp
    · rw [← List.flatMap_cons, parse_write hs _ (by
        intro r h
        rcases List.mem_cons.1 h with rfl | h
        · exact h0
        · exact (hr r h).1)]
      intro r h
      rcases List.mem_cons.1 h with rfl | h
      · exact List.all_eq_true.1 hu
      · exact (hr r h).2
  have lab : ∀ {Y : Type} (lf : Field Y) (o : Option (Option Y)), (∀ x, o = some (some x) → utf8 (lf.shown x) = true) →
      utf8 ((o.join.map lf.shown).getD []) = true := by
    intro Y lf o ho
    rcases o with _ | _ | x
    · rfl
    · rfl
    · exact ho x rfl
  rw [c165_read]
  · exact h2
  · intro bs hb
    cases hb
    rw [← h1.1]
    apply all _ _ (by simp) (by decide)
    intro r hr
    obtain ⟨n, hm, rfl⟩ := List.mem_map.1 hr
    refine ⟨by simp [record], ?_⟩
    intro f hf
    simp only [record, List.cons_append, List.nil_append, List.mem_cons, List.not_mem_nil, or_false] at hf
    rcases hf with rfl | rfl
    · exact (hx n ((S.memNodes n).1 hm)).1
    · exact lab nf _ (fun x h => (hn n x h).1)
  · rw [← h1.2]
    apply all _ _ (by simp) (by decide)
    intro r hr
    obtain ⟨⟨s, t⟩, hm, rfl⟩ := List.mem_map.1 hr
    have hm' := ((S.memEdges s t).1 hm).1
    refine ⟨by simp [record], ?_⟩
    intro f hf
    simp only [record, List.cons_append, List.nil_append, List.mem_cons, List.not_mem_nil, or_false] at hf
    have hends := S.ends s t hm'
    rcases hf with rfl | rfl | rfl
    · exact (hx s hends.1).1
    · exact (hx t hends.2).1
    · exact lab ef _ (fun x h => (he s t x h).1)

theorem digits_text (n : Nat) : utf8 (digits n) = true := by
  apply (c164_append (digits n) []).2
  intro x hx
  unfold digits at hx
  obtain ⟨c, hc, rfl⟩ := List.mem_map.1 hx
  have hd := Nat.isDigit_of_mem_toDigits (by decide) (by decide) hc
  have : c.toNat ≤ 57 := by
    unfold Char.isDigit at hd
    simp only [Bool.and_eq_true, decide_eq_true_eq] at hd
    exact hd.2
  have h2 : (Id.new c.toNat : Byte).val = c.toNat % 256 := rfl
  omega

/-- For `GraphMap` with decimal ids and `String` labels nothing is left to assume but non-empty labels. -/
theorem c165_graph_map {g : GraphMap m k Str Str} (hg : Reachable g) {c : Settings}
    (hs : SeparatorOk c.separator) (hh : c.hasHeaders = true)
    (hn : ∀ n x, g.view.getNodeLabel n = .ok (some x) → x.val ≠ [])
    (he : ∀ s t x, g.view.getEdgeLabel s t = .ok (some x) → x.val ≠ []) :
    ∃ (nb eb : List Byte) (g' : GraphMap m k Str Str) (A : AGraph (Id m) Str Str),
      Csv.write c.separator (.decimal m) .string .string g.view = .ok (nb, eb) ∧
      readTexts c (.decimal m) .string .string (some nb) eb (new g.directed) = .ok g' ∧ Reachable g' ∧
      g'.directed = g.directed ∧ Shows g.view A ∧ Shows g'.view A ∧
      g'.edgeCount = g.view.edgeIndices.length := by
  have S := inv_shows hg.inv
  have back : ∀ x : Str, Field.string.parse (Field.string.shown x) = some x := fun x => dif_pos x.2
  obtain ⟨nb, eb, g', a1, a2, a3, a4, a5, a6⟩ := c165_round_trip S (xf := .decimal m) (nf := .string)
    (ef := .string) hs hh (fun n _ => ⟨digits_text n.val, decimal_round m n⟩)
    (fun n x h => ⟨x.2, hn n x (S.nodeLabel n _ h), back x⟩)
    (fun s t x h => ⟨x.2, by
      cases hd : g.view.directed with
      | true => exact he s t x (S.edgeLabel s t _ h (.inl hd))
      | false =>
        rcases le_total s t with hle | hle
        · exact he s t x (S.edgeLabel s t _ h (.inr hle))
        · exact he t s x (S.edgeLabel t s _ (by rw [S.sym hd]; exact h) (.inr hle)), back x⟩)
  exact ⟨nb, eb, g', g.abs, a1, a2, a3, a4, S, a5, a6⟩

/-- Non-vacuity: a graph with a label that is not ASCII. -/
example : ∃ g : GraphMap 3 3 Str Str, Reachable g ∧
    (∀ n x, g.view.getNodeLabel n = .ok (some x) → x.val ≠ []) ∧
    (∀ s t x, g.view.getEdgeLabel s t = .ok (some x) → x.val ≠ []) ∧
    g.view.getNodeLabel 2 = .ok (some ⟨[0xC3, 0xA9], by decide⟩) := by
  have h0 : Reachable (new true : GraphMap 3 3 Str Str) := .start true _ _ List.nodup_nil List.nodup_nil
  have h : ∃ g, (new true : GraphMap 3 3 Str Str).apply (.addNode 2 (some ⟨[0xC3, 0xA9], by decide⟩)) = .ok g ∧
      (∀ n, g.view.getNodeLabel n = .ok none ∨ g.view.getNodeLabel n = .ok (some ⟨[0xC3, 0xA9], by decide⟩)) ∧
      (∀ s t, g.view.getEdgeLabel s t = .ok none) ∧
      g.view.getNodeLabel 2 = .ok (some ⟨[0xC3, 0xA9], by decide⟩) := ⟨_, rfl, by decide, by decide, rfl⟩
  obtain ⟨g, h, h1, h2, h3⟩ := h
  refine ⟨g, Reachable.step h0 h, fun n x hx => ?_, fun s t x hx => ?_, h3⟩
  · rcases h1 n with e | e <;> rw [e] at hx <;> cases hx
    decide
  · rw [h2 s t] at hx; cases hx

set_option maxRecDepth 8000 in
/-- A label that is not UTF-8 costs the row; a header that is not makes the columns count. -/
theorem c165_examples :
    nodeTexts usual (.decimal 255) .text (lines ["nodeId:ID,:LABEL"] ++ [49, 44, 0xFF, 10] ++ lines ["2,b"]) =
      [(2, some (ascii "b"))] ∧
    nodeIter usual (.decimal 255) .text (lines ["nodeId:ID,:LABEL"] ++ [49, 44, 0xFF, 10] ++ lines ["2,b"]) =
      [(1, some [0xFF]), (2, some (ascii "b"))] ∧
    nodeTexts usual (.decimal 255) .text ([0xFF] ++ lines [",nodeId:ID", "1,2"]) = [(1, some (ascii "2"))] ∧
    nodeTexts usual (.decimal 255) .text (lines [":LABEL,nodeId:ID", "1,2"]) = [(2, some (ascii "1"))] := by
  decide

end Verif.Props
