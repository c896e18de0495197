import Verif.Spec.Csv
import Verif.Proof.Build
import Verif.Proof.SetOps

/-! Reading back what was written. -/

namespace Verif

open Spec GraphMap

namespace Csv

theorem sep_not_term {sep : Byte} (h : SeparatorOk sep) : isTerm sep = false := by
  simp [isTerm, h.2.1, h.2.2]

theorem lf_term : isTerm 10 = true := by decide

section scan

variable {sep : Byte}

theorem records_none {s s' : Scan} {c : Byte} (h : s.step sep c = (s', none)) (rest : List Byte) :
    s.records sep (c :: rest) = s'.records sep rest := by
  rw [Scan.records]; simp only [h]

theorem records_some {s s' : Scan} {c : Byte} {r : List (List Byte)} (h : s.step sep c = (s', some r))
    (rest : List Byte) : s.records sep (c :: rest) = r :: s'.records sep rest := by
  rw [Scan.records]; simp only [h]

theorem records_quoted (g : List Byte) : ∀ (f : List Byte) (fs : List (List Byte)) (rest : List Byte),
    (Scan.mk .inQuoted f fs).records sep (escape g ++ quote :: rest) =
      (Scan.mk .afterQuote (f ++ g) fs).records sep rest := by
  induction g with
  | nil =>
    intro f fs rest
    rw [escape, List.flatMap_nil, List.nil_append, List.append_nil]
    exact records_none (by simp [Scan.step]) rest
  | cons c g ih =>
    intro f fs rest
    have he : escape (c :: g) = (if c = quote then [quote, quote] else [c]) ++ escape g := by
      simp [escape]
    rw [he]
    by_cases hc : c = quote
    · subst hc
      rw [if_pos rfl]
      show (Scan.mk .inQuoted f fs).records sep (quote :: quote :: (escape g ++ quote :: rest)) = _
      rw [records_none (s' := ⟨.afterQuote, f, fs⟩) (by simp [Scan.step]),
        records_none (s' := ⟨.inQuoted, f ++ [quote], fs⟩) (by simp [Scan.step]), ih]
      simp
    · rw [if_neg hc]
      show (Scan.mk .inQuoted f fs).records sep (c :: (escape g ++ quote :: rest)) = _
      rw [records_none (s' := ⟨.inQuoted, f ++ [c], fs⟩) (by simp [Scan.step, hc]), ih]
      simp

theorem needsQuotes_cons {c : Byte} {g : List Byte} (h : needsQuotes sep (c :: g) = false) :
    c ≠ sep ∧ c ≠ quote ∧ isTerm c = false ∧ needsQuotes sep g = false := by
  simp only [needsQuotes, List.any_cons, Bool.or_eq_false_iff, decide_eq_false_iff_not] at h
  exact ⟨h.1.1.1, h.1.1.2, h.1.2, h.2⟩

theorem plain_other (s : Scan) {c : Byte} (h1 : c ≠ sep) (h2 : isTerm c = false) :
    s.plain sep c = (⟨.inField, s.field ++ [c], s.fields⟩, none) := by
  simp [Scan.plain, h1, h2]

theorem records_plain (g : List Byte) : ∀ (f : List Byte) (fs : List (List Byte)) (rest : List Byte),
    needsQuotes sep g = false →
    (Scan.mk .inField f fs).records sep (g ++ rest) = (Scan.mk .inField (f ++ g) fs).records sep rest := by
  induction g with
  | nil => intro f fs rest _; simp
  | cons c g ih =>
    intro f fs rest h
    obtain ⟨h1, h2, h3, h4⟩ := needsQuotes_cons h
    rw [List.cons_append, records_none (s' := ⟨.inField, f ++ [c], fs⟩)
      (by simp only [Scan.step]; exact plain_other _ h1 h3), ih _ _ _ h4]
    simp

theorem plain_sep (s : Scan) : s.plain sep sep = (⟨.startField, [], s.fields ++ [s.field]⟩, none) := by
  simp [Scan.plain]

theorem plain_lf (h : SeparatorOk sep) (s : Scan) :
    s.plain sep 10 = (Scan.start, some (s.fields ++ [s.field])) := by
  simp [Scan.plain, Ne.symm h.2.1, lf_term, Scan.start]

/-- After a whole field, at a byte that ends it. -/
theorem records_field (mode : Mode) (hm : mode = .startField ∨ mode = .startRecord) (h : SeparatorOk sep)
    (f : List Byte) (fs : List (List Byte)) (c : Byte) (hc : c = sep ∨ (c = 10 ∧ (f = [] → mode = .startField)))
    (rest : List Byte) :
    (Scan.mk mode [] fs).records sep (writeField sep f ++ c :: rest) =
      match ((Scan.mk .inField f fs).plain sep c).2 with
      | none => ((Scan.mk .inField f fs).plain sep c).1.records sep rest
      | some r => r :: ((Scan.mk .inField f fs).plain sep c).1.records sep rest := by
  have hcq : c ≠ quote := by
    rcases hc with rfl | ⟨rfl, -⟩
    · exact h.1
    · decide
  have fin : ∀ s : Scan, s.step sep c = s.plain sep c → s.field = f → s.fields = fs →
      s.records sep (c :: rest) = match ((Scan.mk .inField f fs).plain sep c).2 with
      | none => ((Scan.mk .inField f fs).plain sep c).1.records sep rest
      | some r => r :: ((Scan.mk .inField f fs).plain sep c).1.records sep rest := by
    intro s hs h1 h2
    have hp : s.plain sep c = (Scan.mk .inField f fs).plain sep c := by
      rcases hc with rfl | ⟨rfl, -⟩
      · rw [plain_sep, plain_sep, h1, h2]
      · rw [plain_lf h, plain_lf h, h1, h2]
    rw [Scan.records, hs, hp]
    cases ((Scan.mk .inField f fs).plain sep c).2 <;> rfl
  -- the first byte of a field that is not a line end
  have hstep : ∀ x : Byte, isTerm x = false → (Scan.mk mode [] fs).step sep x = (Scan.mk mode [] fs).first sep x := by
    intro x hx
    rcases hm with rfl | rfl
    · rfl
    · simp [Scan.step, Scan.line, hx]
  unfold writeField
  by_cases hq : needsQuotes sep f = true
  · rw [if_pos hq]
    show (Scan.mk mode [] fs).records sep (quote :: (escape f ++ [quote]) ++ c :: rest) = _
    rw [List.cons_append, List.append_assoc]
    rw [records_none (s' := ⟨.inQuoted, [], fs⟩) (by rw [hstep _ (by decide)]; simp [Scan.first])]
    show (Scan.mk .inQuoted [] fs).records sep (escape f ++ quote :: (c :: rest)) = _
    rw [records_quoted, List.nil_append]
    exact fin _ (by simp [Scan.step, hcq]) rfl rfl
  · rw [Bool.not_eq_true] at hq
    rw [if_neg (by simp [hq])]
    cases f with
    | nil =>
      rw [List.nil_append]
      refine fin _ ?_ rfl rfl
      rcases hc with rfl | ⟨rfl, hmf⟩
      · rw [hstep _ (sep_not_term h)]; simp [Scan.first, hcq]
      · rw [hmf rfl]; simp [Scan.step, Scan.first, hcq]
    | cons x f =>
      obtain ⟨h1, h2, h3, h4⟩ := needsQuotes_cons hq
      rw [List.cons_append, records_none (s' := ⟨.inField, [x], fs⟩) (by
        rw [hstep _ h3]; simp only [Scan.first, if_neg h2]; exact plain_other _ h1 h3)]
      rw [records_plain _ _ _ _ h4]
      exact fin _ rfl (by simp) rfl

/-- After a whole record from the middle of it. -/
theorem records_join (h : SeparatorOk sep) : ∀ (r : List (List Byte)), r ≠ [] →
    ∀ (mode : Mode), (mode = .startField ∨ mode = .startRecord) →
    ∀ (fs : List (List Byte)) (rest : List Byte), (joinFields sep r = [] → mode = .startField) →
    (Scan.mk mode [] fs).records sep (joinFields sep r ++ 10 :: rest) =
      (fs ++ r) :: Scan.start.records sep rest := by
  intro r
  induction r with
  | nil => intro hne; exact absurd rfl hne
  | cons f r ih =>
    intro _ mode hm fs rest he
    cases r with
    | nil =>
      have hj : joinFields sep [f] = writeField sep f := by simp [joinFields]
      rw [hj] at he ⊢
      rw [records_field mode hm h f fs 10 (.inr ⟨rfl, ?_⟩), plain_lf h]
      rintro rfl
      exact he rfl
    | cons f' r' =>
      have hj : joinFields sep (f :: f' :: r') = writeField sep f ++ sep :: joinFields sep (f' :: r') := by
        simp [joinFields]
      rw [hj, List.append_assoc, List.cons_append, records_field mode hm h f fs sep (.inl rfl), plain_sep]
      simp only
      rw [ih (by simp) .startField (.inl rfl) (fs ++ [f]) rest (fun _ => rfl)]
      simp

theorem records_record (h : SeparatorOk sep) {r : List (List Byte)} (hr : r ≠ []) (rest : List Byte) :
    Scan.start.records sep (writeRecord sep r ++ rest) = r :: Scan.start.records sep rest := by
  unfold writeRecord
  by_cases he : joinFields sep r = []
  · rw [if_pos he]
    -- only the record with one empty field is written as nothing
    have hr' : r = [[]] := by
      cases r with
      | nil => exact absurd rfl hr
      | cons f r =>
        cases r with
        | nil =>
          have hj : joinFields sep [f] = writeField sep f := by simp [joinFields]
          rw [hj] at he
          unfold writeField at he
          split at he
          · cases he
          · rw [he]
        | cons f' r' =>
          have hj : joinFields sep (f :: f' :: r') = writeField sep f ++ sep :: joinFields sep (f' :: r') := by
            simp [joinFields]
          rw [hj] at he
          simp at he
    subst hr'
    show Scan.start.records sep (quote :: quote :: 10 :: rest) = _
    rw [records_none (s' := ⟨.inQuoted, [], []⟩) (by
        simp [Scan.step, Scan.start, Scan.line, Scan.first]; decide),
      records_none (s' := ⟨.afterQuote, [], []⟩) (by simp [Scan.step]),
      records_some (s' := Scan.start) (r := [[]]) (by
        simp only [Scan.step]
        rw [if_neg (by decide), plain_lf h]; rfl)]
  · rw [if_neg he, List.append_assoc]
    exact records_join h r hr .startRecord (.inr rfl) [] rest (fun hc => absurd hc he)

theorem parse_write (h : SeparatorOk sep) : ∀ rs : List (List (List Byte)), (∀ r ∈ rs, r ≠ []) →
    parse sep (rs.flatMap (writeRecord sep)) = rs := by
  intro rs
  unfold parse
  induction rs with
  | nil => intro _; rfl
  | cons r rs ih =>
    intro hr
    rw [List.flatMap_cons, records_record h (hr r (by simp)), ih fun r' h' => hr r' (by simp [h'])]

end scan

/-! ### Columns -/

section columns

variable {X L : Type}

/-- The field of a row under a column name. -/
def col (hs fs : List (List Byte)) (n : List Byte) : Option (List Byte) := (hs.idxOf? n).bind (fs[·]?)

theorem col_cons (h : List Byte) (hs fs : List (List Byte)) (n : List Byte) :
    col (h :: hs) fs n = if h = n then fs.head? else col hs fs.tail n := by
  unfold col
  rw [List.idxOf?_cons]
  by_cases hn : h = n
  · subst hn; cases fs <;> simp
  · rw [if_neg hn]
    have : (h == n) = false := by simpa using hn
    rw [this]
    cases hs.idxOf? n with
    | none => simp
    | some i => cases fs <;> simp

theorem col_none {hs fs : List (List Byte)} {n : List Byte} (h : n ∉ hs) : col hs fs n = none := by
  unfold col
  rw [List.idxOf?_eq_none_iff.2 h]; rfl

theorem optField_eq (lf : Field L) (fs : List (List Byte)) :
    optField lf fs = (labelOf lf fs.head?, fs.tail) := by
  cases fs <;> rfl

theorem nodeMap_cons (xf : Field X) (lf : Field L) (h : List Byte) (hs fs : List (List Byte)) (id : Option X)
    (label : Option (Option L)) : nodeMap xf lf (h :: hs) fs id label =
    if h = idName then
      if id.isSome = true then none
      else match fs with
        | [] => none
        | f :: fs => do
          let i ← xf.parse f
          nodeMap xf lf hs fs (some i) label
    else if h = labelName then
      if label.isSome = true then none
      else nodeMap xf lf hs (optField lf fs).2 id (some (optField lf fs).1)
    else none := by cases fs <;> rw [nodeMap.eq_def]

theorem edgeMap_cons (xf : Field X) (lf : Field L) (h : List Byte) (hs fs : List (List Byte))
    (s t : Option X) (label : Option (Option L)) : edgeMap xf lf (h :: hs) fs s t label =
    if h = startName then
      if s.isSome = true then none
      else match fs with
        | [] => none
        | f :: fs => do
          let i ← xf.parse f
          edgeMap xf lf hs fs (some i) t label
    else if h = endName then
      if t.isSome = true then none
      else match fs with
        | [] => none
        | f :: fs => do
          let i ← xf.parse f
          edgeMap xf lf hs fs s (some i) label
    else if h = typeName then
      if label.isSome = true then none
      else edgeMap xf lf hs (optField lf fs).2 s t (some (optField lf fs).1)
    else none := by cases fs <;> rw [edgeMap.eq_def]

theorem nodeMap_eq (xf : Field X) (lf : Field L) : ∀ (hs fs : List (List Byte)) (id : Option X)
    (label : Option (Option L)), hs.Nodup → (∀ h ∈ hs, h = idName ∨ h = labelName) →
    (id.isSome = true → idName ∉ hs) → (label.isSome = true → labelName ∉ hs) →
    nodeMap xf lf hs fs id label =
      (id.or ((col hs fs idName).bind xf.parse)).map
        (fun i => (i, label.getD (labelOf lf (col hs fs labelName)))) := by
  have hne : idName ≠ labelName := by decide
  intro hs
  induction hs with
  | nil =>
    intro fs id label _ _ _ _
    unfold nodeMap
    cases id <;> cases label <;> simp [col, labelOf]
  | cons h hs ih =>
    intro fs id label hnd hk hi hl
    rw [List.nodup_cons] at hnd
    have hk' := fun x hx => hk x (List.mem_cons_of_mem _ hx)
    rw [nodeMap_cons, col_cons, col_cons]
    rcases hk h (by simp) with rfl | rfl
    · rw [if_pos rfl, if_pos rfl, if_neg hne]
      have hid : id = none := by
        cases id with
        | none => rfl
        | some i => exact absurd (by simp) (hi rfl)
      subst hid
      rw [if_neg (by simp)]
      cases fs with
      | nil => simp
      | cons f fs =>
        cases hp : xf.parse f with
        | none => simp [hp]
        | some i =>
          simp only [hp, List.head?_cons, Option.bind_some, Option.bind_eq_bind, List.tail_cons]
          rw [ih fs (some i) label hnd.2 hk' (fun _ => hnd.1)
            (fun hx hm => hl hx (List.mem_cons_of_mem _ hm))]
          simp
    · rw [if_neg (Ne.symm hne), if_pos rfl, if_neg (Ne.symm hne), if_pos rfl]
      have hlab : label = none := by
        cases label with
        | none => rfl
        | some i => exact absurd (by simp) (hl rfl)
      subst hlab
      rw [if_neg (by simp)]
      simp only [optField_eq]
      rw [ih fs.tail id _ hnd.2 hk' (fun hx hm => hi hx (List.mem_cons_of_mem _ hm)) (fun _ => hnd.1)]
      simp

theorem nodeMap_some (xf : Field X) (lf : Field L) : ∀ (hs fs : List (List Byte)) (id : Option X)
    (label : Option (Option L)) (r : X × Option L), nodeMap xf lf hs fs id label = some r →
    hs.Nodup ∧ (∀ h ∈ hs, h = idName ∨ h = labelName) ∧ (id.isSome = true → idName ∉ hs) ∧
      (label.isSome = true → labelName ∉ hs) ∧ (id.isSome = true ∨ idName ∈ hs) := by
  have hne : idName ≠ labelName := by decide
  intro hs
  induction hs with
  | nil =>
    intro fs id label r h
    unfold nodeMap at h
    cases id with
    | none => simp at h
    | some i => simp
  | cons h hs ih =>
    intro fs id label r hr
    rw [nodeMap_cons] at hr
    by_cases h1 : h = idName
    · subst h1
      rw [if_pos rfl] at hr
      split at hr
      · cases hr
      · rename_i hid
        cases fs with
        | nil => cases hr
        | cons f fs =>
          simp only [Option.bind_eq_bind, Option.bind_eq_some_iff] at hr
          obtain ⟨i, -, hr⟩ := hr
          obtain ⟨a1, a2, a3, a4, -⟩ := ih _ _ _ _ hr
          refine ⟨List.nodup_cons.2 ⟨a3 rfl, a1⟩, ?_, fun hc => absurd hc hid, ?_, .inr (by simp)⟩
          · intro x hx
            rcases List.mem_cons.1 hx with rfl | hx
            · exact .inl rfl
            · exact a2 x hx
          · intro hl hm
            rcases List.mem_cons.1 hm with hm | hm
            · exact hne hm.symm
            · exact a4 hl hm
    · rw [if_neg h1] at hr
      by_cases h2 : h = labelName
      · subst h2
        rw [if_pos rfl] at hr
        split at hr
        · cases hr
        · rename_i hlab
          obtain ⟨a1, a2, a3, a4, a5⟩ := ih _ _ _ _ hr
          refine ⟨List.nodup_cons.2 ⟨a4 rfl, a1⟩, ?_, ?_, fun hc => absurd hc hlab, ?_⟩
          · intro x hx
            rcases List.mem_cons.1 hx with rfl | hx
            · exact .inr rfl
            · exact a2 x hx
          · intro hl hm
            rcases List.mem_cons.1 hm with hm | hm
            · exact hne hm
            · exact a3 hl hm
          · exact a5.imp (fun h => h) (List.mem_cons_of_mem _)
      · rw [if_neg h2] at hr
        cases hr

theorem edgeMap_eq (xf : Field X) (lf : Field L) : ∀ (hs fs : List (List Byte)) (s t : Option X)
    (label : Option (Option L)), hs.Nodup → (∀ h ∈ hs, h = startName ∨ h = endName ∨ h = typeName) →
    (s.isSome = true → startName ∉ hs) → (t.isSome = true → endName ∉ hs) →
    (label.isSome = true → typeName ∉ hs) →
    edgeMap xf lf hs fs s t label =
      (s.or ((col hs fs startName).bind xf.parse)).bind fun i =>
      (t.or ((col hs fs endName).bind xf.parse)).map fun j =>
        (i, j, label.getD (labelOf lf (col hs fs typeName))) := by
  have h12 : startName ≠ endName := by decide
  have h13 : startName ≠ typeName := by decide
  have h23 : endName ≠ typeName := by decide
  intro hs
  induction hs with
  | nil =>
    intro fs s t label _ _ _ _ _
    unfold edgeMap
    cases s <;> cases t <;> cases label <;> simp [col, labelOf]
  | cons h hs ih =>
    intro fs s t label hnd hk hi hj hl
    rw [List.nodup_cons] at hnd
    have hk' := fun x hx => hk x (List.mem_cons_of_mem _ hx)
    rw [edgeMap_cons, col_cons, col_cons, col_cons]
    rcases hk h (by simp) with rfl | rfl | rfl
    · rw [if_pos rfl, if_pos rfl, if_neg h12, if_neg h13]
      have hid : s = none := by
        cases s with
        | none => rfl
        | some i => exact absurd (by simp) (hi rfl)
      subst hid
      rw [if_neg (by simp)]
      cases fs with
      | nil => simp
      | cons f fs =>
        cases hp : xf.parse f with
        | none => simp [hp]
        | some i =>
          simp only [hp, List.head?_cons, Option.bind_some, Option.bind_eq_bind, List.tail_cons]
          rw [ih fs (some i) t label hnd.2 hk' (fun _ => hnd.1)
            (fun hx hm => hj hx (List.mem_cons_of_mem _ hm))
            (fun hx hm => hl hx (List.mem_cons_of_mem _ hm))]
          simp
    · rw [if_neg (Ne.symm h12), if_pos rfl, if_neg (Ne.symm h12), if_pos rfl, if_neg h23]
      have hid : t = none := by
        cases t with
        | none => rfl
        | some i => exact absurd (by simp) (hj rfl)
      subst hid
      rw [if_neg (by simp)]
      cases fs with
      | nil => cases s <;> simp [col]
      | cons f fs =>
        cases hp : xf.parse f with
        | none => cases s <;> simp [hp]
        | some i =>
          simp only [hp, List.head?_cons, Option.bind_some, Option.bind_eq_bind, List.tail_cons]
          rw [ih fs s (some i) label hnd.2 hk' (fun hx hm => hi hx (List.mem_cons_of_mem _ hm))
            (fun _ => hnd.1)
            (fun hx hm => hl hx (List.mem_cons_of_mem _ hm))]
          simp
    · rw [if_neg (Ne.symm h13), if_neg (Ne.symm h23), if_pos rfl, if_neg (Ne.symm h13),
        if_neg (Ne.symm h23), if_pos rfl]
      have hlab : label = none := by
        cases label with
        | none => rfl
        | some i => exact absurd (by simp) (hl rfl)
      subst hlab
      rw [if_neg (by simp)]
      simp only [optField_eq]
      rw [ih fs.tail s t _ hnd.2 hk' (fun hx hm => hi hx (List.mem_cons_of_mem _ hm))
        (fun hx hm => hj hx (List.mem_cons_of_mem _ hm)) (fun _ => hnd.1)]
      simp

theorem edgeMap_some (xf : Field X) (lf : Field L) : ∀ (hs fs : List (List Byte)) (s t : Option X)
    (label : Option (Option L)) (r : X × X × Option L), edgeMap xf lf hs fs s t label = some r →
    hs.Nodup ∧ (∀ h ∈ hs, h = startName ∨ h = endName ∨ h = typeName) ∧
      (s.isSome = true → startName ∉ hs) ∧ (t.isSome = true → endName ∉ hs) ∧
      (label.isSome = true → typeName ∉ hs) ∧ (s.isSome = true ∨ startName ∈ hs) ∧
      (t.isSome = true ∨ endName ∈ hs) := by
  have h12 : startName ≠ endName := by decide
  have h13 : startName ≠ typeName := by decide
  have h23 : endName ≠ typeName := by decide
  intro hs
  induction hs with
  | nil =>
    intro fs s t label r h
    unfold edgeMap at h
    cases s with
    | none => simp at h
    | some i =>
      cases t with
      | none => simp at h
      | some j => simp
  | cons h hs ih =>
    intro fs s t label r hr
    rw [edgeMap_cons] at hr
    by_cases h1 : h = startName
    · subst h1
      rw [if_pos rfl] at hr
      split at hr
      · cases hr
      · rename_i hid
        cases fs with
        | nil => cases hr
        | cons f fs =>
          simp only [Option.bind_eq_bind, Option.bind_eq_some_iff] at hr
          obtain ⟨i, -, hr⟩ := hr
          obtain ⟨a1, a2, a3, a4, a5, -, a7⟩ := ih _ _ _ _ _ hr
          refine ⟨List.nodup_cons.2 ⟨a3 rfl, a1⟩, ?_, fun hc => absurd hc hid, ?_, ?_, .inr (by simp),
            a7.imp id (List.mem_cons_of_mem _)⟩
          · intro x hx
            rcases List.mem_cons.1 hx with rfl | hx
            · exact .inl rfl
            · exact a2 x hx
          · intro hl hm
            rcases List.mem_cons.1 hm with hm | hm
            · exact h12 hm.symm
            · exact a4 hl hm
          · intro hl hm
            rcases List.mem_cons.1 hm with hm | hm
            · exact h13 hm.symm
            · exact a5 hl hm
    · rw [if_neg h1] at hr
      by_cases h2 : h = endName
      · subst h2
        rw [if_pos rfl] at hr
        split at hr
        · cases hr
        · rename_i hid
          cases fs with
          | nil => cases hr
          | cons f fs =>
            simp only [Option.bind_eq_bind, Option.bind_eq_some_iff] at hr
            obtain ⟨i, -, hr⟩ := hr
            obtain ⟨a1, a2, a3, a4, a5, a6, -⟩ := ih _ _ _ _ _ hr
            refine ⟨List.nodup_cons.2 ⟨a4 rfl, a1⟩, ?_, ?_, fun hc => absurd hc hid, ?_,
              a6.imp id (List.mem_cons_of_mem _), .inr (by simp)⟩
            · intro x hx
              rcases List.mem_cons.1 hx with rfl | hx
              · exact .inr (.inl rfl)
              · exact a2 x hx
            · intro hl hm
              rcases List.mem_cons.1 hm with hm | hm
              · exact h12 hm
              · exact a3 hl hm
            · intro hl hm
              rcases List.mem_cons.1 hm with hm | hm
              · exact h23 hm.symm
              · exact a5 hl hm
      · rw [if_neg h2] at hr
        by_cases h3 : h = typeName
        · subst h3
          rw [if_pos rfl] at hr
          split at hr
          · cases hr
          · rename_i hlab
            obtain ⟨a1, a2, a3, a4, a5, a6, a7⟩ := ih _ _ _ _ _ hr
            refine ⟨List.nodup_cons.2 ⟨a5 rfl, a1⟩, ?_, ?_, ?_, fun hc => absurd hc hlab,
              a6.imp id (List.mem_cons_of_mem _), a7.imp id (List.mem_cons_of_mem _)⟩
            · intro x hx
              rcases List.mem_cons.1 hx with rfl | hx
              · exact .inr (.inr rfl)
              · exact a2 x hx
            · intro hl hm
              rcases List.mem_cons.1 hm with hm | hm
              · exact h13 hm
              · exact a3 hl hm
            · intro hl hm
              rcases List.mem_cons.1 hm with hm | hm
              · exact h23 hm
              · exact a4 hl hm
        · rw [if_neg h3] at hr
          cases hr

end columns

/-! ### Reading is a list of calls -/

section graph

variable {m k : Nat} {NL EL : Type}

/-- The calls made for node records. -/
def nodeOps (rs : List (Id m × Option NL)) : List (Op m k NL EL) := rs.map (fun r => Op.addNode r.1 r.2)

/-- The calls made for edge records. -/
def edgeOps (rs : List (Id m × Id m × Option EL)) : List (Op m k NL EL) :=
  rs.map (fun r => Op.addEdge r.1 r.2.1 r.2.2)

theorem read_exec [DecidableEq NL] [DecidableEq EL] (c : Settings) (xf : Field (Id m)) (nf : Field NL)
    (ef : Field EL) (nodes : Option (List Byte)) (edges : List Byte) (g : GraphMap m k NL EL) :
    read c xf nf ef nodes edges g =
      g.exec (nodeOps ((nodes.map (nodeIter c xf nf)).getD []) ++ edgeOps (edgeIter c xf ef edges)) := by
  have he : ∀ (rs : List (Id m × Id m × Option EL)) (g : GraphMap m k NL EL),
      rs.foldlM (fun g r => do let q ← g.addEdge r.1 r.2.1 r.2.2; pure q.1) g = g.exec (edgeOps rs) := by
    intro rs
    apply GraphMap.foldlM_exec
    intros; rfl
  have hn : ∀ (rs : List (Id m × Option NL)) (g : GraphMap m k NL EL),
      rs.foldlM (fun g r => do let q ← g.addNode r.1 r.2; pure q.1) g = g.exec (nodeOps rs) := by
    intro rs
    apply GraphMap.foldlM_exec
    intros; rfl
  rw [GraphMap.exec_append]
  unfold read
  cases nodes with
  | none =>
    simp only [he]
    rfl
  | some bs =>
    simp only [he, hn]
    rfl

/-! ### Writing -/

theorem rows_write {c : Settings} (hs : SeparatorOk c.separator) (hh : c.hasHeaders = true)
    {hdr : List (List Byte)} {rs : List (List (List Byte))} (hne : rs ≠ []) (hh0 : hdr ≠ [])
    (hl : ∀ r ∈ rs, r.length = hdr.length) :
    Csv.rows c (writeAll c.separator hdr rs) = (hdr, rs) := by
  have hp : parse c.separator (writeAll c.separator hdr rs) = hdr :: rs := by
    unfold writeAll
    rw [if_neg hne]
    have := parse_write hs (hdr :: rs) (by
      intro r hr
      rcases List.mem_cons.1 hr with rfl | hr
      · exact hh0
      · intro h0
        have := hl r hr
        rw [h0] at this
        exact hh0 (List.length_eq_zero_iff.1 this.symm))
    rwa [List.flatMap_cons] at this
  unfold Csv.rows
  rw [hp]
  simp only [hh, if_true]
  rw [List.filter_eq_self.2]
  intro r hr
  simp [hl r hr]

theorem filterMap_ok {X Y : Type} (l : List X) (f : X → Option Y) (g : X → Y) (h : ∀ x ∈ l, f x = some (g x)) :
    l.filterMap f = l.map g := by
  induction l with
  | nil => rfl
  | cons a l ih =>
    rw [List.filterMap_cons, h a (by simp), List.map_cons, ih (fun x hx => h x (by simp [hx]))]

theorem nodeIter_write {c : Settings} (hs : SeparatorOk c.separator) (hh : c.hasHeaders = true)
    {X L : Type} (xf : Field X) (lf : Field L) (ns : List X) (lab : X → Option L)
    (h1 : ∀ n ∈ ns, xf.parse (xf.shown n) = some n)
    (h2 : ∀ n ∈ ns, ∀ x, lab n = some x → lf.shown x ≠ [] → lf.parse (lf.shown x) = some x) :
    nodeIter c xf lf (writeAll c.separator [idName, labelName]
      (ns.map (fun n => record [xf.shown n] lf (lab n)))) =
      ns.map (fun n => (n, (lab n).filter (fun x => decide (lf.shown x ≠ [])))) := by
  unfold nodeIter
  by_cases hne : ns = []
  · subst hne
    simp [writeAll, rows, parse, Scan.records, Scan.start]
  · rw [rows_write hs hh (by simpa using hne) (by simp) (by simp [record])]
    simp only [hh, if_true]
    rw [List.filterMap_map]
    apply filterMap_ok
    intro n hn
    rw [Function.comp_apply, nodeMap_eq _ _ _ _ _ _ (by decide) (by simp) (by simp) (by simp)]
    have e1 : col [idName, labelName] (record [xf.shown n] lf (lab n)) idName = some (xf.shown n) := by
      rw [col_cons, if_pos rfl]; rfl
    have e2 : col [idName, labelName] (record [xf.shown n] lf (lab n)) labelName =
        some (((lab n).map lf.shown).getD []) := by
      rw [col_cons, if_neg (by decide), col_cons, if_pos rfl]; rfl
    rw [e1, e2]
    simp only [Option.none_or, Option.bind_some, h1 n hn, Option.map_some, Option.getD_none, labelOf]
    congr 2
    cases hl : lab n with
    | none => simp
    | some x =>
      by_cases hx : lf.shown x = []
      · simp [hx, Option.filter]
      · simp [hx, h2 n hn x hl hx, Option.filter]

theorem edgeIter_write {c : Settings} (hs : SeparatorOk c.separator) (hh : c.hasHeaders = true)
    {X L : Type} (xf : Field X) (lf : Field L) (es : List (X × X)) (lab : X × X → Option L)
    (h1 : ∀ e ∈ es, xf.parse (xf.shown e.1) = some e.1 ∧ xf.parse (xf.shown e.2) = some e.2)
    (h2 : ∀ e ∈ es, ∀ x, lab e = some x → lf.shown x ≠ [] → lf.parse (lf.shown x) = some x) :
    edgeIter c xf lf (writeAll c.separator [startName, endName, typeName]
      (es.map (fun e => record [xf.shown e.1, xf.shown e.2] lf (lab e)))) =
      es.map (fun e => (e.1, e.2, (lab e).filter (fun x => decide (lf.shown x ≠ [])))) := by
  unfold edgeIter
  by_cases hne : es = []
  · subst hne
    simp [writeAll, rows, parse, Scan.records, Scan.start]
  · rw [rows_write hs hh (by simpa using hne) (by simp) (by
      intro r hr; rw [List.mem_map] at hr; obtain ⟨_, _, rfl⟩ := hr; rfl)]
    simp only [hh, if_true]
    rw [List.filterMap_map]
    apply filterMap_ok
    intro e he
    rw [Function.comp_apply, edgeMap_eq _ _ _ _ _ _ _ (by decide) (by simp) (by simp) (by simp) (by simp)]
    have e1 : col [startName, endName, typeName] (record [xf.shown e.1, xf.shown e.2] lf (lab e)) startName =
        some (xf.shown e.1) := by
      rw [col_cons, if_pos rfl]; rfl
    have e2 : col [startName, endName, typeName] (record [xf.shown e.1, xf.shown e.2] lf (lab e)) endName =
        some (xf.shown e.2) := by
      rw [col_cons, if_neg (by decide), col_cons, if_pos rfl]; rfl
    have e3 : col [startName, endName, typeName] (record [xf.shown e.1, xf.shown e.2] lf (lab e)) typeName =
        some (((lab e).map lf.shown).getD []) := by
      rw [col_cons, if_neg (by decide), col_cons, if_neg (by decide), col_cons, if_pos rfl]; rfl
    rw [e1, e2, e3]
    simp only [Option.none_or, Option.bind_some, (h1 e he).1, (h1 e he).2, Option.map_some,
      Option.getD_none, labelOf]
    congr 3
    cases hl : lab e with
    | none => simp
    | some x =>
      by_cases hx : lf.shown x = []
      · simp [hx, Option.filter]
      · simp [hx, h2 e he x hl hx, Option.filter]

theorem write_ok {g : GView m k NL EL} {A : AGraph (Id m) NL EL} (S : Shows g A) (sep : Byte)
    (xf : Field (Id m)) (nf : Field NL) (ef : Field EL) :
    write sep xf nf ef g = .ok
      (writeAll sep [idName, labelName]
        (g.nodeIndices.map (fun n => record [xf.shown n] nf (A.node n).join)),
       writeAll sep [startName, endName, typeName]
        (g.edgeIndices.map (fun e => record [xf.shown e.1, xf.shown e.2] ef (A.edge e.1 e.2).join))) := by
  unfold write
  rw [mapM_ok _ (fun n => record [xf.shown n] nf (A.node n).join), bind_ok,
    mapM_ok _ (fun e => record [xf.shown e.1, xf.shown e.2] ef (A.edge e.1 e.2).join), bind_ok]
  · rfl
  · rintro ⟨s, t⟩ he
    obtain ⟨h1, h2⟩ := (S.memEdges s t).1 he
    obtain ⟨l, hl⟩ := Option.isSome_iff_exists.1 h1
    simp only
    rw [S.edgeLabel s t l hl h2, bind_ok, hl]
    rfl
  · intro n hn
    obtain ⟨l, hl⟩ := Option.isSome_iff_exists.1 ((S.memNodes n).1 hn)
    rw [S.nodeLabel n l hl, bind_ok, hl]
    rfl

/-- Written files read into an empty graph that has label tables already. -/
theorem roundTripInto [DecidableEq NL] [DecidableEq EL] {g : GView m k NL EL} {A : AGraph (Id m) NL EL}
    (S : Shows g A) {c : Settings} (hs : SeparatorOk c.separator) (hh : c.hasHeaders = true)
    {xf : Field (Id m)} {nf : Field NL} {ef : Field EL}
    (hx : ∀ n, (A.node n).isSome = true → xf.parse (xf.shown n) = some n)
    (hn : ∀ n x, A.node n = some (some x) → nf.shown x ≠ [] → nf.parse (nf.shown x) = some x)
    (he : ∀ s t x, A.edge s t = some (some x) → ef.shown x ≠ [] → ef.parse (ef.shown x) = some x)
    {nm : SetMap NL} {em : SetMap EL} (hnm : nm.labels.Nodup) (hem : em.labels.Nodup)
    {nl : List NL} {el : List EL} (hnl : nl.length ≤ k + 1) (hel : el.length ≤ k + 1)
    (h0 : ∀ x ∈ nm.labels, x ∈ nl) (h0' : ∀ x ∈ em.labels, x ∈ el)
    (hnl' : ∀ n x, A.node n = some (some x) → x ∈ nl) (hel' : ∀ s t x, A.edge s t = some (some x) → x ∈ el) :
    ∃ (nb eb : List Byte) (g' : GraphMap m k NL EL), write c.separator xf nf ef g = .ok (nb, eb) ∧
      read c xf nf ef (some nb) eb (GraphMap.withLabelMap g.directed nm em) = .ok g' ∧ Reachable g' ∧
      g'.directed = g.directed ∧ Shows g'.view (A.dropEmpty nf ef) ∧
      g'.edgeCount = g.edgeIndices.length := by
  have hends : ∀ e ∈ g.edgeIndices, (A.node e.1).isSome ∧ (A.node e.2).isSome := by
    rintro ⟨s, t⟩ h
    exact S.ends s t ((S.memEdges s t).1 h).1
  have hni := nodeIter_write hs hh xf nf g.nodeIndices (fun n => (A.node n).join)
    (fun n h => hx n ((S.memNodes n).1 h))
    (fun n _ x hl => hn n x (Option.join_eq_some_iff.1 hl))
  have hei := edgeIter_write hs hh xf ef g.edgeIndices (fun e => (A.edge e.1 e.2).join)
    (fun e h => ⟨hx _ (hends e h).1, hx _ (hends e h).2⟩)
    (fun e _ x hl => he _ _ x (Option.join_eq_some_iff.1 hl))
  have hrun : Spec.run g.directed
      (nodeOps (g.nodeIndices.map
        (fun n => (n, (A.node n).join.filter (fun x => decide (nf.shown x ≠ []))))) ++
       edgeOps (g.edgeIndices.map
        (fun e => (e.1, e.2, (A.edge e.1 e.2).join.filter (fun x => decide (ef.shown x ≠ []))))) :
        List (Op m k NL EL)) = A.dropEmpty nf ef := by
    unfold Spec.run nodeOps edgeOps
    rw [List.foldl_append, List.map_map, List.map_map]
    have e1 := run_addNodes (k := k) (EL := EL) g.directed
      (fun n => (A.node n).join.filter (fun x => decide (nf.shown x ≠ []))) g.nodeIndices AGraph.empty
    have e2 := run_addEdges (k := k) (NL := NL) g.directed
      (fun s t => (A.edge s t).join.filter (fun x => decide (ef.shown x ≠ [])))
      (fun hd s t => by rw [S.sym hd]) g.edgeIndices
    simp only [Function.comp_def]
    rw [e1, e2]
    · apply AGraph_ext
      · intro n
        simp only [AGraph.dropEmpty, S.memNodes]
        cases A.node n <;> simp [AGraph.empty]
      · intro s t
        simp only [AGraph.dropEmpty, shows_edge_mem S]
        cases A.edge s t <;> simp [AGraph.empty]
    · intro e h
      simp only [S.memNodes, (hends e h).1, (hends e h).2]
      simp
  obtain ⟨g', a1, a2, a3, a4, a5, -, -⟩ := GraphMap.build_shows_into (m := m) (k := k) g.directed hnm hem
    (nodeOps (g.nodeIndices.map
        (fun n => (n, (A.node n).join.filter (fun x => decide (nf.shown x ≠ []))))) ++
       edgeOps (g.edgeIndices.map
        (fun e => (e.1, e.2, (A.edge e.1 e.2).join.filter (fun x => decide (ef.shown x ≠ []))))))
    (by
      intro op ho
      simp only [nodeOps, edgeOps, List.mem_append, List.mem_map] at ho
      rcases ho with ⟨_, _, rfl⟩ | ⟨_, _, rfl⟩ <;> rfl) hnl hel h0 h0'
    (by
      intro op ho x hx
      simp only [nodeOps, edgeOps, List.mem_append, List.mem_map] at ho
      rcases ho with ⟨_, ⟨n, hn, rfl⟩, rfl⟩ | ⟨_, _, rfl⟩
      · simp only [Op.nodeLab, Option.filter_eq_some_iff] at hx
        exact hnl' n x (Option.join_eq_some_iff.1 hx.1)
      · cases hx)
    (by
      intro op ho x hx
      simp only [nodeOps, edgeOps, List.mem_append, List.mem_map] at ho
      rcases ho with ⟨_, _, rfl⟩ | ⟨_, ⟨e, _, rfl⟩, rfl⟩
      · cases hx
      · simp only [Op.edgeLab, Option.filter_eq_some_iff] at hx
        exact hel' _ _ x (Option.join_eq_some_iff.1 hx.1))
  refine ⟨_, _, g', write_ok S .., ?_, a3.reachable hnm hem, a2, hrun ▸ a4, ?_⟩
  · rw [read_exec, Option.map_some, Option.getD_some, hni, hei, a1]
  · rw [a5, List.filter_append]
    rw [List.filter_eq_nil_iff.2, List.filter_eq_self.2]
    · simp [edgeOps]
    · intro op ho
      simp only [edgeOps, List.mem_map] at ho
      obtain ⟨_, _, rfl⟩ := ho
      rfl
    · intro op ho
      simp only [nodeOps, List.mem_map] at ho
      obtain ⟨_, _, rfl⟩ := ho
      simp [Op.addsEdge]

theorem roundTrip [DecidableEq NL] [DecidableEq EL] {g : GView m k NL EL} {A : AGraph (Id m) NL EL}
    (S : Shows g A) {c : Settings} (hs : SeparatorOk c.separator) (hh : c.hasHeaders = true)
    {xf : Field (Id m)} {nf : Field NL} {ef : Field EL}
    (hx : ∀ n, (A.node n).isSome = true → xf.parse (xf.shown n) = some n)
    (hn : ∀ n x, A.node n = some (some x) → nf.shown x ≠ [] → nf.parse (nf.shown x) = some x)
    (he : ∀ s t x, A.edge s t = some (some x) → ef.shown x ≠ [] → ef.parse (ef.shown x) = some x) :
    ∃ (nb eb : List Byte) (g' : GraphMap m k NL EL), write c.separator xf nf ef g = .ok (nb, eb) ∧
      read c xf nf ef (some nb) eb (GraphMap.new g.directed) = .ok g' ∧ Reachable g' ∧
      g'.directed = g.directed ∧ Shows g'.view (A.dropEmpty nf ef) ∧
      g'.edgeCount = g.edgeIndices.length := by
  obtain ⟨⟨nl, hnl, hnl'⟩, ⟨el, hel, hel'⟩⟩ := shows_fits S
  exact roundTripInto S hs hh hx hn he (nm := .empty) (em := .empty) List.nodup_nil List.nodup_nil hnl hel
    (fun _ h => by simp [SetMap.empty] at h) (fun _ h => by simp [SetMap.empty] at h) hnl' hel'

theorem dropEmpty_self {I : Type} {A : AGraph I NL EL} {nf : Field NL} {ef : Field EL}
    (hn : ∀ n x, A.node n = some (some x) → nf.shown x ≠ [])
    (he : ∀ s t x, A.edge s t = some (some x) → ef.shown x ≠ []) : A.dropEmpty nf ef = A := by
  apply AGraph_ext
  · intro n
    simp only [AGraph.dropEmpty]
    cases h : A.node n with
    | none => rfl
    | some l =>
      cases l with
      | none => rfl
      | some x => simp [hn n x h]
  · intro s t
    simp only [AGraph.dropEmpty]
    cases h : A.edge s t with
    | none => rfl
    | some l =>
      cases l with
      | none => rfl
      | some x => simp [he s t x h]

end graph

end Csv

/-! ### Decimal numbers -/

theorem ofDigits_chars : ∀ (cs : List Char) (acc : Nat), (∀ c ∈ cs, c.isDigit = true) →
    ofDigits acc (cs.map (fun c => Id.new c.toNat)) = some (Nat.ofDigitChars 10 cs acc) := by
  intro cs
  induction cs with
  | nil => intro acc _; simp [ofDigits]
  | cons c cs ih =>
    intro acc h
    have hc := h c (by simp)
    have h2 : 48 ≤ c.toNat ∧ c.toNat ≤ 57 := by
      unfold Char.isDigit at hc
      simp only [ge_iff_le, Bool.and_eq_true, decide_eq_true_eq] at hc
      exact ⟨UInt32.le_iff_toNat_le.1 hc.1, UInt32.le_iff_toNat_le.1 hc.2⟩
    have hv : (Id.new c.toNat : Byte).val = c.toNat := by
      show c.toNat % 256 = _
      omega
    rw [List.map_cons, ofDigits, hv, if_pos h2, ih _ (fun x hx => h x (by simp [hx])),
      Nat.ofDigitChars_cons]
    rw [show '0'.toNat = 48 from rfl, Nat.mul_comm]

theorem decimal_round (m : Nat) (n : Id m) : (Field.decimal m).parse ((Field.decimal m).shown n) = some n := by
  have hd : ∀ c ∈ Nat.toDigits 10 n.val, c.isDigit = true :=
    fun c hc => Nat.isDigit_of_mem_toDigits (by omega) (by omega) hc
  have hne : digits n.val ≠ [] := by
    unfold digits
    intro h
    exact Nat.toDigits_ne_nil (List.map_eq_nil_iff.1 h)
  have h43 : ∀ r, digits n.val ≠ 43 :: r := by
    intro r h
    unfold digits at h
    obtain ⟨c, l, h1, h2, -⟩ := List.map_eq_cons_iff.1 h
    have := hd c (h1 ▸ by simp)
    unfold Char.isDigit at this
    simp only [ge_iff_le, Bool.and_eq_true, decide_eq_true_eq] at this
    have a1 : 48 ≤ c.toNat := UInt32.le_iff_toNat_le.1 this.1
    have a2 : c.toNat ≤ 57 := UInt32.le_iff_toNat_le.1 this.2
    have a3 := congrArg Fin.val h2
    have a4 : c.toNat % 256 = 43 := a3
    omega
  have h43' : ¬ (digits n.val).head? = some 43 := by
    intro h
    obtain ⟨r, hr⟩ := List.head?_eq_some_iff.1 h
    exact h43 r hr
  simp only [Field.decimal]
  rw [if_neg h43', if_neg hne]
  unfold digits
  rw [ofDigits_chars _ _ hd, Nat.ofDigitChars_ten_toDigits]
  simp [n.isLt]

end Verif
