import Verif.Spec.Numbers
import Verif.Props.Csv

/-! Which fields are ids: C163. -/

namespace Verif.Props

open Verif Verif.Spec GraphMap Csv

variable {m k : Nat} {NL EL : Type} [DecidableEq NL] [DecidableEq EL]

theorem ofDigits_push (b acc : Nat) (ds : List Nat) (d : Nat) :
    acc * b ^ (ds.length + 1) + Nat.ofDigits b (d :: ds).reverse =
      (acc * b + d) * b ^ ds.length + Nat.ofDigits b ds.reverse := by
  rw [List.reverse_cons, Nat.ofDigits_append, List.length_reverse, Nat.ofDigits_singleton, Nat.pow_succ]
  ring

theorem ofDigits_iff : ∀ (cs : List Byte) (acc n : Nat), ofDigits acc cs = some n ↔
    ∃ ds, List.Forall₂ (IsDigit 10) cs ds ∧ n = acc * 10 ^ ds.length + Nat.ofDigits 10 ds.reverse := by
  intro cs
  induction cs with
  | nil =>
    intro acc n
    simp only [ofDigits, Option.some.injEq]
    constructor
    · rintro rfl; exact ⟨[], .nil, by simp⟩
    · rintro ⟨ds, h, rfl⟩; cases h; simp
  | cons c cs ih =>
    intro acc n
    rw [ofDigits]
    constructor
    · intro h
      split_ifs at h with hc
      obtain ⟨ds, h1, rfl⟩ := (ih _ _).1 h
      refine ⟨(c.val - 48) :: ds, .cons ⟨by omega, .inl ⟨by omega, by omega⟩⟩ h1, ?_⟩
      rw [List.length_cons, ofDigits_push]
    · rintro ⟨ds, h, rfl⟩
      cases h with
      | @cons _ d _ ds h1 h2 =>
        obtain ⟨a1, a2⟩ := h1
        have hd : c.val = 48 + d := by omega
        rw [if_pos (by omega), ih]
        refine ⟨ds, h2, ?_⟩
        rw [List.length_cons, ofDigits_push, show c.val - 48 = d by omega]

theorem hexValue_iff (c : Byte) (d : Nat) : hexValue c = some d ↔ IsDigit 16 c d := by
  unfold hexValue IsDigit
  split_ifs <;> simp only [Option.some.injEq, reduceCtorEq, false_iff] <;> omega

theorem ofHex_iff : ∀ (cs : List Byte) (acc n : Nat), ofHex acc cs = some n ↔
    ∃ ds, List.Forall₂ (IsDigit 16) cs ds ∧ n = acc * 16 ^ ds.length + Nat.ofDigits 16 ds.reverse := by
  intro cs
  induction cs with
  | nil =>
    intro acc n
    simp only [ofHex, Option.some.injEq]
    constructor
    · rintro rfl; exact ⟨[], .nil, by simp⟩
    · rintro ⟨ds, h, rfl⟩; cases h; simp
  | cons c cs ih =>
    intro acc n
    rw [ofHex, Option.bind_eq_some_iff]
    constructor
    · rintro ⟨d, hd, h⟩
      obtain ⟨ds, h1, rfl⟩ := (ih _ _).1 h
      refine ⟨d :: ds, .cons ((hexValue_iff c d).1 hd) h1, ?_⟩
      rw [List.length_cons, ofDigits_push]
    · rintro ⟨ds, h, rfl⟩
      cases h with
      | @cons _ d _ ds h1 h2 =>
        refine ⟨d, (hexValue_iff c d).2 h1, (ih _ _).2 ⟨ds, h2, ?_⟩⟩
        rw [List.length_cons, ofDigits_push]

theorem not_plus {b : Nat} {d : Nat} (h : IsDigit b 43 d) : False := by
  obtain ⟨-, h⟩ := h
  have : (43 : Byte).val = 43 := rfl
  omega

/-- Both readers strip one `+`, want a digit, and then a value in range. -/
theorem strip_iff {b : Nat} {conv : List Byte → Option Nat}
    (hconv : ∀ cs n, conv cs = some n ↔ ∃ ds, List.Forall₂ (IsDigit b) cs ds ∧ n = Nat.ofDigits b ds.reverse)
    (f : List Byte) (n : Id m) :
    (if (if f.head? = some 43 then f.tail else f) = [] then none
      else (conv (if f.head? = some 43 then f.tail else f)).bind
        (fun n => if h : n < m + 1 then some (⟨n, h⟩ : Id m) else none)) = some n ↔ Numeral b f n.val := by
  have main : ∀ cs : List Byte, (if cs = [] then none else (conv cs).bind
        (fun n => if h : n < m + 1 then some (⟨n, h⟩ : Id m) else none)) = some n ↔
      ∃ ds, ds ≠ [] ∧ List.Forall₂ (IsDigit b) cs ds ∧ n.val = Nat.ofDigits b ds.reverse := by
    intro cs
    constructor
    · intro h
      split_ifs at h with h0
      obtain ⟨v, hv, h⟩ := Option.bind_eq_some_iff.1 h
      split_ifs at h with hlt
      obtain rfl := Option.some.inj h
      obtain ⟨ds, h1, h2⟩ := (hconv cs v).1 hv
      refine ⟨ds, ?_, h1, h2⟩
      rintro rfl
      cases h1; exact h0 rfl
    · rintro ⟨ds, h0, h1, h2⟩
      have : cs ≠ [] := by rintro rfl; cases h1; exact h0 rfl
      rw [if_neg this, (hconv cs n.val).2 ⟨ds, h1, h2⟩]
      simp [n.isLt]
  rw [main]
  unfold Numeral
  constructor
  · rintro ⟨ds, h0, h1, h2⟩
    split_ifs at h1 with hp
    · obtain ⟨r, rfl⟩ := List.head?_eq_some_iff.1 hp
      exact ⟨r, ds, .inr rfl, h0, h1, h2⟩
    · exact ⟨f, ds, .inl rfl, h0, h1, h2⟩
  · rintro ⟨cs, ds, hf, h0, h1, h2⟩
    refine ⟨ds, h0, ?_, h2⟩
    rcases hf with rfl | rfl
    · rw [if_neg]
      · exact h1
      · intro hp
        obtain ⟨r, rfl⟩ := List.head?_eq_some_iff.1 hp
        cases h1 with
        | cons a _ => exact not_plus a
    · rw [if_pos List.head?_cons]; exact h1

/-- **C163.** A field is read as an id exactly if it is a decimal number not above the largest id: one digit or more,
with any zeros in front, perhaps after a `+`. -/
theorem c163_decimal (f : List Byte) (n : Id m) : (Field.decimal m).parse f = some n ↔ Numeral 10 f n.val := by
  apply strip_iff
  intro cs v
  rw [ofDigits_iff]
  simp

theorem not_hex_decimal {g : List Byte} {n : Nat} (h : Numeral 10 (48 :: 120 :: g) n) : False := by
  obtain ⟨cs, ds, hf, -, h1, -⟩ := h
  rcases hf with rfl | hf
  · cases h1 with
    | cons _ h2 => cases h2 with
      | cons a _ =>
        obtain ⟨h3, h4⟩ := a
        have : (120 : Byte).val = 120 := rfl
        omega
  · cases hf

theorem hex_take (f : List Byte) : f.take 2 = ascii "0x" ↔ HexField f := by
  have : ascii "0x" = [48, 120] := by decide
  rw [this]
  unfold HexField
  match f with
  | [] => simp
  | [a] => simp
  | a :: b :: g => simp

/-- **C163.** With a csv crate that knows hexadecimal numbers: exactly if it is such a decimal number, or `0x` followed
by such a number in hexadecimal digits of either case. -/
theorem c163_number (f : List Byte) (n : Id m) : (Field.number m).parse f = some n ↔
    Numeral 10 f n.val ∨ ∃ g, f = 48 :: 120 :: g ∧ Numeral 16 g n.val := by
  simp only [Field.number]
  by_cases hf : HexField f
  · rw [if_pos ((hex_take f).2 hf)]
    obtain ⟨g, rfl⟩ := hf
    have := strip_iff (m := m) (b := 16) (conv := ofHex 0) (by intro cs v; rw [ofHex_iff]; simp) g n
    rw [show List.drop 2 (48 :: 120 :: g) = g from rfl, this]
    constructor
    · intro h; exact .inr ⟨g, rfl, h⟩
    · rintro (h | ⟨g', e, h⟩)
      · exact (not_hex_decimal h).elim
      · cases e; exact h
  · rw [if_neg (fun h => hf ((hex_take f).1 h)), c163_decimal]
    constructor
    · exact .inl
    · rintro (h | ⟨g, rfl, -⟩)
      · exact h
      · exact (hf ⟨g, rfl⟩).elim

/-- **C163.** So every id read by an older version is read by a newer one, as the same; and only fields with `0x` in
front make a difference. -/
theorem c163_extends (f : List Byte) : (¬ HexField f → (Field.number m).parse f = (Field.decimal m).parse f) ∧
    (HexField f → (Field.decimal m).parse f = none) := by
  constructor
  · intro h; simp only [Field.number]; rw [if_neg (fun h' => h ((hex_take f).1 h'))]
  · rintro ⟨g, rfl⟩
    cases hp : (Field.decimal m).parse (48 :: 120 :: g) with
    | none => rfl
    | some n => exact (not_hex_decimal ((c163_decimal _ n).1 hp)).elim

theorem number_round (n : Id m) : (Field.number m).parse ((Field.number m).shown n) = some n :=
  (c163_number _ n).2 (.inl ((c163_decimal _ n).1 (decimal_round m n)))

/-- The readers of the two versions on the same columns. -/
theorem node_agree {L : Type} (lf : Field L) : ∀ (hs fs : List (List Byte)) (id : Option (Id m)) (l : Option (Option L)),
    (∀ f ∈ fs, ¬ HexField f) →
    Csv.nodeMap (.number m) lf hs fs id l = Csv.nodeMap (.decimal m) lf hs fs id l := by
  intro hs
  induction hs with
  | nil => intro fs id l _; rfl
  | cons h hs ih =>
    intro fs id l hf
    unfold Csv.nodeMap
    split_ifs with h1 h2 h3 h4
    · rfl
    · cases fs with
      | nil => rfl
      | cons f fs =>
        simp only
        rw [(c163_extends f).1 (hf f (by simp))]
        cases (Field.decimal m).parse f with
        | none => rfl
        | some i => exact ih fs (some i) l (fun x hx => hf x (by simp [hx]))
    · rfl
    · refine ih _ _ _ ?_
      intro x hx
      cases fs with
      | nil => simp [optField] at hx
      | cons f fs => exact hf x (by simp [optField] at hx; simp [hx])
    · rfl

theorem edge_agree {L : Type} (lf : Field L) : ∀ (hs fs : List (List Byte)) (s t : Option (Id m))
    (l : Option (Option L)), (∀ f ∈ fs, ¬ HexField f) →
    Csv.edgeMap (.number m) lf hs fs s t l = Csv.edgeMap (.decimal m) lf hs fs s t l := by
  intro hs
  induction hs with
  | nil => intro fs s t l _; rfl
  | cons h hs ih =>
    intro fs s t l hf
    unfold Csv.edgeMap
    split_ifs with h1 h2 h3 h4 h5 h6
    · rfl
    · cases fs with
      | nil => rfl
      | cons f fs =>
        simp only
        rw [(c163_extends f).1 (hf f (by simp))]
        cases (Field.decimal m).parse f with
        | none => rfl
        | some i => exact ih fs (some i) t l (fun x hx => hf x (by simp [hx]))
    · rfl
    · cases fs with
      | nil => rfl
      | cons f fs =>
        simp only
        rw [(c163_extends f).1 (hf f (by simp))]
        cases (Field.decimal m).parse f with
        | none => rfl
        | some i => exact ih fs s (some i) l (fun x hx => hf x (by simp [hx]))
    · rfl
    · refine ih _ _ _ _ ?_
      intro x hx
      cases fs with
      | nil => simp [optField] at hx
      | cons f fs => exact hf x (by simp [optField] at hx; simp [hx])
    · rfl

theorem rows_mem {c : Settings} {bs : List Byte} {r : List (List Byte)} (h : r ∈ (Csv.rows c bs).2) :
    r ∈ Csv.parse c.separator bs := by
  unfold Csv.rows at h
  cases hp : Csv.parse c.separator bs with
  | nil => rw [hp] at h; cases h
  | cons a l =>
    rw [hp] at h
    simp only at h
    split_ifs at h
    · exact List.mem_cons_of_mem _ (List.mem_filter.1 h).1
    · exact (List.mem_filter.1 h).1

/-- **C163.** Files in which no field begins with `0x` are read alike by both. -/
theorem c163_same_files {L : Type} (c : Settings) (lf : Field L) (bs : List Byte)
    (h : ∀ r ∈ Csv.parse c.separator bs, ∀ f ∈ r, ¬ HexField f) :
    Csv.nodeIter c (.number m) lf bs = Csv.nodeIter c (.decimal m) lf bs ∧
    Csv.edgeIter c (.number m) lf bs = Csv.edgeIter c (.decimal m) lf bs := by
  constructor
  · unfold Csv.nodeIter
    apply List.filterMap_congr
    intro r hr
    have hr := h r (rows_mem hr)
    split_ifs
    · exact node_agree lf _ r _ _ hr
    · cases r with
      | nil => rfl
      | cons f fs => simp only [Csv.nodeSeq]; rw [(c163_extends f).1 (hr f (by simp))]
  · unfold Csv.edgeIter
    apply List.filterMap_congr
    intro r hr
    have hr := h r (rows_mem hr)
    split_ifs
    · exact edge_agree lf _ r _ _ _ hr
    · match r with
      | [] => rfl
      | [f] => rfl
      | f :: g :: fs =>
        simp only [Csv.edgeSeq]
        rw [(c163_extends f).1 (hr f (by simp)), (c163_extends g).1 (hr g (by simp))]

/-- **C163.** Both write the same files, and what was written is read back (C51) with either. -/
theorem c163_round_trip {g : GView m k NL EL} {A : AGraph (Id m) NL EL} (S : Shows g A) {c : Settings}
    (hs : SeparatorOk c.separator) (hh : c.hasHeaders = true) {nf : Field NL} {ef : Field EL}
    (hn : ∀ n x, A.node n = some (some x) → nf.shown x ≠ [] ∧ nf.parse (nf.shown x) = some x)
    (he : ∀ s t x, A.edge s t = some (some x) → ef.shown x ≠ [] ∧ ef.parse (ef.shown x) = some x) :
    Csv.write c.separator (.number m) nf ef g = Csv.write c.separator (.decimal m) nf ef g ∧
    ∃ (nb eb : List Byte) (g' : GraphMap m k NL EL), Csv.write c.separator (.number m) nf ef g = .ok (nb, eb) ∧
      Csv.read c (.number m) nf ef (some nb) eb (new g.directed) = .ok g' ∧ Reachable g' ∧
      g'.directed = g.directed ∧ Shows g'.view A ∧ g'.edgeCount = g.edgeIndices.length :=
  ⟨rfl, c51_round_trip S hs hh (fun n _ => number_round n) hn he⟩

/-- The fields of some texts. -/
example : (Field.decimal 255).parse (ascii "+007") = some 7 ∧ (Field.decimal 255).parse (ascii "256") = none ∧
    (Field.decimal 255).parse (ascii "") = none ∧ (Field.decimal 255).parse (ascii "+") = none ∧
    (Field.decimal 255).parse (ascii "++7") = none ∧ (Field.decimal 255).parse (ascii " 7") = none ∧
    (Field.decimal 255).parse (ascii "0xfF") = none ∧ (Field.number 255).parse (ascii "0xfF") = some 255 ∧
    (Field.number 255).parse (ascii "0x+1f") = some 31 ∧ (Field.number 255).parse (ascii "0x") = none ∧
    (Field.number 255).parse (ascii "0x100") = none ∧ (Field.number 255).parse (ascii "0X1") = none ∧
    (Field.number 255).parse (ascii "10") = some 10 := by decide

end Verif.Props
