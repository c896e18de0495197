import Verif.Model.CsvSteps
import Verif.Spec.CsvSteps
import Verif.Proof.AnySets
import Verif.Proof.CsvFiles
import Verif.Proof.Loops

/-! Helpers about `CSVWriter::write` turn by turn. -/

namespace Verif

namespace CsvOut

theorem pushAll_append (a b : List Byte) : ∀ w : CsvOut,
    w.pushAll (a ++ b) = if (w.pushAll a).1 then (w.pushAll a).2.pushAll b else w.pushAll a := by
  induction a with
  | nil => intro w; simp [pushAll]
  | cons x a ih =>
    intro w
    by_cases h : (w.push x).1 = true
    · simp only [List.cons_append, pushAll, h, if_true]
      exact ih _
    · simp [List.cons_append, pushAll, h]

end CsvOut

namespace Csv

open Spec

variable {m k : Nat} {NL EL : Type}

/-- The bytes of some more records of a file. -/
def bytesOf (sep : Byte) (header : List (List Byte)) (started : Bool) (rs : List (List (List Byte))) : List Byte :=
  if started then rs.flatMap (writeRecord sep) else writeAll sep header rs

theorem bytesOf_cons (sep : Byte) (header : List (List Byte)) (b : Bool) (r : List (List Byte))
    (rs : List (List (List Byte))) :
    bytesOf sep header b (r :: rs) =
      ((if b then [] else writeRecord sep header) ++ writeRecord sep r) ++ bytesOf sep header true rs := by
  cases b <;> simp [bytesOf, writeAll]

/-- A loop over given items: the records before the first panic are pushed; the disk may be full before. -/
theorem eachNode_eq {X : Type} (sep : Byte) (header : List (List Byte)) (rec : X → Res (List (List Byte)))
    (r : X → List (List Byte)) : ∀ (l : List X) (f : OutFile), (∀ x ∈ beforePanic rec l, rec x = .ok (r x)) →
    ((eachNode (writeTurn sep header rec) f l).1.out =
        (f.out.pushAll (bytesOf sep header f.started ((beforePanic rec l).map r))).2) ∧
    (eachNode (writeTurn sep header rec) f l).2 =
      if (f.out.pushAll (bytesOf sep header f.started ((beforePanic rec l).map r))).1 then
        (firstPanic (l.map rec)).map .panic else some .failed := by
  intro l
  induction l with
  | nil =>
    intro f _
    cases h : f.started <;> simp [eachNode, beforePanic, bytesOf, writeAll, CsvOut.pushAll, firstPanic]
  | cons x l ih =>
    intro f hr
    simp only [beforePanic, List.map_cons] at hr ⊢
    cases hx : rec x with
    | error p =>
      have ht : writeTurn sep header rec f x = (f, some (.panic p)) := by unfold writeTurn; rw [hx]
      simp only [eachNode, ht]
      cases h : f.started <;> simp [bytesOf, writeAll, CsvOut.pushAll, firstPanic]
    | ok y =>
      simp only [hx, List.mem_cons, forall_eq_or_imp, Except.ok.injEq] at hr
      obtain ⟨rfl, hr⟩ := hr
      have ht : writeTurn sep header rec f x = f.put sep header (r x) := by unfold writeTurn; rw [hx]
      simp only [eachNode, ht, List.map_cons, bytesOf_cons, OutFile.put]
      generalize (if f.started = true then [] else writeRecord sep header) ++ writeRecord sep (r x) = B
      rw [CsvOut.pushAll_append]
      generalize f.out.pushAll B = q
      obtain ⟨ok, q⟩ := q
      cases ok with
      | false => simp
      | true =>
        have := ih ⟨q, true⟩ hr
        simpa [firstPanic] using this

theorem eachPair_trace {S : Type} (ev : EdgeVec m k) (d : Bool) (body : S → Id m × Id m → S × Option Stop) :
    ∀ F s it, eachPair ev d body F s it =
      match eachNode body s (EdgeIter.trace ev d F it).1 with
      | (s, some p) => (s, some p)
      | (s, none) => (s, (EdgeIter.trace ev d F it).2.map .panic) := by
  intro F
  induction F with
  | zero => intro s it; rfl
  | succ F ih =>
    intro s it
    unfold eachPair EdgeIter.trace
    cases EdgeIter.next ev d (F + 1) it with
    | error p => rfl
    | ok o =>
      cases o with
      | none => rfl
      | some q =>
        obtain ⟨e, it'⟩ := q
        simp only [eachNode]
        rcases body s e with ⟨s', _ | p⟩
        · exact ih s' it'
        · rfl

theorem firstPanic_bind {X Y Z : Type} (l : List X) (f : X → Res Y) (c : X → Y → Z) :
    firstPanic (l.map (fun x => (f x >>= fun y => pure (c x y) : Res Z))) = firstPanic (l.map f) := by
  induction l with
  | nil => rfl
  | cons x l ih =>
    simp only [List.map_cons]
    rcases f x with p | y
    · rfl
    · exact ih

theorem beforePanic_bind {X Y Z : Type} (l : List X) (f : X → Res Y) (c : X → Y → Z) :
    beforePanic (fun x => (f x >>= fun y => pure (c x y) : Res Z)) l = beforePanic f l := by
  induction l with
  | nil => rfl
  | cons x l ih =>
    simp only [beforePanic]
    rcases f x with p | y
    · rfl
    · exact congrArg _ ih

theorem before_ok {X Y : Type} (f : X → Res Y) (l : List X) : ∀ x ∈ beforePanic f l, ∃ y, f x = .ok y := by
  induction l with
  | nil => simp [beforePanic]
  | cons x l ih =>
    simp only [beforePanic]
    cases hx : f x with
    | error p => simp
    | ok y =>
      simp only [List.mem_cons, forall_eq_or_imp]
      exact ⟨⟨y, hx⟩, ih⟩

theorem before_prefix {X Y : Type} (f : X → Res Y) (l : List X) : beforePanic f l <+: l := by
  induction l with
  | nil => simp [beforePanic]
  | cons x l ih =>
    simp only [beforePanic]
    cases f x with
    | error p => simp
    | ok y => exact (List.prefix_cons_inj x).2 ih

theorem before_all {X Y : Type} {f : X → Res Y} {l : List X} (h : firstPanic (l.map f) = none) :
    beforePanic f l = l := by
  induction l with
  | nil => rfl
  | cons x l ih =>
    simp only [beforePanic]
    cases hx : f x with
    | error p => simp [firstPanic, hx] at h
    | ok y => simp only [List.map_cons, hx, firstPanic] at h; rw [ih h]

theorem panic_none_iff {X Y : Type} {f : X → Res Y} {l : List X} :
    firstPanic (l.map f) = none ↔ ∀ x ∈ l, ∃ y, f x = .ok y := by
  induction l with
  | nil => simp [firstPanic]
  | cons x l ih =>
    cases hx : f x with
    | error p => simp [firstPanic, hx]
    | ok y => simp [firstPanic, hx, ih]

theorem mapM_given {X Y Z : Type} (f : X → Res Y) (c : X → Y → Z) (y : X → Y) : ∀ l : List X, (∀ x ∈ l, f x = .ok (y x)) →
    l.mapM (fun x => (f x >>= fun v => pure (c x v) : Res Z)) = .ok (l.map (fun x => c x (y x))) := by
  intro l
  induction l with
  | nil => intro _; rfl
  | cons x l ih =>
    intro h
    rw [List.mapM_cons, h x (List.mem_cons_self ..), ih (fun z hz => h z (List.mem_cons_of_mem _ hz))]
    rfl

end Csv

end Verif
