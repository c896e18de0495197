import Mathlib.Order.Defs.LinearOrder

/-!
The standard collections the code uses, as lists.

* `BTreeMap` — association list with strictly increasing keys (`binsert` keeps it sorted).
* `BTreeSet` — strictly increasing list (`sinsert`).
* `HashMap`  — association list with distinct keys; the list order stands for the (unspecified)
  iteration order.
-/

namespace Verif

namespace AL

variable {K V : Type}

/-- `HashMap::get`, `BTreeMap::get`. -/
def get [DecidableEq K] : List (K × V) → K → Option V
  | [], _ => none
  | (a, v) :: l, k => if a = k then some v else get l k

/-- `keys()` in iteration order. -/
def keys (l : List (K × V)) : List K := l.map Prod.fst

/-- `values()` in iteration order. -/
def values (l : List (K × V)) : List V := l.map Prod.snd

/-- `remove`, keeping the order of the other entries. -/
def erase [DecidableEq K] (l : List (K × V)) (k : K) : List (K × V) :=
  l.filter (fun p => ¬ p.1 = k)

/-- Writing through `get_mut`: replaces the value of a present key in place. -/
def set [DecidableEq K] (l : List (K × V)) (k : K) (v : V) : List (K × V) :=
  l.map (fun p => if p.1 = k then (p.1, v) else p)

/-- `HashMap::insert`: overwrite a present key, otherwise add an entry. -/
def hinsert [DecidableEq K] (l : List (K × V)) (k : K) (v : V) : List (K × V) :=
  if (get l k).isSome then set l k v else l ++ [(k, v)]

/-- `BTreeMap::insert`: sorted insertion, overwriting a present key. -/
def binsert [LinearOrder K] : List (K × V) → K → V → List (K × V)
  | [], k, v => [(k, v)]
  | (a, w) :: l, k, v =>
    if k < a then (k, v) :: (a, w) :: l
    else if k = a then (k, v) :: l
    else (a, w) :: binsert l k v

end AL

namespace BSet

variable {K : Type} [LinearOrder K]

/-- `BTreeSet::insert`. -/
def sinsert : List K → K → List K
  | [], k => [k]
  | a :: l, k => if k < a then k :: a :: l else if k = a then a :: l else a :: sinsert l k

/-- `BTreeSet::remove`. -/
def erase (l : List K) (k : K) : List K := l.filter (fun a => ¬ a = k)

/-- `BTreeSet::contains`. -/
def contains (l : List K) (k : K) : Bool := decide (k ∈ l)

end BSet

end Verif
