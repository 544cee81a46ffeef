import Mathlib.Order.Lattice
import Mathlib.Order.Defs.LinearOrder
import Mathlib.Data.List.Sort

/-!
# Shared vocabulary of the model

Python exceptions are modelled as values, and NumPy primitives used throughout stingray
are modelled here by their documented behaviour.
-/

namespace Stingray

/-- Python exception classes raised by the modelled code. -/
inductive PyErr where
  | valueError
  | typeError
  | indexError
  | keyError
  | attributeError
  | assertionError
  | zeroDivisionError
  | stingrayError
  | nameError
  | runtimeError
  | incorrectParameterError
  | priorUndefinedError
  deriving DecidableEq, Repr

variable {K : Type} [LinearOrder K]

/-- `numpy.argsort` followed by fancy indexing of a group of parallel arrays (used in
`stingray/gti.py` 691-695, 1079-1080, 1153-1155).  NumPy's default sort is *not* stable, so
the model takes an arbitrary re-ordering that is a permutation and is sorted by the key: every
theorem quantifies over every such sort. -/
structure KeySort {α : Type} (key : α → K) where
  /-- the re-ordered group of arrays -/
  sort : List α → List α
  /-- it is a permutation of the input -/
  perm : ∀ l, (sort l).Perm l
  /-- keys are in non-decreasing order -/
  sorted : ∀ l, (sort l).Pairwise (fun a b => key a ≤ key b)

/-- A stable (insertion) sort is one such sort; it makes the model executable. -/
def stableSort {α : Type} (key : α → K) : KeySort key where
  sort l := l.insertionSort (fun a b => key a ≤ key b)
  perm l := List.perm_insertionSort _ l
  sorted l :=
    haveI : Std.Total (fun a b : α => key a ≤ key b) := ⟨fun a b => le_total (key a) (key b)⟩
    haveI : IsTrans α (fun a b => key a ≤ key b) := ⟨fun _ _ _ h1 h2 => le_trans h1 h2⟩
    List.pairwise_insertionSort _ l

/-- `numpy.argmax` of a one-dimensional array: the first index of the maximum.  NumPy raises
`ValueError` on an empty array, modelled by `none`. -/
def argmax? : List K → Option Nat
  | [] => none
  | x :: xs =>
    match argmax? xs with
    | none => some 0
    | some i => if xs.getD i x ≤ x then some 0 else some (i + 1)

/-- `numpy.searchsorted(a, v, side="left")` for a sorted array: the number of entries
strictly smaller than `v`.  (NumPy's result is only specified for sorted arrays.) -/
def searchsortedLeft (a : List K) (v : K) : Nat := (a.filter (fun x => decide (x < v))).length

/-- `numpy.searchsorted(a, v, side="right")` for a sorted array. -/
def searchsortedRight (a : List K) (v : K) : Nat := (a.filter (fun x => decide (x ≤ v))).length

end Stingray
