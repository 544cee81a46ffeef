import Verif.Model.Basic
import Mathlib.Algebra.Order.Field.Basic

/-!
# Sorted times: `stingray/utils.py` 407-463, 862-879 and `stingray/io.py` 673-680

Times are elements of an ordered field, NaNs are `none`. The function `np.argsort` is a parameter: which of two equal times comes first is not specified.
-/

namespace Stingray.Sorting

open Stingray

variable {K V : Type} [Field K] [LinearOrder K] [IsStrictOrderedRing K]

/-- `x > y` for floating point numbers: false with NaNs. -/
def greater : Option K → Option K → Bool
  | some x, some y => decide (y < x)
  | _, _ => false

/-- `y - x >= 0` for floating point numbers: false with NaNs. -/
def stepOk : Option K → Option K → Bool
  | some x, some y => decide (0 ≤ y - x)
  | _, _ => false

/-- The pairs of neighbours in an array. -/
def neighbours {T : Type} (a : List T) : List (T × T) := a.zip a.tail

/-- `_is_sorted_numba`, `stingray/utils.py` 441-463. -/
def sortedNumba (a : List (Option K)) : Bool := !((neighbours a).any fun p => greater p.1 p.2)

/-- `is_sorted`, lines 407-438, with numba or without it (`np.all(np.diff(array) >= 0)`). -/
def isSorted (numba : Bool) (a : List (Option K)) : Bool :=
  if a.length ≤ 1 then true
  else if !numba then (neighbours a).all fun p => stepOk p.1 p.2
  else sortedNumba a

/-- `is_sorted`, lines 407-438, for unsigned 64 bit integers: differences without numba wrap around and are never negative. -/
def isSortedUnsigned (numba : Bool) (a : List Nat) : Bool :=
  if a.length ≤ 1 then true
  else if !numba then (neighbours a).all fun p => decide ((0 : Int) ≤ ((p.2 : Int) - p.1) % 2 ^ 64)
  else !((neighbours a).any fun p => decide (p.2 < p.1))

/-- `value[order]`: an index beyond the end of the array raises. -/
def takeOrder {T : Type} (l : List T) (order : List Nat) : Except PyErr (List T) :=
  order.mapM fun k => match l[k]? with
    | some x => .ok x
    | none => .error .indexError

/-- `order_list_of_arrays`, lines 862-879, for a dictionary. -/
def orderColumns (cols : List (String × List V)) (order : List Nat) : Except PyErr (List (String × List V)) :=
  cols.mapM fun c => match takeOrder c.2 order with
    | .error e => .error e
    | .ok v => .ok (c.1, v)

/-- The sorting of events read from a file, `stingray/io.py` 672-680: the times and the other columns (the detector is one of them). -/
def sortEvents (argsort : List K → List Nat) (numba : Bool) (times : List K) (cols : List (String × List V)) : Except PyErr (List K × List (String × List V)) :=
  if isSorted numba (times.map some) then .ok (times, cols)
  else match takeOrder times (argsort times), orderColumns cols (argsort times) with
    | .ok t, .ok c => .ok (t, c)
    | .error e, _ => .error e
    | _, .error e => .error e

end Stingray.Sorting
