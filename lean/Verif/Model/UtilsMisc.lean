import Verif.Model.Basic
import Mathlib.Data.List.Sort
import Mathlib.Data.Nat.Size
import Mathlib.Algebra.Order.AbsoluteValue.Basic

/-!
# Model of small helpers of `stingray/utils.py`: `nearest_power_of_two`, `find_nearest`, and the
column splitting `make_nd_into_arrays` / `make_1d_arrays_into_nd`.
-/

namespace Stingray.UtilsMisc

/-- `int.bit_length` of Python: number of binary digits of the absolute value. -/
def bitLength (x : Int) : Nat := Nat.size x.natAbs

/-- `nearest_power_of_two`, `stingray/utils.py` 1409-1427 (`x` already an integer). -/
def nearestPowerOfTwo (x : Int) : Int :=
  let lower : Int := if x = 0 then 1 else 2 ^ bitLength (x - 2)
  let upper : Int := if x = 0 then 1 else 2 ^ bitLength (x - 1)
  if x - lower < upper - x then lower else upper

variable {K : Type} [Field K] [LinearOrder K]

/-- `side` of `np.searchsorted`. -/
inductive Side where
  | left | right
  deriving DecidableEq

/-- `np.searchsorted(array, value, side)`. -/
def searchsorted (side : Side) (array : List K) (value : K) : Nat :=
  match side with
  | .left => searchsortedLeft array value
  | .right => searchsortedRight array value

/-- `array[idx]` for a Python index that may be `-1`. -/
def pyGet (array : List K) (i : Int) : Except PyErr K :=
  let j : Int := if i < 0 then i + array.length else i
  if 0 ≤ j then
    match array[j.toNat]? with
    | some v => .ok v
    | none => .error .indexError
  else .error .indexError

/-- `find_nearest`, `stingray/utils.py` 1430-1462. -/
def findNearest (array : List K) (value : K) (side : Side) : Except PyErr (K × Int) := do
  let idx := searchsorted side array value
  if idx = array.length then
    let v ← pyGet array ((idx : Int) - 1)
    return (v, (idx : Int) - 1)
  else
    let p ← pyGet array ((idx : Int) - 1)
    let q ← pyGet array idx
    if |value - p| < |value - q| then return (p, (idx : Int) - 1) else return (q, idx)

/-! ### Columns of two-dimensional arrays

A two-dimensional array with `n` columns is a list of rows of length `n`.  Column names all share the
prefix `label + "_dim"`, so a name is represented by the character codes of the number after it. -/

/-- Character codes of `f"{i}"`. -/
def colKey (i : Nat) : List Nat := (Nat.toDigits 10 i).map Char.toNat

/-- Python's order of strings: lexicographic by character code. -/
def lexLe : List Nat → List Nat → Bool
  | [], _ => true
  | _ :: _, [] => false
  | a :: as, b :: bs => decide (a < b) || (decide (a = b) && lexLe as bs)

/-- `make_nd_into_arrays` on a two-dimensional array with `n` columns, `stingray/utils.py` 242-283:
a dictionary (insertion ordered) from column name to column. -/
def splitColumns {α : Type} [Inhabited α] (n : Nat) (a : List (List α)) : List (List Nat × List α) :=
  (List.range n).map fun i => (colKey i, a.map fun row => row.getD i default)

/-- `data[key]`. -/
def colGet {α : Type} (data : List (List Nat × List α)) (k : List Nat) : Except PyErr (List α) :=
  match data.lookup k with
  | some c => .ok c
  | none => .error .keyError

/-- `make_1d_arrays_into_nd` on a dictionary made of such columns, `stingray/utils.py` 286-361: the keys
are put in `sorted` order (line 312), the columns looked up and stacked, then transposed.
No key at all: `None + 1` is a `TypeError`. -/
def joinColumns {α : Type} [Inhabited α] (data : List (List Nat × List α)) :
    Except PyErr (List (List α)) := do
  if data.isEmpty then throw .typeError
  let keys := (data.map Prod.fst).insertionSort (fun a b => lexLe a b = true)
  let arrays ← keys.mapM (colGet data)
  let rows := (arrays.headD []).length
  return (List.range rows).map fun r => arrays.map fun c => c.getD r default

end Stingray.UtilsMisc
