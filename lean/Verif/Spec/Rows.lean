import Mathlib.Data.List.Forall2

/-!
# Specification vocabulary for selections of rows

A time series is a table: row `i` is the `i`-th sample with the `i`-th entry of every array.
-/

namespace Stingray.Spec

/-- `new` consists of the entries of `old` at the positions `idx`, in that order -/
def Rows {α : Type} (idx : List Nat) (old new : List α) : Prop :=
  List.Forall₂ (fun i x => old[i]? = some x) idx new

/-- the positions at which a boolean array is `True`, in increasing order -/
def truePositions (mask : List Bool) : List Nat :=
  (List.range mask.length).filter (fun i => mask[i]? == some true)

/-- where Python slicing clips a bound `x` of an array of length `n`: negative values count from
the end, and the result is limited to `[0, n]` -/
def clipBound (n : Nat) (x : Int) : Int :=
  max 0 (min n (if x < 0 then x + n else x))

end Stingray.Spec
