import Verif.Model.Basic
import Mathlib.Analysis.SpecialFunctions.Trigonometric.Basic
import Mathlib.Algebra.Order.Floor.Semiring

/-!
# Window functions, excess variance, standard errors and energy ranges: `stingray/utils.py` 1168-1406 and 2281-2334
-/

namespace Stingray.UtilsStats

open Stingray

/-- The window types of `create_window`, `stingray/utils.py` 1249-1258. -/
inductive Window where
  | uniform | parzen | hamming | hanning | triangular | welch | blackmann | flatTop
deriving DecidableEq

/-- The names, in lower case (`window_type.lower()`, line 1263). -/
def windowOf (name : String) : Option Window :=
  match name.toLower with
  | "uniform" => some .uniform
  | "parzen" => some .parzen
  | "hamming" => some .hamming
  | "hanning" => some .hanning
  | "triangular" => some .triangular
  | "welch" => some .welch
  | "blackmann" => some .blackmann
  | "flat-top" => some .flatTop
  | _ => none

/-- The first half (from the middle) of a Parzen window, `stingray/utils.py` 1286-1293; `np` is `N_parzen`, and is more than 1. -/
noncomputable def parzenHalf (np : Nat) (i : Nat) : ℝ :=
  let x : ℝ := (i : ℝ) / ((np : ℝ) - 1)
  if i < np / 2 + 1 then 1 - (1 - x) * x * x * 6 else (1 - x) * (1 - x) * (1 - x) * 2

/-- `create_window` for a length `n > 1`, `stingray/utils.py` 1277-1331: the value at sample `i`. -/
noncomputable def windowValue (w : Window) (n : Nat) (i : Nat) : ℝ :=
  let cosk (k : ℝ) : ℝ := Real.cos (k * Real.pi * (i : ℝ) / ((n : ℝ) - 1))
  match w with
  | .uniform => 1
  | .parzen =>
    -- `np.concatenate((window[lagindex], window))[:N]`, with `lagindex` from `N_parzen - 1` down to 1
    let np := (n + 2) / 2
    if i < np - 1 then parzenHalf np (np - 1 - i) else parzenHalf np (i - (np - 1))
  | .hamming => 54 / 100 - 46 / 100 * cosk 2
  | .hanning => 1 / 2 * (1 - cosk 2)
  | .triangular => 1 - |((i : ℝ) - (((n - 1) / 2 : Nat) : ℝ)) / (n : ℝ)|
  | .welch => 1 - (((i : ℝ) - ((n : ℝ) - 1) / 2) / (((n : ℝ) - 1) / 2)) ^ 2
  | .blackmann => 42659 / 100000 - 49656 / 100000 * cosk 2 + 76849 / 1000000 * cosk 4
  | .flatTop => 1 - 193 / 100 * cosk 2 + 129 / 100 * cosk 4 - 388 / 1000 * cosk 6 + 28 / 1000 * cosk 8

/-- `create_window(N, window_type)`, `stingray/utils.py` 1246-1333, for an integer `N` and a string. For one sample all but the uniform and triangular windows divide zero by zero. -/
noncomputable def createWindow (N : Int) (name : String) : Except PyErr (List (Option ℝ)) :=
  match windowOf name with
  | none => .error .valueError
  | some w =>
    if N = 0 then .ok []
    else
      let n := N.natAbs
      if n = 1 ∧ w ≠ .uniform ∧ w ≠ .triangular then .ok [none]
      else .ok ((List.range n).map fun i => some (windowValue w n i))

section

variable {K : Type} [Field K] [LinearOrder K]

/-- `np.mean`, for a list that is not empty. -/
def mean (l : List K) : K := l.sum / (l.length : K)

/-- A quotient in numpy: no (finite) value when the denominator is zero. -/
def quot (a b : K) : Option K := if b = 0 then none else some (a / b)

/-- `np.sqrt`: no value for negative numbers. -/
def root (sqrt : K → K) (x : K) : Option K := if x < 0 then none else some (sqrt x)

/-- The normalisations of `excess_variance`, `stingray/utils.py` 1217-1222. -/
inductive XsNorm where
  | fvar | normXs | none | other

/-- `excess_variance(lc, normalization)`, `stingray/utils.py` 1201-1222, for counts with a mean that is not zero and their errors: value and error. For any other normalisation the function ends without a value. -/
def excessVariance (sqrt : K → K) (counts errs : List K) (norm : XsNorm) : Option (Option K × Option K) :=
  let meanVar := mean (errs.map fun e => e ^ 2)
  let m := mean counts
  let varXs := mean (counts.map fun x => (x - m) ^ 2) - meanVar
  let varNxs := varXs / m ^ 2
  let fvar := root sqrt varNxs
  let n : K := (counts.length : K)
  let errA := sqrt (2 / n) * meanVar / m ^ 2
  let errB := fvar.map fun f => sqrt (meanVar / n) * 2 * f / m
  let nxsErr := errB.bind fun b => root sqrt (errA ^ 2 + b ^ 2)
  let fvarErr := nxsErr.bind fun e => fvar.bind fun f => quot e (2 * f)
  match norm with
  | .fvar => some (fvar, fvarErr)
  | .normXs => some (some varNxs, nxsErr)
  | .none => some (some varXs, nxsErr.map fun e => e * m ^ 2)
  | .other => none

/-- `standard_error(xs, mean)`, `stingray/utils.py` 1402-1406, at one position of the spectra. -/
def standardError (sqrt : K → K) (xs : List K) (mean : K) : Option K :=
  (quot ((xs.map fun x => (x - mean) ^ 2).sum) ((xs.length : K) - 1)).bind fun s => root sqrt (s / (xs.length : K))

/-- `np.percentile(a, 100 * q)` with the default (linear) method, for a sorted array: the value at position `q * (len(a) - 1)`, interpolated between the elements on both sides; no value for an empty array. -/
def percentile [FloorRing K] (sorted : List K) (q : K) : Option K :=
  let pos := q * ((sorted.length : K) - 1)
  let j := ⌊pos⌋.toNat
  match sorted[j]? with
  | none => none
  | some a => match sorted[j + 1]? with
    | none => some a
    | some b => some (a + (b - a) * (pos - (⌊pos⌋ : K)))

/-- `a.min()` and `a.max()`: an error for an empty array. -/
def extremum (f : K → K → K) (a : List K) : Except PyErr K :=
  match a with
  | [] => .error .valueError
  | x :: l => .ok (l.foldl f x)

/-- A limit: the one given, or the one of the data, `stingray/utils.py` 2318-2322. -/
def limitOr (f : K → K → K) (given : Option K) (a : List K) : Except PyErr K :=
  match given with
  | some v => .ok v
  | none => extremum f a

/-- `equal_count_energy_ranges(energies, n_ranges, emin, emax)`, `stingray/utils.py` 2314-2334. `np.linspace(0, 100, n + 1)[1:-1]` are the multiples of `100 / n`. -/
def equalCountRanges [FloorRing K] (sort : KeySort (fun (x : K) => x)) (energies : List K) (nRanges : Int) (emin emax : Option K) : Except PyErr (List (Option K)) :=
  match limitOr min emin energies, limitOr max emax energies with
  | .ok lo, .ok hi =>
    let kept := if emin.isSome || emax.isSome then energies.filter fun e => decide (lo ≤ e) && decide (e ≤ hi) else energies
    if nRanges > 1 then
      .ok (some lo :: ((List.range (nRanges.toNat - 1)).map fun (k : Nat) => percentile (sort.sort kept) (((k : K) + 1) / (nRanges.toNat : K))) ++ [some hi])
    else .ok [some lo, some hi]
  | .error e, _ => .error e
  | _, .error e => .error e

end

end Stingray.UtilsStats
