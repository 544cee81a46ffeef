import Verif.Model.Fourier
import Mathlib.Analysis.SpecialFunctions.Exp
import Mathlib.Analysis.SpecialFunctions.Sqrt

/-!
Model of the p-values of cospectra, `stingray/crossspectrum.py` 326-449, and of the significances of cross spectra, `stingray/crossspectrum.py` 1144-1214.

Not modelled: arrays of powers in one call of `cospectra_pvalue` (each element is treated as a single one, except for the type of the array), infinities and NaNs, rounding.
-/

namespace Stingray.Cospectra

open Stingray

/-- The number of averaged spectra: a Python integer or a float. -/
inductive NSpec where
  | int (n : Int)
  | float (x : ℝ)

/-- A power: whether it is an integer (a Python integer or an element of an integer array), and its value. -/
structure Power where
  isInt : Bool
  val : ℝ

/-- One term of the sum in `_averaged_cospectra_cdf`, `stingray/crossspectrum.py` 350-367. `ginc k y` is `scipy.special.gammaincc`, the regularised upper incomplete gamma function; `factorial` and `gamma` of integers are factorials. -/
noncomputable def cdfTerm (ginc : Nat → ℝ → ℝ) (x : ℝ) (n j : Nat) : ℝ :=
  let prefac := ((n - 1 + j).factorial : ℝ) / (((n - 1).factorial : ℝ) * (((n - 1 - j).factorial : ℝ) * (j.factorial : ℝ)) * 2 ^ (n + j))
  let gf := n - j
  let first : ℝ := ((gf - 1).factorial : ℝ)
  let fac := if 0 ≤ x then 2 * first - ginc gf (n * x) * first else ginc gf (-n * x) * first
  prefac * fac

/-- The sum in `_averaged_cospectra_cdf`, `stingray/crossspectrum.py` 344-371: the array of results has the type of the powers (line 347), so that integer powers have each partial sum truncated to an integer. -/
noncomputable def cdf (ginc : Nat → ℝ → ℝ) (p : Power) (n : Nat) : ℝ :=
  (List.range n).foldl (fun c j => if p.isInt then (⌊c + cdfTerm ginc p.val n j⌋ : ℝ) else c + cdfTerm ginc p.val n j) 0

/-- The survival function of the Laplace distribution with location 0 and scale 1 (`scipy.stats.laplace`). -/
noncomputable def laplaceSf (x : ℝ) : ℝ := if 0 ≤ x then Real.exp (-x) / 2 else 1 - Real.exp x / 2

/-- `cospectra_pvalue` for an integer number of spectra, `stingray/crossspectrum.py` 434-449. `normSf` is the survival function of the normal distribution with mean 0 and variance 1. -/
noncomputable def pvalueInt (ginc : Nat → ℝ → ℝ) (normSf : ℝ → ℝ) (p : Power) (n : Int) : Except PyErr ℝ :=
  if n < 1 then .error .valueError
  else if n = 1 then .ok (laplaceSf p.val)
  else if n > 50 then .ok (normSf (p.val / (Real.sqrt 2 / Real.sqrt n)))
  else .ok (1 - cdf ginc p n.toNat)

/-- `cospectra_pvalue`, `stingray/crossspectrum.py` 374-449. With a float as the number of spectra, `range` raises a `TypeError` (line 351). -/
noncomputable def cospectraPvalue (ginc : Nat → ℝ → ℝ) (normSf : ℝ → ℝ) (p : Power) (nspec : NSpec) : Except PyErr ℝ :=
  match nspec with
  | .int n => pvalueInt ginc normSf p n
  | .float x =>
    if Int.fract x > 1 / 10 ^ 8 then .error .valueError
    else if x < 1 then .error .valueError
    else if x = 1 then .ok (laplaceSf p.val)
    else if x > 50 then .ok (normSf (p.val / (Real.sqrt 2 / Real.sqrt x)))
    else .error .typeError

/-- `Crossspectrum.classical_significances`, `stingray/crossspectrum.py` 1144-1214: `m` has the number of averaged powers at each frequency (lines 1196-1201: the same for all, or an array). -/
noncomputable def classicalSignificances (ginc : Nat → ℝ → ℝ) (normSf : ℝ → ℝ) (leahy : Bool) (power : List Power) (m : List NSpec) (threshold : ℝ) (correct : Bool) :
    Except PyErr (List (ℝ × Nat)) :=
  if !leahy then .error .valueError
  else
    ((power.zip m).mapM fun x => cospectraPvalue ginc normSf x.1 x.2).map fun pv =>
      let thr := if correct then threshold / power.length else threshold
      pv.zipIdx.filter fun x => decide (x.1 < thr)

end Stingray.Cospectra
