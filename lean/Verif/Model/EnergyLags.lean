import Verif.Model.CrossErrors
import Mathlib.Analysis.SpecialFunctions.Complex.Arg

/-!
# Lags and covariances of one energy band: `stingray/varenergyspectrum.py` 854-935, 1033-1122

What `LagSpectrum` and `ComplexCovarianceSpectrum` compute from the averaged cross spectrum of a band with the reference band. Over the reals; NaN is `none`.
-/

namespace Stingray.EnergyLags

open Stingray

noncomputable section

open Classical in
/-- `_get_good_frequency_bins`, `stingray/varenergyspectrum.py` 332-351: the powers at the frequencies in the interval. -/
def good (f0 f1 : ℝ) (spec : List (ℝ × ℂ)) : List (ℝ × ℂ) := spec.filter fun p => decide (f0 ≤ p.1) && decide (p.1 < f1)

/-- `np.mean(cross[good])`: NaN without a bin. -/
def meanCross (g : List (ℝ × ℂ)) : Option ℂ := if g.length = 0 then none else some ((g.map Prod.snd).sum / g.length)

open Classical in
/-- `fmean`, `stingray/varenergyspectrum.py` 929-930. -/
def meanFrequency (g : List (ℝ × ℂ)) : Option ℝ :=
  let w := (g.map fun p => ‖p.2‖).sum
  if w = 0 then none else some ((g.map fun p => p.1 * ‖p.2‖).sum / w)

open Classical in
/-- The lag and its error, `stingray/varenergyspectrum.py` 908, 928-935; `phaseErr` is the error of the phase. The frequencies of a spectrum are positive. -/
def lagOf (f0 f1 : ℝ) (phaseErr : ℝ) (spec : List (ℝ × ℂ)) : Option (ℝ × ℝ) :=
  let g := good f0 f1 spec
  match meanCross g, meanFrequency g with
  | some c, some f => if f = 0 then none else some (Complex.arg c / (2 * Real.pi * f), phaseErr / (2 * Real.pi * f))
  | _, _ => none

open Classical in
/-- The covariance, `stingray/varenergyspectrum.py` 1044-1121, with `cross_to_covariance`, `stingray/fourier.py` 1195: `common` is whether the band overlaps the reference band of the same events, `refPower` the mean reference power in the interval, `nu` the width of a frequency bin, `fracRate` the mean rate if the normalisation is fractional. A reference power at its noise, which divides by zero, counts as NaN. -/
def covarianceOf (f0 f1 : ℝ) (common returnComplex : Bool) (subNoise refPower refNoise nu : ℝ) (fracRate : Option ℝ) (spec : List (ℝ × ℂ)) : Option ℂ :=
  let g := good f0 f1 spec
  match meanCross g with
  | none => none
  | some c =>
    let c := if common then c - (subNoise : ℂ) else c
    let c := if returnComplex then c else ((‖c‖ : ℝ) : ℂ)
    if refPower - refNoise ≤ 0 then none
    else
      let cov := c * ((Real.sqrt ((g.length : ℝ) * nu / (refPower - refNoise)) : ℝ) : ℂ)
      match fracRate with
      | none => some cov
      | some r => if r = 0 then none else some (cov / (r : ℂ))

end

end Stingray.EnergyLags
