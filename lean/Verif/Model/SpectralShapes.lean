import Verif.Model.Basic
import Mathlib.Analysis.SpecialFunctions.Pow.Real

/-!
# Shapes of simulated power spectra: `stingray/simulator/models.py`

Over the reals, at one frequency.
-/

namespace Stingray.SpectralShapes

open Stingray

noncomputable section

open Classical in
/-- `GeneralizedLorentz1D`, `stingray/simulator/models.py` 6-39. -/
def generalizedLorentz1D (x x0 fwhm value power : ℝ) : Except PyErr ℝ :=
  if 0 < power then .ok (value * (fwhm / 2) ^ power * 1 / (|x - x0| ^ power + (fwhm / 2) ^ power)) else .error .assertionError

/-- `SmoothBrokenPowerLaw`, lines 44-73. -/
def smoothBrokenPowerLaw (x norm gammaLow gammaHigh breakFreq : ℝ) : ℝ :=
  norm * x ^ (-gammaLow) / (1 + (x / breakFreq) ^ (2 : ℕ)) ^ (-(gammaLow - gammaHigh) / 2)

open Classical in
/-- `generalized_lorentzian`, lines 76-99: `p` is an array of four parameters. -/
def generalizedLorentzian (x : ℝ) (p : List ℝ) : Except PyErr ℝ :=
  match p with
  | p0 :: p1 :: p2 :: p3 :: _ => if 0 < p3 then .ok (p2 * (p1 / 2) ^ p3 * 1 / (|x - p0| ^ p3 + (p1 / 2) ^ p3)) else .error .assertionError
  | _ => .error .indexError

/-- `smoothbknpo`, lines 102-124. -/
def smoothbknpo (x : ℝ) (p : List ℝ) : Except PyErr ℝ :=
  match p with
  | p0 :: p1 :: p2 :: p3 :: _ => .ok (p0 * x ^ (-p1) / (1 + (x / p3) ^ (2 : ℕ)) ^ (-(p1 - p2) / 2))
  | _ => .error .indexError

end

end Stingray.SpectralShapes
