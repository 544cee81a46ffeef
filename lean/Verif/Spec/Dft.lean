import Verif.Model.Fourier
import Mathlib.Analysis.SpecialFunctions.Trigonometric.Basic

/-!
# The discrete Fourier transform

`X_k = Σ_j x_j exp(-2π i j k / n)`, over the reals: what `numpy.fft.fft` computes, up to rounding.
-/

namespace Stingray.Spec

open Stingray.Fourier

/-- The discrete Fourier transform of `x`. -/
noncomputable def dft (x : List ℝ) : List (Cx ℝ) :=
  (List.range x.length).map fun k =>
    ⟨((List.range x.length).map fun j => x.getD j 0 * Real.cos (2 * Real.pi * (j * k : Nat) / x.length)).sum,
     -((List.range x.length).map fun j => x.getD j 0 * Real.sin (2 * Real.pi * (j * k : Nat) / x.length)).sum⟩

/-- Population variance. -/
noncomputable def variance (x : List ℝ) : ℝ :=
  (x.map fun v => (v - x.sum / x.length) ^ 2).sum / x.length

end Stingray.Spec
