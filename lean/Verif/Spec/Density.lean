import Mathlib.Analysis.SpecialFunctions.Log.Basic
import Mathlib.Analysis.SpecialFunctions.Trigonometric.Basic
import Mathlib.Data.Nat.Factorial.Basic

/-!
# Probability densities of the powers
-/

namespace Stingray.Spec

/-- The density of a power which is the average of `m` independent powers, each exponentially distributed with mean `s`. -/
noncomputable def averagedPowerDensity (m : Nat) (s y : ℝ) : ℝ :=
  (m : ℝ) ^ m * y ^ (m - 1) * Real.exp (-(m * y / s)) / ((m - 1).factorial * s ^ m)

/-- The normal density with mean `m` and standard deviation `s`. -/
noncomputable def normalDensity (m s y : ℝ) : ℝ := Real.exp (-((y - m) ^ 2 / (2 * s ^ 2))) / (s * Real.sqrt (2 * Real.pi))

/-- The probability of `n` counts if `m` are expected. -/
noncomputable def poissonProbability (m : ℝ) (n : Nat) : ℝ := m ^ n * Real.exp (-m) / n.factorial

/-- The Laplace density with centre `m` and scale `s`. -/
noncomputable def laplaceDensity (m s y : ℝ) : ℝ := Real.exp (-(|y - m| / s)) / (2 * s)

end Stingray.Spec
