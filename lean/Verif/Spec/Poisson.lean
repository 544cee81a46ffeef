import Mathlib.Analysis.SpecialFunctions.Exp

/-!
# Tail of the distribution of averaged powers
-/

namespace Stingray.Spec

/-- Probability that a Poisson variable of mean `x` is less than `n`: `e^{-x} Σ_{m<n} x^m / m!`. -/
noncomputable def poissonBelow (x : ℝ) (n : Nat) : ℝ :=
  ((List.range n).map fun m => Real.exp (-x) * x ^ m / (m.factorial : ℝ)).sum

end Stingray.Spec
