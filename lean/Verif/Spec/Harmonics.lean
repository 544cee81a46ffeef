import Mathlib.Analysis.SpecialFunctions.Trigonometric.Basic

/-!
# Power of a harmonic
-/

namespace Stingray.Spec

/-- `|Σ_j w_j exp(2π i k φ_j)|²` for phases and weights `(φ_j, w_j)`. -/
noncomputable def harmonicPower (pw : List (ℝ × ℝ)) (k : Nat) : ℝ :=
  (pw.map fun p => p.2 * Real.cos (2 * Real.pi * k * p.1)).sum ^ 2 +
    (pw.map fun p => p.2 * Real.sin (2 * Real.pi * k * p.1)).sum ^ 2

/-- the phases of the bin centres of a profile, with the counts -/
noncomputable def centres (prof : List ℝ) : List (ℝ × ℝ) :=
  (List.range prof.length).map fun (j : Nat) => (((j : ℝ) + 1 / 2) / prof.length, prof.getD j 0)

/-- The sum of the first `n` harmonics. -/
noncomputable def harmonicSum (pw : List (ℝ × ℝ)) (n : Nat) : ℝ :=
  ((List.range n).map fun i => harmonicPower pw (i + 1)).sum

end Stingray.Spec
