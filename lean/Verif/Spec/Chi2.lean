import Mathlib.Probability.Distributions.Gamma
import Mathlib.Probability.Distributions.Beta

/-!
# Chi square and beta distributions
-/

namespace Stingray.Spec

open MeasureTheory ProbabilityTheory

/-- The chi square distribution with `d` degrees of freedom: the gamma distribution with shape `d / 2` and rate `1 / 2`. -/
noncomputable def chi2 (d : ℝ) : Measure ℝ := gammaMeasure (d / 2) (1 / 2)

/-- The probability that a chi square variable exceeds `x`. -/
noncomputable def chi2Sf (x d : ℝ) : ℝ := (chi2 d).real (Set.Ioi x)

/-- `isf` inverts the survival function of the chi square distribution. -/
def InvertsChi2 (isf : ℝ → ℝ → ℝ) : Prop := ∀ p d, 0 < p → p < 1 → 0 < d → chi2Sf (isf p d) d = p

/-- The probability that a beta variable is at most `x`. -/
noncomputable def betaCdf (a b x : ℝ) : ℝ := (betaMeasure a b).real (Set.Iic x)

/-- `ppf` inverts the distribution function of the beta distribution. -/
def InvertsBeta (ppf : ℝ → ℝ → ℝ → ℝ) : Prop := ∀ a b p, 0 < p → p < 1 → 0 < a → 0 < b → betaCdf a b (ppf a b p) = p

end Stingray.Spec
