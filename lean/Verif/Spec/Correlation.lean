import Mathlib.Algebra.Order.Field.Basic
import Mathlib.Algebra.BigOperators.Group.Finset.Basic

/-!
# Specification vocabulary for correlations
-/

namespace Stingray.Spec

variable {K : Type} [Field K]

/-- The correlation of two lists at the lag `d`: the sum of `x_i y_j` over all pairs of samples with `i - j = d`. -/
def lagSum (x y : List K) (d : Int) : K :=
  ∑ i ∈ Finset.range x.length, ∑ j ∈ Finset.range y.length,
    if (i : Int) - (j : Int) = d then x.getD i 0 * y.getD j 0 else 0

/-- A list minus its mean. -/
def centredOn (l : List K) : List K := l.map fun c => c - l.sum / l.length

end Stingray.Spec
