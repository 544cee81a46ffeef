import Mathlib.Algebra.Order.Field.Basic
import Mathlib.Algebra.BigOperators.Group.List.Basic

/-!
# Moments and convolutions
-/

namespace Stingray.Spec

variable {K : Type} [Field K]

/-- The average. -/
def average (l : List K) : K := l.sum / (l.length : K)

/-- The population variance. -/
def popVariance (l : List K) : K := (l.map fun x => (x - average l) ^ 2).sum / (l.length : K)

/-- Sample `n` of the convolution of a signal (zero outside its samples) and a response: `Σ_j h_j s_{n-j}`. -/
def convolutionAt (s h : List K) (n : Nat) : K :=
  ((List.range h.length).map fun j => h.getD j 0 * (if j ≤ n then s.getD (n - j) 0 else 0)).sum

/-- A finite map: the light curve last stored under a name. -/
abbrev Registry (N L : Type) := N → Option L

end Stingray.Spec
