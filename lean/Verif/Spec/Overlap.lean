import Mathlib.Algebra.Order.Field.Basic
import Mathlib.Algebra.BigOperators.Group.Finset.Basic

/-! Specification vocabulary for rebinning. -/

namespace Stingray.Spec

variable {K : Type} [Field K] [LinearOrder K]

/-- length of the intersection of `[a, b]` and `[c, d]` -/
def overlap (a b c d : K) : K := max 0 (min b d - max a c)

/-- signal falling in `[lo, hi]` when `y j` is spread evenly over `[e j, e (j+1)]`, `j < n` -/
def binned (n : Nat) (e y : Nat → K) (lo hi : K) : K :=
  ∑ j ∈ Finset.range n, y j * (overlap lo hi (e j) (e (j + 1)) / (e (j + 1) - e j))

end Stingray.Spec
