import Verif.Spec.Overlap
import Mathlib.Algebra.Order.Floor.Ring
import Mathlib.Data.Nat.Factorial.Basic

/-!
# Specification vocabulary for pulse phases
-/

namespace Stingray.Spec

variable {K : Type} [Field K] [LinearOrder K] [FloorRing K]

/-- The phase polynomial: `ph0 + f0 t + f1 t²/2 + f2 t³/6 + …`. -/
def phasePoly (t : K) (fs : List K) (ph0 : K) : K :=
  ph0 + ((List.range fs.length).map fun i => fs.getD i 0 * t ^ (i + 1) / ((i + 1).factorial : K)).sum

/-- Time spent between phases `lo` and `hi` (`0 <= lo <= hi <= 1`) of any of the cycles, in the interval `[a, b]` measured in cycles. -/
def cycleOverlap (a b lo hi : K) : K :=
  ((List.range ((⌊b⌋ - ⌊a⌋).toNat + 1)).map fun (j : Nat) =>
    overlap a b ((⌊a⌋ : K) + j + lo) ((⌊a⌋ : K) + j + hi)).sum

end Stingray.Spec
