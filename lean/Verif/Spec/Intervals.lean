import Mathlib.Order.Defs.LinearOrder
import Mathlib.Algebra.Order.Field.Basic
import Mathlib.Algebra.BigOperators.Group.List.Basic

/-!
# Specification vocabulary for lists of time intervals

Independent of the model: what it means for a time to be good, for a list of GTIs to be
well behaved, and how much exposure it has.
-/

namespace Stingray.Spec

variable {K : Type}

/-- time `x` belongs to (the closed) interval of some GTI -/
def Covers [LE K] (l : List (K × K)) (x : K) : Prop := ∃ g ∈ l, g.1 ≤ x ∧ x ≤ g.2

/-- time `x` is strictly inside some GTI -/
def CoversInterior [LT K] (l : List (K × K)) (x : K) : Prop := ∃ g ∈ l, g.1 < x ∧ x < g.2

/-- every interval runs forward and every interval ends no later than any later one starts -/
def WellFormed [LE K] (l : List (K × K)) : Prop :=
  (∀ g ∈ l, g.1 ≤ g.2) ∧ l.Pairwise (fun a b => a.2 ≤ b.1)

/-- no empty interval, and a real gap between any two of them, in time order -/
def StrictlySeparated [LT K] (l : List (K × K)) : Prop :=
  (∀ g ∈ l, g.1 < g.2) ∧ l.Pairwise (fun a b => a.2 < b.1)

/-- total good time -/
def exposure [AddCommMonoid K] [Sub K] (l : List (K × K)) : K :=
  (l.map (fun g => g.2 - g.1)).sum

/-- the whole bin of width `d` centred on `t` lies in `[a, b]`, up to a tolerance at each end -/
def BinInside [Field K] [LinearOrder K] (a b t d tol : K) : Prop :=
  a - tol ≤ t - d / 2 ∧ t + d / 2 ≤ b + tol

end Stingray.Spec
