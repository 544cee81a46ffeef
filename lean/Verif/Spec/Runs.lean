/-! Specification vocabulary: maximal runs of `true` in a boolean list. -/

namespace Stingray.Spec

/-- `[a, b)` is a maximal run of `true`: non-empty, all true, and not extensible on either side -/
def MaximalRun (c : List Bool) (a b : Nat) : Prop :=
  a < b ∧ (∀ i, a ≤ i → i < b → c[i]? = some true) ∧
    (∀ i, i + 1 = a → c[i]? = some false) ∧ (b < c.length → c[b]? = some false)

end Stingray.Spec
