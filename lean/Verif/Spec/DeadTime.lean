import Mathlib.Order.Defs.LinearOrder
import Mathlib.Algebra.Order.Field.Basic

/-! Specification vocabulary: what a dead time does to a list of `(time, dead time)` events. -/

namespace Stingray.Spec

variable {K : Type} [Add K] [LE K]

/-- Non-paralyzable: an event is recorded iff it comes after the dead time of every *recorded*
earlier event. -/
def NonParalyzable (ev : List (K × K)) (m : List Bool) : Prop :=
  m.length = ev.length ∧ ∀ (j : Nat) (e : K × K), ev[j]? = some e →
    (m[j]? = some true ↔ ∀ (i : Nat) (e' : K × K), i < j → ev[i]? = some e' → m[i]? = some true →
      e'.1 + e'.2 ≤ e.1)

/-- Paralyzable: an event is recorded iff it comes after the dead time of every earlier event,
recorded or not. -/
def Paralyzable (ev : List (K × K)) (m : List Bool) : Prop :=
  m.length = ev.length ∧ ∀ (j : Nat) (e : K × K), ev[j]? = some e →
    (m[j]? = some true ↔ ∀ (i : Nat) (e' : K × K), i < j → ev[i]? = some e' → e'.1 + e'.2 ≤ e.1)

end Stingray.Spec
