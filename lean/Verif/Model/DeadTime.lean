import Verif.Model.Basic
import Mathlib.Algebra.Order.Field.Basic

/-!
# Dead time: `stingray/deadtime/model.py`
-/

namespace Stingray.DeadTime

variable {K : Type} [Field K] [DecidableEq K]

/-- Division of Python numbers. -/
def pyDiv (a b : K) : Except PyErr K := if b = 0 then .error .zeroDivisionError else .ok (a / b)

/-- `r_in`, `stingray/deadtime/model.py` 87-98, for Python numbers (NumPy scalars give infinities instead of raising). -/
def rIn (td r0 : K) : Except PyErr K := do
  let tau ← pyDiv 1 r0
  pyDiv 1 (tau - td)

/-- `r_det`, `stingray/deadtime/model.py` 101-112. -/
def rDet (td ri : K) : Except PyErr K := do
  let tau ← pyDiv 1 ri
  pyDiv 1 (tau + td)

end Stingray.DeadTime
