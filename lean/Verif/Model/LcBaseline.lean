import Verif.Model.Gti
import Mathlib.Algebra.Order.Floor.Ring

/-!
# The baseline of a light curve: `stingray/lightcurve.py` 776-815

The fit to one GTI (`baseline_als`, modelled in `Verif.Model.BaselineAls`) is a parameter, and so are the masks of the GTIs (`create_gti_mask`, modelled in `Verif.Model.Gti`).
-/

namespace Stingray.LcBaseline

open Stingray

variable {K : Type} [Field K] [LinearOrder K] [FloorRing K]

/-- A value stored in an array of the type of the times (`np.zeros_like(self.time)`, line 802): an array of integers drops the fraction. -/
def store (integers : Bool) (x : K) : K :=
  if integers then (if 0 ≤ x then ((⌊x⌋ : ℤ) : K) else ((⌈x⌉ : ℤ) : K)) else x

/-- `base[mask] = values`, line 805. -/
def assign : List Bool → List K → List K → List K
  | true :: m, _ :: b, v :: vs => v :: assign m b vs
  | false :: m, x :: b, vs => x :: assign m b vs
  | _, b, _ => b

/-- The loop over the GTIs, lines 803-813. -/
def loop (fit : List K → List K → Except PyErr (List K)) (integers : Bool) (times counts : List K) : List (List Bool) → List K → Except PyErr (List K)
  | [], base => .ok base
  | m :: ms, base =>
    match fit (Gti.select m times) (Gti.select m counts) with
    | .error e => .error e
    | .ok v => loop fit integers times counts ms (assign m base (v.map (store integers)))

/-- `Lightcurve.baseline`, lines 802-815; `integers` says whether the times are integers. -/
def baseline (fit : List K → List K → Except PyErr (List K)) (integers : Bool) (masks : List (List Bool)) (times counts : List K) : Except PyErr (List K) :=
  loop fit integers times counts masks (times.map fun _ => 0)

end Stingray.LcBaseline
