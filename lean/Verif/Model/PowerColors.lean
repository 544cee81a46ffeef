import Verif.Model.Fourier
import Verif.Model.Gti
import Mathlib.Analysis.SpecialFunctions.Complex.Arg
import Mathlib.Analysis.SpecialFunctions.Log.Basic

/-!
# Power colours and hues: `stingray/power_colors.py`
-/

namespace Stingray.PowerColors

open Stingray Stingray.Gti Stingray.Fourier

variable {K : Type} [Field K] [LinearOrder K]

/-- The bins that `integrate_power_in_frequency_range` sees: all of width `df` and noise level `noise`. -/
def toBins (spec : List (K × K)) (df noise : K) : List (PowerBin K) := spec.map fun p => ⟨p.1, df, p.2, noise⟩

/-- One turn of the loop over `freqs_to_exclude`, `stingray/power_colors.py` 384-387; `spec` are the frequencies and powers. -/
def excludeRange (df : K) (spec : List (K × K)) (r : K × K) : Except PyErr (List (K × K)) :=
  let freqs := spec.map Prod.fst
  match (spec.map Prod.snd)[searchsortedLeft freqs r.1]?, (spec.map Prod.snd)[searchsortedLeft freqs r.2]? with
  | some p0, some p1 => .ok (spec.map fun p => if p.1 - df / 2 > r.1 ∧ p.1 + df / 2 < r.2 then (p.1, (p0 + p1) / 2) else p)
  | _, _ => .error .indexError

/-- A quotient in numpy: no value (NaN or infinite) when the denominator is zero. -/
def quotient (a b : K) : Option K := if b = 0 then none else some (a / b)

/-- `power_color(frequency, power, freq_edges=edges, df=df, freqs_to_exclude=excl, poisson_power=noise)`, `stingray/power_colors.py` 352-434: the two colours (not their errors), and what the array of powers passed as argument holds afterwards (`np.asanyarray` does
not copy it, line 357). -/
def powerColor (spec : List (K × K)) (df : K) (edges : List K) (excl : List (K × K)) (noise : K) : Except PyErr ((Option K × Option K) × List K) :=
  match edges with
  | [a0, a1, a2, a3, a4] =>
    match spec.head?, spec.getLast? with
    | some first, some last =>
      if min (min (min (min a0 a1) a2) a3) a4 < first.1 - df / 2 then .error .valueError
      else if max (max (max (max a0 a1) a2) a3) a4 > last.1 + df / 2 then .error .valueError
      else
        match excl.foldlM (excludeRange df) spec with
        | .error e => .error e
        | .ok spec =>
          let bins := toBins spec df noise
          match integratePower bins a0 a1, integratePower bins a2 a3, integratePower bins a1 a2, integratePower bins a3 a4 with
          | .ok v00, .ok v01, .ok v10, .ok v11 => .ok ((quotient v00 v01, quotient v10 v11), spec.map Prod.snd)
          | _, _, _, _ => .error .indexError
    | _, _ => .error .indexError
  | _ => .error .valueError

/-- `hue_from_logpower_color`, `stingray/power_colors.py` 495-496: `np.arctan2(y, x)` is the argument of `x + i y`. -/
noncomputable def hueFromLog (x y : ℝ) (center : ℝ × ℝ) : ℝ := 3 / 4 * Real.pi - Complex.arg ⟨x - center.1, y - center.2⟩

/-- `hue_from_power_color`, `stingray/power_colors.py` 462-467, for positive colours and centre. -/
noncomputable def hueFromColor (pc0 pc1 : ℝ) (center : ℝ × ℝ) : ℝ :=
  hueFromLog (Real.log pc0 / Real.log 10) (Real.log pc1 / Real.log 10) (Real.log center.1 / Real.log 10, Real.log center.2 / Real.log 10)

/-- The first loop of `_limit_angle_to_360`, `stingray/power_colors.py` 105-106; `none` when the turns do not suffice. -/
def angleDown (angle : K) : Nat → Option K
  | 0 => none
  | fuel + 1 => if angle ≥ 360 then angleDown (angle - 360) fuel else some angle

/-- The second loop, `stingray/power_colors.py` 107-108. -/
def angleUp (angle : K) : Nat → Option K
  | 0 => none
  | fuel + 1 => if angle < 0 then angleUp (angle + 360) fuel else some angle

/-- `_limit_angle_to_360`, `stingray/power_colors.py` 104-109. -/
def limitAngle (angle : K) (fuel : Nat) : Option K :=
  match angleDown angle fuel with
  | none => none
  | some a => angleUp a fuel

end Stingray.PowerColors
