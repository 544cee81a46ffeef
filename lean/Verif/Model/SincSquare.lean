import Verif.Model.Basic
import Mathlib.Analysis.SpecialFunctions.Trigonometric.Basic

/-!
# The squared sinc of a pulse search and its fit: `stingray/pulse/modeling.py` 8-107, 119-171

Over the reals. The least squares fitter of astropy is not modelled: the fit is followed up to the model it is started with.
-/

namespace Stingray.SincSquare

open Stingray

noncomputable section

open Classical in
/-- `np.sinc`: with the factor of pi, and 1 at zero. -/
def npSinc (x : ℝ) : ℝ := if x = 0 then 1 else Real.sin (Real.pi * x) / (Real.pi * x)

/-- `sinc`, `stingray/pulse/modeling.py` 8-23. -/
def sinc (x : ℝ) : ℝ := npSinc (x / Real.pi)

/-- `sinc_square_model`, lines 26-55. -/
def model (x amplitude mean width : ℝ) : ℝ := amplitude * sinc ((x - mean) / width) ^ 2

open Classical in
/-- `d_x` of `sinc_square_deriv`, lines 91-102. -/
def dX (x amplitude mean width : ℝ) : ℝ :=
  if x = mean then 0
  else 2 * amplitude * sinc ((x - mean) / width) * (x * Real.cos ((x - mean) / width) - Real.sin ((x - mean) / width)) / ((x - mean) / width) ^ 2

/-- The first of the derivatives of `sinc_square_deriv`, line 101. -/
def dAmplitude (x mean width : ℝ) : ℝ := sinc ((x - mean) / width) ^ 2

/-- The second one, line 104. -/
def dMean (x amplitude mean width : ℝ) : ℝ := dX x amplitude mean width * (-1 / width)

/-- The third one, line 105. -/
def dWidth (x amplitude mean width : ℝ) : ℝ := dX x amplitude mean width * (-(x - mean) / width ^ 2)

end

/-- `d[key] = value`. -/
def setKey (d : List (String × Bool)) (key : String) (value : Bool) : List (String × Bool) := (key, value) :: d.filter fun p => p.1 ≠ key

/-- `d.get(key)`. -/
def getKey (d : List (String × Bool)) (key : String) : Option Bool := (d.find? fun p => p.1 = key).map Prod.snd

/-- The arguments of a call of `fit_sinc`: a width, the dictionary `fixed` if one is given and the length of the observation if one is given. The other arguments are passed on. -/
structure Call (W : Type) where
  width : W
  fixed : Option (List (String × Bool))
  obsLength : Option W

/-- `fit_sinc`, lines 119-168: the width and the dictionary `fixed` of the model the fit starts with, and the default dictionary after the call. The default value of `fixed` is one dictionary for all calls; `widthOf T` is `1 / (pi * T)`. -/
def fitSinc {W : Type} (widthOf : W → W) (default : List (String × Bool)) (c : Call W) : (W × List (String × Bool)) × List (String × Bool) :=
  match c.obsLength, c.fixed with
  | some t, none => ((widthOf t, setKey default "width" true), setKey default "width" true)
  | some t, some f => ((widthOf t, setKey f "width" true), default)
  | none, none => ((c.width, default), default)
  | none, some f => ((c.width, f), default)

/-- The default dictionary after some calls. -/
def afterCalls {W : Type} (widthOf : W → W) (calls : List (Call W)) : List (String × Bool) :=
  calls.foldl (fun d c => (fitSinc widthOf d c).2) []

end Stingray.SincSquare
