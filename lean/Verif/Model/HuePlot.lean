import Verif.Model.PowerColors
import Mathlib.Data.Real.Sign

/-!
# Plotted hues and lines of constant hue: `stingray/power_colors.py` 112-122 and 259-278

Over the reals. Not modelled: the branch of line 116 for an infinite tangent (no float has one) and the drawing itself.
-/

namespace Stingray.HuePlot

open Stingray PowerColors

noncomputable section

/-- `angle % (np.pi * 2)`. -/
def turn (h : ℝ) : ℝ := h - (⌊h / (2 * Real.pi)⌋ : ℤ) * (2 * Real.pi)

/-- The entries of a configuration used here, lines 8-10. -/
structure Config where
  center : ℝ × ℝ
  refAngle : ℝ

/-- `DEFAULT_COLOR_CONFIGURATION`, lines 8-10. -/
def defaultConfig : Config := ⟨(4.51920, 0.453724), 3 * Real.pi / 4⟩

/-- The hue drawn by `plot_hues`, lines 268-273: the configuration is not passed to `hue_from_power_color`, which uses its own default centre. -/
def plottedHue (polar : Bool) (pc1 pc2 : ℝ) (_configuration : Config) : ℝ :=
  let h := turn (hueFromColor pc1 pc2 (4.51920, 0.453724))
  if polar then h else h * 180 / Real.pi

/-- `_hue_line_data`, lines 112-122: the twenty points of the line. -/
def hueLine (center : ℝ × ℝ) (angle refAngle : ℝ) : List (ℝ × ℝ) :=
  let a := turn (-angle + refAngle)
  (List.range 20).map fun (k : Nat) =>
    let x := 4 * (k : ℝ) / 19 * Real.sign (Real.cos a) + center.1
    (x, center.2 + Real.tan a * (x - center.1))

end

end Stingray.HuePlot
