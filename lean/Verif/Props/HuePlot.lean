import Verif.Model.HuePlot
import Verif.Props.PowerColors
import Mathlib.Tactic.FieldSimp

/-!
C195: plotted hues and lines of constant hue.
-/

set_option linter.unusedSectionVars false

namespace Stingray.HuePlot

open Stingray PowerColors

theorem turn_range (h : ℝ) : 0 ≤ turn h ∧ turn h < 2 * Real.pi := by
  have hp : 0 < 2 * Real.pi := by positivity
  have h1 := Int.floor_le (h / (2 * Real.pi))
  have h2 := Int.lt_floor_add_one (h / (2 * Real.pi))
  rw [le_div_iff₀ hp] at h1
  rw [div_lt_iff₀ hp] at h2
  unfold turn
  constructor <;> linarith

theorem turn_unique (h t : ℝ) (k : ℤ) (h0 : 0 ≤ t) (h1 : t < 2 * Real.pi) (e : h = t + k * (2 * Real.pi)) : turn h = t := by
  have hp : 0 < 2 * Real.pi := by positivity
  have hf : ⌊h / (2 * Real.pi)⌋ = k := by
    rw [Int.floor_eq_iff, le_div_iff₀ hp, div_lt_iff₀ hp]
    constructor <;> linarith
  rw [turn, hf, e]; ring

/-- **C195.** The hue drawn is the hue about the default centre up to whole turns, between 0 and a turn: in radians on a polar plot, in degrees on the other. -/
theorem plotted_hue_spec (pc1 pc2 : ℝ) (c : Config) :
    (∃ k : ℤ, plottedHue true pc1 pc2 c = hueFromColor pc1 pc2 defaultConfig.center + k * (2 * Real.pi)) ∧
    0 ≤ plottedHue true pc1 pc2 c ∧ plottedHue true pc1 pc2 c < 2 * Real.pi ∧
    0 ≤ plottedHue false pc1 pc2 c ∧ plottedHue false pc1 pc2 c < 360 ∧
    plottedHue false pc1 pc2 c * (2 * Real.pi / 360) = plottedHue true pc1 pc2 c := by
  have hpi := Real.pi_pos
  obtain ⟨h1, h2⟩ := turn_range (hueFromColor pc1 pc2 (4.51920, 0.453724))
  have et : plottedHue true pc1 pc2 c = turn (hueFromColor pc1 pc2 (4.51920, 0.453724)) := by simp [plottedHue]
  have ef : plottedHue false pc1 pc2 c = turn (hueFromColor pc1 pc2 (4.51920, 0.453724)) * 180 / Real.pi := by simp [plottedHue]
  rw [et, ef]
  refine ⟨⟨-⌊hueFromColor pc1 pc2 (4.51920, 0.453724) / (2 * Real.pi)⌋, ?_⟩, h1, h2, by positivity, ?_, ?_⟩
  · unfold turn defaultConfig; push_cast; ring
  · rw [div_lt_iff₀ hpi]; linarith
  · field_simp; ring

theorem line_point (t a : ℝ) (h : Real.cos a ≠ 0) : t * Real.sign (Real.cos a) = t / |Real.cos a| * Real.cos a ∧ Real.tan a * (t * Real.sign (Real.cos a)) = t / |Real.cos a| * Real.sin a := by
  rw [Real.tan_eq_sin_div_cos]
  rcases lt_or_gt_of_ne h with hn | hp
  · rw [Real.sign_of_neg hn, abs_of_neg hn]
    constructor <;> field_simp
  · rw [Real.sign_of_pos hp, abs_of_pos hp]
    constructor <;> field_simp

theorem cos_turn (h : ℝ) : Real.cos (turn h) = Real.cos h := Real.cos_sub_int_mul_two_pi h _

theorem sin_turn (h : ℝ) : Real.sin (turn h) = Real.sin h := Real.sin_sub_int_mul_two_pi h _

theorem line_get (center : ℝ × ℝ) (angle ref : ℝ) (hc : Real.cos (ref - angle) ≠ 0) (k : Nat) (hk : k < 20) :
    (hueLine center angle ref)[k]? = some (center.1 + 4 * (k : ℝ) / 19 / |Real.cos (ref - angle)| * Real.cos (ref - angle), center.2 + 4 * (k : ℝ) / 19 / |Real.cos (ref - angle)| * Real.sin (ref - angle)) := by
  have ea : -angle + ref = ref - angle := by ring
  have ec : Real.cos (turn (ref - angle)) ≠ 0 := by rw [cos_turn]; exact hc
  obtain ⟨h1, h2⟩ := line_point (4 * (k : ℝ) / 19) (turn (ref - angle)) ec
  rw [cos_turn] at h1
  rw [cos_turn, sin_turn] at h2
  simp only [hueLine, ea, List.getElem?_map, List.getElem?_range hk, Option.map_some, cos_turn, add_sub_cancel_right]
  rw [h2, h1, add_comm]

/-- **C195 (lines).** The line at an angle starts at the centre and goes in the direction of the angle, clockwise from the reference, for every point of it. -/
theorem hue_line_ray (center : ℝ × ℝ) (angle ref : ℝ) (hc : Real.cos (ref - angle) ≠ 0) :
    (hueLine center angle ref).length = 20 ∧ (hueLine center angle ref).head? = some center ∧
    (∀ p ∈ hueLine center angle ref, ∃ r, 0 ≤ r ∧ p = (center.1 + r * Real.cos (ref - angle), center.2 + r * Real.sin (ref - angle))) ∧
    ∀ p, (hueLine center angle ref).getLast? = some p → |p.1 - center.1| = 4 := by
  have hl : (hueLine center angle ref).length = 20 := by simp [hueLine]
  refine ⟨hl, ?_, ?_, ?_⟩
  · rw [List.head?_eq_getElem?, line_get center angle ref hc 0 (by norm_num)]
    simp
  · intro p hp
    obtain ⟨k, hk, rfl⟩ := List.mem_iff_getElem.1 hp
    have := line_get center angle ref hc k (by omega)
    rw [List.getElem?_eq_getElem hk, Option.some.injEq] at this
    exact ⟨_, by positivity, this⟩
  · intro p hp
    rw [List.getLast?_eq_getElem?, hl, line_get center angle ref hc 19 (by norm_num), Option.some.injEq] at hp
    rw [← hp]
    have h0 : |Real.cos (ref - angle)| ≠ 0 := abs_ne_zero.2 hc
    simp only [add_sub_cancel_left, abs_mul, abs_div, abs_abs]
    rw [div_mul_cancel₀ _ h0]
    norm_num

/-- **C195 (lines and hues).** With the default reference, all points after the first of the line at an angle (from -45 to 315 degrees) have that angle as their hue about the centre. -/
theorem hue_line_hue (center : ℝ × ℝ) (angle : ℝ) (h1 : -(Real.pi / 4) ≤ angle) (h2 : angle < 7 * Real.pi / 4) (hc : Real.cos (defaultConfig.refAngle - angle) ≠ 0)
    (p : ℝ × ℝ) (hp : p ∈ (hueLine center angle defaultConfig.refAngle).tail) : hueFromLog p.1 p.2 center = angle := by
  obtain ⟨k, hk, rfl⟩ := List.mem_iff_getElem.1 hp
  have hl : (hueLine center angle defaultConfig.refAngle).length = 20 := by simp [hueLine]
  rw [List.length_tail, hl] at hk
  have := line_get center angle defaultConfig.refAngle hc (k + 1) (by omega)
  rw [List.getElem?_eq_getElem (by omega), Option.some.injEq] at this
  rw [List.getElem_tail, this]
  have er : defaultConfig.refAngle - angle = 3 / 4 * Real.pi - angle := by simp only [defaultConfig]; ring
  rw [er] at hc ⊢
  exact hue_of_direction _ (by have := abs_pos.2 hc; positivity) angle h1 h2 center

theorem hue_ratio (r : ℝ) (c0 c1 : ℝ) (hr : 0 < r) (h0 : 0 < c0) : hueFromColor (c0 * r) c1 (c0, c1) = 3 / 4 * Real.pi - Complex.arg ((Real.log r / Real.log 10 : ℝ) : ℂ) := by
  unfold hueFromColor hueFromLog
  have e : (⟨Real.log (c0 * r) / Real.log 10 - Real.log c0 / Real.log 10, Real.log c1 / Real.log 10 - Real.log c1 / Real.log 10⟩ : ℂ) = ((Real.log r / Real.log 10 : ℝ) : ℂ) := by
    apply Complex.ext
    · rw [Complex.ofReal_re, Real.log_mul h0.ne' hr.ne']; ring
    · rw [Complex.ofReal_im]; ring
  rw [e]

/-- **C195 (negation).** The hue drawn is not that about the centre of the configuration given: some colours and centre have a hue that differs by half a turn. -/
theorem plotted_hue_ignores_center : ¬ ∀ (pc1 pc2 : ℝ) (c : Config), 0 < pc1 → 0 < pc2 → 0 < c.center.1 → 0 < c.center.2 → ∃ k : ℤ, plottedHue true pc1 pc2 c = hueFromColor pc1 pc2 c.center + k * (2 * Real.pi) := by
  intro h
  have hpi := Real.pi_pos
  have hlog : 0 < Real.log 10 := Real.log_pos (by norm_num)
  obtain ⟨k, hk⟩ := h (4.51920 * 10) 0.453724 ⟨(4.51920 * 100, 0.453724), 3 * Real.pi / 4⟩ (by norm_num) (by norm_num) (by norm_num) (by norm_num)
  have e1 := hue_ratio 10 4.51920 0.453724 (by norm_num) (by norm_num)
  have e2 := hue_ratio (1 / 10) (4.51920 * 100) 0.453724 (by norm_num) (by norm_num)
  have ep : (4.51920 * 100 * (1 / 10) : ℝ) = 4.51920 * 10 := by norm_num
  rw [ep] at e2
  have l1 : Real.log (10 : ℝ) / Real.log 10 = 1 := div_self hlog.ne'
  have l2 : Real.log (1 / 10 : ℝ) / Real.log 10 = -1 := by
    rw [one_div, Real.log_inv]; field_simp
  rw [l1, Complex.arg_ofReal_of_nonneg (by norm_num)] at e1
  rw [l2, Complex.arg_ofReal_of_neg (by norm_num)] at e2
  have et : plottedHue true (4.51920 * 10) 0.453724 ⟨(4.51920 * 100, 0.453724), 3 * Real.pi / 4⟩ = 3 / 4 * Real.pi := by
    have : plottedHue true (4.51920 * 10) 0.453724 ⟨(4.51920 * 100, 0.453724), 3 * Real.pi / 4⟩ = turn (hueFromColor (4.51920 * 10) 0.453724 (4.51920, 0.453724)) := by simp [plottedHue]
    rw [this, e1]
    exact turn_unique _ _ 0 (by positivity) (by linarith) (by push_cast; ring)
  rw [et] at hk
  simp only at hk
  rw [e2] at hk
  have h2 : (1 : ℝ) = 2 * k := by
    have : Real.pi * 1 = Real.pi * (2 * k) := by linarith
    exact mul_left_cancel₀ hpi.ne' this
  have h3 : (1 : ℤ) = 2 * k := by exact_mod_cast h2
  omega

/-- The line at an angle of 135 degrees meets the hypotheses. -/
example : Real.cos (defaultConfig.refAngle - 3 * Real.pi / 4) ≠ 0 ∧ -(Real.pi / 4) ≤ 3 * Real.pi / 4 ∧ 3 * Real.pi / 4 < 7 * Real.pi / 4 := by
  have := Real.pi_pos
  refine ⟨by simp [defaultConfig], by linarith, by linarith⟩

end Stingray.HuePlot
