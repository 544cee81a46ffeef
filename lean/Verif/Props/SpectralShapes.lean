import Verif.Model.SpectralShapes
import Mathlib.Analysis.SpecialFunctions.Pow.Continuity
import Mathlib.Tactic.Linarith
import Mathlib.Tactic.FieldSimp
import Mathlib.Tactic.Positivity

/-!
C190: the shapes of simulated power spectra.
-/

set_option linter.unusedSectionVars false

namespace Stingray.SpectralShapes

open Stingray Filter Topology

/-- **C190.** For a positive width and value, a generalized Lorentzian exists exactly for positive powers. It has its value at the centre, half of it exactly at half a width from the centre, decreases with the distance from the centre and is positive. -/
theorem lorentzian_spec (x0 fwhm value power : ℝ) (hw : 0 < fwhm) (hv : 0 < value) :
    (∀ x, power ≤ 0 → generalizedLorentz1D x x0 fwhm value power = .error .assertionError) ∧
    (0 < power → ∃ f : ℝ → ℝ, (∀ x, generalizedLorentz1D x x0 fwhm value power = .ok (f x)) ∧ f x0 = value ∧ (∀ x, f x = value / 2 ↔ |x - x0| = fwhm / 2) ∧
      (∀ x y, f x < f y ↔ |y - x0| < |x - x0|) ∧ ∀ x, 0 < f x) := by
  refine ⟨fun x h => by rw [generalizedLorentz1D, if_neg (not_lt.2 h)], ?_⟩
  intro hp
  have hd : 0 < (fwhm / 2) ^ power := Real.rpow_pos_of_pos (by positivity) _
  have hn : ∀ x : ℝ, 0 ≤ |x - x0| ^ power := fun x => Real.rpow_nonneg (abs_nonneg _) _
  refine ⟨fun x => value * (fwhm / 2) ^ power * 1 / (|x - x0| ^ power + (fwhm / 2) ^ power), ?_, ?_, ?_, ?_, ?_⟩
  · intro x; rw [generalizedLorentz1D, if_pos hp]
  · simp only [sub_self, abs_zero, Real.zero_rpow hp.ne', zero_add, mul_one]
    field_simp
  · intro x
    have h1 : 0 < |x - x0| ^ power + (fwhm / 2) ^ power := by linarith [hn x]
    simp only
    rw [div_eq_div_iff h1.ne' two_ne_zero, mul_one, mul_assoc, mul_right_inj' hv.ne']
    constructor
    · intro h
      have e : |x - x0| ^ power = (fwhm / 2) ^ power := by linarith
      exact (Real.rpow_left_inj (abs_nonneg _) (by positivity) hp.ne').1 e
    · intro h; rw [h]; ring
  · intro x y
    have h1 : 0 < |x - x0| ^ power + (fwhm / 2) ^ power := by linarith [hn x]
    have h2 : 0 < |y - x0| ^ power + (fwhm / 2) ^ power := by linarith [hn y]
    have hc : 0 < value * (fwhm / 2) ^ power * 1 := by positivity
    simp only
    rw [div_lt_div_iff_of_pos_left hc h1 h2, add_lt_add_iff_right, Real.rpow_lt_rpow_iff (abs_nonneg _) (abs_nonneg _) hp]
  · intro x
    have h1 : 0 < |x - x0| ^ power + (fwhm / 2) ^ power := by linarith [hn x]
    simp only
    positivity

theorem bknpo_eq (x norm gl gh b : ℝ) (hx : 0 < x) :
    smoothBrokenPowerLaw x norm gl gh b = norm * x ^ (-gl) * (1 + (x / b) ^ 2) ^ ((gl - gh) / 2) := by
  have h1 : (0 : ℝ) < 1 + (x / b) ^ 2 := by positivity
  rw [smoothBrokenPowerLaw, show -(gl - gh) / 2 = -((gl - gh) / 2) by ring, Real.rpow_neg h1.le, div_inv_eq_mul]

/-- **C190 (broken power law).** A smoothly broken power law goes as the power `-gammaLow` with the normalization at low frequencies, and as the power `-gammaHigh`, continued from the break, at high ones. -/
theorem broken_power_law_limits (norm gl gh b : ℝ) (hb : 0 < b) :
    Tendsto (fun x => smoothBrokenPowerLaw x norm gl gh b * x ^ gl) (𝓝[>] 0) (𝓝 norm) ∧
    Tendsto (fun x => smoothBrokenPowerLaw x norm gl gh b * x ^ gh) atTop (𝓝 (norm * b ^ (gh - gl))) := by
  constructor
  · have h1 : Tendsto (fun x : ℝ => norm * (1 + (x / b) ^ 2) ^ ((gl - gh) / 2)) (𝓝[>] 0) (𝓝 (norm * (1 + ((0 : ℝ) / b) ^ 2) ^ ((gl - gh) / 2))) := by
      apply Tendsto.mono_left _ nhdsWithin_le_nhds
      apply Tendsto.const_mul
      apply Tendsto.rpow_const
      · exact (Continuous.tendsto (by fun_prop) 0)
      · left; simp
    have e : norm * (1 + ((0 : ℝ) / b) ^ 2) ^ ((gl - gh) / 2) = norm := by simp
    rw [e] at h1
    refine h1.congr' ?_
    filter_upwards [self_mem_nhdsWithin] with x hx
    have hx : 0 < x := hx
    rw [bknpo_eq x norm gl gh b hx]
    have : x ^ (-gl) * x ^ gl = 1 := by rw [← Real.rpow_add hx]; simp
    linear_combination (-(norm * (1 + (x / b) ^ 2) ^ ((gl - gh) / 2))) * this
  · have h0 : Tendsto (fun x : ℝ => (x⁻¹) ^ 2 + (b⁻¹) ^ 2) atTop (𝓝 (0 ^ 2 + (b⁻¹) ^ 2)) := (tendsto_inv_atTop_zero.pow 2).add_const _
    have h1 : Tendsto (fun x : ℝ => norm * ((x⁻¹) ^ 2 + (b⁻¹) ^ 2) ^ ((gl - gh) / 2)) atTop (𝓝 (norm * (0 ^ 2 + (b⁻¹) ^ 2) ^ ((gl - gh) / 2))) := by
      apply Tendsto.const_mul
      apply Tendsto.rpow_const h0
      left
      have : 0 < (b⁻¹) ^ 2 := by positivity
      simp only [ne_eq, OfNat.ofNat_ne_zero, not_false_eq_true, zero_pow, zero_add]
      exact this.ne'
    have sq : ∀ y : ℝ, 0 < y → ((y⁻¹) ^ 2) ^ ((gl - gh) / 2) = y ^ (gh - gl) := by
      intro y hy
      rw [← Real.rpow_natCast, ← Real.rpow_mul (by positivity), Real.inv_rpow hy.le, ← Real.rpow_neg hy.le]
      congr 1
      push_cast
      ring
    have e : norm * ((0 : ℝ) ^ 2 + (b⁻¹) ^ 2) ^ ((gl - gh) / 2) = norm * b ^ (gh - gl) := by
      rw [zero_pow two_ne_zero, zero_add, sq b hb]
    rw [e] at h1
    refine h1.congr' ?_
    filter_upwards [eventually_gt_atTop 0] with x hx
    rw [bknpo_eq x norm gl gh b hx]
    have h2 : (x⁻¹) ^ 2 + (b⁻¹) ^ 2 = (x⁻¹) ^ 2 * (1 + (x / b) ^ 2) := by field_simp
    rw [h2, Real.mul_rpow (by positivity) (by positivity), sq x hx]
    have h3 : x ^ (-gl) * x ^ gh = x ^ (gh - gl) := by rw [← Real.rpow_add hx]; congr 1; ring
    linear_combination (-(norm * (1 + (x / b) ^ 2) ^ ((gl - gh) / 2))) * h3

/-- **C190 (arrays).** The functions of an array of parameters are those of single parameters, in the order centre, width, value, power and normalization, low and high power, break; shorter arrays are refused. -/
theorem shapes_arrays (x a b c d : ℝ) (rest p : List ℝ) :
    generalizedLorentzian x (a :: b :: c :: d :: rest) = generalizedLorentz1D x a b c d ∧
    smoothbknpo x (a :: b :: c :: d :: rest) = .ok (smoothBrokenPowerLaw x a b c d) ∧
    (p.length < 4 → generalizedLorentzian x p = .error .indexError ∧ smoothbknpo x p = .error .indexError) := by
  refine ⟨rfl, rfl, ?_⟩
  intro hp
  match p, hp with
  | [], _ => exact ⟨rfl, rfl⟩
  | [_], _ => exact ⟨rfl, rfl⟩
  | [_, _], _ => exact ⟨rfl, rfl⟩
  | [_, _, _], _ => exact ⟨rfl, rfl⟩
  | _ :: _ :: _ :: _ :: _, h => simp at h; omega

example : ∃ f : ℝ → ℝ, (∀ x, generalizedLorentz1D x 5 2 3 (3 / 2) = .ok (f x)) ∧ f 5 = 3 ∧ f 6 = 3 / 2 := by
  obtain ⟨f, h1, h2, h3, _⟩ := (lorentzian_spec 5 2 3 (3 / 2) two_pos three_pos).2 (by norm_num)
  exact ⟨f, h1, h2, (h3 6).2 (by norm_num)⟩

end Stingray.SpectralShapes
