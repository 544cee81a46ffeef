import Verif.Model.SincSquare
import Mathlib.Analysis.SpecialFunctions.Trigonometric.Sinc
import Mathlib.Analysis.SpecialFunctions.Trigonometric.Deriv
import Mathlib.Analysis.SpecialFunctions.Trigonometric.Bounds
import Mathlib.Analysis.Complex.Trigonometric
import Mathlib.Analysis.Calculus.Deriv.Inv
import Mathlib.Analysis.Calculus.Deriv.Pow
import Mathlib.Tactic.Linarith
import Mathlib.Tactic.FieldSimp

/-!
C188, C189: the squared sinc model, its derivatives and its fit.
-/

set_option linter.unusedSectionVars false

namespace Stingray.SincSquare

open Stingray

theorem sinc_eq (x : ℝ) : sinc x = Real.sinc x := by
  unfold sinc npSinc
  by_cases h : x = 0
  · simp [h]
  · rw [if_neg (div_ne_zero h Real.pi_ne_zero), mul_div_cancel₀ _ Real.pi_ne_zero, Real.sinc_of_ne_zero h]

/-- The derivative of the sinc. -/
noncomputable def sincDeriv (u : ℝ) : ℝ := (u * Real.cos u - Real.sin u) / u ^ 2

theorem sinc_near_zero (h : ℝ) (hh : |h| ≤ 1) : |Real.sinc h - 1| ≤ h ^ 2 := by
  have key : ∀ h : ℝ, 0 < h → h ≤ 1 → |Real.sinc h - 1| ≤ h ^ 2 := by
    intro h h0 h1
    rw [Real.sinc_of_ne_zero h0.ne', abs_le]
    have a := Real.sin_gt_sub_cube h0
    have b := Real.sin_le h0.le
    constructor
    · have : 1 - h ^ 2 ≤ Real.sin h / h := by
        rw [le_div_iff₀ h0]
        nlinarith [pow_pos h0 3]
      linarith
    · have : Real.sin h / h ≤ 1 := by rw [div_le_one h0]; exact b
      nlinarith [sq_nonneg h]
  rcases lt_trichotomy h 0 with h0 | rfl | h0
  · have := key (-h) (by linarith) (by rw [abs_of_neg h0] at hh; exact hh)
    rw [Real.sinc_neg] at this
    simpa using this
  · simp
  · exact key h h0 (by rw [abs_of_pos h0] at hh; exact hh)

theorem hasDerivAt_sinc (u : ℝ) : HasDerivAt Real.sinc (sincDeriv u) u := by
  by_cases hu : u = 0
  · subst hu
    have e : sincDeriv 0 = 0 := by simp [sincDeriv]
    rw [e, hasDerivAt_iff_isLittleO_nhds_zero]
    have hb : (fun h : ℝ => Real.sinc (0 + h) - Real.sinc 0 - h • (0 : ℝ)) =O[nhds 0] fun h : ℝ => h ^ 2 := by
      apply Asymptotics.IsBigO.of_bound 1
      have hev : ∀ᶠ h : ℝ in nhds 0, |h| < 1 := by
        have := Metric.ball_mem_nhds (0 : ℝ) one_pos
        filter_upwards [this] with h hh
        simpa [Real.dist_eq] using hh
      filter_upwards [hev] with h hh
      have := sinc_near_zero h hh.le
      rw [one_mul, Real.norm_eq_abs, Real.norm_eq_abs, abs_of_nonneg (sq_nonneg h)]
      simpa using this
    exact hb.trans_isLittleO (Asymptotics.isLittleO_pow_id one_lt_two)
  · have h1 : HasDerivAt (fun x => Real.sin x / x) (sincDeriv u) u := by
      have := (Real.hasDerivAt_sin u).div (hasDerivAt_id u) hu
      refine HasDerivAt.congr_deriv (f' := (Real.cos u * id u - Real.sin u * 1) / id u ^ 2) this ?_
      rw [sincDeriv, id, mul_one, mul_comm]
    refine h1.congr_of_eventuallyEq ?_
    filter_upwards [isOpen_ne.mem_nhds hu] with x hx
    exact Real.sinc_of_ne_zero hx

theorem hasDerivAt_square (a u : ℝ) : HasDerivAt (fun u => a * sinc u ^ 2) (2 * a * sinc u * sincDeriv u) u := by
  have h := ((hasDerivAt_sinc u).pow 2).const_mul a
  have e : (fun u => a * sinc u ^ 2) = fun u => a * (Real.sinc ^ 2) u := by
    funext v
    rw [sinc_eq, Pi.pow_apply]
  rw [e, sinc_eq]
  refine h.congr_deriv ?_
  push_cast
  ring

theorem sinc_zero_iff (u : ℝ) (hu : u ≠ 0) : sinc u = 0 ↔ Real.sin u = 0 := by
  rw [sinc_eq, Real.sinc_of_ne_zero hu, div_eq_zero_iff]
  simp [hu]

/-- **C188.** The model lies between zero and the amplitude, is symmetric about the mean, has the amplitude there and vanishes exactly at the whole multiples, other than zero, of pi widths from it. -/
theorem sinc_square_model (x a mean width d : ℝ) (ha : 0 < a) (hw : width ≠ 0) :
    0 ≤ model x a mean width ∧ model x a mean width ≤ a ∧ model mean a mean width = a ∧ model (mean + d) a mean width = model (mean - d) a mean width ∧
    (model x a mean width = 0 ↔ ∃ k : ℤ, k ≠ 0 ∧ x = mean + k * Real.pi * width) := by
  have hb := Real.abs_sinc_le_one ((x - mean) / width)
  have hsq : Real.sinc ((x - mean) / width) ^ 2 ≤ 1 := by
    rw [← sq_abs]
    nlinarith [abs_nonneg (Real.sinc ((x - mean) / width))]
  unfold model
  simp only [sinc_eq]
  refine ⟨by positivity, by nlinarith, by simp, ?_, ?_⟩
  · rw [show (mean + d - mean) / width = -((mean - d - mean) / width) by ring, Real.sinc_neg]
  · rw [mul_eq_zero, or_iff_right ha.ne', sq_eq_zero_iff]
    by_cases hx : x = mean
    · subst hx
      simp only [sub_self, zero_div, Real.sinc_zero, one_ne_zero, false_iff, not_exists, not_and]
      intro k hk h
      have : (k : ℝ) * Real.pi * width ≠ 0 := mul_ne_zero (mul_ne_zero (by exact_mod_cast hk) Real.pi_ne_zero) hw
      exact this (by linarith)
    · have hu : (x - mean) / width ≠ 0 := div_ne_zero (sub_ne_zero.2 hx) hw
      rw [← sinc_eq, sinc_zero_iff _ hu, Real.sin_eq_zero_iff]
      constructor
      · rintro ⟨k, hk⟩
        refine ⟨k, ?_, ?_⟩
        · rintro rfl
          rw [Int.cast_zero, zero_mul] at hk
          exact hu hk.symm
        · rw [hk]; field_simp; ring
      · rintro ⟨k, _, hk⟩
        refine ⟨k, ?_⟩
        rw [hk]; field_simp; ring

theorem true_mean (x a mean width : ℝ) :
    HasDerivAt (fun m => model x a m width) (2 * a * sinc ((x - mean) / width) * sincDeriv ((x - mean) / width) * (-1 / width)) mean := by
  have h1 : HasDerivAt (fun m => (x - m) / width) (-1 / width) mean := ((hasDerivAt_id mean).const_sub x).div_const width
  exact HasDerivAt.comp (h₂ := fun u => a * sinc u ^ 2) mean (hasDerivAt_square a ((x - mean) / width)) h1

theorem true_width (x a mean width : ℝ) (hw : width ≠ 0) :
    HasDerivAt (fun w => model x a mean w) (2 * a * sinc ((x - mean) / width) * sincDeriv ((x - mean) / width) * (-(x - mean) / width ^ 2)) width := by
  have h1 : HasDerivAt (fun w => (x - mean) / w) (-(x - mean) / width ^ 2) width := by
    have := (hasDerivAt_inv hw).const_mul (x - mean)
    refine HasDerivAt.congr_deriv (f := fun w => (x - mean) / w) (f' := (x - mean) * -(width ^ 2)⁻¹) ?_ (by ring)
    simpa only [div_eq_mul_inv] using this
  exact HasDerivAt.comp (h₂ := fun u => a * sinc u ^ 2) width (hasDerivAt_square a ((x - mean) / width)) h1

theorem dX_iff (x a mean width : ℝ) (hx : x ≠ mean) (hw : width ≠ 0) :
    dX x a mean width = 2 * a * sinc ((x - mean) / width) * sincDeriv ((x - mean) / width) ↔
      a = 0 ∨ Real.sin ((x - mean) / width) = 0 ∨ Real.cos ((x - mean) / width) = 0 ∨ x = (x - mean) / width := by
  have hu : (x - mean) / width ≠ 0 := div_ne_zero (sub_ne_zero.2 hx) hw
  rw [dX, if_neg hx]
  set u := (x - mean) / width with hdef
  rw [← sinc_zero_iff u hu, sincDeriv, ← sub_eq_zero]
  have e : 2 * a * sinc u * (x * Real.cos u - Real.sin u) / u ^ 2 - 2 * a * sinc u * ((u * Real.cos u - Real.sin u) / u ^ 2) = 2 * a * sinc u * Real.cos u * (x - u) / u ^ 2 := by ring
  rw [e, div_eq_zero_iff, or_iff_left (pow_ne_zero 2 hu), mul_eq_zero, mul_eq_zero, mul_eq_zero, mul_eq_zero, sub_eq_zero]
  simp only [OfNat.ofNat_ne_zero, false_or, or_assoc]

/-- **C188 (derivatives).** The derivative by the amplitude is right. Those by the mean and by the width are right exactly when the amplitude, the sine or the cosine of `u = (x - mean) / width` is zero or `u = x` (for a zero mean and a width of 1, say, or at `x = mean`, where the sine is zero). -/
theorem sinc_square_deriv (x a mean width : ℝ) (hw : width ≠ 0) :
    HasDerivAt (fun a => model x a mean width) (dAmplitude x mean width) a ∧
    (HasDerivAt (fun m => model x a m width) (dMean x a mean width) mean ↔
      a = 0 ∨ Real.sin ((x - mean) / width) = 0 ∨ Real.cos ((x - mean) / width) = 0 ∨ x = (x - mean) / width) ∧
    (HasDerivAt (fun w => model x a mean w) (dWidth x a mean width) width ↔
      a = 0 ∨ Real.sin ((x - mean) / width) = 0 ∨ Real.cos ((x - mean) / width) = 0 ∨ x = (x - mean) / width) := by
  have tm := true_mean x a mean width
  have tw := true_width x a mean width hw
  refine ⟨?_, ?_, ?_⟩
  · have := (hasDerivAt_id a).mul_const (dAmplitude x mean width)
    rw [one_mul] at this
    exact this
  · by_cases hx : x = mean
    · subst hx
      have e : dMean x a x width = 2 * a * sinc ((x - x) / width) * sincDeriv ((x - x) / width) * (-1 / width) := by simp [dMean, dX, sincDeriv]
      rw [e]
      exact ⟨fun _ => Or.inr (Or.inl (by simp)), fun _ => tm⟩
    · rw [← dX_iff x a mean width hx hw]
      constructor
      · intro h
        exact mul_right_cancel₀ (div_ne_zero (neg_ne_zero.2 one_ne_zero) hw) (h.unique tm)
      · intro h
        rw [dMean, h]
        exact tm
  · by_cases hx : x = mean
    · subst hx
      have e : dWidth x a x width = 2 * a * sinc ((x - x) / width) * sincDeriv ((x - x) / width) * (-(x - x) / width ^ 2) := by simp [dWidth]
      rw [e]
      exact ⟨fun _ => Or.inr (Or.inl (by simp)), fun _ => tw⟩
    · rw [← dX_iff x a mean width hx hw]
      constructor
      · intro h
        exact mul_right_cancel₀ (div_ne_zero (neg_ne_zero.2 (sub_ne_zero.2 hx)) (pow_ne_zero 2 hw)) (h.unique tw)
      · intro h
        rw [dWidth, h]
        exact tw

/-- **C188 (negation).** The derivatives given to the fitter are not those of the model: `x` stands where `(x - mean) / width` should. -/
theorem sinc_square_deriv_wrong : ¬ ∀ x a mean width : ℝ, 0 < a → 0 < width → HasDerivAt (fun m => model x a m width) (dMean x a mean width) mean := by
  intro h
  have h1 := ((sinc_square_deriv (Real.pi / 2) 1 0 2 two_ne_zero).2.1).1 (h (Real.pi / 2) 1 0 2 one_pos two_pos)
  have e : (Real.pi / 2 - 0) / 2 = Real.pi / 4 := by ring
  rw [e, Real.sin_pi_div_four, Real.cos_pi_div_four] at h1
  have hpi := Real.pi_pos
  have hs : Real.sqrt 2 / 2 ≠ 0 := by positivity
  rcases h1 with h1 | h1 | h1 | h1
  · exact one_ne_zero h1
  · exact hs h1
  · exact hs h1
  · linarith

example : HasDerivAt (fun m => model 1 3 m 1) (dMean 1 3 0 1) 0 :=
  ((sinc_square_deriv 1 3 0 1 one_ne_zero).2.1).2 (Or.inr (Or.inr (Or.inr (by norm_num))))

theorem getKey_setKey (d : List (String × Bool)) (k : String) (v : Bool) : getKey (setKey d k v) k = some v := by
  simp [getKey, setKey]

/-- **C189.** After any calls, the width of the squared sinc is kept fixed in a fit without the argument `fixed` exactly when the length of the observation is given now, or was given in an earlier call without this argument. With the argument `fixed`, earlier calls do not matter. The width at the start is that of the length of the observation if this is given. -/
theorem fit_sinc_history {W : Type} (widthOf : W → W) (calls : List (Call W)) (c : Call W) :
    (c.fixed = none → (getKey (fitSinc widthOf (afterCalls widthOf calls) c).1.2 "width" = some true ↔ c.obsLength ≠ none ∨ ∃ b ∈ calls, b.fixed = none ∧ b.obsLength ≠ none)) ∧
    (∀ f, c.fixed = some f → getKey (fitSinc widthOf (afterCalls widthOf calls) c).1.2 "width" = if c.obsLength = none then getKey f "width" else some true) ∧
    (fitSinc widthOf (afterCalls widthOf calls) c).1.1 = (c.obsLength.map widthOf).getD c.width := by
  have hstate : ∀ d, getKey (calls.foldl (fun d c => (fitSinc widthOf d c).2) d) "width" = some true ↔ getKey d "width" = some true ∨ ∃ b ∈ calls, b.fixed = none ∧ b.obsLength ≠ none := by
    induction calls with
    | nil => intro d; simp
    | cons b calls ih =>
      intro d
      rw [List.foldl_cons, ih]
      obtain ⟨w, f, o⟩ := b
      cases f <;> cases o <;> simp [fitSinc, getKey_setKey]
  have h0 := hstate []
  have hnil : getKey [] "width" ≠ some true := by simp [getKey]
  rw [or_iff_right hnil] at h0
  obtain ⟨w, f, o⟩ := c
  refine ⟨?_, ?_, ?_⟩
  · rintro rfl
    cases o with
    | none =>
      simp only [fitSinc, ne_eq, not_true_eq_false, false_or]
      exact h0
    | some t => simp [fitSinc, getKey_setKey]
  · rintro g rfl
    cases o <;> simp [fitSinc, getKey_setKey]
  · cases f <;> cases o <;> simp [fitSinc]

/-- **C189 (negation).** The same call does not always start the same fit: after a fit with the length of the observation, the width is also kept fixed without one. -/
theorem fit_sinc_repeat : ¬ ∀ (widthOf : Nat → Nat) (calls : List (Call Nat)) (c : Call Nat), (fitSinc widthOf (afterCalls widthOf calls) c).1 = (fitSinc widthOf [] c).1 := by
  intro h
  have := h id [⟨1, none, some 5⟩] ⟨1, none, none⟩
  revert this
  decide

example : (fitSinc (· + 7) (afterCalls (· + 7) [⟨1, none, some 5⟩]) ⟨1, none, none⟩).1 = (1, [("width", true)]) := by decide

end Stingray.SincSquare
