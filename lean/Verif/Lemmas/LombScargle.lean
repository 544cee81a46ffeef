import Verif.Model.LombScargle
import Verif.Props.Spectroscopy
import Mathlib.Algebra.Field.GeomSum
import Mathlib.Tactic

/-! Lemmas on the Lomb-Scargle transform. -/

namespace Stingray.LombScargle

open Stingray

set_option linter.unusedSectionVars false

theorem sum_map_congr {α : Type} {β : Type} [AddMonoid β] {d : List α} {f g : α → β} (h : ∀ p ∈ d, f p = g p) :
    (d.map f).sum = (d.map g).sum := by
  rw [List.map_congr_left h]

/-- the angle found by `arctan2` makes the sines and cosines orthogonal -/
theorem arctan2_balance (s c : ℝ) : s * Real.cos (arctan2 s c) = c * Real.sin (arctan2 s c) := by
  have h1 := Complex.norm_mul_cos_arg ⟨c, s⟩
  have h2 := Complex.norm_mul_sin_arg ⟨c, s⟩
  simp only at h1 h2
  unfold arctan2
  calc s * Real.cos (Complex.arg ⟨c, s⟩) = ‖(⟨c, s⟩ : ℂ)‖ * Real.sin (Complex.arg ⟨c, s⟩) * Real.cos (Complex.arg ⟨c, s⟩) := by rw [h2]
    _ = ‖(⟨c, s⟩ : ℂ)‖ * Real.cos (Complex.arg ⟨c, s⟩) * Real.sin (Complex.arg ⟨c, s⟩) := by ring
    _ = _ := by rw [h1]

theorem sum_cos_sin (d : List (ℝ × ℝ)) (w τ : ℝ) :
    (d.map fun p => Real.cos (w * p.1 - τ) * Real.sin (w * p.1 - τ)).sum =
      1 / 2 * ((d.map fun p => Real.sin (2 * w * p.1)).sum * Real.cos (2 * τ) - (d.map fun p => Real.cos (2 * w * p.1)).sum * Real.sin (2 * τ)) := by
  induction d with
  | nil => simp
  | cons p d ih =>
    simp only [List.map_cons, List.sum_cons]
    rw [ih]
    have : Real.cos (w * p.1 - τ) * Real.sin (w * p.1 - τ) = 1 / 2 * (Real.sin (2 * w * p.1) * Real.cos (2 * τ) - Real.cos (2 * w * p.1) * Real.sin (2 * τ)) := by
      rw [← Real.sin_sub]
      have h := Real.sin_two_mul (w * p.1 - τ)
      have e : 2 * w * p.1 - 2 * τ = 2 * (w * p.1 - τ) := by ring
      rw [e, h]; ring
    rw [this]; ring

theorem orthogonal (d : List (ℝ × ℝ)) (w : ℝ) :
    (d.map fun p => Real.cos (w * p.1 - 1 / 2 * arctan2 (d.map fun p => Real.sin (2 * w * p.1)).sum (d.map fun p => Real.cos (2 * w * p.1)).sum) *
      Real.sin (w * p.1 - 1 / 2 * arctan2 (d.map fun p => Real.sin (2 * w * p.1)).sum (d.map fun p => Real.cos (2 * w * p.1)).sum)).sum = 0 := by
  rw [sum_cos_sin]
  have e : ∀ x : ℝ, 2 * (1 / 2 * x) = x := fun x => by ring
  rw [e, arctan2_balance]
  ring

/-- the sum of the squared residuals, expanded -/
theorem residuals (d : List (ℝ × ℝ)) (y c s : ℝ × ℝ → ℝ) (α β : ℝ) (h0 : (d.map fun p => c p * s p).sum = 0) :
    (d.map fun p => (y p - (α * c p + β * s p)) ^ 2).sum =
      (d.map fun p => y p ^ 2).sum - 2 * α * (d.map fun p => y p * c p).sum - 2 * β * (d.map fun p => y p * s p).sum +
        α ^ 2 * (d.map fun p => c p ^ 2).sum + β ^ 2 * (d.map fun p => s p ^ 2).sum := by
  have key : (d.map fun p => (y p - (α * c p + β * s p)) ^ 2).sum =
      (d.map fun p => y p ^ 2).sum - 2 * α * (d.map fun p => y p * c p).sum - 2 * β * (d.map fun p => y p * s p).sum +
        α ^ 2 * (d.map fun p => c p ^ 2).sum + β ^ 2 * (d.map fun p => s p ^ 2).sum + 2 * α * β * (d.map fun p => c p * s p).sum := by
    clear h0
    induction d with
    | nil => simp
    | cons p d ih => simp only [List.map_cons, List.sum_cons]; rw [ih]; ring
  rw [key, h0]; ring

theorem sum_sq_nonneg (d : List (ℝ × ℝ)) (g : ℝ × ℝ → ℝ) : 0 ≤ (d.map fun p => g p ^ 2).sum := by
  apply List.sum_nonneg
  intro x hx
  obtain ⟨p, _, rfl⟩ := List.mem_map.1 hx
  positivity

theorem exp_neg_I (x : ℝ) : Complex.exp (-Complex.I * x) = Complex.exp ((-x : ℝ) * Complex.I) := by
  congr 1; push_cast; ring

theorem norm_exp_neg_I (x : ℝ) : ‖Complex.exp (-Complex.I * x)‖ = 1 := by
  rw [exp_neg_I]; exact Complex.norm_exp_ofReal_mul_I _

theorem norm_mk_sq (a b : ℝ) : ‖(⟨a, b⟩ : ℂ)‖ ^ 2 = a ^ 2 + b ^ 2 := by
  rw [← Complex.normSq_eq_norm_sq, Complex.normSq_mk]; ring

theorem w_ne {f : ℝ} (hf : f ≠ 0) : f * 2 * Real.pi ≠ 0 := by
  have := Real.pi_ne_zero
  positivity

/-- removing the mean undoes an affine change of the counts -/
theorem affine_sub_mean (d : List (ℝ × ℝ)) (c k : ℝ) (p : ℝ × ℝ) (hp : p ∈ d) :
    c * p.2 + k - mean (d.map fun q => (q.1, c * q.2 + k)) = c * (p.2 - mean d) := by
  have hd : (d.length : ℝ) ≠ 0 := by
    have := List.length_pos_of_mem hp
    positivity
  have hs : ((d.map fun q => (q.1, c * q.2 + k)).map fun p => p.2).sum = c * (d.map fun p => p.2).sum + d.length * k := by
    clear hd hp
    induction d with
    | nil => simp
    | cons q d ih => simp only [List.map_cons, List.sum_cons, List.length_cons] at ih ⊢; rw [ih]; push_cast; ring
  unfold mean
  rw [hs, List.length_map]
  field_simp
  ring

theorem mean_shift (d : List (ℝ × ℝ)) (s : ℝ) : mean (d.map fun q => (q.1 + s, q.2)) = mean d := by
  unfold mean
  rw [List.map_map, List.length_map]
  rfl

/-- sums of exponentials -/
theorem expSum (d : List (ℝ × ℝ)) (g : ℝ × ℝ → ℝ) (a : ℝ × ℝ → ℝ) :
    (d.map fun p => ((g p : ℝ) : ℂ) * Complex.exp (Complex.I * (a p : ℝ))).sum =
      ⟨(d.map fun p => g p * Real.cos (a p)).sum, (d.map fun p => g p * Real.sin (a p)).sum⟩ := by
  induction d with
  | nil => simp [Complex.ext_iff]
  | cons p d ih =>
    simp only [List.map_cons, List.sum_cons]
    rw [ih]
    have : Complex.exp (Complex.I * (a p : ℝ)) = ⟨Real.cos (a p), Real.sin (a p)⟩ := by
      rw [mul_comm, Complex.exp_mul_I]
      apply Complex.ext <;> simp [Complex.cos_ofReal_re, Complex.sin_ofReal_re, Complex.cos_ofReal_im, Complex.sin_ofReal_im]
    rw [this]
    apply Complex.ext <;> simp

end Stingray.LombScargle
