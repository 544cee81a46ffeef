import Verif.Spec.Dft
import Verif.Spec.Spectra
import Mathlib.Analysis.SpecialFunctions.Complex.Circle
import Mathlib.Algebra.BigOperators.Intervals
import Mathlib.Algebra.Field.GeomSum

/-!
Parseval's identity for the discrete Fourier transform of real samples.
-/

namespace Stingray.Fourier

open Stingray.Spec Finset

theorem list_sum_range {α : Type} [AddCommMonoid α] (n : Nat) (f : Nat → α) :
    ((List.range n).map f).sum = ∑ k ∈ Finset.range n, f k := by
  induction n with
  | zero => simp
  | succ n ih => rw [List.range_succ, List.map_append, List.sum_append, ih, Finset.sum_range_succ]; simp

theorem list_sum_getD {α : Type} [AddCommMonoid α] {β : Type} (l : List β) (d : β) (f : β → α) :
    (l.map f).sum = ∑ k ∈ Finset.range l.length, f (l.getD k d) := by
  rw [← list_sum_range]
  congr 1
  apply List.ext_getElem
  · simp
  · intro i h1 h2
    simp only [List.length_map] at h1
    simp [List.getD_eq_getElem?_getD, h1]

/-- orthogonality of the exponentials, real part -/
theorem sum_cos (n : Nat) (hn : 0 < n) (m : ℤ) (hm : ¬ (n : ℤ) ∣ m) :
    ∑ k ∈ Finset.range n, Real.cos (2 * Real.pi * m * k / n) = 0 := by
  have hn' : (n : ℂ) ≠ 0 := by exact_mod_cast hn.ne'
  set z : ℂ := Complex.exp (2 * Real.pi * Complex.I * m / n) with hz
  have hzn : z ^ n = 1 := by
    rw [hz, ← Complex.exp_nat_mul, Complex.exp_eq_one_iff]
    exact ⟨m, by field_simp⟩
  have hz1 : z ≠ 1 := by
    intro h
    rw [hz, Complex.exp_eq_one_iff] at h
    obtain ⟨q, hq⟩ := h
    apply hm
    refine ⟨q, ?_⟩
    have hpi : (2 * (Real.pi : ℂ) * Complex.I) ≠ 0 := by
      simp [Real.pi_ne_zero]
    have : (m : ℂ) = n * q := by
      have h2 : 2 * (Real.pi : ℂ) * Complex.I * m = 2 * (Real.pi : ℂ) * Complex.I * (n * q) := by
        rw [div_eq_iff hn'] at hq
        rw [hq]; ring
      exact mul_left_cancel₀ hpi h2
    exact_mod_cast this
  have hgeom : ∑ k ∈ Finset.range n, z ^ k = 0 := by
    have := geom_sum_eq hz1 n
    rw [this, hzn, sub_self, zero_div]
  have hre := congrArg Complex.re hgeom
  rw [Complex.re_sum, Complex.zero_re] at hre
  rw [← hre]
  apply Finset.sum_congr rfl
  intro k _
  rw [hz, ← Complex.exp_nat_mul]
  have : (k : ℂ) * (2 * Real.pi * Complex.I * m / n) = ((2 * Real.pi * m * k / n : ℝ) : ℂ) * Complex.I := by
    push_cast
    field_simp
  rw [this, Complex.exp_ofReal_mul_I_re]

/-- `|X_k|²` as a function of the samples -/
noncomputable def powerAt (n : Nat) (x : Nat → ℝ) (k : Nat) : ℝ :=
  (∑ j ∈ Finset.range n, x j * Real.cos (2 * Real.pi * (j * k : Nat) / n)) ^ 2 +
  (∑ j ∈ Finset.range n, x j * Real.sin (2 * Real.pi * (j * k : Nat) / n)) ^ 2

theorem powerAt_eq (n : Nat) (x : Nat → ℝ) (k : Nat) :
    powerAt n x k = ∑ j ∈ Finset.range n, ∑ l ∈ Finset.range n,
      x j * x l * Real.cos (2 * Real.pi * ((j : ℤ) - (l : ℤ) : ℤ) * k / n) := by
  unfold powerAt
  rw [sq, sq, Finset.sum_mul_sum, Finset.sum_mul_sum, ← Finset.sum_add_distrib]
  apply Finset.sum_congr rfl
  intro j _
  rw [← Finset.sum_add_distrib]
  apply Finset.sum_congr rfl
  intro l _
  have : 2 * Real.pi * ((j : ℤ) - (l : ℤ) : ℤ) * k / n =
      2 * Real.pi * (j * k : Nat) / n - 2 * Real.pi * (l * k : Nat) / n := by
    push_cast
    ring
  rw [this, Real.cos_sub]
  ring

/-- Parseval's identity. -/
theorem parseval (n : Nat) (hn : 0 < n) (x : Nat → ℝ) :
    ∑ k ∈ Finset.range n, powerAt n x k = n * ∑ j ∈ Finset.range n, x j ^ 2 := by
  simp only [powerAt_eq]
  rw [Finset.sum_comm, Finset.mul_sum]
  apply Finset.sum_congr rfl
  intro j hj
  rw [Finset.sum_comm, Finset.sum_eq_single j]
  · have : ∀ k ∈ Finset.range n, x j * x j * Real.cos (2 * Real.pi * ((j : ℤ) - (j : ℤ) : ℤ) * k / n) = x j ^ 2 := by
      intro k _
      simp
      ring
    rw [Finset.sum_congr rfl this]
    simp
  · intro l hl hlj
    rw [← Finset.mul_sum, sum_cos n hn, mul_zero]
    rintro ⟨q, hq⟩
    rw [Finset.mem_range] at hj hl
    have hq0 : q = 0 := by
      by_contra hne
      have h1 : |(j : ℤ) - l| < n := by
        rw [abs_lt]; constructor <;> omega
      rw [hq, abs_mul] at h1
      have h2 : 1 ≤ |q| := Int.one_le_abs hne
      have h3 : |(n : ℤ)| = n := abs_of_nonneg (by omega)
      rw [h3] at h1
      nlinarith
    rw [hq0] at hq
    omega
  · intro h
    exact absurd hj h

theorem powerAt_zero (n : Nat) (x : Nat → ℝ) : powerAt n x 0 = (∑ j ∈ Finset.range n, x j) ^ 2 := by
  simp [powerAt]

/-- the negative frequencies mirror the positive ones -/
theorem powerAt_symm (n : Nat) (hn : 0 < n) (x : Nat → ℝ) (k : Nat) (hk : k ≤ n) :
    powerAt n x (n - k) = powerAt n x k := by
  have hn' : (n : ℝ) ≠ 0 := by exact_mod_cast hn.ne'
  have e : ∀ j : Nat, 2 * Real.pi * (j * (n - k) : Nat) / n = (j : ℕ) * (2 * Real.pi) - 2 * Real.pi * (j * k : Nat) / n := by
    intro j
    push_cast [Nat.cast_sub hk]
    field_simp
  unfold powerAt
  simp only [e, Real.cos_nat_mul_two_pi_sub, Real.sin_nat_mul_two_pi_sub]
  rw [show (∑ j ∈ Finset.range n, x j * -Real.sin (2 * Real.pi * (j * k : Nat) / n)) =
    -∑ j ∈ Finset.range n, x j * Real.sin (2 * Real.pi * (j * k : Nat) / n) by
      rw [← Finset.sum_neg_distrib]; apply Finset.sum_congr rfl; intros; ring]
  ring

/-- sum over the positive frequencies, odd number of samples -/
theorem half_sum_odd (m : Nat) (x : Nat → ℝ) :
    2 * ∑ i ∈ Finset.range m, powerAt (2 * m + 1) x (i + 1) =
    (2 * m + 1 : Nat) * ∑ j ∈ Finset.range (2 * m + 1), x j ^ 2 - (∑ j ∈ Finset.range (2 * m + 1), x j) ^ 2 := by
  have hp := parseval (2 * m + 1) (by omega) x
  rw [Finset.sum_range_succ'] at hp
  have hsplit : ∑ i ∈ Finset.range (2 * m), powerAt (2 * m + 1) x (i + 1) =
      ∑ i ∈ Finset.range m, powerAt (2 * m + 1) x (i + 1) + ∑ i ∈ Finset.range m, powerAt (2 * m + 1) x (m + i + 1) := by
    rw [two_mul, Finset.sum_range_add]
  have hrefl : ∑ i ∈ Finset.range m, powerAt (2 * m + 1) x (m + i + 1) =
      ∑ i ∈ Finset.range m, powerAt (2 * m + 1) x (i + 1) := by
    rw [← Finset.sum_range_reflect]
    apply Finset.sum_congr rfl
    intro i hi
    rw [Finset.mem_range] at hi
    rw [← powerAt_symm (2 * m + 1) (by omega) x (i + 1) (by omega)]
    congr 1
    omega
  rw [hsplit, hrefl, powerAt_zero] at hp
  linarith

/-- sum over the positive frequencies, even number of samples -/
theorem half_sum_even (m : Nat) (hm : 0 < m) (x : Nat → ℝ) :
    2 * ∑ i ∈ Finset.range (m - 1), powerAt (2 * m) x (i + 1) + powerAt (2 * m) x m =
    (2 * m : Nat) * ∑ j ∈ Finset.range (2 * m), x j ^ 2 - (∑ j ∈ Finset.range (2 * m), x j) ^ 2 := by
  obtain ⟨m, rfl⟩ : ∃ k, m = k + 1 := ⟨m - 1, by omega⟩
  have hp := parseval (2 * (m + 1)) (by omega) x
  have e : ∑ k ∈ Finset.range (2 * (m + 1)), powerAt (2 * (m + 1)) x k =
      ∑ i ∈ Finset.range m, powerAt (2 * (m + 1)) x (i + 1) + powerAt (2 * (m + 1)) x (m + 1) +
      ∑ i ∈ Finset.range m, powerAt (2 * (m + 1)) x (m + 1 + i + 1) + powerAt (2 * (m + 1)) x 0 := by
    rw [show 2 * (m + 1) = (m + 1 + m) + 1 by ring, Finset.sum_range_succ', Finset.sum_range_add,
      Finset.sum_range_succ]
  have hrefl : ∑ i ∈ Finset.range m, powerAt (2 * (m + 1)) x (m + 1 + i + 1) =
      ∑ i ∈ Finset.range m, powerAt (2 * (m + 1)) x (i + 1) := by
    rw [← Finset.sum_range_reflect]
    apply Finset.sum_congr rfl
    intro i hi
    rw [Finset.mem_range] at hi
    rw [← powerAt_symm (2 * (m + 1)) (by omega) x (i + 1) (by omega)]
    congr 1
    omega
  rw [e, hrefl, powerAt_zero] at hp
  simp only [Nat.add_sub_cancel]
  linarith

theorem dft_length (x : List ℝ) : (dft x).length = x.length := by simp [dft]

theorem fourierPower_dft (x : List ℝ) (k : Nat) (hk : k < x.length) :
    fourierPower dft x k = powerAt x.length (fun j => x.getD j 0) k := by
  unfold fourierPower
  have : (dft x).getD k ⟨0, 0⟩ =
    ⟨((List.range x.length).map fun j => x.getD j 0 * Real.cos (2 * Real.pi * (j * k : Nat) / x.length)).sum,
     -((List.range x.length).map fun j => x.getD j 0 * Real.sin (2 * Real.pi * (j * k : Nat) / x.length)).sum⟩ := by
    unfold dft
    simp [List.getD_eq_getElem?_getD, hk]
  rw [this]
  simp only
  rw [list_sum_range, list_sum_range, neg_sq]
  rfl

/-- variance from the sums -/
theorem variance_eq (x : List ℝ) (hx : x ≠ []) :
    (x.length : ℝ) ^ 2 * variance x = x.length * ∑ j ∈ Finset.range x.length, (x.getD j 0) ^ 2 -
      (∑ j ∈ Finset.range x.length, x.getD j 0) ^ 2 := by
  have hn : (x.length : ℝ) ≠ 0 := by
    have := List.length_pos_of_ne_nil hx
    exact_mod_cast this.ne'
  have hs : x.sum = ∑ j ∈ Finset.range x.length, x.getD j 0 := by
    have := list_sum_getD x 0 id
    simpa using this
  unfold variance
  rw [list_sum_getD x 0]
  rw [show (∑ k ∈ Finset.range x.length, (x.getD k 0 - x.sum / x.length) ^ 2) =
    ∑ k ∈ Finset.range x.length, ((x.getD k 0) ^ 2 - 2 * (x.sum / x.length) * x.getD k 0 + (x.sum / x.length) ^ 2) by
      apply Finset.sum_congr rfl; intros; ring]
  rw [Finset.sum_add_distrib, Finset.sum_sub_distrib, ← Finset.mul_sum, ← hs]
  simp only [Finset.sum_const, Finset.card_range, nsmul_eq_mul]
  field_simp
  ring

end Stingray.Fourier
