import Verif.Model.Timmer
import Verif.Lemmas.Parseval
import Mathlib.Algebra.BigOperators.Field

/-!
The inverse transform of a half spectrum, and its transform.
-/

set_option linter.unusedSectionVars false

namespace Stingray.Timmer

open Stingray Stingray.Spec Stingray.Fourier

theorem sum_sin (n : Nat) (hn : 0 < n) (m : ℤ) : ∑ k ∈ Finset.range n, Real.sin (2 * Real.pi * m * k / n) = 0 := by
  have hn' : (n : ℂ) ≠ 0 := by exact_mod_cast hn.ne'
  set z : ℂ := Complex.exp (2 * Real.pi * Complex.I * m / n) with hz
  have hzk : ∀ k : Nat, (z ^ k).im = Real.sin (2 * Real.pi * m * k / n) := by
    intro k
    rw [hz, ← Complex.exp_nat_mul]
    have : (k : ℂ) * (2 * Real.pi * Complex.I * m / n) = ((2 * Real.pi * m * k / n : ℝ) : ℂ) * Complex.I := by
      push_cast
      field_simp
    rw [this, Complex.exp_ofReal_mul_I_im]
  by_cases h1 : z = 1
  · apply Finset.sum_eq_zero
    intro k _
    rw [← hzk, h1]
    simp
  · have hzn : z ^ n = 1 := by
      rw [hz, ← Complex.exp_nat_mul, Complex.exp_eq_one_iff]
      exact ⟨m, by field_simp⟩
    have hgeom : ∑ k ∈ Finset.range n, z ^ k = 0 := by
      rw [geom_sum_eq h1 n, hzn, sub_self, zero_div]
    have him := congrArg Complex.im hgeom
    rw [Complex.im_sum, Complex.zero_im] at him
    rw [← him]
    exact Finset.sum_congr rfl fun k _ => (hzk k).symm

theorem sum_cos_all (n : Nat) (hn : 0 < n) (m : ℤ) :
    ∑ k ∈ Finset.range n, Real.cos (2 * Real.pi * m * k / n) = if (n : ℤ) ∣ m then (n : ℝ) else 0 := by
  split_ifs with h
  · obtain ⟨q, rfl⟩ := h
    have hn' : (n : ℝ) ≠ 0 := by exact_mod_cast hn.ne'
    have : ∀ k ∈ Finset.range n, Real.cos (2 * Real.pi * ((n : ℤ) * q : ℤ) * k / n) = 1 := by
      intro k _
      have e : 2 * Real.pi * ((n : ℤ) * q : ℤ) * k / n = ((q * k : ℤ) : ℝ) * (2 * Real.pi) := by
        push_cast
        field_simp
      rw [e, Real.cos_int_mul_two_pi]
    rw [Finset.sum_congr rfl this]
    simp
  · exact sum_cos n hn m h

/-- the angle of sample `j` at frequency `k` -/
noncomputable def ang (n j k : Nat) : ℝ := 2 * Real.pi * (j * k : Nat) / n

theorem cos_cos (n : Nat) (hn : 0 < n) (k m : Nat) (hk : 2 * k ≤ n) (hm : 2 * m ≤ n) :
    ∑ j ∈ Finset.range n, Real.cos (ang n j k) * Real.cos (ang n j m) = if k = m then (n : ℝ) / multiplicity n m else 0 := by
  have e : ∀ j ∈ Finset.range n, Real.cos (ang n j k) * Real.cos (ang n j m) =
      1 / 2 * Real.cos (2 * Real.pi * ((k : ℤ) - m : ℤ) * j / n) + 1 / 2 * Real.cos (2 * Real.pi * ((k : ℤ) + m : ℤ) * j / n) := by
    intro j _
    have e1 : 2 * Real.pi * ((k : ℤ) - m : ℤ) * j / n = ang n j k - ang n j m := by simp only [ang]; push_cast; ring
    have e2 : 2 * Real.pi * ((k : ℤ) + m : ℤ) * j / n = ang n j k + ang n j m := by simp only [ang]; push_cast; ring
    rw [e1, e2, Real.cos_sub, Real.cos_add]
    ring
  rw [Finset.sum_congr rfl e, Finset.sum_add_distrib, ← Finset.mul_sum, ← Finset.mul_sum, sum_cos_all n hn, sum_cos_all n hn]
  by_cases hkm : k = m
  · subst hkm
    rw [if_pos (by simp), if_pos rfl, multiplicity]
    by_cases h : k = 0 ∨ 2 * k = n
    · rw [if_pos h, if_pos]
      · ring
      · rcases h with h | h
        · subst h; simp
        · exact ⟨1, by omega⟩
    · rw [if_neg h, if_neg]
      · ring
      · rintro ⟨q, hq⟩
        have : 0 < q := by
          by_contra h'
          have : (n : ℤ) * q ≤ 0 := mul_nonpos_of_nonneg_of_nonpos (by omega) (by omega)
          omega
        have : (n : ℤ) * 1 ≤ n * q := mul_le_mul_of_nonneg_left (by omega) (by omega)
        omega
  · rw [if_neg hkm, if_neg, if_neg]
    · ring
    · rintro ⟨q, hq⟩
      have : 0 < q := by
        by_contra h'
        have : (n : ℤ) * q ≤ 0 := mul_nonpos_of_nonneg_of_nonpos (by omega) (by omega)
        omega
      have : (n : ℤ) * 1 ≤ n * q := mul_le_mul_of_nonneg_left (by omega) (by omega)
      omega
    · rintro ⟨q, hq⟩
      rcases lt_trichotomy q 0 with h | h | h
      · have : (n : ℤ) * q ≤ n * (-1) := mul_le_mul_of_nonneg_left (by omega) (by omega)
        omega
      · subst h; omega
      · have : (n : ℤ) * 1 ≤ n * q := mul_le_mul_of_nonneg_left (by omega) (by omega)
        omega

theorem sin_sin (n : Nat) (hn : 0 < n) (k m : Nat) (hk : 2 * k ≤ n) (hm : 2 * m < n) (hm0 : 0 < m) :
    ∑ j ∈ Finset.range n, Real.sin (ang n j k) * Real.sin (ang n j m) = if k = m then (n : ℝ) / 2 else 0 := by
  have e : ∀ j ∈ Finset.range n, Real.sin (ang n j k) * Real.sin (ang n j m) =
      1 / 2 * Real.cos (2 * Real.pi * ((k : ℤ) - m : ℤ) * j / n) - 1 / 2 * Real.cos (2 * Real.pi * ((k : ℤ) + m : ℤ) * j / n) := by
    intro j _
    have e1 : 2 * Real.pi * ((k : ℤ) - m : ℤ) * j / n = ang n j k - ang n j m := by simp only [ang]; push_cast; ring
    have e2 : 2 * Real.pi * ((k : ℤ) + m : ℤ) * j / n = ang n j k + ang n j m := by simp only [ang]; push_cast; ring
    rw [e1, e2, Real.cos_sub, Real.cos_add]
    ring
  rw [Finset.sum_congr rfl e, Finset.sum_sub_distrib, ← Finset.mul_sum, ← Finset.mul_sum, sum_cos_all n hn, sum_cos_all n hn]
  have h2 : ¬ (n : ℤ) ∣ ((k : ℤ) + m) := by
    rintro ⟨q, hq⟩
    have : 0 < q := by
      by_contra h'
      have : (n : ℤ) * q ≤ 0 := mul_nonpos_of_nonneg_of_nonpos (by omega) (by omega)
      omega
    have : (n : ℤ) * 1 ≤ n * q := mul_le_mul_of_nonneg_left (by omega) (by omega)
    omega
  rw [if_neg h2]
  by_cases hkm : k = m
  · subst hkm
    rw [if_pos (by simp), if_pos rfl]
    ring
  · rw [if_neg hkm, if_neg]
    · ring
    · rintro ⟨q, hq⟩
      rcases lt_trichotomy q 0 with h | h | h
      · have : (n : ℤ) * q ≤ n * (-1) := mul_le_mul_of_nonneg_left (by omega) (by omega)
        omega
      · subst h; omega
      · have : (n : ℤ) * 1 ≤ n * q := mul_le_mul_of_nonneg_left (by omega) (by omega)
        omega

theorem sin_cos (n : Nat) (hn : 0 < n) (k m : Nat) : ∑ j ∈ Finset.range n, Real.sin (ang n j k) * Real.cos (ang n j m) = 0 := by
  have e : ∀ j ∈ Finset.range n, Real.sin (ang n j k) * Real.cos (ang n j m) =
      1 / 2 * Real.sin (2 * Real.pi * ((k : ℤ) - m : ℤ) * j / n) + 1 / 2 * Real.sin (2 * Real.pi * ((k : ℤ) + m : ℤ) * j / n) := by
    intro j _
    have e1 : 2 * Real.pi * ((k : ℤ) - m : ℤ) * j / n = ang n j k - ang n j m := by simp only [ang]; push_cast; ring
    have e2 : 2 * Real.pi * ((k : ℤ) + m : ℤ) * j / n = ang n j k + ang n j m := by simp only [ang]; push_cast; ring
    rw [e1, e2, Real.sin_sub, Real.sin_add]
    ring
  rw [Finset.sum_congr rfl e, Finset.sum_add_distrib, ← Finset.mul_sum, ← Finset.mul_sum, sum_sin n hn, sum_sin n hn]
  ring

theorem irfft_length (f : List (ℝ × ℝ)) (n : Nat) : (irfft f n).length = n := by simp [irfft]

theorem irfft_getD (f : List (ℝ × ℝ)) (n j : Nat) (hj : j < n) :
    (irfft f n).getD j 0 = (∑ k ∈ Finset.range (n / 2 + 1), multiplicity n k * ((f.getD k (0, 0)).1 * Real.cos (ang n j k) - (f.getD k (0, 0)).2 * Real.sin (ang n j k))) / n := by
  rw [List.getD_eq_getElem?_getD, irfft, List.getElem?_map, List.getElem?_range hj]
  rw [Option.map_some, Option.getD_some, list_sum_range]
  rfl

theorem multiplicity_ne (n k : Nat) : multiplicity n k ≠ 0 := by
  rw [multiplicity]
  split_ifs <;> norm_num

theorem irfft_cos (f : List (ℝ × ℝ)) (n : Nat) (hn : 0 < n) (m : Nat) (hm : 2 * m ≤ n) :
    ∑ j ∈ Finset.range n, (irfft f n).getD j 0 * Real.cos (ang n j m) = (f.getD m (0, 0)).1 := by
  have hn' : (n : ℝ) ≠ 0 := by exact_mod_cast hn.ne'
  have e : ∀ j ∈ Finset.range n, (irfft f n).getD j 0 * Real.cos (ang n j m) =
      ∑ k ∈ Finset.range (n / 2 + 1), (multiplicity n k * (f.getD k (0, 0)).1 / n * (Real.cos (ang n j k) * Real.cos (ang n j m)) -
        multiplicity n k * (f.getD k (0, 0)).2 / n * (Real.sin (ang n j k) * Real.cos (ang n j m))) := by
    intro j hj
    rw [irfft_getD f n j (Finset.mem_range.1 hj), Finset.sum_div, Finset.sum_mul]
    apply Finset.sum_congr rfl
    intro k _
    ring
  rw [Finset.sum_congr rfl e, Finset.sum_comm]
  have e2 : ∀ k ∈ Finset.range (n / 2 + 1), ∑ j ∈ Finset.range n, (multiplicity n k * (f.getD k (0, 0)).1 / n * (Real.cos (ang n j k) * Real.cos (ang n j m)) -
        multiplicity n k * (f.getD k (0, 0)).2 / n * (Real.sin (ang n j k) * Real.cos (ang n j m))) = if k = m then (f.getD m (0, 0)).1 else 0 := by
    intro k hk
    rw [Finset.sum_sub_distrib, ← Finset.mul_sum, ← Finset.mul_sum, sin_cos n hn, cos_cos n hn k m (by have := Finset.mem_range.1 hk; omega) hm]
    split_ifs with h
    · subst h
      have := multiplicity_ne n k
      field_simp
      ring
    · ring
  rw [Finset.sum_congr rfl e2, Finset.sum_ite_eq' , if_pos (Finset.mem_range.2 (by omega))]

theorem irfft_sin (f : List (ℝ × ℝ)) (n : Nat) (hn : 0 < n) (m : Nat) (hm : 2 * m < n) (hm0 : 0 < m) :
    ∑ j ∈ Finset.range n, (irfft f n).getD j 0 * Real.sin (ang n j m) = -(f.getD m (0, 0)).2 := by
  have hn' : (n : ℝ) ≠ 0 := by exact_mod_cast hn.ne'
  have e : ∀ j ∈ Finset.range n, (irfft f n).getD j 0 * Real.sin (ang n j m) =
      ∑ k ∈ Finset.range (n / 2 + 1), (multiplicity n k * (f.getD k (0, 0)).1 / n * (Real.sin (ang n j m) * Real.cos (ang n j k)) -
        multiplicity n k * (f.getD k (0, 0)).2 / n * (Real.sin (ang n j k) * Real.sin (ang n j m))) := by
    intro j hj
    rw [irfft_getD f n j (Finset.mem_range.1 hj), Finset.sum_div, Finset.sum_mul]
    apply Finset.sum_congr rfl
    intro k _
    ring
  rw [Finset.sum_congr rfl e, Finset.sum_comm]
  have e2 : ∀ k ∈ Finset.range (n / 2 + 1), ∑ j ∈ Finset.range n, (multiplicity n k * (f.getD k (0, 0)).1 / n * (Real.sin (ang n j m) * Real.cos (ang n j k)) -
        multiplicity n k * (f.getD k (0, 0)).2 / n * (Real.sin (ang n j k) * Real.sin (ang n j m))) = if k = m then -(f.getD m (0, 0)).2 else 0 := by
    intro k hk
    rw [Finset.sum_sub_distrib, ← Finset.mul_sum, ← Finset.mul_sum, sin_cos n hn, sin_sin n hn k m (by have := Finset.mem_range.1 hk; omega) hm hm0]
    split_ifs with h
    · subst h
      rw [multiplicity, if_neg (by omega)]
      field_simp
      ring
    · ring
  rw [Finset.sum_congr rfl e2, Finset.sum_ite_eq', if_pos (Finset.mem_range.2 (by omega))]

theorem sum_ang_cos (n : Nat) (hn : 0 < n) (m : Nat) (hm : 2 * m ≤ n) (hm0 : 0 < m) : ∑ j ∈ Finset.range n, Real.cos (ang n j m) = 0 := by
  have := cos_cos n hn 0 m (by omega) hm
  rw [if_neg (by omega)] at this
  rw [← this]
  apply Finset.sum_congr rfl
  intro j _
  simp [ang]

theorem sum_ang_sin (n : Nat) (hn : 0 < n) (m : Nat) : ∑ j ∈ Finset.range n, Real.sin (ang n j m) = 0 := by
  have := sin_cos n hn m 0
  rw [← this]
  apply Finset.sum_congr rfl
  intro j _
  simp [ang]

theorem ang_sin_nyquist (n j m : Nat) (hn : 0 < n) (h : 2 * m = n) : Real.sin (ang n j m) = 0 := by
  have e : ang n j m = (j : ℝ) * Real.pi := by
    have hm : (m : ℝ) ≠ 0 := by
      have : m ≠ 0 := by omega
      exact_mod_cast this
    rw [ang, ← h]
    push_cast
    field_simp
  rw [e, Real.sin_nat_mul_pi]

theorem dft_getD (x : List ℝ) (k : Nat) (hk : k < x.length) :
    (dft x).getD k ⟨0, 0⟩ = ⟨∑ j ∈ Finset.range x.length, x.getD j 0 * Real.cos (ang x.length j k), -∑ j ∈ Finset.range x.length, x.getD j 0 * Real.sin (ang x.length j k)⟩ := by
  rw [List.getD_eq_getElem?_getD, dft, List.getElem?_map, List.getElem?_range hk, Option.map_some, Option.getD_some, list_sum_range, list_sum_range]
  rfl

end Stingray.Timmer
