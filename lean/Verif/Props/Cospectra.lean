import Verif.Model.Cospectra
import Verif.Props.Detection
import Verif.Props.GtiSegments
import Mathlib.Data.Nat.Choose.Sum
import Mathlib.Algebra.BigOperators.Intervals

/-!
p-values of cospectra (C172).
-/

set_option linter.unusedSectionVars false

namespace Stingray.Cospectra

open Stingray Stingray.Spec Stingray.Stats

/-- Specification: the regularised upper incomplete gamma function `Q(k, y)`, the probability that a chi square variable with `2 k` degrees of freedom exceeds `2 y`. -/
noncomputable def upperGamma (k : Nat) (y : ℝ) : ℝ := chi2Sf (2 * y) (2 * k)

/-- Specification: the weights of the distribution of the mean of `n` Laplace variables, `C(n - 1 + j, j) / 2 ^ (n + j)`. -/
noncomputable def weight (n j : Nat) : ℝ := ((n - 1 + j).choose j : ℝ) / 2 ^ (n + j)

/-- The partial sums `∑ C(m + j, j) / 2 ^ j` for `j ≤ m` are `2 ^ m`. -/
theorem half_sum (m : Nat) : ∑ j ∈ Finset.range (m + 1), ((m + j).choose j : ℝ) / 2 ^ j = 2 ^ m := by
  induction m with
  | zero => simp
  | succ m ih =>
    set S := ∑ j ∈ Finset.range (m + 2), ((m + 1 + j).choose j : ℝ) / 2 ^ j with hS
    have h1 : S = (∑ j ∈ Finset.range (m + 1), ((m + 1 + (j + 1)).choose (j + 1) : ℝ) / 2 ^ (j + 1)) + 1 := by
      rw [hS, Finset.sum_range_succ']
      simp
    have h2 : ∀ j, ((m + 1 + (j + 1)).choose (j + 1) : ℝ) / 2 ^ (j + 1) = ((m + (j + 1)).choose (j + 1) : ℝ) / 2 ^ (j + 1) + ((m + 1 + j).choose j : ℝ) / 2 ^ j / 2 := by
      intro j
      have : (m + 1 + (j + 1)).choose (j + 1) = (m + 1 + j).choose j + (m + (j + 1)).choose (j + 1) := by
        rw [show m + 1 + (j + 1) = (m + 1 + j) + 1 by omega, Nat.choose_succ_succ, show m + (j + 1) = m + 1 + j by omega]
      rw [this]
      push_cast
      rw [pow_succ]
      field_simp
      ring
    have h3 : (∑ j ∈ Finset.range (m + 1), ((m + (j + 1)).choose (j + 1) : ℝ) / 2 ^ (j + 1)) + 1 = 2 ^ m + ((2 * m + 1).choose (m + 1) : ℝ) / 2 ^ (m + 1) := by
      have e1 : (∑ j ∈ Finset.range (m + 1), ((m + (j + 1)).choose (j + 1) : ℝ) / 2 ^ (j + 1)) + 1 = ∑ j ∈ Finset.range (m + 2), ((m + j).choose j : ℝ) / 2 ^ j := by
        rw [Finset.sum_range_succ' _ (m + 1)]
        simp
      rw [e1, Finset.sum_range_succ, ih, show m + (m + 1) = 2 * m + 1 by omega]
    have h4 : ∑ j ∈ Finset.range (m + 1), ((m + 1 + j).choose j : ℝ) / 2 ^ j / 2 = (S - ((2 * m + 2).choose (m + 1) : ℝ) / 2 ^ (m + 1)) / 2 := by
      rw [hS, Finset.sum_range_succ _ (m + 1), show m + 1 + (m + 1) = 2 * m + 2 by omega, add_sub_cancel_right, Finset.sum_div]
    have h5 : ((2 * m + 2).choose (m + 1) : ℝ) = 2 * ((2 * m + 1).choose (m + 1) : ℝ) := by
      have : (2 * m + 2).choose (m + 1) = 2 * (2 * m + 1).choose (m + 1) := by
        rw [Nat.choose_succ_succ, show (2 * m + 1).choose m = (2 * m + 1).choose (m + 1) from (Nat.choose_symm_half m).symm]
        simp only [Nat.succ_eq_add_one]
        omega
      exact_mod_cast this
    have h6 : S = 2 ^ m + ((2 * m + 1).choose (m + 1) : ℝ) / 2 ^ (m + 1) + (S - 2 * ((2 * m + 1).choose (m + 1) : ℝ) / 2 ^ (m + 1)) / 2 := by
      rw [← h5, ← h4, ← h3]
      rw [h1]
      rw [Finset.sum_congr rfl fun j _ => h2 j, Finset.sum_add_distrib]
      ring
    rw [pow_succ]
    have h7 : 2 * ((2 * m + 1).choose (m + 1) : ℝ) / 2 ^ (m + 1) = 2 * (((2 * m + 1).choose (m + 1) : ℝ) / 2 ^ (m + 1)) := by ring
    rw [h7] at h6
    linarith

theorem weight_sum (n : Nat) (hn : 1 ≤ n) : ∑ j ∈ Finset.range n, weight n j = 1 / 2 := by
  obtain ⟨m, rfl⟩ : ∃ m, n = m + 1 := ⟨n - 1, by omega⟩
  have := half_sum m
  unfold weight
  simp only [Nat.add_sub_cancel]
  have h : ∀ j, ((m + j).choose j : ℝ) / 2 ^ (m + 1 + j) = ((m + j).choose j : ℝ) / 2 ^ j / 2 ^ (m + 1) := by
    intro j
    rw [pow_add 2 (m + 1) j]
    field_simp
  rw [Finset.sum_congr rfl fun j _ => h j, ← Finset.sum_div, this, pow_succ]
  field_simp

theorem weight_pos (n j : Nat) : 0 < weight n j := by
  unfold weight
  have : 0 < (n - 1 + j).choose j := Nat.choose_pos (by omega)
  positivity

/-- The factors of one term. -/
theorem prefac_weight (n j : Nat) (hj : j < n) :
    ((n - 1 + j).factorial : ℝ) / (((n - 1).factorial : ℝ) * (((n - 1 - j).factorial : ℝ) * (j.factorial : ℝ)) * 2 ^ (n + j)) * ((n - j - 1).factorial : ℝ) = weight n j := by
  unfold weight
  have h1 : ((n - 1 + j).choose j : ℝ) = ((n - 1 + j).factorial : ℝ) / ((j.factorial : ℝ) * ((n - 1).factorial : ℝ)) := by
    rw [Nat.cast_choose ℝ (by omega), show n - 1 + j - j = n - 1 by omega]
  rw [h1, show n - j - 1 = n - 1 - j by omega]
  have h2 := Nat.factorial_ne_zero (n - 1 - j)
  have h3 := Nat.factorial_ne_zero (n - 1)
  have h4 := Nat.factorial_ne_zero j
  field_simp

theorem cdfTerm_eq (ginc : Nat → ℝ → ℝ) (x : ℝ) (n j : Nat) (hj : j < n) :
    cdfTerm ginc x n j = if 0 ≤ x then 2 * weight n j - weight n j * ginc (n - j) (n * x) else weight n j * ginc (n - j) (-n * x) := by
  unfold cdfTerm
  rw [← prefac_weight n j hj]
  simp only
  split_ifs <;> ring

theorem foldl_sum (f : Nat → ℝ) : ∀ (l : List Nat) (c : ℝ), l.foldl (fun c j => c + f j) c = c + (l.map f).sum := by
  intro l
  induction l with
  | nil => intro c; simp
  | cons x l ih => intro c; rw [List.foldl_cons, ih, List.map_cons, List.sum_cons]; ring

theorem cdf_float (ginc : Nat → ℝ → ℝ) (x : ℝ) (n : Nat) (hn : 1 ≤ n) : cdf ginc ⟨false, x⟩ n =
    if 0 ≤ x then 1 - ∑ j ∈ Finset.range n, weight n j * ginc (n - j) (n * x) else ∑ j ∈ Finset.range n, weight n j * ginc (n - j) (-n * x) := by
  have h0 : cdf ginc ⟨false, x⟩ n = ∑ j ∈ Finset.range n, cdfTerm ginc x n j := by
    unfold cdf
    simp only [Bool.false_eq_true, if_false]
    rw [foldl_sum, zero_add]
    rfl
  rw [h0]
  have h1 : ∀ j ∈ Finset.range n, cdfTerm ginc x n j = _ := fun j hj => cdfTerm_eq ginc x n j (Finset.mem_range.1 hj)
  rw [Finset.sum_congr rfl h1]
  split_ifs with hx
  · rw [Finset.sum_sub_distrib, ← Finset.mul_sum, weight_sum n hn]
    norm_num
  · rfl

/-- Specification: the probability that the mean of `n` Laplace variables exceeds `x ≥ 0`, and with `-x` its complement. -/
noncomputable def tail (n : Nat) (x : ℝ) : ℝ := ∑ j ∈ Finset.range n, weight n j * upperGamma (n - j) (n * x)

theorem upperGamma_bounds (k : Nat) (hk : 1 ≤ k) (y : ℝ) (hy : 0 ≤ y) : 0 ≤ upperGamma k y ∧ upperGamma k y ≤ 1 := by
  have hd : (0 : ℝ) < 2 * k := by positivity
  have := chi2_prob hd
  exact ⟨MeasureTheory.measureReal_nonneg, MeasureTheory.measureReal_le_one⟩

theorem upperGamma_strict (k : Nat) (hk : 1 ≤ k) (y z : ℝ) (hy : 0 ≤ y) (h : y < z) : upperGamma k z < upperGamma k y :=
  chi2Sf_strict (by positivity) (by positivity) (by linarith)

theorem upperGamma_zero (k : Nat) (hk : 1 ≤ k) : upperGamma k 0 = 1 := by
  unfold upperGamma
  rw [chi2Sf_even _ (by norm_num) k hk]
  obtain ⟨m, rfl⟩ : ∃ m, k = m + 1 := ⟨k - 1, by omega⟩
  simp only [poissonBelow, List.range_succ_eq_map, List.map_cons, List.map_map, List.sum_cons]
  have : (List.map ((fun m : Nat => Real.exp (-(2 * 0 / 2)) * (2 * 0 / 2) ^ m / (m.factorial : ℝ)) ∘ Nat.succ) (List.range m)).sum = 0 := by
    refine List.sum_eq_zero fun x hx => ?_
    obtain ⟨i, _, rfl⟩ := List.mem_map.1 hx
    simp
  rw [this]
  simp

theorem tail_bounds (n : Nat) (hn : 1 ≤ n) (x : ℝ) (hx : 0 ≤ x) : 0 ≤ tail n x ∧ tail n x ≤ 1 / 2 := by
  have hb : ∀ j ∈ Finset.range n, 0 ≤ upperGamma (n - j) (n * x) ∧ upperGamma (n - j) (n * x) ≤ 1 := fun j hj =>
    upperGamma_bounds _ (by have := Finset.mem_range.1 hj; omega) _ (by positivity)
  constructor
  · exact Finset.sum_nonneg fun j hj => mul_nonneg (weight_pos n j).le (hb j hj).1
  · rw [← weight_sum n hn]
    exact Finset.sum_le_sum fun j hj => mul_le_of_le_one_right (weight_pos n j).le (hb j hj).2

theorem tail_strict (n : Nat) (hn : 1 ≤ n) (x y : ℝ) (hx : 0 ≤ x) (h : x < y) : tail n y < tail n x := by
  have hn' : (0 : ℝ) < n := by exact_mod_cast hn
  refine Finset.sum_lt_sum_of_nonempty ⟨0, Finset.mem_range.2 hn⟩ fun j hj => ?_
  refine mul_lt_mul_of_pos_left (upperGamma_strict _ (by have := Finset.mem_range.1 hj; omega) _ _ (by positivity) ?_) (weight_pos n j)
  exact mul_lt_mul_of_pos_left h hn'

theorem tail_zero (n : Nat) (hn : 1 ≤ n) : tail n 0 = 1 / 2 := by
  unfold tail
  rw [← weight_sum n hn]
  refine Finset.sum_congr rfl fun j hj => ?_
  rw [mul_zero, upperGamma_zero _ (by have := Finset.mem_range.1 hj; omega), mul_one]

theorem tail_one (x : ℝ) (hx : 0 ≤ x) : tail 1 x = Real.exp (-x) / 2 := by
  unfold tail upperGamma weight
  have := chi2Sf_even (2 * x) (by linarith) 1 le_rfl
  simp only [Finset.range_one, Finset.sum_singleton, Nat.sub_zero, Nat.cast_one, one_mul]
  simp only [Nat.cast_one] at this
  rw [this]
  simp [poissonBelow]
  ring

/-- Specification: what the p-value should be, with the sum for `x ≥ 0` and its complement below. -/
noncomputable def exceed (n : Nat) (x : ℝ) : ℝ := if 0 ≤ x then tail n x else 1 - tail n (-x)

theorem exceed_one (x : ℝ) : exceed 1 x = laplaceSf x := by
  unfold exceed laplaceSf
  split_ifs with h
  · exact tail_one x h
  · rw [tail_one (-x) (by linarith), neg_neg]

theorem exceed_bounds (n : Nat) (hn : 1 ≤ n) (x : ℝ) : 0 ≤ exceed n x ∧ exceed n x ≤ 1 := by
  unfold exceed
  split_ifs with h
  · have := tail_bounds n hn x h
    constructor <;> linarith
  · have := tail_bounds n hn (-x) (by linarith)
    constructor <;> linarith

theorem exceed_symm (n : Nat) (hn : 1 ≤ n) (x : ℝ) : exceed n x + exceed n (-x) = 1 := by
  unfold exceed
  rcases lt_trichotomy x 0 with h | h | h
  · rw [if_neg (by linarith), if_pos (by linarith)]; ring
  · subst h
    rw [neg_zero, if_pos le_rfl, tail_zero n hn]; norm_num
  · rw [if_pos h.le, if_neg (by linarith), neg_neg]; ring

theorem exceed_strict (n : Nat) (hn : 1 ≤ n) (x y : ℝ) (h : x < y) : exceed n y < exceed n x := by
  have pos : ∀ a b : ℝ, 0 ≤ a → a < b → exceed n b < exceed n a := by
    intro a b ha hab
    unfold exceed
    rw [if_pos ha, if_pos (by linarith)]
    exact tail_strict n hn a b ha hab
  by_cases hx : 0 ≤ x
  · exact pos x y hx h
  · have h0 := exceed_symm n hn x
    have hx' : exceed n 0 < exceed n x := by
      have h1 := pos 0 (-x) le_rfl (by linarith)
      have h2 := exceed_symm n hn 0
      rw [neg_zero] at h2
      linarith
    rcases lt_or_ge y 0 with hy | hy
    · have h1 := pos (-y) (-x) (by linarith) (by linarith)
      have h2 := exceed_symm n hn y
      linarith
    · rcases hy.eq_or_lt with hy | hy
      · rw [← hy]; exact hx'
      · exact (pos 0 y le_rfl hy).trans hx'

/-- **C172.** p-value of a cospectral power averaged over 1 to 50 spectra, for a power that is a float: the sum `∑ C(n - 1 + j, j) / 2 ^ (n + j) Q(n - j, n |x|)`, or its complement for negative powers. It is the Laplace distribution for a single spectrum. It is
between 0 and 1, 1/2 at zero power, symmetric, and smaller for larger powers. -/
theorem cospectra_pvalue (normSf : ℝ → ℝ) (n : Nat) (hn : 1 ≤ n) (hn' : n ≤ 50) :
    (∀ x, cospectraPvalue upperGamma normSf ⟨false, x⟩ (.int n) = .ok (exceed n x)) ∧
    (∀ x, exceed 1 x = laplaceSf x) ∧ (∀ x, 0 ≤ exceed n x ∧ exceed n x ≤ 1) ∧ exceed n 0 = 1 / 2 ∧
    (∀ x, exceed n x + exceed n (-x) = 1) ∧ ∀ x y, x < y → exceed n y < exceed n x := by
  refine ⟨fun x => ?_, exceed_one, exceed_bounds n hn, ?_, exceed_symm n hn, exceed_strict n hn⟩
  · unfold cospectraPvalue pvalueInt
    simp only
    rw [if_neg (by exact_mod_cast not_lt.2 hn)]
    by_cases h1 : n = 1
    · subst h1
      rw [if_pos (by norm_num), exceed_one]
    · rw [if_neg (by exact_mod_cast h1), if_neg (by exact_mod_cast not_lt.2 hn'), Int.toNat_natCast, cdf_float _ _ _ hn]
      unfold exceed tail
      split_ifs with hx
      · ring_nf
      · simp only [neg_mul, mul_neg]
  · unfold exceed
    rw [if_pos le_rfl, tail_zero n hn]

/-- **C172 (many spectra).** For more than 50 spectra the p-value is that of a normal distribution with the variance `2 / n` of the mean of `n` Laplace variables. -/
theorem cospectra_gaussian (ginc : Nat → ℝ → ℝ) (normSf : ℝ → ℝ) (p : Power) (n : Nat) (hn : 50 < n) :
    ∃ s : ℝ, 0 < s ∧ s ^ 2 = 2 / n ∧ cospectraPvalue ginc normSf p (.int n) = .ok (normSf (p.val / s)) := by
  have hn' : (0 : ℝ) < n := by exact_mod_cast (by omega : 0 < n)
  refine ⟨Real.sqrt 2 / Real.sqrt n, by positivity, ?_, ?_⟩
  · rw [div_pow, Real.sq_sqrt (by norm_num), Real.sq_sqrt hn'.le]
  · unfold cospectraPvalue pvalueInt
    simp only
    rw [if_neg (by omega), if_neg (by omega), if_pos (by omega)]
    norm_cast

/-- **C172 (refusals).** Numbers of spectra below 1, and floats that are not close to an integer, are refused. -/
theorem cospectra_refuses (ginc : Nat → ℝ → ℝ) (normSf : ℝ → ℝ) (p : Power) :
    (∀ n : Int, n < 1 → cospectraPvalue ginc normSf p (.int n) = .error .valueError) ∧
    (∀ x : ℝ, Int.fract x > 1 / 10 ^ 8 → cospectraPvalue ginc normSf p (.float x) = .error .valueError) ∧
    ∀ x : ℝ, x < 1 → cospectraPvalue ginc normSf p (.float x) = .error .valueError := by
  refine ⟨fun n hn => ?_, fun x hx => ?_, fun x hx => ?_⟩
  · unfold cospectraPvalue pvalueInt
    simp only
    rw [if_pos hn]
  · unfold cospectraPvalue
    simp only
    rw [if_pos hx]
  · unfold cospectraPvalue
    simp only
    split_ifs <;> rfl

/-- **C172 (negation).** A number of spectra given as a float, such as `2.0`, passes the checks and then fails with a `TypeError` when it is between 2 and 50. -/
theorem cospectra_float_nspec (ginc : Nat → ℝ → ℝ) (normSf : ℝ → ℝ) (p : Power) (n : Nat) (hn : 2 ≤ n) (hn' : n ≤ 50) :
    cospectraPvalue ginc normSf p (.float n) = .error .typeError := by
  have h1 : (1 : ℝ) < n := by exact_mod_cast (by omega : 1 < n)
  have h2 : (n : ℝ) ≤ 50 := by exact_mod_cast hn'
  unfold cospectraPvalue
  simp only
  rw [if_neg (by rw [Int.fract_natCast]; norm_num), if_neg (by linarith), if_neg (by linarith), if_neg (by linarith)]

theorem cdf_int_zero (x : ℝ) (n : Nat) (hn : 2 ≤ n) : cdf upperGamma ⟨true, x⟩ n = 0 := by
  unfold cdf
  simp only [if_true]
  have hterm : ∀ j < n, 0 ≤ cdfTerm upperGamma x n j ∧ cdfTerm upperGamma x n j < 1 := by
    intro j hj
    have hw := weight_pos n j
    have hw2 : weight n j < 1 / 2 := by
      rw [← weight_sum n (by omega)]
      obtain ⟨k, hk, hkj⟩ : ∃ k, k ∈ Finset.range n ∧ k ≠ j := by
        by_cases h0 : j = 0
        · exact ⟨1, Finset.mem_range.2 (by omega), by omega⟩
        · exact ⟨0, Finset.mem_range.2 (by omega), fun e => h0 e.symm⟩
      exact Finset.single_lt_sum hkj (Finset.mem_range.2 hj) hk (weight_pos n k) fun i _ _ => (weight_pos n i).le
    rw [cdfTerm_eq _ _ _ _ hj]
    split_ifs with hx
    · have := upperGamma_bounds (n - j) (by omega) (n * x) (by positivity)
      constructor <;> nlinarith
    · have := upperGamma_bounds (n - j) (by omega) (-n * x) (by nlinarith [(Nat.cast_nonneg n : (0 : ℝ) ≤ n)])
      constructor <;> nlinarith
  have : ∀ l : List Nat, (∀ j ∈ l, j < n) → l.foldl (fun c j => ((⌊c + cdfTerm upperGamma x n j⌋ : Int) : ℝ)) 0 = 0 := by
    intro l
    induction l with
    | nil => intro _; rfl
    | cons j l ih =>
      intro h
      have hj := hterm j (h j (List.mem_cons_self ..))
      have hf : ⌊(0 : ℝ) + cdfTerm upperGamma x n j⌋ = 0 := by
        rw [zero_add, Int.floor_eq_zero_iff]
        exact hj
      rw [List.foldl_cons, hf, Int.cast_zero]
      exact ih fun k hk => h k (List.mem_cons_of_mem _ hk)
  exact this _ fun j hj => List.mem_range.1 hj

/-- **C172 (negation).** Integer powers: the p-value of every integer power averaged over 2 to 50 spectra is 1, however large the power is. -/
theorem cospectra_integer_power (normSf : ℝ → ℝ) (x : ℝ) (n : Nat) (hn : 2 ≤ n) (hn' : n ≤ 50) :
    cospectraPvalue upperGamma normSf ⟨true, x⟩ (.int n) = .ok 1 := by
  unfold cospectraPvalue pvalueInt
  simp only
  rw [if_neg (by omega), if_neg (by omega), if_neg (by omega), Int.toNat_natCast, cdf_int_zero x n hn, sub_zero]

/-- **C172 (significances).** The significant powers of a Leahy-normalised cross spectrum: an index is returned exactly when the p-value of its power is below the threshold, divided by the number of powers with the correction for the number of trials, and it is
returned with that p-value, in order. -/
theorem cross_significances (ginc : Nat → ℝ → ℝ) (normSf : ℝ → ℝ) (power : List Power) (m : List NSpec) (hm : m.length = power.length) (threshold : ℝ) (correct : Bool)
    (pv : List ℝ) (hpv : List.Forall₂ (fun x p => cospectraPvalue ginc normSf x.1 x.2 = .ok p) (power.zip m) pv) :
    ∃ res, classicalSignificances ginc normSf true power m threshold correct = .ok res ∧
      (∀ p i, (p, i) ∈ res ↔ pv[i]? = some p ∧ p < if correct then threshold / power.length else threshold) ∧
      (res.map Prod.snd).Pairwise (· < ·) := by
  have hmap : (power.zip m).mapM (fun x => cospectraPvalue ginc normSf x.1 x.2) = .ok pv := by
    clear hm
    revert hpv
    generalize power.zip m = l
    intro hpv
    induction hpv with
    | nil => rfl
    | cons h _ ih => simp [List.mapM_cons, h, ih, pure, bind, Except.pure, Except.bind]
  refine ⟨_, by unfold classicalSignificances; rw [hmap]; rfl, ?_, ?_⟩
  · intro p i
    rw [List.mem_filter, List.mem_zipIdx_iff_getElem?]
    simp
  · refine List.Pairwise.sublist (List.Sublist.map _ List.filter_sublist) ?_
    rw [List.zipIdx_map_snd]
    exact List.pairwise_lt_range'

/-- **C172 (normalisation).** Cross spectra in other normalisations are refused. -/
theorem cross_significances_refuses (ginc : Nat → ℝ → ℝ) (normSf : ℝ → ℝ) (power : List Power) (m : List NSpec) (threshold : ℝ) (correct : Bool) :
    classicalSignificances ginc normSf false power m threshold correct = .error .valueError := rfl

example : cospectraPvalue upperGamma (fun _ => 0) ⟨false, 0⟩ (.int 7) = .ok (1 / 2) := by
  have := cospectra_pvalue (fun _ => 0) 7 (by norm_num) (by norm_num)
  rw [← this.2.2.2.1]
  exact this.1 0

example : exceed 2 3 < exceed 2 1 := (cospectra_pvalue (fun _ => 0) 2 (by norm_num) (by norm_num)).2.2.2.2.2 1 3 (by norm_num)

example : cospectraPvalue upperGamma (fun _ => 0) ⟨true, 30⟩ (.int 2) = .ok 1 := cospectra_integer_power _ 30 2 le_rfl (by norm_num)

end Stingray.Cospectra
