import Verif.Model.Stats
import Mathlib.Algebra.Order.Ring.Pow
import Mathlib.Analysis.Complex.ExponentialBounds

/-!
Number of trials (C48, C80) and pulsed fractions (C49).
-/

namespace Stingray.Stats

theorem log_mul_n {p : ℝ} (hp : 0 < p) {n : Nat} (hn : 1 ≤ n) :
    Real.log p + Real.log n = Real.log (p * n) := by
  have : (0 : ℝ) < n := by exact_mod_cast hn
  rw [Real.log_mul hp.ne' this.ne']

theorem exact_pos {p : ℝ} (hp : 0 < p) (hp1 : p ≤ 1) {n : Nat} (hn : 1 ≤ n) : 0 < 1 - (1 - p) ^ n := by
  have : (1 - p) ^ n < 1 := pow_lt_one₀ (by linarith) (by linarith) (by omega)
  linarith

/-- in plain words: the product up to `e^-7`, the exact probability of at least one success above -/
theorem pMulti_eq {p : ℝ} (hp : 0 < p) (hp1 : p ≤ 1) {n : Nat} (hn : 1 ≤ n) :
    pMulti p n = if p * n < Real.exp (-7) then p * n else 1 - (1 - p) ^ n := by
  have hn' : (0 : ℝ) < n := by exact_mod_cast hn
  have hpn : 0 < p * n := mul_pos hp hn'
  unfold pMulti logpMulti
  simp only [log_mul_n hp hn, Real.exp_log hp, Real.log_lt_iff_lt_exp hpn]
  split_ifs
  · exact Real.exp_log hpn
  · exact Real.exp_log (exact_pos hp hp1 hn)

theorem exact_le_product {p : ℝ} (hp : 0 < p) (hp1 : p ≤ 1) (n : Nat) : 1 - (1 - p) ^ n ≤ p * n := by
  have := one_add_mul_le_pow (a := -p) (by linarith) n
  have e : 1 + -p = 1 - p := by ring
  rw [e] at this
  linarith

theorem le_exact {p : ℝ} (hp : 0 < p) (hp1 : p ≤ 1) {n : Nat} (hn : 1 ≤ n) : p ≤ 1 - (1 - p) ^ n := by
  have : (1 - p) ^ n ≤ (1 - p) ^ 1 := pow_le_pow_of_le_one (by linarith) (by linarith) hn
  rw [pow_one] at this
  linarith

/-- **C48.** For every single-trial probability and number of trials: `p <= p_multitrial <= min(1, n p)`. -/
theorem multi_bounds (p : ℝ) (n : Nat) (hp : 0 < p) (hp1 : p ≤ 1) (hn : 1 ≤ n) :
    p ≤ pMulti p n ∧ pMulti p n ≤ min 1 (n * p) := by
  have hn' : (1 : ℝ) ≤ n := by exact_mod_cast hn
  rw [pMulti_eq hp hp1 hn]
  split_ifs with h
  · refine ⟨by nlinarith, le_min ?_ (by linarith)⟩
    have : Real.exp (-7) < 1 := by rw [Real.exp_lt_one_iff]; norm_num
    linarith
  · refine ⟨le_exact hp hp1 hn, le_min ?_ ?_⟩
    · have : 0 ≤ (1 - p) ^ n := pow_nonneg (by linarith) n
      linarith
    · have := exact_le_product hp hp1 n
      linarith

example : (3 : ℝ) / 10 ≤ pMulti (3 / 10) 2 ∧ pMulti (3 / 10) 2 ≤ min (1 : ℝ) (((2 : Nat) : ℝ) * (3 / 10)) :=
  multi_bounds (3 / 10) 2 (by norm_num) (by norm_num) (by norm_num)

/-- **C48 (accuracy).** The result differs from the probability of at least one success in `n` trials, `1 - (1 - p)^n`, only by the Bonferroni approximation: it is never smaller, and larger by at most `(n p)² / 2`, and only when `n p < e^-7`. -/
theorem multi_accuracy (p : ℝ) (n : Nat) (hp : 0 < p) (hp1 : p ≤ 1) (hn : 1 ≤ n) :
    0 ≤ pMulti p n - (1 - (1 - p) ^ n) ∧ pMulti p n - (1 - (1 - p) ^ n) ≤ (n * p) ^ 2 / 2 ∧
    (Real.exp (-7) ≤ n * p → pMulti p n = 1 - (1 - p) ^ n) := by
  have key : ∀ n : Nat, (1 - p) ^ n ≤ 1 - n * p + (n * p) ^ 2 / 2 := by
    intro n
    induction n with
    | zero => simp
    | succ n ih =>
      rw [pow_succ]
      have h1 : (1 - p) ^ n * (1 - p) ≤ (1 - n * p + (n * p) ^ 2 / 2) * (1 - p) :=
        mul_le_mul_of_nonneg_right ih (by linarith)
      refine h1.trans ?_
      push_cast
      have : 0 ≤ (n : ℝ) ^ 2 * p ^ 3 := by positivity
      nlinarith [sq_nonneg p]
  rw [pMulti_eq hp hp1 hn]
  have hle := exact_le_product hp hp1 n
  have hk := key n
  refine ⟨?_, ?_, ?_⟩
  · split_ifs <;> linarith
  · split_ifs
    · linarith
    · have := sq_nonneg ((n : ℝ) * p)
      linarith
  · intro h
    rw [if_neg (by linarith)]

/-- **C48 (round trip).** From a multi-trial probability to the single-trial one and back is the identity, whenever the former is not returned as NaN (too close to 1). -/
theorem multi_of_single (tol pn p1 : ℝ) (n : Nat) (hp : 0 < pn) (hp1 : pn < 1) (hn : 1 ≤ n)
    (h : pSingle tol pn n = some p1) : pMulti p1 n = pn := by
  have hn' : (0 : ℝ) < n := by exact_mod_cast hn
  unfold pSingle logpSingle at h
  simp only [Real.exp_log hp, Real.log_lt_iff_lt_exp hp] at h
  split_ifs at h with h1 h2
  · simp only [Option.map_some, Option.some.injEq] at h
    rw [Real.exp_sub, Real.exp_log hp, Real.exp_log hn'] at h
    have hq : 0 < p1 := by rw [← h]; positivity
    have hq1 : p1 ≤ 1 := by
      rw [← h, div_le_one hn']
      have : (1 : ℝ) ≤ n := by exact_mod_cast hn
      linarith
    have e : p1 * n = pn := by rw [← h]; field_simp
    rw [pMulti_eq hq hq1 hn, e, if_pos h1]
  · simp at h
  · simp only [Option.map_some, Option.some.injEq] at h
    have hr0 : 0 < (1 - pn) ^ (1 / (n : ℝ)) := Real.rpow_pos_of_pos (by linarith) _
    have hr1 : (1 - pn) ^ (1 / (n : ℝ)) < 1 := Real.rpow_lt_one (by linarith) (by linarith) (by positivity)
    rw [Real.exp_log (by linarith)] at h
    have hq : 0 < p1 := by linarith
    have hq1 : p1 ≤ 1 := by linarith
    have hpow : (1 - p1) ^ n = 1 - pn := by
      rw [← h]
      have : 1 - (1 - (1 - pn) ^ (1 / (n : ℝ))) = (1 - pn) ^ (1 / (n : ℝ)) := by ring
      rw [this, ← Real.rpow_natCast, ← Real.rpow_mul (by linarith)]
      rw [one_div, inv_mul_cancel₀ hn'.ne', Real.rpow_one]
    have hle := exact_le_product hq hq1 n
    rw [pMulti_eq hq hq1 hn, if_neg (by rw [hpow] at hle; linarith), hpow]
    ring

/-- **C48 (inverse, partial).** The other way round, with both probabilities in the same numerical regime: the single-trial probability comes back.
Missing: the strip where `n p >= e^-7` and `1 - (1 - p)^n < e^-7`, where it does not (below), and the probabilities too close to 1, for which NaN is returned. -/
theorem single_of_multi_partial (tol p : ℝ) (n : Nat) (hp : 0 < p) (hp1 : p < 1) (hn : 1 ≤ n)
    (hreg : n * p < Real.exp (-7) ∨ (Real.exp (-7) ≤ 1 - (1 - p) ^ n ∧ tol ≤ (1 - p) ^ n)) :
    pSingle tol (pMulti p n) n = some p := by
  have hn' : (0 : ℝ) < n := by exact_mod_cast hn
  rcases hreg with h | ⟨h, ht⟩
  · have e : pMulti p n = p * n := by rw [pMulti_eq hp hp1.le hn, if_pos (by linarith)]
    have hpos : 0 < p * n := by positivity
    unfold pSingle logpSingle
    simp only [e, Real.log_lt_iff_lt_exp hpos]
    rw [if_pos (by linarith), Option.map_some, Real.exp_sub, Real.exp_log hpos, Real.exp_log hn']
    congr 1
    field_simp
  · have hle := exact_le_product hp hp1.le n
    have e : pMulti p n = 1 - (1 - p) ^ n := by rw [pMulti_eq hp hp1.le hn, if_neg (by linarith)]
    have hpos := exact_pos hp hp1.le hn
    unfold pSingle logpSingle
    simp only [e, Real.log_lt_iff_lt_exp hpos, Real.exp_log hpos]
    rw [if_neg (by linarith), if_neg (by linarith), Option.map_some]
    have e2 : 1 - (1 - (1 - p) ^ n) = (1 - p) ^ n := by ring
    have e3 : ((1 - p) ^ n) ^ (1 / (n : ℝ)) = 1 - p := by
      rw [← Real.rpow_natCast, ← Real.rpow_mul (by linarith), mul_one_div, div_self hn'.ne', Real.rpow_one]
    rw [e2, e3]
    rw [show 1 - (1 - p) = p by ring, Real.exp_log hp]

theorem exp_neg_seven_small : Real.exp (-7) < 1 := by rw [Real.exp_lt_one_iff]; norm_num

/-- **C48 (negation of the inverse in the strip).** For two trials and `p = e^-7 / 2` the two directions use different formulas: the probability that comes back is `p - p²/2`. -/
theorem single_of_multi_strip (tol : ℝ) :
    pSingle tol (pMulti (Real.exp (-7) / 2) 2) 2 = some (Real.exp (-7) / 2 - (Real.exp (-7) / 2) ^ 2 / 2) ∧
    Real.exp (-7) / 2 - (Real.exp (-7) / 2) ^ 2 / 2 ≠ Real.exp (-7) / 2 := by
  set e := Real.exp (-7) with he
  have h0 : 0 < e := Real.exp_pos _
  have h1 : e < 1 := exp_neg_seven_small
  have hm : pMulti (e / 2) 2 = e - e ^ 2 / 4 := by
    rw [pMulti_eq (by linarith) (by linarith) (by norm_num), if_neg (by push_cast; linarith)]
    ring
  constructor
  · have hpos : 0 < e - e ^ 2 / 4 := by nlinarith
    unfold pSingle logpSingle
    simp only [hm, Real.log_lt_iff_lt_exp hpos]
    rw [if_pos (by nlinarith), Option.map_some, Real.exp_sub, Real.exp_log hpos, Real.exp_log (by norm_num)]
    congr 1
    push_cast
    ring
  · nlinarith

/-! ### Monotonicity (C80) -/

/-- **C80 (partial).** Within each regime a larger single-trial probability, or a larger number of trials, gives a multi-trial probability at least as large.
Missing: across the boundary `n p = e^-7`, where it is false (below). -/
theorem multi_monotone_partial (p q : ℝ) (n k : Nat) (hp : 0 < p) (hpq : p ≤ q) (hq : q ≤ 1) (hn : 1 ≤ n) (hk : n ≤ k)
    (hreg : k * q < Real.exp (-7) ∨ Real.exp (-7) ≤ n * p) : pMulti p n ≤ pMulti q k := by
  have hn' : (n : ℝ) ≤ k := by exact_mod_cast hk
  have hn0 : (0 : ℝ) < n := by exact_mod_cast hn
  rw [pMulti_eq hp (hpq.trans hq) hn, pMulti_eq (hp.trans_le hpq) hq (hn.trans hk)]
  have hmul : p * n ≤ q * k := mul_le_mul hpq hn' hn0.le (by linarith)
  rcases hreg with h | h
  · rw [if_pos (by linarith), if_pos (by linarith)]
    exact hmul
  · rw [if_neg (by linarith), if_neg (by linarith)]
    have h1 : (1 - q) ^ k ≤ (1 - q) ^ n := pow_le_pow_of_le_one (by linarith) (by linarith) hk
    have h2 : (1 - q) ^ n ≤ (1 - p) ^ n := pow_le_pow_left₀ (by linarith) (by linarith) n
    linarith

/-- **C80 (negation).** A detection with a smaller single-trial probability can be given a larger multi-trial one: the result jumps down where the Bonferroni approximation stops. -/
theorem multi_not_monotone : ∃ p q : ℝ, 0 < p ∧ p < q ∧ q < 1 ∧ pMulti q 2 < pMulti p 2 := by
  set e := Real.exp (-7) with he
  have h0 : 0 < e := Real.exp_pos _
  have h1 : e < 1 := exp_neg_seven_small
  refine ⟨(e - e ^ 2 / 8) / 2, e / 2, by nlinarith, by nlinarith, by linarith, ?_⟩
  rw [pMulti_eq (by nlinarith) (by nlinarith) (by norm_num), if_neg (by push_cast; linarith),
    pMulti_eq (by nlinarith) (by nlinarith) (by norm_num), if_pos (by push_cast; nlinarith)]
  push_cast
  nlinarith

/-! ### Pulsed fractions (C49) -/

/-- **C49.** The conversions between sinusoidal amplitude, pulsed fraction and signal power are mutually inverse on their physical ranges: amplitudes and pulsed fractions between 0 and 1, positive numbers of counts, powers
not negative. -/
theorem pulsed_fraction_inverse :
    (∀ a, 0 ≤ a → aFromPf (pfFromA a) = a) ∧
    (∀ p, 0 ≤ p → p ≤ 1 → pfFromA (aFromPf p) = p) ∧
    (∀ a N, 0 ≤ a → 0 < N → aFromSsig (ssigFromA a N) N = a) ∧
    (∀ s N, 0 ≤ s → 0 < N → ssigFromA (aFromSsig s N) N = s) ∧
    (∀ p N, 0 ≤ p → p ≤ 1 → 0 < N → pfFromSsig (ssigFromPf p N) N = p) ∧
    (∀ s N, 0 ≤ s → 0 < N → ssigFromPf (pfFromSsig s N) N = s) := by
  have h1 : ∀ a, 0 ≤ a → aFromPf (pfFromA a) = a := by
    intro a ha
    unfold aFromPf pfFromA
    have : 1 + a ≠ 0 := by linarith
    rw [show 2 - 2 * a / (1 + a) = 2 / (1 + a) by field_simp; ring]
    field_simp
  have h2 : ∀ p, 0 ≤ p → p ≤ 1 → pfFromA (aFromPf p) = p := by
    intro p hp hp1
    unfold aFromPf pfFromA
    have : 2 - p ≠ 0 := by linarith
    rw [show 1 + p / (2 - p) = 2 / (2 - p) by field_simp; ring]
    field_simp
  have h3 : ∀ a N, 0 ≤ a → 0 < N → aFromSsig (ssigFromA a N) N = a := by
    intro a N ha hN
    unfold aFromSsig ssigFromA
    rw [show 2 * (N / 2 * a ^ 2) / N = a ^ 2 by field_simp, Real.sqrt_sq ha]
  have h4 : ∀ s N, 0 ≤ s → 0 < N → ssigFromA (aFromSsig s N) N = s := by
    intro s N hs hN
    unfold aFromSsig ssigFromA
    rw [Real.sq_sqrt (by positivity)]
    field_simp
  refine ⟨h1, h2, h3, h4, ?_, ?_⟩
  · intro p N hp hp1 hN
    have ha : 0 ≤ aFromPf p := div_nonneg hp (by linarith)
    exact (congrArg pfFromA (h3 _ N ha hN)).trans (h2 p hp hp1)
  · intro s N hs hN
    have : ssigFromPf (pfFromSsig s N) N = ssigFromA (aFromPf (pfFromA (aFromSsig s N))) N := rfl
    rw [this, h1 _ (show 0 ≤ aFromSsig s N from Real.sqrt_nonneg _), h4 s N hs hN]

/-- **C49 (ranges).** The physical range is preserved: pulsed fractions of amplitudes in `[0, 1]` lie in `[0, 1]` and the other way round, and both conversions are increasing. -/
theorem pulsed_fraction_range :
    (∀ a, 0 ≤ a → a ≤ 1 → 0 ≤ pfFromA a ∧ pfFromA a ≤ 1) ∧
    (∀ p, 0 ≤ p → p ≤ 1 → 0 ≤ aFromPf p ∧ aFromPf p ≤ 1) ∧
    (∀ a b, 0 ≤ a → a < b → pfFromA a < pfFromA b) ∧
    (∀ p q, 0 ≤ p → p < q → q ≤ 1 → aFromPf p < aFromPf q) := by
  refine ⟨?_, ?_, ?_, ?_⟩
  · intro a h0 h1
    unfold pfFromA
    exact ⟨div_nonneg (by linarith) (by linarith), by rw [div_le_one (by linarith)]; linarith⟩
  · intro p h0 h1
    unfold aFromPf
    exact ⟨div_nonneg h0 (by linarith), by rw [div_le_one (by linarith)]; linarith⟩
  · intro a b h0 h
    unfold pfFromA
    rw [div_lt_div_iff₀ (by linarith) (by linarith)]
    nlinarith
  · intro p q h0 h h1
    unfold aFromPf
    rw [div_lt_div_iff₀ (by linarith) (by linarith)]
    nlinarith

example : pfFromA (1 / 3) = 1 / 2 ∧ aFromPf (1 / 2) = 1 / 3 ∧ ssigFromA (1 / 3) 18 = 1 := by
  norm_num [pfFromA, aFromPf, ssigFromA]

end Stingray.Stats
