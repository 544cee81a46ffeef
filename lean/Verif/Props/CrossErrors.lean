import Verif.Props.FourierCross
import Verif.Model.CrossErrors
import Mathlib.Tactic.Positivity
import Mathlib.Tactic.LinearCombination

/-!
The intrinsic coherence (C131), the errors of cross spectra and the covariance (C132).
-/

set_option linter.unusedSectionVars false

namespace Stingray.Fourier

section

variable {K : Type} [Field K] [LinearOrder K] [IsStrictOrderedRing K]

/-- The square of the modulus of a complex number. -/
def sq (c : Cx K) : K := c.re ^ 2 + c.im ^ 2

theorem mul_conj_re (c : Cx K) : (c * c.conj).re = sq c := by
  simp only [Cx.mul_re, Cx.conj_re, Cx.conj_im, sq]; ring

/-- `np.isclose(a, b, atol=0.01)`. -/
def close (a b : K) : Bool := decide (|a - b| ≤ 1 / 100 + 1 / 100000 * |b|)

/-- The coherence that solves `coherence * (P1 - N1) * (P2 - N2) = |C|² - bias(coherence)`, where the bias is `(P1 P2 - coherence * (P1 - N1) * (P2 - N2)) / m`. -/
def solution (c : Cx K) (p1 p2 n1 n2 m : K) : K := (m * sq c - p1 * p2) / ((m - 1) * ((p1 - n1) * (p2 - n2)))

/-- `solution` does solve the equation, and nothing else does. -/
theorem solution_iff (c : Cx K) (p1 p2 n1 n2 m x : K) (hs : 0 < (p1 - n1) * (p2 - n2)) (hm : 1 < m) :
    x * ((p1 - n1) * (p2 - n2)) = sq c - (p1 * p2 - x * ((p1 - n1) * (p2 - n2))) / m ↔ x = solution c p1 p2 n1 n2 m := by
  unfold solution
  have h1 : (m - 1) * ((p1 - n1) * (p2 - n2)) ≠ 0 := mul_ne_zero (by linarith) hs.ne'
  have hm0 : m ≠ 0 := by linarith
  rw [eq_div_iff h1]
  constructor
  · intro h
    have := congrArg (· * m) h
    simp only [sub_mul, div_mul_cancel₀ _ hm0] at this
    linear_combination this
  · intro h
    have : x * ((p1 - n1) * (p2 - n2)) * m = (sq c - (p1 * p2 - x * ((p1 - n1) * (p2 - n2))) / m) * m := by
      rw [sub_mul (sq c), div_mul_cancel₀ _ hm0]
      linear_combination h
    exact mul_right_cancel₀ hm0 this

/-- One round of the loop, where the numerator is not negative. -/
theorem round_eq (c : Cx K) (p1 p2 n1 n2 m x : K) (hs : 0 < (p1 - n1) * (p2 - n2)) (hm : 1 < m) :
    (sq c - (p1 * p2 - x * (p1 - n1) * (p2 - n2)) / m) / ((p1 - n1) * (p2 - n2)) = solution c p1 p2 n1 n2 m + (x - solution c p1 p2 n1 n2 m) / m := by
  have h := (solution_iff c p1 p2 n1 n2 m _ hs hm).2 rfl
  set y := solution c p1 p2 n1 n2 m
  have hm0 : m ≠ 0 := by linarith
  rw [div_eq_iff hs.ne']
  have e : (y + (x - y) / m) * ((p1 - n1) * (p2 - n2)) = y * ((p1 - n1) * (p2 - n2)) + (x - y) * ((p1 - n1) * (p2 - n2)) / m := by ring
  rw [e, h]
  ring

theorem intrinsicLoop_spec (c : Cx K) (p1 p2 n1 n2 m : K) (hs : 0 < (p1 - n1) * (p2 - n2)) (hm : 1 < m) (hm5 : m ≤ 500) (hsol : 0 ≤ solution c p1 p2 n1 n2 m) :
    ∀ (k : Nat) (new old : K), min 1 (solution c p1 p2 n1 n2 m) ≤ new → new ≤ max 1 (solution c p1 p2 n1 n2 m) →
      (close new old = true → |new - solution c p1 p2 n1 n2 m| ≤ (1 / 100 + 1 / 100000 * max 1 (solution c p1 p2 n1 n2 m)) / (m - 1)) →
      let r := intrinsicLoop close c p1 p2 n1 n2 m k new old
      (min 1 (solution c p1 p2 n1 n2 m) ≤ r ∧ r ≤ max 1 (solution c p1 p2 n1 n2 m)) ∧
      |r - solution c p1 p2 n1 n2 m| ≤ max ((1 / 100 + 1 / 100000 * max 1 (solution c p1 p2 n1 n2 m)) / (m - 1)) (|new - solution c p1 p2 n1 n2 m| / m ^ k) := by
  set y := solution c p1 p2 n1 n2 m with hy
  have hm0 : 0 < m := by linarith
  intro k
  induction k with
  | zero =>
    intro new old h1 h2 _
    simp only [intrinsicLoop, pow_zero, div_one]
    exact ⟨⟨h1, h2⟩, le_max_right _ _⟩
  | succ k ih =>
    intro new old h1 h2 h3
    simp only [intrinsicLoop]
    by_cases hc : close new old = true
    · rw [if_pos hc]
      exact ⟨⟨h1, h2⟩, (h3 hc).trans (le_max_left _ _)⟩
    · rw [if_neg hc]
      have hb : biasTerm p1 p2 n1 n2 m new = (p1 * p2 - new * (p1 - n1) * (p2 - n2)) / m := by
        unfold biasTerm; rw [if_neg (not_lt.2 hm5)]
      rw [hb, mul_conj_re]
      have hr := round_eq c p1 p2 n1 n2 m new hs hm
      rw [← hy] at hr
      have hnew0 : 0 ≤ new := (le_min zero_le_one hsol).trans h1
      have hcomb : y + (new - y) / m = y * (1 - 1 / m) + new * (1 / m) := by ring
      have him : 0 < 1 / m := one_div_pos.2 hm0
      have him1 : 1 / m < 1 := by rw [div_lt_one hm0]; exact hm
      have hnext0 : 0 ≤ y + (new - y) / m := by
        rw [hcomb]
        exact add_nonneg (mul_nonneg hsol (by linarith)) (mul_nonneg hnew0 him.le)
      have hnum : ¬ sq c - (p1 * p2 - new * (p1 - n1) * (p2 - n2)) / m < 0 := by
        intro hneg
        have := div_neg_of_neg_of_pos hneg hs
        rw [hr] at this
        exact absurd this (not_lt.2 hnext0)
      rw [if_neg hnum, hr]
      have hlow : min 1 y ≤ y + (new - y) / m := by
        rw [hcomb]
        have a := mul_le_mul_of_nonneg_right (min_le_right 1 y) (show (0 : K) ≤ 1 - 1 / m by linarith)
        have b := mul_le_mul_of_nonneg_right h1 him.le
        linarith
      have hhigh : y + (new - y) / m ≤ max 1 y := by
        rw [hcomb]
        have a := mul_le_mul_of_nonneg_right (le_max_right 1 y) (show (0 : K) ≤ 1 - 1 / m by linarith)
        have b := mul_le_mul_of_nonneg_right h2 him.le
        linarith
      have hdist : y + (new - y) / m - y = (new - y) / m := by ring
      have hclose : close (y + (new - y) / m) new = true → |y + (new - y) / m - y| ≤ (1 / 100 + 1 / 100000 * max 1 y) / (m - 1) := by
        intro h
        have h := of_decide_eq_true h
        rw [hdist, le_div_iff₀ (by linarith)]
        have e : |y + (new - y) / m - new| = |(new - y) / m| * (m - 1) := by
          have : y + (new - y) / m - new = -((new - y) / m * (m - 1)) := by
            field_simp; ring
          rw [this, abs_neg, abs_mul, abs_of_pos (show (0 : K) < m - 1 by linarith)]
        rw [e, abs_of_nonneg hnew0] at h
        linarith
      obtain ⟨hbd, hd⟩ := ih _ new hlow hhigh hclose
      refine ⟨hbd, hd.trans (le_of_eq ?_)⟩
      rw [hdist, abs_div, abs_of_pos hm0, pow_succ, div_div, mul_comm m]

/-- **C131.** For powers above the noise and at most 500 averages, when the equation for the intrinsic coherence has a solution that is not negative, the estimate is that solution, with an error of at most a hundredth
(more exactly the tolerance divided by the number of averages minus one, or what forty rounds leave of the distance from 1), and it lies between 1 and the solution. -/
theorem intrinsic_coherence_partial (c : Cx K) (p1 p2 n1 n2 m : K) (hs : 0 < (p1 - n1) * (p2 - n2)) (hm : 1 < m) (hm5 : m ≤ 500) (hsol : 0 ≤ solution c p1 p2 n1 n2 m) :
    (min 1 (solution c p1 p2 n1 n2 m) ≤ intrinsicCoherence close c p1 p2 n1 n2 m ∧ intrinsicCoherence close c p1 p2 n1 n2 m ≤ max 1 (solution c p1 p2 n1 n2 m)) ∧
    |intrinsicCoherence close c p1 p2 n1 n2 m - solution c p1 p2 n1 n2 m| ≤
      max ((1 / 100 + 1 / 100000 * max 1 (solution c p1 p2 n1 n2 m)) / (m - 1)) (|1 - solution c p1 p2 n1 n2 m| / m ^ 40) := by
  refine intrinsicLoop_spec c p1 p2 n1 n2 m hs hm hm5 hsol 40 1 0 (min_le_left _ _) (le_max_left _ _) ?_
  intro h
  have h := of_decide_eq_true h
  norm_num at h

/-- **C131 (many averages).** Above 500 averages no bias is subtracted: the estimate is exactly `|C|² / ((P1 - N1) (P2 - N2))`. -/
theorem intrinsic_coherence_many (c : Cx K) (p1 p2 n1 n2 m : K) (hm : 500 < m) :
    intrinsicCoherence close c p1 p2 n1 n2 m = sq c / ((p1 - n1) * (p2 - n2)) := by
  have hnn : ¬ sq c < 0 := not_lt.2 (by unfold sq; positivity)
  have hb : ∀ x, biasTerm p1 p2 n1 n2 m x = 0 := fun x => by unfold biasTerm; rw [if_pos hm, zero_mul]
  have h0 : close (1 : K) 0 = false := by
    apply decide_eq_false
    norm_num
  have hrefl : ∀ x : K, close x x = true := fun x => by
    apply decide_eq_true
    rw [sub_self, abs_zero]
    positivity
  have hstep : ∀ (k : Nat) (new old : K), close new old = false → intrinsicLoop close c p1 p2 n1 n2 m (k + 1) new old =
      intrinsicLoop close c p1 p2 n1 n2 m k (sq c / ((p1 - n1) * (p2 - n2))) new := by
    intro k new old h
    rw [intrinsicLoop, h]
    simp only [Bool.false_eq_true, if_false, hb, mul_conj_re, sub_zero, if_neg hnn]
  unfold intrinsicCoherence
  rw [hstep 39 1 0 h0]
  by_cases h1 : close (sq c / ((p1 - n1) * (p2 - n2))) 1 = true
  · rw [intrinsicLoop, if_pos h1]
  · rw [hstep 38 _ _ (by simpa using h1), intrinsicLoop, if_pos (hrefl _)]

/-- **C131 (lower bound).** Above the noise the estimate is never negative. -/
theorem intrinsic_coherence_nonneg (c : Cx K) (p1 p2 n1 n2 m : K) (hs : 0 < (p1 - n1) * (p2 - n2)) : 0 ≤ intrinsicCoherence close c p1 p2 n1 n2 m := by
  have : ∀ (k : Nat) (new old : K), 0 ≤ new → 0 ≤ intrinsicLoop close c p1 p2 n1 n2 m k new old := by
    intro k
    induction k with
    | zero => intro new old h; exact h
    | succ k ih =>
      intro new old h
      rw [intrinsicLoop]
      split_ifs with h1
      · exact h
      · apply ih
        apply div_nonneg _ hs.le
        split_ifs with h2
        · rw [mul_conj_re]; unfold sq; positivity
        · exact not_lt.1 h2
  exact this 40 1 0 zero_le_one

/-- **C131 (negation).** When the solution would be negative, the rounds can go back and forth between two values, neither of them a solution: with powers 1, no noise, two averages and `|C|² = 2/5` the values are 2/5, 1/10, 2/5, 1/10, ..., and the result is what the fortieth round happens to give. -/
theorem intrinsic_coherence_cycle :
    intrinsicCoherence close (⟨3/5, 1/5⟩ : Cx ℚ) 1 1 0 0 2 = 1/10 ∧ intrinsicLoop close (⟨3/5, 1/5⟩ : Cx ℚ) 1 1 0 0 2 39 1 0 = 2/5 ∧
    solution (⟨3/5, 1/5⟩ : Cx ℚ) 1 1 0 0 2 = -1/5 := by decide +kernel

example : (0 : ℚ) < (10 - 2) * (10 - 2) ∧ 0 ≤ solution (⟨5, 3⟩ : Cx ℚ) 10 10 2 2 20 ∧
    |intrinsicCoherence close (⟨5, 3⟩ : Cx ℚ) 10 10 2 2 20 - solution (⟨5, 3⟩ : Cx ℚ) 10 10 2 2 20| ≤ 1 / 1000 := by decide +kernel

/-! ## Errors -/

variable (sqrt : K → K) (hsqrt : ∀ x, 0 ≤ x → 0 ≤ sqrt x ∧ sqrt x ^ 2 = x)
include hsqrt

theorem root_some (x : K) (h : 0 ≤ x) : ∃ r, root sqrt (some x) = some r ∧ 0 ≤ r ∧ r ^ 2 = x :=
  ⟨sqrt x, by simp [root, not_lt.2 h], (hsqrt x h).1, (hsqrt x h).2⟩

omit hsqrt in
theorem root_none (x : K) (h : x < 0) : root sqrt (some x) = none := by simp [root, h]

/-- **C132.** Without a common reference, for cross powers that satisfy the Cauchy-Schwarz inequality `|C|² ≤ P1 P2`, the errors of the real and imaginary part and of the modulus exist: the squared errors of real and imaginary part
add up to that of the modulus, `P1 P2 / m`, and differ by `(Re² - Im²) / m`. -/
theorem cross_errors_spec (c : Cx K) (seg ref m segNoise refNoise : K) (hm : 0 < m) (hc : sq c ≤ seg * ref) :
    ∃ a b d, (crossErrors sqrt c seg ref m segNoise refNoise false).re = some a ∧ (crossErrors sqrt c seg ref m segNoise refNoise false).im = some b ∧
      (crossErrors sqrt c seg ref m segNoise refNoise false).modulus = some d ∧ 0 ≤ a ∧ 0 ≤ b ∧ 0 ≤ d ∧
      a ^ 2 + b ^ 2 = d ^ 2 ∧ d ^ 2 = seg * ref / m ∧ a ^ 2 - b ^ 2 = (c.re ^ 2 - c.im ^ 2) / m := by
  unfold sq at hc
  have h0 := sq_nonneg c.re
  have h1 := sq_nonneg c.im
  obtain ⟨a, ha, ha0, ha2⟩ := root_some sqrt hsqrt ((ref * seg + c.re ^ 2 - c.im ^ 2) / (2 * m)) (div_nonneg (by linarith) (by linarith))
  obtain ⟨b, hb, hb0, hb2⟩ := root_some sqrt hsqrt ((ref * seg - c.re ^ 2 + c.im ^ 2) / (2 * m)) (div_nonneg (by linarith) (by linarith))
  obtain ⟨d, hd, hd0, hd2⟩ := root_some sqrt hsqrt (ref * seg / m) (div_nonneg (by linarith) hm.le)
  refine ⟨a, b, d, ha, hb, hd, ha0, hb0, hd0, ?_, ?_, ?_⟩
  · rw [ha2, hb2, hd2]; field_simp; ring
  · rw [hd2, mul_comm]
  · rw [ha2, hb2]; field_simp; ring

/-- **C132 (phase).** Without a common reference the phase has an error exactly when the raw coherence is positive and at most 1, and twice the number of averages times the squared error is then `(1 - coherence) / coherence`. -/
theorem cross_errors_phase (c : Cx K) (seg ref m segNoise refNoise : K) (hm : 0 < m) (hp : 0 < seg * ref) :
    let coh := rawCoherence c seg ref segNoise refNoise m 1
    let e := (crossErrors sqrt c seg ref m segNoise refNoise false).phase
    (e.isSome = true ↔ 0 < coh ∧ coh ≤ 1) ∧ ∀ v, e = some v → 0 ≤ v ∧ 2 * m * v ^ 2 = (1 - coh) / coh := by
  intro coh e
  have hcoh : 0 ≤ coh := raw_coherence_nonneg c seg ref segNoise refNoise m 1 hp
  have he : e = root sqrt (ratio (1 - coh) (2 * coh * m)) := rfl
  rcases hcoh.eq_or_lt with h0 | h0
  · have : e = none := by rw [he, ← h0]; simp [ratio, root]
    rw [this]
    refine ⟨⟨fun h => (by cases h), fun h => ?_⟩, fun v hv => (by cases hv)⟩
    rw [← h0] at h; exact absurd h.1 (lt_irrefl _)
  · have hr : ratio (1 - coh) (2 * coh * m) = some ((1 - coh) / (2 * coh * m)) := by
      unfold ratio; rw [if_neg (by positivity)]
    rcases le_or_gt coh 1 with h1 | h1
    · obtain ⟨v, hv, hv0, hv2⟩ := root_some sqrt hsqrt ((1 - coh) / (2 * coh * m)) (div_nonneg (by linarith) (by positivity))
      rw [he, hr, hv]
      refine ⟨⟨fun _ => ⟨h0, h1⟩, fun _ => rfl⟩, fun w hw => ?_⟩
      cases hw
      refine ⟨hv0, ?_⟩
      rw [hv2]
      field_simp
    · rw [he, hr, root_none sqrt _ (div_neg_of_neg_of_pos (by linarith) (by positivity))]
      exact ⟨⟨fun h => (by cases h), fun h => absurd h.2 (not_le.2 h1)⟩, fun v hv => by cases hv⟩

/-- **C132 (common reference, partial).** With a common reference, when the squared modulus is above the bias, and the coherence without noise in the reference at most 1, all errors exist: real part, imaginary part and modulus have the same, `2 m d² = P_ref (P - (|C|² - b²) / (P_ref - N_ref))`,
and the error of the phase is that error divided by the modulus without bias. Missing: moduli below the bias, see `cross_errors_no_phase`. -/
theorem cross_errors_common_partial (c : Cx K) (seg ref m segNoise refNoise : K) (hm : 0 < m) (href : refNoise < ref) (hr : 0 < ref)
    (hb : biasTerm seg ref segNoise refNoise m 1 < sq c) (hc : sq c - biasTerm seg ref segNoise refNoise m 1 ≤ seg * (ref - refNoise)) :
    ∃ d e, crossErrors sqrt c seg ref m segNoise refNoise true = ⟨some d, some d, some e, some d⟩ ∧ 0 ≤ d ∧ 0 ≤ e ∧
      2 * m * d ^ 2 = ref * (seg - (sq c - biasTerm seg ref segNoise refNoise m 1) / (ref - refNoise)) ∧
      e ^ 2 * (sq c - biasTerm seg ref segNoise refNoise m 1) = d ^ 2 := by
  set b := biasTerm seg ref segNoise refNoise m 1 with hbdef
  have hr0 : 0 < ref - refNoise := by linarith
  have hg0 : 0 < sq c - b := by linarith
  have hd : 0 ≤ seg - (sq c - b) / (ref - refNoise) := by
    rw [sub_nonneg, div_le_iff₀ hr0]; exact hc
  have hover : 0 ≤ ref / (2 * m) := by positivity
  obtain ⟨d, hd1, hd0, hd2⟩ := root_some sqrt hsqrt (ref / (2 * m) * (seg - (sq c - b) / (ref - refNoise))) (mul_nonneg hover hd)
  have hph : 0 ≤ seg / (sq c - b) - 1 / (ref - refNoise) := by
    rw [sub_nonneg, div_le_div_iff₀ hr0 hg0]; linarith
  obtain ⟨e, he1, he0, he2⟩ := root_some sqrt hsqrt (ref / (2 * m) * (seg / (sq c - b) - 1 / (ref - refNoise))) (mul_nonneg hover hph)
  refine ⟨d, e, ?_, hd0, he0, ?_, ?_⟩
  · unfold crossErrors
    simp only [if_true, mul_conj_re, ← hbdef, ratio, if_neg hr0.ne', if_neg hg0.ne', Option.map_some, hd1, he1]
  · rw [hd2]; field_simp
  · rw [he2, hd2]; field_simp

omit hsqrt in
/-- **C132 (common reference, negation).** With a common reference, when the squared modulus is below the bias the phase has no error (not a number), whatever the powers; `raw_coherence` guards against this, this function does not. -/
theorem cross_errors_no_phase (c : Cx K) (seg ref m segNoise refNoise : K) (hm : 0 < m) (href : refNoise < ref) (hr : 0 < ref) (hseg : 0 ≤ seg)
    (hb : sq c < biasTerm seg ref segNoise refNoise m 1) : (crossErrors sqrt c seg ref m segNoise refNoise true).phase = none := by
  have hr0 : 0 < ref - refNoise := by linarith
  have hg0 : sq c - biasTerm seg ref segNoise refNoise m 1 < 0 := by linarith
  unfold crossErrors
  simp only [if_true, mul_conj_re, ratio, if_neg hr0.ne', if_neg hg0.ne]
  apply root_none
  apply mul_neg_of_pos_of_neg (by positivity)
  have := div_nonpos_of_nonneg_of_nonpos hseg hg0.le
  have := one_div_pos.2 hr0
  linarith

omit hsqrt in
/-- **C132 (warning, negation).** For a single number of averages there is a warning exactly below 30; for an array, always. -/
theorem warns_iff (n : Nat) (l : List Nat) : (warns (.inl n) = true ↔ n < 30) ∧ warns (.inr l) = true := by
  constructor
  · simp [warns]
  · unfold warns
    simp only [decide_eq_true_eq]
    split_ifs <;> decide

/-- **C132 (covariance).** The covariance has the phase of the cross power, and its squared modulus times the reference power (above the noise) is the squared modulus of the cross power times the width in frequency. So for a band that is fully coherent with the reference, `|C|² = P (P_ref - N_ref)`,
it is the power in the band times the width, which is the squared rms. -/
theorem covariance_spec (c : Cx K) (ref refNoise df : K) (href : refNoise < ref) (hdf : 0 ≤ df) :
    ∃ v, crossToCovariance sqrt c ref refNoise df = some v ∧ sq v * (ref - refNoise) = sq c * df ∧ (∃ k, 0 ≤ k ∧ v.re = c.re * k ∧ v.im = c.im * k) ∧
      ∀ seg, sq c = seg * (ref - refNoise) → sq v = seg * df := by
  have hr0 : 0 < ref - refNoise := by linarith
  obtain ⟨s, hs, hs0, hs2⟩ := root_some sqrt hsqrt (df / (ref - refNoise)) (div_nonneg hdf hr0.le)
  have h1 : sq (⟨c.re * s, c.im * s⟩ : Cx K) = sq c * (df / (ref - refNoise)) := by
    rw [← hs2]; unfold sq; ring
  refine ⟨⟨c.re * s, c.im * s⟩, ?_, ?_, ⟨s, hs0, rfl, rfl⟩, ?_⟩
  · unfold crossToCovariance ratio
    rw [if_neg hr0.ne', hs]; rfl
  · rw [h1]; field_simp
  · intro seg h
    rw [h1, h]; field_simp

omit hsqrt in
/-- **C132 (covariance, errors).** At or below the noise of the reference there is no covariance. -/
theorem covariance_none (c : Cx K) (ref refNoise df : K) (href : ref ≤ refNoise) (hdf : 0 < df) : crossToCovariance sqrt c ref refNoise df = none := by
  unfold crossToCovariance ratio
  rcases href.eq_or_lt with h | h
  · rw [if_pos (by rw [h, sub_self])]; rfl
  · rw [if_neg (by intro h'; linarith), root_none sqrt _ (div_neg_of_pos_of_neg hdf (by linarith))]; rfl

end

example : sq (⟨3, 4⟩ : Cx ℚ) ≤ 10 * 10 ∧ (0 : ℚ) < rawCoherence (⟨3, 4⟩ : Cx ℚ) 10 10 1 1 20 1 ∧ rawCoherence (⟨3, 4⟩ : Cx ℚ) 10 10 1 1 20 1 ≤ 1 := by decide +kernel
example : biasTerm 10 10 1 1 20 1 < sq (⟨3, 4⟩ : Cx ℚ) ∧ sq (⟨3, 4⟩ : Cx ℚ) - biasTerm 10 10 1 1 20 1 ≤ 10 * (10 - 1) := by decide +kernel
example : sq (⟨1/2, 0⟩ : Cx ℚ) < biasTerm 10 10 1 1 20 1 ∧ (crossErrors id (⟨1/2, 0⟩ : Cx ℚ) 10 10 20 1 1 true).phase = none ∧ (crossErrors id (⟨1/2, 0⟩ : Cx ℚ) 10 10 20 1 1 true).modulus.isSome = true := by decide +kernel

end Stingray.Fourier
