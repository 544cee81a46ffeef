import Verif.Model.Stats
import Verif.Spec.Chi2
import Verif.Props.Trials
import Verif.Props.ClassicalPvalue
import Mathlib.Probability.CDF
import Mathlib.MeasureTheory.Integral.IntervalIntegral.FundThmCalculus

/-!
# Property C121: detection levels
-/

set_option linter.unusedSectionVars false

namespace Stingray.Stats

open Stingray Stingray.Spec MeasureTheory ProbabilityTheory

/-! ## Distribution functions -/

theorem cdf_continuous (μ : Measure ℝ) [IsProbabilityMeasure μ] (h : ∀ x, μ {x} = 0) : Continuous (cdf μ) := by
  rw [continuous_iff_continuousAt]
  intro x
  rw [(monotone_cdf μ).continuousAt_iff_leftLim_eq_rightLim, StieltjesFunction.rightLim_eq]
  have h1 : (cdf μ).measure {x} = ENNReal.ofReal (cdf μ x - Function.leftLim (cdf μ) x) := StieltjesFunction.measure_singleton _ _
  rw [measure_cdf, h x, eq_comm, ENNReal.ofReal_eq_zero] at h1
  exact le_antisymm ((monotone_cdf μ).leftLim_le le_rfl) (by linarith)

theorem exists_quantile (μ : Measure ℝ) [IsProbabilityMeasure μ] (h : ∀ x, μ {x} = 0) (p : ℝ) (h0 : 0 < p) (h1 : p < 1) :
    ∃ x, cdf μ x = p := by
  obtain ⟨a, ha⟩ := ((tendsto_cdf_atBot μ).eventually (gt_mem_nhds h0)).exists
  obtain ⟨b, hb⟩ := ((tendsto_cdf_atTop μ).eventually (lt_mem_nhds h1)).exists
  exact mem_range_of_exists_le_of_exists_ge (cdf_continuous μ h) ⟨a, ha.le⟩ ⟨b, hb.le⟩

theorem chi2_prob {d : ℝ} (hd : 0 < d) : IsProbabilityMeasure (chi2 d) := isProbabilityMeasure_gammaMeasure (by linarith) (by norm_num)

theorem chi2_singleton (d x : ℝ) : chi2 d {x} = 0 := by
  unfold chi2 gammaMeasure
  exact measure_singleton x

theorem chi2Sf_eq {d : ℝ} (hd : 0 < d) (x : ℝ) : chi2Sf x d = 1 - cdf (chi2 d) x := by
  have := chi2_prob hd
  rw [cdf_eq_real, chi2Sf, ← Set.compl_Iic, probReal_compl_eq_one_sub measurableSet_Iic]

theorem exists_invertsChi2 : ∃ isf, InvertsChi2 isf := by
  classical
  refine ⟨fun p d => if h : ∃ x, chi2Sf x d = p then h.choose else 0, ?_⟩
  intro p d h0 h1 hd
  have := chi2_prob hd
  have hex : ∃ x, chi2Sf x d = p := by
    obtain ⟨x, hx⟩ := exists_quantile (chi2 d) (chi2_singleton d) (1 - p) (by linarith) (by linarith)
    exact ⟨x, by rw [chi2Sf_eq hd, hx]; ring⟩
  simp only [dif_pos hex]
  exact hex.choose_spec

theorem exists_invertsBeta : ∃ ppf, InvertsBeta ppf := by
  classical
  refine ⟨fun a b p => if h : ∃ x, betaCdf a b x = p then h.choose else 0, ?_⟩
  intro a b p h0 h1 ha hb
  have := isProbabilityMeasureBeta ha hb
  have hex : ∃ x, betaCdf a b x = p := by
    obtain ⟨x, hx⟩ := exists_quantile (betaMeasure a b) (fun x => by unfold betaMeasure; exact measure_singleton x) p h0 h1
    exact ⟨x, by rw [betaCdf, ← cdf_eq_real, hx]⟩
  simp only [dif_pos hex]
  exact hex.choose_spec

theorem chi2Sf_anti {d : ℝ} (hd : 0 < d) {x y : ℝ} (h : x ≤ y) : chi2Sf y d ≤ chi2Sf x d := by
  have := chi2_prob hd
  exact measureReal_mono (Set.Ioi_subset_Ioi h)

theorem chi2Sf_strict {d : ℝ} (hd : 0 < d) {x y : ℝ} (hx : 0 ≤ x) (h : x < y) : chi2Sf y d < chi2Sf x d := by
  have := chi2_prob hd
  have hpos : 0 < (chi2 d) (Set.Ioc x y) := by
    unfold chi2 gammaMeasure
    rw [withDensity_apply _ measurableSet_Ioc, setLIntegral_pos_iff (by unfold gammaPDF; fun_prop)]
    have : Function.support (gammaPDF (d / 2) (1 / 2)) ∩ Set.Ioc x y = Set.Ioc x y := by
      rw [Set.inter_eq_right]
      intro t ht
      rw [Function.mem_support]
      unfold gammaPDF
      exact (ENNReal.ofReal_pos.2 (gammaPDFReal_pos (by linarith) (by norm_num) (by linarith [ht.1]))).ne'
    rw [this, Real.volume_Ioc]
    exact ENNReal.ofReal_pos.2 (by linarith)
  have hu : Set.Ioi x = Set.Ioc x y ∪ Set.Ioi y := (Set.Ioc_union_Ioi_eq_Ioi h.le).symm
  unfold chi2Sf
  rw [hu, measureReal_union Set.Ioc_disjoint_Ioi_same measurableSet_Ioi]
  have : 0 < (chi2 d).real (Set.Ioc x y) := ENNReal.toReal_pos hpos.ne' (measure_ne_top _ _)
  linarith

theorem chi2Sf_zero {d : ℝ} (hd : 0 < d) {x : ℝ} (hx : x ≤ 0) : chi2Sf x d = 1 := by
  have := chi2_prob hd
  rw [chi2Sf_eq hd, cdf_eq_real]
  have : (chi2 d) (Set.Iic x) = 0 := by
    rw [← Set.Iio_union_right, measure_union_null_iff]
    refine ⟨?_, chi2_singleton d x⟩
    unfold chi2 gammaMeasure
    rw [withDensity_apply _ measurableSet_Iio]
    exact lintegral_gammaPDF_of_nonpos hx
  simp [measureReal_def, this]

/-- for an even number of degrees of freedom: the probability of fewer than `k` Poisson events -/
theorem chi2Sf_even (x : ℝ) (hx : 0 ≤ x) (k : Nat) (hk : 1 ≤ k) : chi2Sf x (2 * k) = poissonBelow (x / 2) k := by
  obtain ⟨n, rfl⟩ : ∃ n, k = n + 1 := ⟨k - 1, by omega⟩
  have hd : (0 : ℝ) < 2 * ((n + 1 : Nat) : ℝ) := by positivity
  have ha : 2 * ((n + 1 : Nat) : ℝ) / 2 = (n : ℝ) + 1 := by push_cast; ring
  rw [chi2Sf_eq hd]
  unfold chi2
  rw [ha, cdf_gammaMeasure_eq_integral (by positivity) (by norm_num)]
  have hsplit : ∫ t in Set.Iic x, gammaPDFReal ((n : ℝ) + 1) (1 / 2) t = ∫ t in Set.Ioc 0 x, gammaPDFReal ((n : ℝ) + 1) (1 / 2) t := by
    rw [← integral_indicator measurableSet_Iic, ← integral_indicator measurableSet_Ioc]
    apply integral_congr_ae
    filter_upwards [Measure.ae_ne volume (0 : ℝ)] with t ht
    by_cases h1 : t ≤ x
    · rw [Set.indicator_of_mem (show t ∈ Set.Iic x from h1)]
      by_cases h2 : 0 < t
      · rw [Set.indicator_of_mem (show t ∈ Set.Ioc 0 x from ⟨h2, h1⟩)]
      · rw [Set.indicator_of_notMem (fun h => h2 h.1), gammaPDFReal, if_neg]
        intro h
        exact ht (le_antisymm (not_lt.1 h2) h)
    · rw [Set.indicator_of_notMem (show t ∉ Set.Iic x from h1), Set.indicator_of_notMem (show t ∉ Set.Ioc 0 x from fun h => h1 h.2)]
  rw [hsplit, ← intervalIntegral.integral_of_le hx]
  have hpdf : ∀ t ∈ Set.uIcc 0 x, gammaPDFReal ((n : ℝ) + 1) (1 / 2) t = pTerm (t / 2) n / 2 := by
    intro t ht
    rw [Set.uIcc_of_le hx] at ht
    unfold gammaPDFReal pTerm
    rw [if_pos ht.1, Real.Gamma_nat_eq_factorial, add_sub_cancel_right, Real.rpow_natCast, Real.rpow_add_one (by norm_num), Real.rpow_natCast]
    have : -(1 / 2 * t) = -(t / 2) := by ring
    rw [this, div_pow, div_pow]
    ring
  rw [intervalIntegral.integral_congr hpdf]
  have hder : ∀ t ∈ Set.uIcc 0 x, HasDerivAt (fun t => -poissonBelow (t / 2) (n + 1)) (pTerm (t / 2) n / 2) t := by
    intro t _
    have h1 := (poissonBelow_hasDerivAt n (t / 2)).comp t ((hasDerivAt_id t).div_const 2)
    have h2 := h1.neg
    have e : -(-pTerm (t / 2) n * (1 / 2)) = pTerm (t / 2) n / 2 := by ring
    rw [e] at h2
    exact h2
  rw [intervalIntegral.integral_eq_sub_of_hasDerivAt hder]
  · have := (pvalue_sum_decreasing (n + 1) (by omega) 0 1 le_rfl one_pos).2
    rw [zero_div, this]
    ring
  · apply Continuous.intervalIntegrable
    unfold pTerm
    fun_prop

/-! ## Levels -/

/-- The probability that at least one of `n` independent trials has an outcome of probability `p`. -/
noncomputable def falseAlarm (p : ℝ) (n : Nat) : ℝ := 1 - (1 - p) ^ n

theorem pSingle_some (tol eps : ℝ) (n : Nat) (hn : 1 ≤ n) (h0 : 0 < eps) (h1 : eps < 1) (htol : eps < Real.exp (-7) ∨ tol ≤ 1 - eps) :
    ∃ p, pSingle tol eps n = some p ∧ 0 < p ∧ p < 1 := by
  have hn' : (1 : ℝ) ≤ n := by exact_mod_cast hn
  unfold pSingle logpSingle
  simp only [Real.exp_log h0, Real.log_lt_iff_lt_exp h0]
  by_cases h : eps < Real.exp (-7)
  · rw [if_pos h]
    refine ⟨_, rfl, Real.exp_pos _, ?_⟩
    rw [Real.exp_lt_one_iff]
    have := Real.log_neg h0 h1
    have := Real.log_nonneg hn'
    linarith
  · rw [if_neg h, if_neg (by rcases htol with h' | h' <;> [exact absurd h' h; linarith])]
    refine ⟨_, rfl, Real.exp_pos _, ?_⟩
    have hq0 : 0 < (1 - eps) ^ (1 / (n : ℝ)) := Real.rpow_pos_of_pos (by linarith) _
    have hq1 : (1 - eps) ^ (1 / (n : ℝ)) < 1 := Real.rpow_lt_one (by linarith) (by linarith) (by positivity)
    rw [Real.exp_log (by linarith)]
    linarith

theorem level_meaning (tol eps p1 : ℝ) (n : Nat) (hn : 1 ≤ n) (h0 : 0 < eps) (h1 : eps < 1) (hp0 : 0 < p1) (hp1 : p1 < 1)
    (h : pSingle tol eps n = some p1) : pMulti p1 n = eps ∧ (∀ q, 0 ≤ q → q ≤ p1 → falseAlarm q n ≤ eps) ∧
      (Real.exp (-7) ≤ eps → ∀ q, q ≤ 1 → p1 < q → eps < falseAlarm q n) := by
  have hm := multi_of_single tol eps p1 n h0 h1 hn h
  obtain ⟨ha, _, hc⟩ := multi_accuracy p1 n hp0 hp1.le hn
  refine ⟨hm, ?_, ?_⟩
  · intro q hq0 hq
    have : (1 - p1) ^ n ≤ (1 - q) ^ n := pow_le_pow_left₀ (by linarith) (by linarith) n
    unfold falseAlarm
    linarith
  · intro he q hq1 hq
    have hnp : Real.exp (-7) ≤ n * p1 := by
      by_contra hcon
      rw [pMulti_eq hp0 hp1.le hn, if_pos (by linarith)] at hm
      linarith
    have hex := hc hnp
    have : (1 - q) ^ n < (1 - p1) ^ n := pow_lt_pow_left₀ (by linarith) (by linarith) (by omega)
    unfold falseAlarm
    linarith

/-- What a detection level must satisfy: `tail z` is the single-trial probability of the outcomes at least as extreme as `z`, `prob z` what the library reports for `z` in `n` trials. -/
def IsLevel (tail prob : ℝ → ℝ) (n : Nat) (eps L : ℝ) : Prop :=
  0 < L ∧ prob L = eps ∧ (∀ z, L ≤ z → falseAlarm (tail z) n ≤ eps) ∧
    (Real.exp (-7) ≤ eps → ∀ z, 0 ≤ z → z < L → eps < falseAlarm (tail z) n)

theorem chi2_level (isf : ℝ → ℝ → ℝ) (hisf : InvertsChi2 isf) (tol eps d s : ℝ) (hd : 0 < d) (hs : 0 < s) (n : Nat) (hn : 1 ≤ n)
    (h0 : 0 < eps) (h1 : eps < 1) (htol : eps < Real.exp (-7) ∨ tol ≤ 1 - eps) :
    ∃ p, pSingle tol eps n = some p ∧ IsLevel (fun z => chi2Sf (z * s) d) (fun z => pMulti (chi2Sf (z * s) d) n) n eps (isf p d / s) := by
  obtain ⟨p, hp, hp0, hp1⟩ := pSingle_some tol eps n hn h0 h1 htol
  obtain ⟨h2, h3, h4⟩ := level_meaning tol eps p n hn h0 h1 hp0 hp1 hp
  have hsf := hisf p d hp0 hp1 hd
  have hpos : 0 < isf p d := by
    by_contra hc
    rw [chi2Sf_zero hd (not_lt.1 hc)] at hsf
    linarith
  have := chi2_prob hd
  refine ⟨p, hp, div_pos hpos hs, ?_, ?_, ?_⟩
  · dsimp only
    rw [div_mul_cancel₀ _ hs.ne', hsf, h2]
  · intro z hz
    apply h3 _ measureReal_nonneg
    rw [← hsf]
    apply chi2Sf_anti hd
    rwa [div_le_iff₀ hs] at hz
  · intro he z hz0 hz
    apply h4 he _ measureReal_le_one
    rw [← hsf]
    apply chi2Sf_strict hd (by positivity)
    rwa [lt_div_iff₀ hs] at hz

/-- **C121.** Detection levels for epoch folding, `Z^2_n` and power spectra, for every number of bins, harmonics, summed spectra, rebinning, trials and false-alarm probability (not so close to one that the library refuses).
The probability reported at the level is exactly the requested one; every statistic above it has a false-alarm probability in all the trials of at most this; and (unless the probability is so small that the library uses its
upper bound) every statistic below it has a larger one. -/
theorem detection_levels (isf : ℝ → ℝ → ℝ) (hisf : InvertsChi2 isf) (tol eps : ℝ) (ntrial : Nat) (ht : 1 ≤ ntrial)
    (h0 : 0 < eps) (h1 : eps < 1) (htol : eps < Real.exp (-7) ∨ tol ≤ 1 - eps) :
    (∀ nbin : Nat, 2 ≤ nbin → ∃ L, foldLevel isf tol nbin eps ntrial = some L ∧
      IsLevel (fun z => chi2Sf z ((nbin : ℝ) - 1)) (fun z => foldProb chi2Sf z nbin ntrial) ntrial eps L) ∧
    (∀ n nsum : Nat, 1 ≤ n → 1 ≤ nsum → ∃ L, z2Level isf tol n eps ntrial nsum = some L ∧
      IsLevel (fun z => chi2Sf (z * nsum) (2 * n * nsum)) (fun z => z2Prob chi2Sf z n ntrial nsum) ntrial eps L) ∧
    (∀ nsum nrebin : Nat, 1 ≤ nsum → 1 ≤ nrebin → ∃ L, pdsLevel isf tol eps ntrial nsum nrebin = some L ∧
      IsLevel (fun z => chi2Sf (z * (nsum * nrebin)) (2 * (nsum * nrebin))) (fun z => pdsProb chi2Sf z ntrial nsum nrebin) ntrial eps L) := by
  refine ⟨?_, ?_, ?_⟩
  · intro nbin hb
    have hb' : (2 : ℝ) ≤ nbin := by exact_mod_cast hb
    obtain ⟨p, hp, hl⟩ := chi2_level isf hisf tol eps ((nbin : ℝ) - 1) 1 (by linarith) one_pos ntrial ht h0 h1 htol
    refine ⟨isf p ((nbin : ℝ) - 1), by unfold foldLevel; rw [hp]; rfl, ?_⟩
    simp only [mul_one, div_one] at hl
    exact hl
  · intro n nsum hn hm
    have hn' : (1 : ℝ) ≤ n := by exact_mod_cast hn
    have hm' : (1 : ℝ) ≤ nsum := by exact_mod_cast hm
    obtain ⟨p, hp, hl⟩ := chi2_level isf hisf tol eps (2 * n * nsum) nsum (by positivity) (by positivity) ntrial ht h0 h1 htol
    refine ⟨isf p (2 * nsum * n) / nsum, by unfold z2Level; rw [hp]; rfl, ?_⟩
    rw [show (2 : ℝ) * nsum * n = 2 * n * nsum by ring]
    exact hl
  · intro nsum nrebin hn hm
    have hn' : (1 : ℝ) ≤ nsum := by exact_mod_cast hn
    have hm' : (1 : ℝ) ≤ nrebin := by exact_mod_cast hm
    obtain ⟨p, hp, hl⟩ := chi2_level isf hisf tol eps (2 * (nsum * nrebin)) (nsum * nrebin) (by positivity) (by positivity) ntrial ht h0 h1 htol
    refine ⟨isf p (2 * nsum * nrebin) / (nsum * nrebin), by unfold pdsLevel; rw [hp]; rfl, ?_⟩
    unfold pdsProb
    simp only [mul_assoc] at hl ⊢
    exact hl

example : ∃ isf, InvertsChi2 isf ∧ ∃ L, z2Level isf (1 / 10 ^ 12) 2 (1 / 100) 10 1 = some L ∧ z2Prob chi2Sf L 2 10 1 = 1 / 100 := by
  obtain ⟨isf, h⟩ := exists_invertsChi2
  obtain ⟨L, h1, h2⟩ := (detection_levels isf h (1 / 10 ^ 12) (1 / 100) 10 (by norm_num) (by norm_num) (by norm_num) (Or.inr (by norm_num))).2.1 2 1 (by norm_num) (by norm_num)
  exact ⟨isf, h, L, h1, h2.2.1⟩

/-- **C121 (phase dispersion).** The same for phase dispersion minimisation, where small values of the statistic are significant: the values at or below the level have a false-alarm probability of at most the requested one. -/
theorem phase_dispersion_level (ppf : ℝ → ℝ → ℝ → ℝ) (hppf : InvertsBeta ppf) (tol eps : ℝ) (ntrial : Nat) (ht : 1 ≤ ntrial)
    (h0 : 0 < eps) (h1 : eps < 1) (htol : eps < Real.exp (-7) ∨ tol ≤ 1 - eps) (nsamples nbin : Nat) (hb : 2 ≤ nbin) (hs : nbin < nsamples) :
    ∃ L, pdmLevel ppf tol nsamples nbin eps ntrial = some L ∧ pdmProb betaCdf L nsamples nbin ntrial = eps ∧
      ∀ z ≤ L, falseAlarm (betaCdf (((nsamples : ℝ) - nbin) / 2) (((nbin : ℝ) - 1) / 2) z) ntrial ≤ eps := by
  have hb' : (2 : ℝ) ≤ nbin := by exact_mod_cast hb
  have hs' : (nbin : ℝ) < nsamples := by exact_mod_cast hs
  obtain ⟨p, hp, hp0, hp1⟩ := pSingle_some tol eps ntrial ht h0 h1 htol
  obtain ⟨h2, h3, _⟩ := level_meaning tol eps p ntrial ht h0 h1 hp0 hp1 hp
  have ha : 0 < ((nsamples : ℝ) - nbin) / 2 := by linarith
  have hb : 0 < ((nbin : ℝ) - 1) / 2 := by linarith
  have hsf := hppf _ _ p hp0 hp1 ha hb
  have := isProbabilityMeasureBeta ha hb
  refine ⟨_, by unfold pdmLevel; rw [hp]; rfl, ?_, ?_⟩
  · unfold pdmProb
    rw [hsf, h2]
  · intro z hz
    apply h3 _ measureReal_nonneg
    rw [← hsf]
    exact measureReal_mono (Set.Iic_subset_Iic.2 hz)

example : ∃ ppf, InvertsBeta ppf ∧ ∃ L, pdmLevel ppf (1 / 10 ^ 12) 100 16 (1 / 100) 10 = some L := by
  obtain ⟨ppf, h⟩ := exists_invertsBeta
  obtain ⟨L, h1, _⟩ := phase_dispersion_level ppf h (1 / 10 ^ 12) (1 / 100) 10 (by norm_num) (by norm_num) (by norm_num) (Or.inr (by norm_num)) 100 16 (by norm_num) (by norm_num)
  exact ⟨ppf, h, L, h1⟩

/-- **C121 (list of rebinning factors).** With a list of rebinning factors there is one level for each, the same as for that factor alone. -/
theorem pds_levels_list (isf : ℝ → ℝ → ℝ) (tol eps : ℝ) (ntrial nsum : Nat) (nrebin : List Nat) :
    pdsLevels isf tol eps ntrial nsum nrebin = nrebin.map (pdsLevel isf tol eps ntrial nsum) := rfl

/-- **C121 (ordering).** In a single spectrum, more significant means more extreme: the reported probability strictly decreases with the statistic. -/
theorem probability_decreasing (x y : ℝ) (hx : 0 ≤ x) (hxy : x < y) (n nsum nrebin nbin : Nat) (hn : 1 ≤ n) (hs : 1 ≤ nsum) (hr : 1 ≤ nrebin) (hb : 2 ≤ nbin) :
    foldProb chi2Sf y nbin 1 < foldProb chi2Sf x nbin 1 ∧ z2Prob chi2Sf y n 1 nsum < z2Prob chi2Sf x n 1 nsum ∧
    pdsProb chi2Sf y 1 nsum nrebin < pdsProb chi2Sf x 1 nsum nrebin := by
  have hn' : (1 : ℝ) ≤ n := by exact_mod_cast hn
  have hs' : (1 : ℝ) ≤ nsum := by exact_mod_cast hs
  have hr' : (1 : ℝ) ≤ nrebin := by exact_mod_cast hr
  have hb' : (2 : ℝ) ≤ nbin := by exact_mod_cast hb
  have key : ∀ d s : ℝ, 0 < d → 0 < s → pMulti (chi2Sf (y * s) d) 1 < pMulti (chi2Sf (x * s) d) 1 := by
    intro d s hd hs
    have := chi2_prob hd
    have hpos : ∀ t, 0 ≤ t → 0 < chi2Sf t d := by
      intro t ht
      exact lt_of_le_of_lt measureReal_nonneg (chi2Sf_strict hd ht (lt_add_one t))
    have one : ∀ t, 0 ≤ t → pMulti (chi2Sf t d) 1 = chi2Sf t d := by
      intro t ht
      rw [pMulti_eq (hpos t ht) measureReal_le_one le_rfl]
      split_ifs <;> simp
    rw [one _ (mul_nonneg (hx.trans hxy.le) hs.le), one _ (mul_nonneg hx hs.le)]
    exact chi2Sf_strict hd (by positivity) (by nlinarith)
  refine ⟨?_, ?_, ?_⟩
  · have := key ((nbin : ℝ) - 1) 1 (by linarith) one_pos
    simp only [mul_one] at this
    exact this
  · exact key _ _ (by positivity) (by positivity)
  · have := key (2 * nsum * nrebin) (nsum * nrebin) (by positivity) (by positivity)
    simp only [← mul_assoc] at this
    exact this

/-- **C121 (classical p-value, partial).** `classical_pvalue` is the single-trial `pds_probability` that replaced it, up to a relative error of `1e-15` per averaged spectrum. Missing: for `power * nspec` above 30000 it gives 0, which C50 shows
can be far from it. -/
theorem classical_is_pds_partial (power : ℝ) (nspec : Nat) (hp : 0 < power) (hn : 1 ≤ nspec) (hn' : (nspec : ℝ) ≤ 10 ^ 15) (hle : power * nspec ≤ 30000) :
    ∃ v, classicalPvalue (some power) (some nspec) = .ok (some v) ∧ v ≤ pdsProb chi2Sf power 1 nspec 1 ∧
      pdsProb chi2Sf power 1 nspec 1 ≤ v * (1 + nspec / 10 ^ 15) := by
  obtain ⟨v, h1, _, _, h2, h3⟩ := classical_pvalue_sum_partial power nspec hp hn hn' hle
  have hn0 : (1 : ℝ) ≤ nspec := by exact_mod_cast hn
  have hd : (0 : ℝ) < 2 * nspec := by positivity
  have := chi2_prob hd
  have hx : 0 ≤ power * nspec := by positivity
  have hpos : 0 < chi2Sf (power * nspec) (2 * nspec) := lt_of_le_of_lt measureReal_nonneg (chi2Sf_strict hd hx (lt_add_one _))
  have e : pdsProb chi2Sf power 1 nspec 1 = poissonBelow (power * nspec / 2) nspec := by
    unfold pdsProb
    simp only [Nat.cast_one, mul_one]
    rw [pMulti_eq hpos measureReal_le_one le_rfl, ← chi2Sf_even _ hx nspec hn]
    split_ifs <;> simp
  exact ⟨v, h1, by rw [e]; exact h2, by rw [e]; exact h3⟩

/-- **C121 (logarithms, partial).** Where the asymptotic expressions are not used, the logarithmic versions give the logarithms of the probabilities. Missing: the accuracy of the asymptotic expressions. -/
theorem log_probabilities_partial (asym : ℝ → ℝ → ℝ) (ntrial : Nat) :
    (∀ (stat : ℝ) (nbin : Nat), 3 ≤ nbin → nbin ≤ 151 → stat / ((nbin : ℝ) - 1) ≤ 15 → foldLogProb chi2Sf asym stat nbin ntrial = .ok (Real.log (foldProb chi2Sf stat nbin ntrial))) ∧
    (∀ (z2 : ℝ) (n nsum : Nat), 1 ≤ n → 1 ≤ nsum → 2 * n * nsum ≤ 150 → z2 * nsum / (2 * n * nsum) ≤ 15 → z2LogProb chi2Sf asym z2 n ntrial nsum = .ok (Real.log (z2Prob chi2Sf z2 n ntrial nsum))) ∧
    (∀ (level : ℝ) (nsum nrebin : Nat), 1 ≤ nsum → 1 ≤ nrebin → 2 * nsum * nrebin ≤ 150 → level * nsum * nrebin / (2 * nsum * nrebin) ≤ 15 →
      pdsLogProb chi2Sf asym level ntrial nsum nrebin = .ok (Real.log (pdsProb chi2Sf level ntrial nsum nrebin))) := by
  have key : ∀ x d : ℝ, 2 ≤ d → d ≤ 150 → x / d ≤ 15 → (chi2Logp chi2Sf asym x d).map (fun p => logpMulti p ntrial) = .ok (Real.log (pMulti (chi2Sf x d) ntrial)) := by
    intro x d h1 h2 h3
    unfold chi2Logp pMulti
    rw [if_neg (by linarith), if_neg (by rintro (h | ⟨h, _⟩) <;> linarith), Real.log_exp]
    rfl
  refine ⟨?_, ?_, ?_⟩
  · intro stat nbin h1 h2 h3
    have h1' : (3 : ℝ) ≤ nbin := by exact_mod_cast h1
    have h2' : (nbin : ℝ) ≤ 151 := by exact_mod_cast h2
    exact key _ _ (by linarith) (by linarith) h3
  · intro z2 n nsum h1 h2 h3 h4
    have h1' : (1 : ℝ) ≤ n := by exact_mod_cast h1
    have h2' : (1 : ℝ) ≤ nsum := by exact_mod_cast h2
    have h3' : 2 * (n : ℝ) * nsum ≤ 150 := by exact_mod_cast h3
    exact key _ _ (by nlinarith) h3' h4
  · intro level nsum nrebin h1 h2 h3 h4
    have h1' : (1 : ℝ) ≤ nsum := by exact_mod_cast h1
    have h2' : (1 : ℝ) ≤ nrebin := by exact_mod_cast h2
    have h3' : 2 * (nsum : ℝ) * nrebin ≤ 150 := by exact_mod_cast h3
    exact key _ _ (by nlinarith) h3' h4

/-- **C121 (two bins, negation).** For a profile of two bins, which has a probability, the logarithmic version refuses. -/
theorem fold_log_two_bins (asym : ℝ → ℝ → ℝ) (stat : ℝ) (hs : 0 ≤ stat) (ntrial : Nat) (ht : 1 ≤ ntrial) :
    0 < foldProb chi2Sf stat 2 ntrial ∧ foldProb chi2Sf stat 2 ntrial ≤ 1 ∧ foldLogProb chi2Sf asym stat 2 ntrial = .error .valueError := by
  have hd : (0 : ℝ) < ((2 : Nat) : ℝ) - 1 := by norm_num
  have := chi2_prob hd
  have hpos : 0 < chi2Sf stat (((2 : Nat) : ℝ) - 1) := lt_of_le_of_lt measureReal_nonneg (chi2Sf_strict hd hs (lt_add_one _))
  refine ⟨Real.exp_pos _, ((multi_bounds _ ntrial hpos measureReal_le_one ht).2).trans (min_le_left _ _), ?_⟩
  unfold foldLogProb chi2Logp
  rw [if_pos (by norm_num)]
  rfl

end Stingray.Stats
