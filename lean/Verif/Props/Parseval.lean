import Verif.Lemmas.Parseval
import Verif.Props.FourierAverage

/-!
Parseval's identity for the averaged power spectrum (C45) and the integrated rms (C79).
-/

namespace Stingray.Fourier

open Stingray.Spec Finset

theorem avgPds_df {K : Type} [Field K] [LinearOrder K] [IsStrictOrderedRing K] (fft : List K → List (Cx K)) (dt : K) (norm : Norm) (ucm : Bool)
    (segs : List (Segment K)) (t : PdsTable K) (h : avgPds fft dt norm ucm segs = .ok (some t)) :
    t.df = 1 / (dt * t.n) ∧ t.segmentSize = dt * t.n := by
  unfold avgPds at h
  cases hf : segs.foldlM (pdsStep fft dt norm ucm) { sumPh := 0 } with
  | error e => simp [hf, bind, Except.bind] at h
  | ok acc =>
    simp only [hf, bind, Except.bind] at h
    unfold pdsFinish at h
    split at h
    · simp only [bind, Except.bind] at h
      cases ucm with
      | true =>
        simp only [if_true] at h
        split at h
        · cases h
        · cases h
          exact ⟨rfl, rfl⟩
      | false =>
        simp only [Bool.false_eq_true, if_false] at h
        cases h
        exact ⟨rfl, rfl⟩
    · cases h

/-- twice the sum of the positive-frequency powers of one segment -/
theorem positive_power_sum (x : List ℝ) (hx : x ≠ []) :
    2 * ∑ i ∈ Finset.range (nPositive x.length), fourierPower dft x (i + 1) +
      (if x.length % 2 = 0 then fourierPower dft x (x.length / 2) else 0) = (x.length : ℝ) ^ 2 * variance x := by
  have hn := List.length_pos_of_ne_nil hx
  rw [variance_eq x hx]
  have hpow : ∀ i ∈ Finset.range (nPositive x.length), fourierPower dft x (i + 1) =
      powerAt x.length (fun j => x.getD j 0) (i + 1) := by
    intro i hi
    rw [Finset.mem_range] at hi
    unfold nPositive at hi
    exact fourierPower_dft x _ (by omega)
  rw [Finset.sum_congr rfl hpow]
  split_ifs with he
  · rw [fourierPower_dft x _ (by omega)]
    obtain ⟨m, hm⟩ : ∃ m, x.length = 2 * m := ⟨x.length / 2, by omega⟩
    have := half_sum_even m (by omega) (fun j => x.getD j 0)
    unfold nPositive
    rw [hm, show (2 * m - 1) / 2 = m - 1 by omega, show 2 * m / 2 = m by omega]
    exact this
  · obtain ⟨m, hm⟩ : ∃ m, x.length = 2 * m + 1 := ⟨x.length / 2, by omega⟩
    have := half_sum_odd m (fun j => x.getD j 0)
    unfold nPositive
    rw [hm, show (2 * m + 1 - 1) / 2 = m by omega, add_zero]
    exact this

theorem sum_range_mean {σ : Type} (us : List σ) (N : Nat) (g : σ → Nat → ℝ) :
    ∑ i ∈ Finset.range N, mean (us.map fun s => g s i) = mean (us.map fun s => ∑ i ∈ Finset.range N, g s i) := by
  unfold mean
  simp only [List.length_map]
  simp only [div_eq_mul_inv]
  rw [← Finset.sum_mul]
  congr 1
  induction us with
  | nil => simp
  | cons s us ih => simp only [List.map_cons, List.sum_cons, Finset.sum_add_distrib, ih]

theorem mean_add {σ : Type} (us : List σ) (f g : σ → ℝ) :
    mean (us.map fun s => f s + g s) = mean (us.map f) + mean (us.map g) := by
  unfold mean
  simp only [List.length_map, ← add_div]
  congr 1
  induction us with
  | nil => simp
  | cons s us ih => simp only [List.map_cons, List.sum_cons, ih]; ring

theorem mean_mul {σ : Type} (us : List σ) (c : ℝ) (f : σ → ℝ) :
    mean (us.map fun s => c * f s) = c * mean (us.map f) := by
  unfold mean
  simp only [List.length_map]
  rw [mul_div_assoc']
  congr 1
  induction us with
  | nil => simp
  | cons s us ih => simp only [List.map_cons, List.sum_cons, ih]; ring

/-- what the even case leaves out: the power at the Nyquist frequency -/
noncomputable def nyquist (x : List ℝ) : ℝ := if x.length % 2 = 0 then fourierPower dft x (x.length / 2) else 0

/-- **C45.** Averaged power spectrum of segments of `n` samples, fractional rms normalisation, with the discrete Fourier transform: the powers at the positive frequencies times the frequency resolution sum up to the mean
variance of the segments over the square of the mean flux, minus, if `n` is even, the power at the Nyquist frequency. -/
theorem parseval_frac (dt : ℝ) (hdt : 0 < dt) (n : Nat) (hn : 0 < n) (segs us : List (Segment ℝ))
    (hus : us = segs.filter usable) (hlen : ∀ s ∈ us, (fluxes s).length = n) (t : PdsTable ℝ)
    (h : avgPds dft dt .frac true segs = .ok (some t)) (hmean : t.mean ≠ 0) :
    (t.power.map fun p => p * t.df).sum =
      mean (us.map fun s => variance (fluxes s)) / t.mean ^ 2 -
      mean (us.map fun s => nyquist (fluxes s)) / (n ^ 2 * t.mean ^ 2) := by
  have hR := avg_pds_mean dft dft_length dt hdt .frac true n hn segs us hus hlen _ h
  by_cases hne : us = []
  · have := hR.1 hne; cases this
  obtain ⟨t', e, hm, hnn, -, hu, -, -, -, hp, -⟩ := hR.2 hne
  cases e
  obtain ⟨f, hf, hpow⟩ := hp rfl
  obtain ⟨hdf, -⟩ := avgPds_df _ _ _ _ _ _ h
  have hf' : ∀ p, f p = p * 2 * dt / (t.mean ^ 2 * n) := by
    intro p
    simp only [normalizer, lt_self_iff_false, if_false, Except.ok.injEq] at hf
    rw [← hf]
  have hn' : (n : ℝ) ≠ 0 := by exact_mod_cast hn.ne'
  rw [hpow, hu, hdf, hnn, List.map_map, List.map_map, list_sum_range]
  simp only [Function.comp, hf']
  have e1 : ∀ i ∈ Finset.range (nPositive n),
      mean (us.map fun s => fourierPower dft (fluxes s) (i + 1)) * 2 * dt / (t.mean ^ 2 * n) * (1 / (dt * n)) =
      (2 / (t.mean ^ 2 * n ^ 2)) * mean (us.map fun s => fourierPower dft (fluxes s) (i + 1)) := by
    intro i _
    field_simp
  rw [Finset.sum_congr rfl e1, ← Finset.mul_sum, sum_range_mean]
  have e2 : mean (us.map fun s => (n : ℝ) ^ 2 * variance (fluxes s)) =
      mean (us.map fun s => 2 * ∑ i ∈ Finset.range (nPositive n), fourierPower dft (fluxes s) (i + 1) + nyquist (fluxes s)) := by
    congr 1
    apply List.map_congr_left
    intro s hs
    have hl := hlen s hs
    have := positive_power_sum (fluxes s) (by intro h0; rw [h0] at hl; simp at hl; omega)
    rw [hl] at this
    rw [← this]
    unfold nyquist
    rw [hl]
  rw [mean_mul, mean_add, mean_mul] at e2
  have hm2 : t.mean ^ 2 ≠ 0 := pow_ne_zero _ hmean
  field_simp
  linarith

/-- **C45 (odd number of samples).** Without the Nyquist frequency the sum is exactly the fractional variance. -/
theorem parseval_frac_odd (dt : ℝ) (hdt : 0 < dt) (n : Nat) (hodd : n % 2 = 1) (segs us : List (Segment ℝ))
    (hus : us = segs.filter usable) (hlen : ∀ s ∈ us, (fluxes s).length = n) (t : PdsTable ℝ)
    (h : avgPds dft dt .frac true segs = .ok (some t)) (hmean : t.mean ≠ 0) :
    (t.power.map fun p => p * t.df).sum = mean (us.map fun s => variance (fluxes s)) / t.mean ^ 2 := by
  rw [parseval_frac dt hdt n (by omega) segs us hus hlen t h hmean]
  have : mean (us.map fun s => nyquist (fluxes s)) = 0 := by
    have e : (us.map fun s => nyquist (fluxes s)) = us.map fun _ => (0 : ℝ) := by
      apply List.map_congr_left
      intro s hs
      unfold nyquist
      rw [hlen s hs, if_neg (by omega)]
    rw [e]
    simp [mean]
  rw [this, zero_div, sub_zero]

/-- the hypotheses are met: for every segment of three fluxes, not all zero -/
example : ∃ t, avgPds dft 1 .frac true [Segment.flux [1, 2, 6]] = .ok (some t) ∧ t.mean = 3 := by
  obtain ⟨r, hr⟩ := avg_pds_total dft dft_length 1 .frac (by decide) true 3 [Segment.flux [1, 2, 6]] (by simp [Segment.data])
    (by simp [fluxes])
  have h := avg_pds_mean dft dft_length 1 one_pos .frac true 3 (by norm_num) [Segment.flux [1, 2, 6]] _ rfl
    (by intro s hs; rw [List.mem_filter, List.mem_singleton] at hs; rw [hs.1]; rfl) r hr
  have hf : [Segment.flux [(1 : ℝ), 2, 6]].filter usable = [Segment.flux [1, 2, 6]] := by
    simp [usable]
  rw [hf] at h
  obtain ⟨t, rfl, -, -, -, -, hph, hme, -⟩ := h.2 (by simp)
  refine ⟨t, hr, ?_⟩
  rw [hme, hph]
  simp [mean, fluxes]
  norm_num

/-! ### Integrated rms (C79) -/

/-- **C79.** The integrated fractional rms of the averaged power spectrum, without noise, is the square root of the mean variance over the squared mean flux (odd number of samples): the textbook definition of the fractional
rms. -/
theorem rms_is_fractional_std (dt : ℝ) (hdt : 0 < dt) (n : Nat) (hodd : n % 2 = 1) (segs us : List (Segment ℝ))
    (hus : us = segs.filter usable) (hlen : ∀ s ∈ us, (fluxes s).length = n) (t : PdsTable ℝ)
    (h : avgPds dft dt .frac true segs = .ok (some t)) (hmean : t.mean ≠ 0) :
    rmsFromNorm Real.sqrt t.power 0 t.df = Real.sqrt (mean (us.map fun s => variance (fluxes s))) / |t.mean| := by
  unfold rmsFromNorm
  simp only [sub_zero]
  rw [parseval_frac_odd dt hdt n hodd segs us hus hlen t h hmean]
  have hv : 0 ≤ mean (us.map fun s => variance (fluxes s)) := by
    unfold mean
    apply div_nonneg _ (Nat.cast_nonneg _)
    apply List.sum_nonneg
    intro v hv
    rw [List.mem_map] at hv
    obtain ⟨s, -, rfl⟩ := hv
    unfold variance
    apply div_nonneg _ (Nat.cast_nonneg _)
    apply List.sum_nonneg
    intro v hv
    rw [List.mem_map] at hv
    obtain ⟨s, -, rfl⟩ := hv
    positivity
  rw [if_neg (not_lt.2 (div_nonneg hv (sq_nonneg _))), Real.sqrt_div hv, Real.sqrt_sq_eq_abs]

variable {K : Type} [Field K] [LinearOrder K] [IsStrictOrderedRing K]

/-- **C79 (normalisations agree).** The rms computed from the un-normalised powers is the rms computed from the powers in the fractional (absolute) rms normalisation, with the noise normalised in the same way. -/
theorem rms_unnorm_eq_norm (sqrt : K → K) (unnorm : List K) (nphots noise dt : K) (n : Nat) (hn : 0 < n) (hdt : 0 < dt)
    (hph : nphots ≠ 0) :
    (∃ f, normalizer .frac dt n (nphots / n) nphots none 0 = .ok f ∧
      rmsFromUnnorm sqrt unnorm nphots (1 / (dt * n)) (some noise) (some (dt * n)) .frac =
        .ok (rmsFromNorm sqrt (unnorm.map f) (f noise) (1 / (dt * n)))) ∧
    (∃ f, normalizer .abs dt n (nphots / n) nphots none 0 = .ok f ∧
      rmsFromUnnorm sqrt unnorm nphots (1 / (dt * n)) (some noise) none .abs =
        .ok (rmsFromNorm sqrt (unnorm.map f) (f noise) (1 / (dt * n)))) := by
  have hn' : (n : K) ≠ 0 := by exact_mod_cast hn.ne'
  have hdt' := hdt.ne'
  constructor
  · refine ⟨fun p => p * 2 * dt / ((nphots / n) ^ 2 * n), by simp [normalizer], ?_⟩
    simp only [rmsFromUnnorm, Option.getD_some]
    have e : ∀ p : K, p * 2 / nphots / (nphots / (dt * n)) = p * 2 * dt / ((nphots / n) ^ 2 * n) := by
      intro p; field_simp
    simp only [e]
  · refine ⟨fun p => p * 2 / n / dt, by simp [normalizer], ?_⟩
    simp only [rmsFromUnnorm, Option.getD_some, Option.getD_none]
    have e : ∀ p : K, p * 2 / nphots * (nphots / (1 / (1 / (dt * n)))) = p * 2 / n / dt := by
      intro p; field_simp
    simp only [e]

example : (rmsFromUnnorm (fun x : ℚ => x) [10, 20] 4 (1/5) (some 2) none .frac).toOption = some (52 / 16) := by
  decide +kernel

/-- **C79 (default noise).** Without a noise level that of Poisson noise, the number of photons in the un-normalised powers, is subtracted; kinds other than `frac` and `abs` are refused. -/
theorem rms_unnorm_default_noise (sqrt : K → K) (unnorm : List K) (nphots df : K) (seg : Option K) (kind : RmsKind) (noise : Option K) :
    rmsFromUnnorm sqrt unnorm nphots df none seg kind = rmsFromUnnorm sqrt unnorm nphots df (some nphots) seg kind ∧
    rmsFromUnnorm sqrt unnorm nphots df noise seg .other = .error .valueError := ⟨rfl, rfl⟩

/-- **C79 (no variability).** If all the powers are at the noise level, given or not, the rms is `sqrt 0`. -/
theorem rms_unnorm_no_variability (sqrt : K → K) (n : Nat) (nphots df : K) (seg noise : Option K) (kind : RmsKind) (hk : kind ≠ .other) :
    rmsFromUnnorm sqrt (List.replicate n (noise.getD nphots)) nphots df noise seg kind = .ok (sqrt 0) := by
  cases kind <;> simp_all [rmsFromUnnorm, rmsFromNorm]

end Stingray.Fourier
