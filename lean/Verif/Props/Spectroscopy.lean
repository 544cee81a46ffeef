import Verif.Model.Spectroscopy
import Verif.Props.UtilsStats
import Mathlib.Analysis.SpecialFunctions.Integrals.Basic
import Mathlib.Analysis.Real.Pi.Bounds
import Mathlib.Tactic.FieldSimp
import Mathlib.Tactic.Linarith
import Mathlib.Tactic.NormNum
import Mathlib.Tactic.Ring
import Mathlib.Tactic.Positivity

/-!
Phase-resolved spectroscopy of quasi-periodic oscillations (C175).
-/

set_option linter.unusedSectionVars false

namespace Stingray.Spectroscopy

open Stingray

/-! ### Phase differences of harmonics -/

theorem pyMod_range (x m : ℝ) (hm : 0 < m) : 0 ≤ pyMod x m ∧ pyMod x m < m := by
  unfold pyMod
  have h1 := Int.floor_le (x / m)
  have h2 := Int.lt_floor_add_one (x / m)
  rw [le_div_iff₀ hm] at h1
  rw [div_lt_iff₀ hm] at h2
  constructor <;> nlinarith

theorem pyMod_add (x m : ℝ) (hm : 0 < m) (k : ℤ) : pyMod (x + m * k) m = pyMod x m := by
  unfold pyMod
  rw [show (x + m * k) / m = x / m + k by field_simp, Int.floor_add_intCast]
  push_cast
  ring

theorem pyMod_self (x m : ℝ) (hm : 0 < m) (h0 : 0 ≤ x) (h1 : x < m) : pyMod x m = x := by
  unfold pyMod
  have : ⌊x / m⌋ = 0 := by
    rw [Int.floor_eq_zero_iff]
    exact ⟨div_nonneg h0 hm.le, by rw [div_lt_one hm]; exact h1⟩
  rw [this]
  simp

theorem arg_rotate (X : ℂ) (hX : X ≠ 0) (t : ℝ) : ∃ k : ℤ, (X * Complex.exp (t * Complex.I)).arg = X.arg + t + 2 * Real.pi * k := by
  have h : (((X * Complex.exp (t * Complex.I)).arg : ℝ) : Real.Angle) = ((X.arg + t : ℝ) : Real.Angle) := by
    have he : (((Complex.exp (t * Complex.I)).arg : ℝ) : Real.Angle) = (t : Real.Angle) := by
      rw [Complex.exp_mul_I]
      exact_mod_cast Complex.arg_cos_add_sin_mul_I_coe_angle (t : Real.Angle)
    rw [Complex.arg_mul_coe_angle hX (Complex.exp_ne_zero _), he]
    rfl
  obtain ⟨k, hk⟩ := Real.Angle.angle_eq_iff_two_pi_dvd_sub.1 h
  exact ⟨k, by linarith⟩

/-- **C175 (phase difference).** The phase difference of two harmonics is between 0 and pi, and does not depend on the origin of the phase or the amplitudes: a delay, which turns the first harmonic by an angle and the second one by twice the angle, and positive factors leave it unchanged. -/
theorem phase_difference_delay (X1 X2 : ℂ) (h1 : X1 ≠ 0) (h2 : X2 ≠ 0) (t a b : ℝ) (ha : 0 < a) (hb : 0 < b) :
    (0 ≤ (phases X1 X2).2.2 ∧ (phases X1 X2).2.2 < Real.pi) ∧
    (phases (a * (X1 * Complex.exp (t * Complex.I))) (b * (X2 * Complex.exp ((2 * t : ℝ) * Complex.I)))).2.2 = (phases X1 X2).2.2 := by
  refine ⟨pyMod_range _ _ Real.pi_pos, ?_⟩
  unfold phases
  simp only
  rw [Complex.arg_real_mul _ ha, Complex.arg_real_mul _ hb]
  obtain ⟨j, hj⟩ := arg_rotate X1 h1 t
  obtain ⟨k, hk⟩ := arg_rotate X2 h2 (2 * t)
  rw [hj, hk, ← pyMod_add (X2.arg / 2 - X1.arg) Real.pi Real.pi_pos (k - 2 * j)]
  congr 1
  push_cast
  ring

/-- **C175 (lag).** The phases returned for a channel have the phase difference of the reference, apart from the lag of the second harmonic. -/
theorem phase_lag_difference (C1 C2 : ℂ) (psi : ℝ) (h0 : 0 ≤ psi) (h1 : psi < Real.pi) :
    let q := phaseLag C1 C2 psi
    pyMod ((q.2.1 - C2.arg) / 2 - q.1) Real.pi = psi ∧ q.1 = C1.arg + Real.pi / 2 ∧ q.2.2 = psi := by
  simp only [phaseLag]
  refine ⟨?_, by ring, trivial⟩
  rw [show (2 * (Real.pi / 2 + C1.arg + psi) + C2.arg - C2.arg) / 2 - (Real.pi / 2 + C1.arg) = psi by ring]
  exact pyMod_self psi Real.pi Real.pi_pos h0 h1

/-! ### Which harmonics -/

section Search

variable {K : Type} [Field K] [LinearOrder K] [IsStrictOrderedRing K]

theorem binSearch_all (a : Nat → K) (v : K) : ∀ (fuel lo hi : Nat), hi - lo ≤ fuel → lo ≤ hi → (∀ i, lo ≤ i → i < hi → a i < v) → binSearch a v fuel lo hi = hi := by
  intro fuel
  induction fuel with
  | zero => intro lo hi h1 h2 _; rw [binSearch]; omega
  | succ fuel ih =>
    intro lo hi h1 h2 h3
    rw [binSearch]
    by_cases h : lo < hi
    · rw [if_pos h]
      simp only
      rw [if_pos (h3 _ (by omega) (by omega))]
      exact ih _ _ (by omega) (by omega) fun i hi1 hi2 => h3 i (by omega) hi2
    · rw [if_neg h]; omega

theorem binSearch_sorted (a : Nat → K) (v : K) : ∀ (fuel lo hi : Nat), hi - lo ≤ fuel → lo ≤ hi → (∀ i j, lo ≤ i → i ≤ j → j < hi → a i ≤ a j) →
    let r := binSearch a v fuel lo hi
    lo ≤ r ∧ r ≤ hi ∧ (∀ i, lo ≤ i → i < r → a i < v) ∧ ∀ i, r ≤ i → i < hi → v ≤ a i := by
  intro fuel
  induction fuel with
  | zero =>
    intro lo hi h1 h2 _
    simp only [binSearch]
    exact ⟨le_rfl, h2, fun i hi1 hi2 => by omega, fun i hi1 hi2 => by omega⟩
  | succ fuel ih =>
    intro lo hi h1 h2 h3
    simp only
    rw [binSearch]
    by_cases h : lo < hi
    · rw [if_pos h]
      simp only
      by_cases hm : a (lo + (hi - lo) / 2) < v
      · rw [if_pos hm]
        obtain ⟨p1, p2, p3, p4⟩ := ih (lo + (hi - lo) / 2 + 1) hi (by omega) (by omega) fun i j hi1 hij hj => h3 i j (by omega) hij hj
        refine ⟨by omega, p2, fun i hi1 hi2 => ?_, p4⟩
        by_cases hc : i ≤ lo + (hi - lo) / 2
        · exact (h3 i _ hi1 hc (by omega)).trans_lt hm
        · exact p3 i (by omega) hi2
      · rw [if_neg hm]
        obtain ⟨p1, p2, p3, p4⟩ := ih lo (lo + (hi - lo) / 2) (by omega) (by omega) fun i j hi1 hij hj => h3 i j hi1 hij (by omega)
        refine ⟨p1, by omega, p3, fun i hi1 hi2 => ?_⟩
        by_cases hc : i < lo + (hi - lo) / 2
        · exact p4 i hi1 hc
        · exact (not_lt.1 hm).trans (h3 _ i (by omega) (by omega) hi2)
    · rw [if_neg h]
      exact ⟨le_rfl, h2, fun i hi1 hi2 => by omega, fun i hi1 hi2 => by omega⟩

theorem fftfreq_getD (n : Nat) (dt : K) (i : Nat) (h : i < n) : (fftfreq n dt).getD i 0 = if i ≤ (n - 1) / 2 then (i : K) / (n * dt) else ((i : K) - n) / (n * dt) := by
  unfold fftfreq
  rw [List.getD_eq_getElem?_getD, List.getElem?_map, List.getElem?_range h]
  rfl

theorem fftfreq_length (n : Nat) (dt : K) : (fftfreq n dt).length = n := by simp [fftfreq]

/-- **C175 (harmonics, partial).** For an odd number of bins, a positive frequency not above the highest Fourier frequency is matched to a Fourier frequency that no other is nearer to. Missing: even numbers of bins, see `harmonic_even`. -/
theorem harmonic_odd_partial (n : Nat) (hn : n % 2 = 1) (dt : K) (hdt : 0 < dt) (f : K) (hf : 0 < f) (hmax : f ≤ (((n - 1) / 2 : Nat) : K) / (n * dt)) :
    ∃ k : Nat, nearestIdx (fftfreq n dt) f = .ok k ∧ k ≤ (n - 1) / 2 ∧ ∀ j : Nat, j ≤ (n - 1) / 2 → |f - k / (n * dt)| ≤ |f - j / (n * dt)| := by
  have hn0 : (0 : K) < n := by exact_mod_cast (by omega : 0 < n)
  have hd : 0 < (n : K) * dt := by positivity
  set m := (n - 1) / 2 with hm
  have hval : ∀ i : Nat, i ≤ m → (fftfreq n dt).getD i 0 = (i : K) / (n * dt) := by
    intro i hi
    rw [fftfreq_getD n dt i (by omega), if_pos hi]
  have hmono : ∀ i j : Nat, i ≤ j → (i : K) / (n * dt) ≤ (j : K) / (n * dt) := fun i j hij => div_le_div_of_nonneg_right (by exact_mod_cast hij) hd.le
  -- the first turn goes to the left half
  have hfirst : binSearch (fun i => (fftfreq n dt).getD i 0) f n 0 n = binSearch (fun i => (fftfreq n dt).getD i 0) f (n - 1) 0 m := by
    obtain ⟨q, rfl⟩ : ∃ q, n = q + 1 := ⟨n - 1, by omega⟩
    rw [binSearch, if_pos (by omega)]
    simp only
    rw [show 0 + (q + 1 - 0) / 2 = m by omega, hval m le_rfl, if_neg (not_lt.2 hmax)]
    rfl
  obtain ⟨_, p2, p3, p4⟩ := binSearch_sorted (fun i => (fftfreq n dt).getD i 0) f (n - 1) 0 m (by omega) (by omega) fun i j _ hij hj => by
    rw [hval i (by omega), hval j (by omega)]
    exact hmono i j hij
  unfold nearestIdx
  simp only [fftfreq_length]
  rw [hfirst]
  set r := binSearch (fun i => (fftfreq n dt).getD i 0) f (n - 1) 0 m with hr
  have hr0 : r ≠ 0 := by
    intro h
    rcases Nat.eq_zero_or_pos m with hm0 | hm0
    · rw [hm0] at hmax
      simp at hmax
      linarith
    · have := p4 0 (by omega) hm0
      rw [hval 0 (by omega)] at this
      simp at this
      linarith
  have hrv : f ≤ (r : K) / (n * dt) := by
    rcases Nat.lt_or_ge r m with h | h
    · have := p4 r le_rfl h
      rwa [hval r (by omega)] at this
    · have : r = m := by omega
      rw [this]
      exact hmax
  have hlow : ((r - 1 : Nat) : K) / (n * dt) < f := by
    have := p3 (r - 1) (by omega) (by omega)
    rwa [hval (r - 1) (by omega)] at this
  rw [if_neg (by omega), if_neg hr0, hval (r - 1) (by omega), hval r (by omega)]
  have hfar : ∀ j : Nat, j ≤ m → (j ≤ r - 1 → |f - ((r - 1 : Nat) : K) / (n * dt)| ≤ |f - j / (n * dt)|) ∧ (r ≤ j → |f - (r : K) / (n * dt)| ≤ |f - j / (n * dt)|) := by
    intro j hj
    constructor
    · intro h
      have := hmono j (r - 1) h
      rw [abs_of_nonneg (by linarith), abs_of_nonneg (by linarith)]
      linarith
    · intro h
      have := hmono r j h
      rw [abs_of_nonpos (by linarith), abs_of_nonpos (by linarith)]
      linarith
  by_cases hc : |f - ((r - 1 : Nat) : K) / (n * dt)| < |f - (r : K) / (n * dt)|
  · rw [if_pos hc]
    refine ⟨r - 1, by congr 1; omega, by omega, fun j hj => ?_⟩
    rcases Nat.lt_or_ge j r with h | h
    · exact (hfar j hj).1 (by omega)
    · exact hc.le.trans ((hfar j hj).2 h)
  · rw [if_neg hc]
    refine ⟨r, rfl, p2, fun j hj => ?_⟩
    rcases Nat.lt_or_ge j r with h | h
    · exact (not_lt.1 hc).trans ((hfar j hj).1 (by omega))
    · exact (hfar j hj).2 h

theorem nearest_even (n : Nat) (hn : 2 ≤ n) (heven : n % 2 = 0) (dt : K) (hdt : 0 < dt) (f : K) (hf : 0 ≤ f) : nearestIdx (fftfreq n dt) f = .ok ((n : Int) - 1) := by
  have hn0 : (0 : K) < n := by exact_mod_cast (by omega : 0 < n)
  have hd : 0 < (n : K) * dt := by positivity
  have hneg : ∀ i, n / 2 ≤ i → i < n → (fftfreq n dt).getD i 0 < f := by
    intro i h1 h2
    rw [fftfreq_getD n dt i h2, if_neg (by omega)]
    have h3 : (i : K) < n := by exact_mod_cast h2
    exact (div_neg_of_neg_of_pos (by linarith) hd).trans_le hf
  have : binSearch (fun i => (fftfreq n dt).getD i 0) f n 0 n = n := by
    obtain ⟨q, rfl⟩ : ∃ q, n = q + 1 := ⟨n - 1, by omega⟩
    rw [binSearch, if_pos (by omega)]
    simp only
    rw [if_pos (hneg _ (by omega) (by omega))]
    exact binSearch_all _ f q _ _ (by omega) (by omega) fun i h1 h2 => hneg i (by omega) h2
  unfold nearestIdx
  simp only [fftfreq_length]
  rw [this, if_pos rfl]

end Search

/-- **C175 (negation).** For an even number of bins the search runs on frequencies that are not in ascending order: whatever the positive frequencies of the two harmonics are, the last Fourier coefficient is used for both, that of the frequency -1/(n dt). -/
theorem harmonic_even (fft : List ℝ → List ℂ) (counts : List ℝ) (dt f1 f2 : ℝ) (hdt : 0 < dt) (h1 : 0 < f1) (h2 : 0 < f2) (hl : ∀ l, (fft l).length = l.length) (hn : 2 ≤ counts.length)
    (heven : counts.length % 2 = 0) :
    let a := ((fft (counts.map fun c => c / dt)).getD (counts.length - 1) 0).arg
    (getParameters fft counts dt f1 f2).map (fun q => (q.2.1, q.2.2.1)) = .ok (a, a) ∧
    (fftfreq counts.length dt).getD (counts.length - 1) 0 = -1 / (counts.length * dt) := by
  constructor
  · unfold getParameters
    simp only [hl, List.length_map]
    rw [nearest_even _ hn heven dt hdt f1 h1.le, nearest_even _ hn heven dt hdt f2 h2.le]
    simp only [bind, Except.bind, pure, Except.pure, Except.map, phases]
    have : ((counts.length : Int) - 1).toNat = counts.length - 1 := by omega
    rw [this]
  · rw [fftfreq_getD _ dt _ (by omega), if_neg (by omega)]
    congr 1
    have : ((counts.length - 1 : Nat) : ℝ) = counts.length - 1 := by
      rw [Nat.cast_sub (by omega)]
      simp
    rw [this]
    ring

/-! ### Waveform -/

/-- **C175 (waveform).** The mean of the waveform over a cycle is the mean count rate, and its fractional rms is the root of the sum of the squares of the rms of the harmonics. -/
theorem waveform_mean_rms (mu s1 s2 p1 p2 : ℝ) :
    (∫ x in (0 : ℝ)..(2 * Real.pi), waveform x mu s1 s2 p1 p2) = 2 * Real.pi * mu ∧
    (∫ x in (0 : ℝ)..(2 * Real.pi), (waveform x mu s1 s2 p1 p2 - mu) ^ 2) = 2 * Real.pi * (mu ^ 2 * (s1 ^ 2 + s2 ^ 2)) := by
  have hs : (√2 : ℝ) ^ 2 = 2 := Real.sq_sqrt (by norm_num)
  have dsin : ∀ (c d x : ℝ), HasDerivAt (fun x : ℝ => Real.sin (c * x - d)) (Real.cos (c * x - d) * c) x := by
    intro c d x
    have h := ((hasDerivAt_id x).const_mul c).sub_const d
    simp only [id, mul_one] at h
    exact h.sin
  have per : ∀ (c : ℕ) (d : ℝ), Real.sin (c * (2 * Real.pi) - d) = Real.sin (c * 0 - d) := by
    intro c d
    rw [show (c : ℝ) * (2 * Real.pi) - d = (c * 0 - d) + c * (2 * Real.pi) by ring, Real.sin_add_nat_mul_two_pi]
  constructor
  · have hderiv : ∀ x ∈ Set.uIcc (0 : ℝ) (2 * Real.pi), HasDerivAt (fun x : ℝ => mu * (x + √2 * (s1 * Real.sin (1 * x - p1) + s2 / 2 * Real.sin (2 * x - p2)))) (waveform x mu s1 s2 p1 p2) x := by
      intro x _
      have h := ((hasDerivAt_id x).add ((((dsin 1 p1 x).const_mul s1).add ((dsin 2 p2 x).const_mul (s2 / 2))).const_mul √2)).const_mul mu
      refine h.congr_deriv ?_
      unfold waveform
      rw [one_mul]
      ring
    rw [intervalIntegral.integral_eq_sub_of_hasDerivAt hderiv (Continuous.intervalIntegrable (by unfold waveform; fun_prop) _ _)]
    have e1 := per 1 p1
    have e2 := per 2 p2
    push_cast at e1 e2
    rw [e1, e2]
    ring
  · have hderiv : ∀ x ∈ Set.uIcc (0 : ℝ) (2 * Real.pi), HasDerivAt (fun x : ℝ => mu ^ 2 * (2 * (s1 ^ 2 * (x / 2 + Real.sin (2 * x - 2 * p1) / 4) + s2 ^ 2 * (x / 2 + Real.sin (4 * x - 2 * p2) / 8) +
        s1 * s2 * (Real.sin (3 * x - (p1 + p2)) / 3 + Real.sin (1 * x - (p2 - p1)))))) ((waveform x mu s1 s2 p1 p2 - mu) ^ 2) x := by
      intro x _
      have h := ((((((hasDerivAt_id x).div_const 2).add ((dsin 2 (2 * p1) x).div_const 4)).const_mul (s1 ^ 2)).add
        ((((hasDerivAt_id x).div_const 2).add ((dsin 4 (2 * p2) x).div_const 8)).const_mul (s2 ^ 2))).add
        ((((dsin 3 (p1 + p2) x).div_const 3).add (dsin 1 (p2 - p1) x)).const_mul (s1 * s2))).const_mul 2 |>.const_mul (mu ^ 2)
      refine h.congr_deriv ?_
      have c1 : Real.cos (2 * x - 2 * p1) = 2 * Real.cos (x - p1) ^ 2 - 1 := by
        rw [← Real.cos_two_mul]; congr 1; ring
      have c2 : Real.cos (4 * x - 2 * p2) = 2 * Real.cos (2 * x - p2) ^ 2 - 1 := by
        rw [← Real.cos_two_mul]; congr 1; ring
      have c3 : Real.cos (3 * x - (p1 + p2)) + Real.cos (1 * x - (p2 - p1)) = 2 * (Real.cos (x - p1) * Real.cos (2 * x - p2)) := by
        rw [show 3 * x - (p1 + p2) = (2 * x - p2) + (x - p1) by ring, show 1 * x - (p2 - p1) = (2 * x - p2) - (x - p1) by ring, Real.cos_add (2 * x - p2) (x - p1),
          Real.cos_sub (2 * x - p2) (x - p1)]
        ring
      have hw : (waveform x mu s1 s2 p1 p2 - mu) ^ 2 = mu ^ 2 * (2 * (s1 * Real.cos (x - p1) + s2 * Real.cos (2 * x - p2)) ^ 2) := by
        unfold waveform
        linear_combination mu ^ 2 * (s1 * Real.cos (x - p1) + s2 * Real.cos (2 * x - p2)) ^ 2 * hs
      rw [hw, c1, c2]
      linear_combination mu ^ 2 * 2 * (s1 * s2) * c3
    rw [intervalIntegral.integral_eq_sub_of_hasDerivAt hderiv (Continuous.intervalIntegrable (by unfold waveform; fun_prop) _ _)]
    have e1 := per 2 (2 * p1)
    have e2 := per 4 (2 * p2)
    have e3 := per 3 (p1 + p2)
    have e4 := per 1 (p2 - p1)
    push_cast at e1 e2 e3 e4
    rw [e1, e2, e3, e4]
    ring

/-! ### Mean phase difference -/

/-- **C175 (mean, partial).** Below pi / 2, the function that is minimised is the sum of the squared differences of the phase differences from their mean. Missing: from pi / 2 on, see `mean_phase_above`. -/
theorem mean_phase_partial (avg : ℝ) (h : avg < Real.pi / 2) (psis : List ℝ) : xSquared avg psis = (psis.map fun p => (p - avg) ^ 2).sum := by
  unfold xSquared
  simp only
  rw [if_pos h, List.map_map]
  congr 1
  refine List.map_congr_left fun p _ => ?_
  simp

/-- **C175 (negation).** From pi / 2 on, the function is not small where the phase differences are: for `n` segments with exactly the phase difference `p` its value at `p` is `n² pi²`, not zero. -/
theorem mean_phase_above (p : ℝ) (h : Real.pi / 2 ≤ p) (n : Nat) : xSquared p (List.replicate n p) = n ^ 2 * Real.pi ^ 2 := by
  unfold xSquared
  simp only
  rw [if_neg (not_lt.2 h)]
  simp [List.map_replicate, List.sum_replicate]
  ring

/-- **C175 (negation).** The standard deviation of the mean is the mean divided by the number of segments: for a minimiser that finds the minimum, and segments that all have the same phase difference, there is no scatter but the standard deviation is not zero. -/
theorem mean_phase_stddev (brent : (ℝ → ℝ) → ℝ) (p : ℝ) (h0 : 0 < p) (n : Nat) (hn : 0 < n)
    (hb : brent (fun x => xSquared x (List.replicate n p)) = p) : meanPhase brent (List.replicate n p) = (p, p / n) ∧ 0 < p / n := by
  constructor
  · unfold meanPhase
    simp [hb]
  · have : (0 : ℝ) < n := by exact_mod_cast hn
    positivity

/-! ### Rms and cross correlation -/

section Rms

variable {K : Type} [Field K] [LinearOrder K] [IsStrictOrderedRing K]

/-- **C175 (rms).** The squared rms of a model is the sum of its values times the frequency resolution over all frequencies, over the positive ones, or over those nearer to the centre of the first component than half its width; other criteria are refused. -/
theorem model_rms (freq : List K) (df : K) (model : K → K) (x0 fwhm : K) :
    rms2 freq df model "all" x0 fwhm = .ok ((freq.map model).sum * df) ∧
    rms2 freq df model "posfreq" x0 fwhm = .ok (((freq.filter fun f => decide (0 < f)).map model).sum * df) ∧
    rms2 freq df model "optimal" x0 fwhm = .ok (((freq.filter fun f => decide (0 < f)).map model).sum * df) ∧
    rms2 freq df model "window" x0 fwhm = .ok (((freq.filter fun f => decide (|f - x0| < fwhm / 2)).map model).sum * df) ∧
    ∀ c, c ≠ "all" → c ≠ "posfreq" → c ≠ "optimal" → c ≠ "window" → rms2 freq df model c x0 fwhm = .error .valueError := by
  have hsum : ∀ l : List K, (l.map fun f => model f * df).sum = (l.map model).sum * df := by
    intro l
    induction l with
    | nil => simp
    | cons x l ih => simp only [List.map_cons, List.sum_cons, ih]; ring
  refine ⟨?_, ?_, ?_, ?_, ?_⟩
  · simp only [rms2, if_true, hsum]
  · have h1 : ¬ ("posfreq" = "all") := by decide
    simp only [rms2, h1, if_false, true_or, if_true, hsum, gt_iff_lt]
  · have h1 : ¬ ("optimal" = "all") := by decide
    simp only [rms2, h1, if_false, or_true, if_true, hsum, gt_iff_lt]
  · have h1 : ¬ ("window" = "all") := by decide
    have h2 : ¬ ("window" = "posfreq" ∨ "window" = "optimal") := by decide
    simp only [rms2, h1, h2, if_false, if_true]
    congr 1
    induction freq with
    | nil => simp
    | cons x l ih =>
      rw [List.map_cons, List.sum_cons, ih]
      by_cases hc : |x - x0| < fwhm / 2
      · rw [if_neg (not_le.2 hc), List.filter_cons_of_pos (by simpa using hc), List.map_cons, List.sum_cons]
        ring
      · rw [if_pos (not_lt.1 hc), List.filter_cons_of_neg (by simpa using hc)]
        ring
  · intro c h1 h2 h3 h4
    simp [rms2, h1, h2, h3, h4]

/-- **C175 (cross correlation).** For a linear inverse transform, the cross correlation of the average of the segment spectra is the average of the cross correlations of the segments, so the errors are the standard errors of the segments about their own mean. -/
theorem ccf_average (sqrt : K → K) (ifftRe : List K → List K) (n : Nat) (M : Nat → Nat → K)
    (hlin : ∀ l, l.length = n → ifftRe l = (List.range n).map fun j => ((List.range n).map fun i => M j i * l.getD i 0).sum)
    (segs : List (List K)) (hs : ∀ s ∈ segs, s.length = n) (psRms : K) (nBins : Nat) :
    let q := ccfError sqrt ifftRe n segs psRms nBins
    let ccfs := segs.map fun s => ccf ifftRe s psRms nBins
    q.2 = average n ccfs ∧
    q.1 = (List.range n).map fun j => UtilsStats.standardError sqrt (ccfs.map fun r => r.getD j 0) ((ccfs.map fun r => r.getD j 0).sum / (ccfs.map fun r => r.getD j 0).length) := by
  have hget : ∀ (f : Nat → K) (j : Nat), j < n → ((List.range n).map f).getD j 0 = f j := by
    intro f j hj
    rw [List.getD_eq_getElem?_getD, List.getElem?_map, List.getElem?_range hj]
    rfl
  have hccf : ∀ l, l.length = n → ccf ifftRe l psRms nBins = (List.range n).map fun j => ((List.range n).map fun i => M j i * l.getD i 0).sum * (2 / nBins / psRms) := by
    intro l hl
    unfold ccf
    rw [hlin l hl, List.map_map]
    rfl
  have hcol : ∀ j < n, ((segs.map fun s => ccf ifftRe s psRms nBins).map fun r => r.getD j 0) = segs.map fun s => ((List.range n).map fun i => M j i * s.getD i 0).sum * (2 / nBins / psRms) := by
    intro j hj
    rw [List.map_map]
    refine List.map_congr_left fun s hss => ?_
    simp only [Function.comp_apply]
    rw [hccf s (hs s hss), hget _ j hj]
  have hswap : ∀ j, ((List.range n).map fun i => M j i * ((segs.map fun r => r.getD i 0).sum / segs.length)).sum = (segs.map fun s => ((List.range n).map fun i => M j i * s.getD i 0).sum).sum / segs.length := by
    intro j
    have : ∀ (l : List (List K)) (c : K), ((List.range n).map fun i => M j i * ((l.map fun r => r.getD i 0).sum / c)).sum = (l.map fun s => ((List.range n).map fun i => M j i * s.getD i 0).sum).sum / c := by
      intro l c
      induction l with
      | nil => simp
      | cons s l ih =>
        simp only [List.map_cons, List.sum_cons]
        rw [add_div, ← ih, div_eq_mul_inv, ← List.sum_map_mul_right, ← List.sum_map_add]
        congr 1
        refine List.map_congr_left fun i _ => ?_
        ring
    exact this segs segs.length
  have havg : ccf ifftRe (average n segs) psRms nBins = average n (segs.map fun s => ccf ifftRe s psRms nBins) := by
    rw [hccf _ (by simp [average])]
    unfold average
    refine List.map_congr_left fun j hj => ?_
    have hj' := List.mem_range.1 hj
    rw [hcol j hj', List.length_map]
    have h1 : ((List.range n).map fun i => M j i * ((List.range n).map fun j => (segs.map fun r => r.getD j 0).sum / (segs.length : K)).getD i 0) =
        (List.range n).map fun i => M j i * ((segs.map fun r => r.getD i 0).sum / segs.length) := by
      refine List.map_congr_left fun i hi => ?_
      rw [hget _ i (List.mem_range.1 hi)]
    rw [h1, hswap j]
    have h2 : (segs.map fun s => ((List.range n).map fun i => M j i * s.getD i 0).sum * (2 / nBins / psRms)).sum = (segs.map fun s => ((List.range n).map fun i => M j i * s.getD i 0).sum).sum * (2 / nBins / psRms) := by
      rw [List.sum_map_mul_right]
    rw [h2]
    ring
  simp only [ccfError]
  refine ⟨havg, ?_⟩
  refine List.map_congr_left fun j hj => ?_
  rw [havg]
  congr 1
  unfold average
  rw [hget _ j (List.mem_range.1 hj)]
  simp

end Rms

/-! ### Examples -/

/-- Eight bins: a frequency of 1/4 is matched to the last coefficient; seven bins: to the second one. -/
example : nearestIdx (fftfreq 8 (1 : ℚ)) (1 / 4) = .ok 7 ∧ nearestIdx (fftfreq 7 (1 : ℚ)) (2 / 7 + 1 / 100) = .ok 2 := by decide +kernel

example : phases 1 1 = (0, 0, 0) := by simp [phases, pyMod]

example : (rms2 [(1 : ℚ), 2, 3, 4] (1 / 2) (fun f => f) "window" 2 3).toOption = some 3 := by decide +kernel

/-- The minimiser of `mean_phase_stddev` exists. -/
example : ∃ brent : (ℝ → ℝ) → ℝ, brent (fun x => xSquared x (List.replicate 3 1)) = 1 ∧ ∀ y < Real.pi / 2, xSquared 1 (List.replicate 3 1) ≤ xSquared y (List.replicate 3 1) := by
  refine ⟨fun _ => 1, rfl, fun y hy => ?_⟩
  have h1 : (1 : ℝ) < Real.pi / 2 := by have := Real.pi_gt_three; linarith
  rw [mean_phase_partial 1 h1, mean_phase_partial y hy]
  refine le_trans (b := 0) (by simp) (List.sum_nonneg fun x hx => ?_)
  obtain ⟨p, _, rfl⟩ := List.mem_map.1 hx
  exact sq_nonneg _

end Stingray.Spectroscopy
