import Verif.Lemmas.Timmer
import Verif.Props.Simulator

/-!
C180: light curves simulated from a power spectrum (Timmer & Koenig).
-/

set_option linter.unusedSectionVars false

namespace Stingray.Timmer

open Stingray Stingray.Spec Stingray.Fourier

theorem amplitudes_getD (g1 g2 : Nat → ℝ) (shape : List ℝ) (k : Nat) :
    (amplitudes g1 g2 shape).getD k (0, 0) = if k < shape.length then
      (g1 k * Real.sqrt (1 / 2 * shape.getD k 0), if k + 1 = shape.length then 0 else g2 k * Real.sqrt (1 / 2 * shape.getD k 0)) else (0, 0) := by
  rw [List.getD_eq_getElem?_getD, amplitudes, List.getElem?_map]
  split_ifs with h h'
  · rw [List.getElem?_range h]
    simp [h']
  · rw [List.getElem?_range h]
    simp [h']
  · rw [List.getElem?_eq_none (by simpa using h)]
    rfl

theorem sum_affine (n : Nat) (x : List ℝ) (hx : x.length = n) (a b : ℝ) (t : Nat → ℝ) (ht : ∑ j ∈ Finset.range n, t j = 0) :
    ∑ j ∈ Finset.range n, (x.map fun v => a * v + b).getD j 0 * t j = a * ∑ j ∈ Finset.range n, x.getD j 0 * t j := by
  have e : ∀ j ∈ Finset.range n, (x.map fun v => a * v + b).getD j 0 * t j = a * (x.getD j 0 * t j) + b * t j := by
    intro j hj
    have hj' : j < x.length := by rw [hx]; exact Finset.mem_range.1 hj
    have e1 : (x.map fun v => a * v + b).getD j 0 = a * x.getD j 0 + b := by
      rw [List.getD_eq_getElem?_getD, List.getD_eq_getElem?_getD, List.getElem?_map, List.getElem?_eq_getElem hj']
      rfl
    rw [e1]
    ring
  rw [Finset.sum_congr rfl e, Finset.sum_add_distrib, ← Finset.mul_sum, ← Finset.mul_sum, ht]
  ring

/-- what is scaled, and by how much -/
theorem timmer_eq (c : Config) (g1 g2 : Nat → ℝ) (extract : Nat) (shape : List ℝ) (hs : shape ≠ []) (hn : 0 < c.n) (hr : c.redNoise = 1) (hp : c.poisson = false) :
    let long := irfft ((c.mean * c.n, 0) :: amplitudes g1 g2 shape) c.n
    let a := c.rms * (if c.mean = 0 then 1 else c.mean) / Real.sqrt (popVariance long)
    timmerKoenig c g1 g2 extract shape = .ok (long.map fun v => a * v + (c.mean - a * average long)) := by
  intro long a
  have hl : findInverse c (amplitudes g1 g2 shape) = long := by
    simp only [findInverse, hr, Nat.mul_one, Nat.cast_one, mul_one]
    rfl
  rw [timmerKoenig, if_neg hs, if_neg (by rw [hr]; omega)]
  simp only [hl, hp, Simulator.extractAndScale, hr, if_true]
  rw [Simulator.scaled_eq]
  rfl

theorem dft_affine (c : Config) (g1 g2 : Nat → ℝ) (shape : List ℝ) (hn : 0 < c.n) (a b : ℝ) (k : Nat) (hk : 2 * (k + 1) ≤ c.n) (mean : ℝ) :
    (dft ((irfft ((mean, 0) :: amplitudes g1 g2 shape) c.n).map fun v => a * v + b)).getD (k + 1) ⟨0, 0⟩ =
      ⟨a * ((amplitudes g1 g2 shape).getD k (0, 0)).1, if 2 * (k + 1) = c.n then 0 else a * ((amplitudes g1 g2 shape).getD k (0, 0)).2⟩ := by
  set long := irfft ((mean, 0) :: amplitudes g1 g2 shape) c.n
  have hlen : long.length = c.n := irfft_length _ _
  have hlen' : (long.map fun v => a * v + b).length = c.n := by rw [List.length_map, hlen]
  rw [dft_getD _ _ (by rw [hlen']; omega), hlen']
  rw [sum_affine c.n long hlen a b _ (sum_ang_cos c.n hn (k + 1) hk (by omega)), sum_affine c.n long hlen a b _ (sum_ang_sin c.n hn (k + 1))]
  rw [irfft_cos _ c.n hn (k + 1) hk, List.getD_cons_succ]
  split_ifs with h
  · have : ∑ j ∈ Finset.range c.n, long.getD j 0 * Real.sin (ang c.n j (k + 1)) = 0 := by
      apply Finset.sum_eq_zero
      intro j _
      rw [ang_sin_nyquist c.n j (k + 1) hn h, mul_zero]
    rw [this]
    simp
  · rw [irfft_sin _ c.n hn (k + 1) (by omega) (by omega), List.getD_cons_succ]
    simp

theorem popVariance_ne (x : List ℝ) (n : Nat) (hx : x.length = n) (hn : 0 < n) (m : Nat) (hm : 2 * m ≤ n) (hm0 : 0 < m)
    (h : ∑ j ∈ Finset.range n, x.getD j 0 * Real.cos (ang n j m) ≠ 0) : 0 < popVariance x := by
  have hnR : (0 : ℝ) < x.length := by rw [hx]; exact_mod_cast hn
  have hnn : 0 ≤ (x.map fun v => (v - average x) ^ 2).sum := List.sum_nonneg (by
    intro y hy
    obtain ⟨v, _, rfl⟩ := List.mem_map.1 hy
    positivity)
  rcases hnn.lt_or_eq with h' | h'
  · exact div_pos h' hnR
  · exfalso
    apply h
    have hall : ∀ v ∈ x, v = average x := by
      have key : ∀ l : List ℝ, (l.map fun v => (v - average x) ^ 2).sum = 0 → ∀ v ∈ l, v = average x := by
        intro l
        induction l with
        | nil => intro _ v hv; simp at hv
        | cons y l ih =>
          intro hsum v hv
          rw [List.map_cons, List.sum_cons] at hsum
          have h1 : 0 ≤ (l.map fun v => (v - average x) ^ 2).sum := List.sum_nonneg (by
            intro y hy
            obtain ⟨v, _, rfl⟩ := List.mem_map.1 hy
            positivity)
          have h2 : (y - average x) ^ 2 = 0 := by nlinarith [sq_nonneg (y - average x)]
          have h3 : (l.map fun v => (v - average x) ^ 2).sum = 0 := by rw [h2, zero_add] at hsum; exact hsum
          rcases List.mem_cons.1 hv with rfl | hv
          · have := pow_eq_zero_iff (two_ne_zero) |>.1 h2
            linarith
          · exact ih h3 v hv
      exact key x h'.symm
    have e : ∀ j ∈ Finset.range n, x.getD j 0 * Real.cos (ang n j m) = average x * Real.cos (ang n j m) := by
      intro j hj
      have hj' : j < x.length := by rw [hx]; exact Finset.mem_range.1 hj
      have : x.getD j 0 = average x := by
        rw [List.getD_eq_getElem?_getD, List.getElem?_eq_getElem hj']
        exact hall _ (List.getElem_mem hj')
      rw [this]
    rw [Finset.sum_congr rfl e, ← Finset.mul_sum, sum_ang_cos n hn m hm hm0, mul_zero]

/-- **C180 (spectrum).** Without extra red noise, and unless all amplitudes vanish, a light curve simulated from a power spectrum `shape` has the requested number of bins, exactly the requested mean and rms, and its Fourier transform is, up to one positive factor, `√(shape/2)` times the normal draws
(real and imaginary part): so its periodogram at each frequency, but for the last one of the shape, is the shape times half of a sum of two squared normal draws. Frequencies beyond the shape have no power. The imaginary part is zero at the last frequency of the shape and at the Nyquist frequency. -/
theorem timmer_spectrum (c : Config) (g1 g2 : Nat → ℝ) (extract : Nat) (shape : List ℝ) (hr : c.redNoise = 1) (hp : c.poisson = false)
    (k0 : Nat) (hk0 : k0 < shape.length) (hk0n : 2 * (k0 + 1) ≤ c.n) (hg : g1 k0 ≠ 0) (hshape : 0 < shape.getD k0 0) (hrms : 0 < c.rms) (hmean : 0 ≤ c.mean) :
    ∃ x a, timmerKoenig c g1 g2 extract shape = .ok x ∧ x.length = c.n ∧ average x = c.mean ∧
      popVariance x = (c.rms * (if c.mean = 0 then 1 else c.mean)) ^ 2 ∧ 0 < a ∧
      (∀ k, k + 1 < shape.length → 2 * (k + 1) < c.n →
        (dft x).getD (k + 1) ⟨0, 0⟩ = ⟨a * (g1 k * Real.sqrt (shape.getD k 0 / 2)), a * (g2 k * Real.sqrt (shape.getD k 0 / 2))⟩) ∧
      (∀ k, k < shape.length → 2 * (k + 1) ≤ c.n → (k + 1 = shape.length ∨ 2 * (k + 1) = c.n) →
        (dft x).getD (k + 1) ⟨0, 0⟩ = ⟨a * (g1 k * Real.sqrt (shape.getD k 0 / 2)), 0⟩) ∧
      (∀ k, shape.length ≤ k → 2 * (k + 1) ≤ c.n → (dft x).getD (k + 1) ⟨0, 0⟩ = ⟨0, 0⟩) := by
  have hs : shape ≠ [] := by intro h; rw [h] at hk0; simp at hk0
  have hn : 0 < c.n := by omega
  have heq := timmer_eq c g1 g2 extract shape hs hn hr hp
  set long := irfft ((c.mean * c.n, 0) :: amplitudes g1 g2 shape) c.n with hlong
  have hlen : long.length = c.n := irfft_length _ _
  have hne : long ≠ [] := by rw [← List.length_pos_iff, hlen]; exact hn
  have hvar : 0 < popVariance long := by
    apply popVariance_ne long c.n hlen hn (k0 + 1) hk0n (by omega)
    rw [hlong, irfft_cos _ c.n hn (k0 + 1) hk0n, List.getD_cons_succ, amplitudes_getD, if_pos hk0]
    exact mul_ne_zero hg (Real.sqrt_ne_zero'.2 (by linarith))
  have hstd : 0 < Real.sqrt (popVariance long) := Real.sqrt_pos.2 hvar
  set a := c.rms * (if c.mean = 0 then 1 else c.mean) / Real.sqrt (popVariance long) with ha
  have hd := fun k hk => dft_affine c g1 g2 shape hn a (c.mean - a * average long) k hk (c.mean * c.n)
  rw [← hlong] at hd
  have half : ∀ s : ℝ, (1 / 2 * s) = s / 2 := fun s => by ring
  refine ⟨_, a, heq, by rw [List.length_map, hlen], ?_, ?_, ?_, ?_, ?_, ?_⟩
  · rw [Simulator.average_affine long hne]
    ring
  · rw [Simulator.variance_affine long hne, div_pow, Real.sq_sqrt hvar.le]
    field_simp
  · apply div_pos _ hstd
    apply mul_pos hrms
    split_ifs with h
    · norm_num
    · exact lt_of_le_of_ne hmean (Ne.symm h)
  · intro k hk hkn
    rw [hd k (by omega), amplitudes_getD, if_pos (by omega), if_neg (by omega), if_neg (by omega), half]
  · intro k hk hkn hor
    rw [hd k hkn, amplitudes_getD, if_pos hk, half]
    rcases hor with h | h
    · rw [if_pos h]
      simp
    · rw [if_pos h]
  · intro k hk hkn
    rw [hd k hkn, amplitudes_getD, if_neg (by omega)]
    simp

/-- A simulator of 5 bins. -/
noncomputable def five : Config := ⟨1, 5, 10, 1 / 2, 1, 0, false⟩

example : ∃ x a, timmerKoenig five (fun _ => 1) (fun _ => 2) 0 [2, 8] = .ok x ∧ x.length = 5 ∧ average x = 10 ∧ popVariance x = 25 ∧ 0 < a ∧
    (dft x).getD 1 ⟨0, 0⟩ = ⟨a, 2 * a⟩ := by
  obtain ⟨x, a, h1, h2, h3, h4, h5, h6, _⟩ := timmer_spectrum five (fun _ => 1) (fun _ => 2) 0 [2, 8] rfl rfl 0 (by simp) (by simp [five]) (by norm_num) (by norm_num)
    (by norm_num [five]) (by norm_num [five])
  refine ⟨x, a, h1, h2, h3, ?_, h5, ?_⟩
  · rw [h4]
    norm_num [five]
  · rw [h6 0 (by simp) (by simp [five])]
    norm_num
    ring

/-- **C180 (negation).** With an odd number of bins the last simulated frequency is below the Nyquist frequency, but its imaginary part is set to zero all the same: its power is not the shape times half of the sum of both squared draws. -/
theorem timmer_odd : ¬ ∀ (c : Config) (g1 g2 : Nat → ℝ) (shape x : List ℝ), c.redNoise = 1 → c.poisson = false → shape.length = c.n / 2 →
    timmerKoenig c g1 g2 0 shape = .ok x →
    ∃ a, a ≠ 0 ∧ ∀ k, 2 * (k + 1) < c.n → fourierPower dft x (k + 1) = a * (shape.getD k 0 * ((g1 k) ^ 2 + (g2 k) ^ 2) / 2) := by
  intro h
  obtain ⟨x, b, h1, _, _, _, _, _, h7, _⟩ := timmer_spectrum five (fun k => if k = 0 then 1 else 0) (fun _ => 1) 0 [1, 1] rfl rfl 0 (by simp) (by simp [five]) (by norm_num) (by norm_num)
    (by norm_num [five]) (by norm_num [five])
  obtain ⟨a, ha, hk⟩ := h five _ _ _ x rfl rfl (by simp [five]) h1
  have h2 := hk 1 (by simp [five])
  rw [fourierPower, h7 1 (by simp) (by simp [five]) (by simp)] at h2
  norm_num at h2
  exact ha h2

/-- **C180 (negation).** The seed does not determine the simulated light curve: it only seeds the generator the cut of a longer light curve is drawn with (`extract`), the normal draws come from the global generator of numpy. -/
theorem timmer_seed : ¬ ∀ (c : Config) (g1 g2 g1' g2' : Nat → ℝ) (extract : Nat) (shape : List ℝ),
    timmerKoenig c g1 g2 extract shape = timmerKoenig c g1' g2' extract shape := by
  intro h
  obtain ⟨x, a, h1, _, _, _, h5, h6, _⟩ := timmer_spectrum five (fun _ => 1) (fun _ => 1) 0 [2, 2] rfl rfl 0 (by simp) (by simp [five]) (by norm_num) (by norm_num)
    (by norm_num [five]) (by norm_num [five])
  obtain ⟨y, b, h1', _, _, _, h5', h6', _⟩ := timmer_spectrum five (fun _ => -1) (fun _ => 1) 0 [2, 2] rfl rfl 0 (by simp) (by simp [five]) (by norm_num) (by norm_num)
    (by norm_num [five]) (by norm_num [five])
  have := h five (fun _ => 1) (fun _ => 1) (fun _ => -1) (fun _ => 1) 0 [2, 2]
  rw [h1, h1'] at this
  have hxy : x = y := by simpa using this
  have e1 := h6 0 (by simp) (by simp [five])
  have e2 := h6' 0 (by simp) (by simp [five])
  rw [hxy, e2] at e1
  norm_num at e1
  linarith [e1.1]

/-- **C180 (seed).** Without extra red noise the seeded generator is not used at all. -/
theorem timmer_seed_unused (c : Config) (hr : c.redNoise = 1) (g1 g2 : Nat → ℝ) (e e' : Nat) (call : Call) :
    simulate c g1 g2 e call = simulate c g1 g2 e' call := by
  have key : ∀ shape, timmerKoenig c g1 g2 e shape = timmerKoenig c g1 g2 e' shape := by
    intro shape
    simp only [timmerKoenig, Simulator.extractAndScale, hr, if_true]
  cases call <;> simp only [simulate, key]

/-- **C180 (model and spectrum).** The frequencies of the shape are `k / (n dt)`, `k = 1 … n/2`, of the long light curve. Without extra red noise, a model gives what the array of its values at these frequencies gives. -/
theorem timmer_model (c : Config) (g1 g2 : Nat → ℝ) (e : Nat) (s : ℝ → ℝ) :
    (modelShape c s).length = c.redNoise * c.n / 2 ∧
      (∀ k, k < c.redNoise * c.n / 2 → (modelShape c s)[k]? = some (s (((k : ℝ) + 1) / (c.redNoise * c.n * c.dt)))) ∧
      simulate c g1 g2 e (.named true (some s)) = simulate c g1 g2 e (.model s) ∧
      (c.redNoise = 1 → simulate c g1 g2 e (.spectrum (modelShape c s) true) = simulate c g1 g2 e (.model s)) := by
  refine ⟨by simp [modelShape, frequencies], ?_, rfl, ?_⟩
  · intro k hk
    rw [modelShape, frequencies, List.map_map, List.getElem?_map, List.getElem?_range hk]
    simp only [Option.map_some, Function.comp]
    push_cast
    rfl
  · intro hr
    have : userShape c (modelShape c s) = modelShape c s := by simp [userShape, hr]
    simp only [simulate, this, if_true]

/-- A simulator of 2 bins, cut out of 4. -/
noncomputable def two : Config := ⟨1, 2, 10, 1 / 2, 2, 0, false⟩

/-- **C180 (negation).** With extra red noise, a given spectrum is not simulated at the frequencies of the light curve, `k / (N dt)`: the values are used, one by one, for the finer frequencies of the longer light curve, and the higher ones get no power. -/
theorem timmer_user_red_noise : ¬ ∀ (c : Config) (s : ℝ → ℝ), 0 < c.redNoise →
    userShape c ((frequencies c.n c.dt).map s) = modelShape c s := by
  intro h
  have := h two id (by simp [two])
  norm_num [userShape, modelShape, frequencies, two, List.range_succ] at this

/-- **C180 (given spectrum).** A given spectrum is simulated as a model with its values at the first frequencies of the longer light curve and no power at the others, `redNoise` times as many in all. -/
theorem timmer_user_spectrum (c : Config) (g1 g2 : Nat → ℝ) (e : Nat) (s : List ℝ) (f : ℝ → ℝ)
    (hf : (frequencies (c.redNoise * c.n) c.dt).map f = s ++ List.replicate ((c.redNoise - 1) * s.length) 0) :
    simulate c g1 g2 e (.spectrum s true) = simulate c g1 g2 e (.model f) := by
  have : userShape c s = modelShape c f := by
    rw [userShape, modelShape, hf, Nat.sub_mul, one_mul, Nat.mul_comm]
  simp only [simulate, this, if_true]

example : (frequencies (2 * 4) 1).map (fun w => if w < 3 / 10 then 5 else 0) = [5, 5] ++ List.replicate ((2 - 1) * [5, 5].length) 0 := by
  norm_num [frequencies, List.range_succ, List.replicate]

/-- **C180 (power law).** A number `b` stands for the model `(1 / frequency) ^ b`. -/
theorem timmer_power_law (c : Config) (g1 g2 : Nat → ℝ) (e : Nat) (b : ℝ) :
    simulate c g1 g2 e (.powerLaw b) = simulate c g1 g2 e (.model fun w => (1 / w) ^ b) := rfl

/-- **C180 (Poisson).** For Poisson light curves the rates are those of the light curve without noise, with zero for the negative ones. -/
theorem timmer_poisson (c : Config) (g1 g2 : Nat → ℝ) (e : Nat) (shape : List ℝ) :
    timmerKoenig { c with poisson := true } g1 g2 e shape = (timmerKoenig { c with poisson := false } g1 g2 e shape).map fun x => x.map fun v => max v 0 := by
  simp only [timmerKoenig, findInverse]
  by_cases h1 : shape = []
  · rw [if_pos h1, if_pos h1]
    rfl
  rw [if_neg h1, if_neg h1]
  by_cases h2 : c.n * c.redNoise = 0
  · rw [if_pos h2, if_pos h2]
    rfl
  rw [if_neg h2, if_neg h2]
  rcases Simulator.extractAndScale c.n c.redNoise e c.mean c.rms
    (Real.sqrt (popVariance (irfft ((c.mean * c.n * c.redNoise, 0) :: amplitudes g1 g2 shape) (c.n * c.redNoise))))
    (irfft ((c.mean * c.n * c.redNoise, 0) :: amplitudes g1 g2 shape) (c.n * c.redNoise)) with er | x
  · rfl
  · simp only [Except.map, if_true, Bool.false_eq_true, if_false]
    congr 1
    apply List.map_congr_left
    intro v _
    split_ifs with hv
    · rw [max_eq_right hv.le]
    · rw [max_eq_left (not_lt.1 hv)]

/-- **C180 (refusals).** A simulator is made for an integer number of bins, a fractional rms of at most 1 and a positive time resolution, and only for these. `simulate` refuses a model that is not defined, parameters that are neither a list nor a dictionary, and no or more than three arguments. -/
theorem timmer_refuses (nIsInteger : Bool) (rms dt : ℝ) (c : Config) (g1 g2 : Nat → ℝ) (e : Nat) (params : Option (ℝ → ℝ)) (known : Bool) :
    (checkInit nIsInteger rms dt = .ok () ↔ nIsInteger = true ∧ rms ≤ 1 ∧ 0 < dt) ∧
    (nIsInteger = false → checkInit nIsInteger rms dt = .error .valueError) ∧
    simulate c g1 g2 e (.named false params) = .error .valueError ∧ simulate c g1 g2 e (.named known none) = .error .valueError ∧
    simulate c g1 g2 e .nothing = .error .indexError ∧ simulate c g1 g2 e .tooMany = .error .valueError := by
  refine ⟨?_, ?_, rfl, ?_, rfl, rfl⟩
  · unfold checkInit
    by_cases h1 : nIsInteger = false
    · rw [if_pos h1]
      simp [h1]
    rw [if_neg h1]
    by_cases h2 : rms ≤ 1
    · rw [if_neg (not_not.2 h2)]
      by_cases h3 : 0 < dt
      · rw [if_neg (not_not.2 h3)]
        simp [h2, h3, h1]
      · rw [if_pos h3]
        simp [h3]
    · rw [if_pos h2]
      simp [h2]
  · intro h
    simp [checkInit, h]
  · cases known <;> rfl

/-- **C180 (negation).** A spectrum has to be a numpy array: a list, which the documentation allows (`array-like`), raises `AttributeError`. -/
theorem timmer_list : ¬ ∀ (c : Config) (g1 g2 : Nat → ℝ) (e : Nat) (s : List ℝ),
    simulate c g1 g2 e (.spectrum s false) = simulate c g1 g2 e (.spectrum s true) := by
  intro h
  obtain ⟨x, a, h1, _⟩ := timmer_spectrum five (fun _ => 1) (fun _ => 1) 0 [2, 2] rfl rfl 0 (by simp) (by simp [five]) (by norm_num) (by norm_num)
    (by norm_num [five]) (by norm_num [five])
  have := h five (fun _ => 1) (fun _ => 1) 0 [2, 2]
  have hu : userShape five [2, 2] = [2, 2] := by simp [userShape, five]
  simp [simulate, hu, h1, withTimes, Except.map] at this

/-- **C180 (times).** A simulated light curve starts at `tstart`, with one bin each `dt`. -/
theorem timmer_times (c : Config) (g1 g2 : Nat → ℝ) (e : Nat) (s : ℝ → ℝ) (t x : List ℝ) (h : simulate c g1 g2 e (.model s) = .ok (t, x)) :
    t.length = c.n ∧ ∀ k, k < c.n → t[k]? = some (c.tstart + k * c.dt) := by
  have ht : t = times c := by
    simp only [simulate, withTimes] at h
    cases hr : timmerKoenig c g1 g2 e (modelShape c s) with
    | error er => rw [hr] at h; simp [Except.map] at h
    | ok y => rw [hr] at h; simp only [Except.map, Except.ok.injEq, Prod.mk.injEq] at h; exact h.1.symm
  subst ht
  refine ⟨by simp [times], ?_⟩
  intro k hk
  rw [times, List.getElem?_map, List.getElem?_range hk, Option.map_some]
  congr 1
  ring

/-- **C180 (negation).** A light curve from an impulse response is half a bin later than one from a spectrum, or than the times of the simulator: its times are the middles of the bins. -/
theorem timmer_response_times : ¬ ∀ (c : Config) (g1 g2 : Nat → ℝ) (e : Nat) (s h t x : List ℝ), s.length = c.n →
    simulate c g1 g2 e (.response s h .same) = .ok (t, x) → ∀ k, k < t.length → t[k]? = (times c)[k]? := by
  intro h
  have hx : Simulator.impulseResponse [1, 2, 3, 4, (5 : ℝ)] [1, 0] .same = [1, 2, 3, 4, 5] := by
    have hc : Simulator.convolve [1, 2, 3, 4, (5 : ℝ)] [1, 0] = [1, 2, 3, 4, 5, 0] := by
      rw [Simulator.convolve, if_neg (by simp)]
      norm_num [List.range_succ]
    simp [Simulator.impulseResponse, hc, Simulator.pySlice, Simulator.sliceEnd]
  have := h five (fun _ => 1) (fun _ => 1) 0 [1, 2, 3, 4, 5] [1, 0] (responseTimes five 5) [1, 2, 3, 4, 5] rfl (by simp [simulate, hx]) 0 (by simp [responseTimes])
  norm_num [responseTimes, times, five, List.range_succ] at this

end Stingray.Timmer
