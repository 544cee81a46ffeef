import Verif.Model.DeadTimeModel
import Verif.Props.DeadTimeRate
import Verif.Lemmas.GtiSegments
import Verif.Props.UtilsStats
import Mathlib.Analysis.SpecialFunctions.Exp
import Mathlib.Analysis.SpecialFunctions.ExpDeriv
import Mathlib.Analysis.Convex.Deriv
import Mathlib.Analysis.Calculus.Deriv.Pow
import Mathlib.Analysis.Calculus.Deriv.Add
import Mathlib.Analysis.Calculus.MeanValue
import Mathlib.Analysis.SpecialFunctions.Trigonometric.Basic
import Mathlib.Data.List.GetD

/-!
The dead-time model of Zhang et al. (C154, C155) and the correction of spectra with it (C156).
-/

set_option linter.unusedSectionVars false

namespace Stingray.DeadTime

open Finset

/-! ## Specification -/

/-- The Poisson probability of `m` events when `x` are expected. -/
noncomputable def poisson (x : ℝ) (m : Nat) : ℝ := Real.exp (-x) * x ^ m / (m.factorial : ℝ)

/-! ## The functions `G_n` and `h_k` -/

/-- `Σ_{m<n} x^m/m! (n - m)` -/
noncomputable def sn (n : Nat) (x : ℝ) : ℝ := ∑ m ∈ range n, x ^ m / (m.factorial : ℝ) * ((n : ℝ) - m)

/-- `Σ_{m<n} x^m/m!` -/
noncomputable def en (n : Nat) (x : ℝ) : ℝ := ∑ m ∈ range n, x ^ m / (m.factorial : ℝ)

theorem list_range_sum (n : Nat) (f : Nat → ℝ) : ((List.range n).map f).sum = ∑ m ∈ range n, f m := by
  induction n with
  | zero => simp
  | succ n ih => rw [List.range_succ, List.map_append, List.sum_append, ih, sum_range_succ]; simp

theorem gn_eq (x : ℝ) (n : Nat) : gn poisson x n = Real.exp (-x) * sn n x := by
  unfold gn sn
  rw [list_range_sum, mul_sum]
  apply sum_congr rfl
  intro m _
  unfold poisson
  ring

theorem en_deriv (n : Nat) (x : ℝ) : HasDerivAt (en (n + 1)) (en n x) x := by
  have h1 : ∀ m ∈ range (n + 1), HasDerivAt (fun x : ℝ => x ^ m / (m.factorial : ℝ)) ((m : ℝ) * x ^ (m - 1) / (m.factorial : ℝ)) x :=
    fun m _ => (hasDerivAt_pow m x).div_const _
  have h2 := HasDerivAt.fun_sum h1
  have h3 : ∑ m ∈ range (n + 1), (m : ℝ) * x ^ (m - 1) / (m.factorial : ℝ) = en n x := by
    rw [sum_range_succ']
    simp only [Nat.cast_zero, zero_mul, zero_div, add_zero]
    apply sum_congr rfl
    intro m _
    rw [Nat.factorial_succ, Nat.add_sub_cancel]
    have : ((m + 1 : Nat) : ℝ) ≠ 0 := by positivity
    push_cast
    have h4 : ((m : ℝ) + 1) ≠ 0 := by positivity
    rw [mul_div_mul_left _ _ h4]
  rw [h3] at h2
  exact h2

theorem sn_deriv (n : Nat) (x : ℝ) : HasDerivAt (sn (n + 1)) (sn n x) x := by
  have h1 : ∀ m ∈ range (n + 1), HasDerivAt (fun x : ℝ => x ^ m / (m.factorial : ℝ) * (((n + 1 : Nat) : ℝ) - m))
      ((m : ℝ) * x ^ (m - 1) / (m.factorial : ℝ) * (((n + 1 : Nat) : ℝ) - m)) x :=
    fun m _ => ((hasDerivAt_pow m x).div_const _).mul_const _
  have h2 := HasDerivAt.fun_sum h1
  have h3 : ∑ m ∈ range (n + 1), (m : ℝ) * x ^ (m - 1) / (m.factorial : ℝ) * (((n + 1 : Nat) : ℝ) - m) = sn n x := by
    rw [sum_range_succ']
    simp only [Nat.cast_zero, zero_mul, zero_div, add_zero]
    apply sum_congr rfl
    intro m _
    rw [Nat.factorial_succ, Nat.add_sub_cancel]
    push_cast
    have h4 : ((m : ℝ) + 1) ≠ 0 := by positivity
    rw [mul_div_mul_left _ _ h4]
    ring
  rw [h3] at h2
  exact h2

/-- `ψ_n(x) = x - n + G_n(x)` -/
noncomputable def psi (n : Nat) (x : ℝ) : ℝ := x - n + Real.exp (-x) * sn n x

theorem sn_succ (n : Nat) (x : ℝ) : sn (n + 1) x = sn n x + en (n + 1) x := by
  unfold sn en
  rw [sum_range_succ, sum_range_succ, ← add_assoc, ← sum_add_distrib]
  congr 1
  · apply sum_congr rfl
    intro m _
    push_cast
    ring
  · push_cast
    ring

theorem exp_neg_deriv (x : ℝ) : HasDerivAt (fun x : ℝ => Real.exp (-x)) (-Real.exp (-x)) x := by
  have := (hasDerivAt_neg x).exp
  simpa using this

theorem psi_deriv (n : Nat) (x : ℝ) : HasDerivAt (psi (n + 1)) (1 - Real.exp (-x) * en (n + 1) x) x := by
  have h1 := ((hasDerivAt_id x).sub_const ((n + 1 : Nat) : ℝ)).add ((exp_neg_deriv x).mul (sn_deriv n x))
  have h2 : (1 : ℝ) + (-Real.exp (-x) * sn (n + 1) x + Real.exp (-x) * sn n x) = 1 - Real.exp (-x) * en (n + 1) x := by
    rw [sn_succ]; ring
  rw [h2] at h1
  exact h1

theorem psi_deriv2 (n : Nat) (x : ℝ) :
    HasDerivAt (fun x => 1 - Real.exp (-x) * en (n + 1) x) (Real.exp (-x) * (x ^ n / (n.factorial : ℝ))) x := by
  have h1 := ((exp_neg_deriv x).mul (en_deriv n x)).const_sub 1
  have h2 : -(-Real.exp (-x) * en (n + 1) x + Real.exp (-x) * en n x) = Real.exp (-x) * (x ^ n / (n.factorial : ℝ)) := by
    have : en (n + 1) x = en n x + x ^ n / (n.factorial : ℝ) := by unfold en; rw [sum_range_succ]
    rw [this]; ring
  rw [h2] at h1
  exact h1

theorem en_le_exp (n : Nat) (x : ℝ) (hx : 0 ≤ x) : Real.exp (-x) * en n x ≤ 1 := by
  have h := Real.sum_le_exp_of_nonneg hx n
  have : Real.exp (-x) * en n x ≤ Real.exp (-x) * Real.exp x := mul_le_mul_of_nonneg_left h (Real.exp_pos _).le
  rwa [← Real.exp_add, neg_add_cancel, Real.exp_zero] at this

theorem psi_zero (n : Nat) : psi n 0 = 0 := by
  cases n with
  | zero => simp [psi, sn]
  | succ n =>
    unfold psi sn
    rw [sum_range_succ']
    simp

theorem psi_continuous (n : Nat) : Continuous (psi n) := by
  unfold psi sn
  fun_prop

theorem psi_mono (n : Nat) : MonotoneOn (psi n) (Set.Ici 0) := by
  cases n with
  | zero =>
    intro a _ b _ hab
    simpa [psi, sn] using hab
  | succ n =>
    apply monotoneOn_of_deriv_nonneg (convex_Ici 0) (psi_continuous _).continuousOn
    · exact fun x _ => (psi_deriv n x).differentiableAt.differentiableWithinAt
    · intro x hx
      rw [interior_Ici] at hx
      rw [(psi_deriv n x).deriv]
      linarith [en_le_exp (n + 1) x (le_of_lt hx)]

theorem psi_nonneg (n : Nat) (x : ℝ) (hx : 0 ≤ x) : 0 ≤ psi n x := by
  rw [← psi_zero n]
  exact psi_mono n (Set.mem_Ici.2 le_rfl) (Set.mem_Ici.2 hx) hx

theorem psi_convex (n : Nat) : ConvexOn ℝ (Set.Ici 0) (psi n) := by
  cases n with
  | zero =>
    refine ⟨convex_Ici 0, fun a _ b _ s t _ _ _ => ?_⟩
    simp [psi, sn]
  | succ n =>
    apply convexOn_of_hasDerivWithinAt2_nonneg (convex_Ici 0) (psi_continuous _).continuousOn
      (f' := fun x => 1 - Real.exp (-x) * en (n + 1) x) (f'' := fun x => Real.exp (-x) * (x ^ n / (n.factorial : ℝ)))
    · intro x _; exact (psi_deriv n x).hasDerivWithinAt
    · intro x _; exact (psi_deriv2 n x).hasDerivWithinAt
    · intro x hx
      rw [interior_Ici] at hx
      have : (0 : ℝ) < x := hx
      positivity

theorem psi_le (n : Nat) (x : ℝ) (hx : 0 ≤ x) : psi n x ≤ x := by
  have h1 : sn n x ≤ n * en n x := by
    unfold sn en
    rw [mul_sum]
    apply sum_le_sum
    intro m _
    have : (0 : ℝ) ≤ x ^ m / (m.factorial : ℝ) := by positivity
    have hm : (0 : ℝ) ≤ m := Nat.cast_nonneg m
    nlinarith
  have h2 := mul_le_mul_of_nonneg_left h1 (Real.exp_pos (-x)).le
  have h3 := en_le_exp n x hx
  have hn : (0 : ℝ) ≤ n := Nat.cast_nonneg n
  unfold psi
  nlinarith [mul_le_mul_of_nonneg_left h3 hn]

theorem h_eq (k n : Nat) (td tb tau : ℝ) (htb : 0 < tb) (htau : 0 < tau) :
    h poisson k n td tb tau = if (k : ℝ) * tb - n * td < 0 then 0 else tau / tb * psi n (((k : ℝ) * tb - n * td) / tau) := by
  unfold h
  simp only
  split_ifs with hn
  · rfl
  · rw [gn_eq]
    unfold psi
    field_simp
    ring

theorem phi_second_difference (n : Nat) (y s : ℝ) (hs : 0 ≤ s) :
    0 ≤ (if y + s < 0 then 0 else psi n (y + s)) - 2 * (if y < 0 then 0 else psi n y) +
      (if y - s < 0 then 0 else psi n (y - s)) := by
  have nn : ∀ z : ℝ, 0 ≤ (if z < 0 then 0 else psi n z) := by
    intro z
    split_ifs with hz
    · exact le_rfl
    · exact psi_nonneg n z (not_lt.1 hz)
  by_cases hy : y < 0
  · rw [if_pos hy]
    linarith [nn (y + s), nn (y - s)]
  · have hy0 : 0 ≤ y := not_lt.1 hy
    rw [if_neg hy, if_neg (by linarith : ¬ y + s < 0)]
    by_cases hys : y - s < 0
    · rw [if_pos hys]
      have h1 : psi n (2 * y) ≤ psi n (y + s) :=
        psi_mono n (Set.mem_Ici.2 (by linarith)) (Set.mem_Ici.2 (by linarith)) (by linarith)
      have h2 := (psi_convex n).2 (Set.mem_Ici.2 le_rfl) (Set.mem_Ici.2 (by linarith : (0 : ℝ) ≤ 2 * y))
        (by norm_num : (0 : ℝ) ≤ 1 / 2) (by norm_num : (0 : ℝ) ≤ 1 / 2) (by norm_num)
      simp only [smul_eq_mul, mul_zero, zero_add, psi_zero] at h2
      rw [show (1 / 2 : ℝ) * (2 * y) = y by ring] at h2
      linarith
    · rw [if_neg hys]
      have h2 := (psi_convex n).2 (Set.mem_Ici.2 (not_lt.1 hys)) (Set.mem_Ici.2 (by linarith : (0 : ℝ) ≤ y + s))
        (by norm_num : (0 : ℝ) ≤ 1 / 2) (by norm_num : (0 : ℝ) ≤ 1 / 2) (by norm_num)
      simp only [smul_eq_mul] at h2
      rw [show (1 / 2 : ℝ) * (y - s) + 1 / 2 * (y + s) = y by ring] at h2
      linarith

/-! ## C154 -/

/-- **C154.** The functions `h_k(n)` of the dead-time model are not negative and at most `max(0, k - n td / tb)`, for all bin times, dead times and rates (so no cancellation can make a term of the sums negative), and 0 where `n` dead times do not fit in `k` bins. -/
theorem h_bounds (k n : Nat) (td tb tau : ℝ) (htb : 0 < tb) (htau : 0 < tau) :
    0 ≤ h poisson k n td tb tau ∧ h poisson k n td tb tau ≤ max 0 ((k : ℝ) - n * td / tb) ∧
    ((k : ℝ) * tb < n * td → h poisson k n td tb tau = 0) := by
  rw [h_eq k n td tb tau htb htau]
  split_ifs with hn
  · exact ⟨le_rfl, le_max_left _ _, fun _ => rfl⟩
  · have hx : 0 ≤ ((k : ℝ) * tb - n * td) / tau := div_nonneg (not_lt.1 hn) htau.le
    refine ⟨mul_nonneg (by positivity) (psi_nonneg n _ hx), le_trans ?_ (le_max_right _ _), fun hc => absurd (by linarith) hn⟩
    have h1 := mul_le_mul_of_nonneg_left (psi_le n _ hx) (by positivity : 0 ≤ tau / tb)
    have h2 : tau / tb * (((k : ℝ) * tb - n * td) / tau) = (k : ℝ) - n * td / tb := by field_simp
    rw [h2] at h1
    exact h1

theorem sumFrom1_eq (stop : Nat) (f : Nat → ℝ) : sumFrom1 stop f = ∑ i ∈ range (stop - 1), f (i + 1) := by
  unfold sumFrom1; rw [list_range_sum]

theorem h_zero (pois : ℝ → Nat → ℝ) (k n : Nat) (td tb tau : ℝ) (hz : (k : ℝ) * tb < n * td) : h pois k n td tb tau = 0 := by
  unfold h
  simp only
  rw [if_pos (by linarith)]

/-- **C154 (sums).** The sums over `n` in `A_k` are cut where all further terms vanish: `A_0` is `r0 tb (1 + 2 sum h_1(n))` and `A_k` is `r0 tb sum (h_{k+1}(n) - 2 h_k(n) + h_{k-1}(n))`, both over all `n >= 1`. -/
theorem A_complete (pois : ℝ → Nat → ℝ) (k : Nat) (r0 td tb tau : ℝ) (htd : 0 < td) (htb : 0 < tb) :
    aK pois 0 r0 td tb tau = r0 * tb * (1 + 2 * ∑' i : ℕ, h pois 1 (i + 1) td tb tau) ∧
    aK pois (k + 1) r0 td tb tau = r0 * tb *
      ∑' i : ℕ, (h pois (k + 2) (i + 1) td tb tau - 2 * h pois (k + 1) (i + 1) td tb tau + h pois k (i + 1) td tb tau) := by
  constructor
  · unfold aK a0
    rw [if_pos rfl]
    simp only
    rw [sumFrom1_eq, tsum_eq_sum]
    intro i hi
    rw [mem_range, not_lt] at hi
    apply h_zero
    have h1 : max 2 (tb / td * 2 + 1) < (⌊max 2 (tb / td * 2 + 1)⌋₊ : ℝ) + 1 := Nat.lt_floor_add_one _
    have h2 : (⌊max 2 (tb / td * 2 + 1)⌋₊ : ℝ) ≤ (i + 1 : Nat) := by exact_mod_cast (by omega)
    have h3 : tb / td * 2 + 1 ≤ max 2 (tb / td * 2 + 1) := le_max_right _ _
    have h4 : tb / td * 2 < (i + 1 : Nat) := by linarith
    have h5 : 0 < tb / td := by positivity
    have h6 : tb / td < (i + 1 : Nat) := by linarith
    rw [div_lt_iff₀ htd] at h6
    simpa using h6
  · unfold aK
    rw [if_neg (by omega)]
    simp only
    rw [sumFrom1_eq, tsum_eq_sum]
    · simp only [Nat.add_sub_cancel]
      rfl
    · intro i hi
      rw [mem_range, not_lt] at hi
      have h1 : max 3 (((k + 1 : Nat) + 1 : ℝ) * tb / td * 2) < (⌊max 3 (((k + 1 : Nat) + 1 : ℝ) * tb / td * 2)⌋₊ : ℝ) + 1 :=
        Nat.lt_floor_add_one _
      have h0 : 3 ≤ ⌊max (3 : ℝ) (((k + 1 : Nat) + 1 : ℝ) * tb / td * 2)⌋₊ := by
        apply Nat.le_floor
        exact_mod_cast le_max_left _ _
      have h2 : (⌊max 3 (((k + 1 : Nat) + 1 : ℝ) * tb / td * 2)⌋₊ : ℝ) ≤ (i + 1 : Nat) := Nat.cast_le.2 (by omega)
      have h3 := le_max_right (3 : ℝ) (((k + 1 : Nat) + 1 : ℝ) * tb / td * 2)
      have hi3 : (3 : ℝ) ≤ (i + 1 : Nat) := by exact_mod_cast (by omega)
      have h4 : ((k + 1 : Nat) + 1 : ℝ) * tb / td < (i + 1 : Nat) := by
        by_cases hx : ((k + 1 : Nat) + 1 : ℝ) * tb / td < 1
        · linarith
        · linarith
      rw [div_lt_iff₀ htd] at h4
      push_cast at h4
      have hk : (0 : ℝ) ≤ k := Nat.cast_nonneg k
      rw [h_zero pois (k + 2) _ _ _ _ (by push_cast; nlinarith), h_zero pois (k + 1) _ _ _ _ (by push_cast; nlinarith),
        h_zero pois k _ _ _ _ (by push_cast; nlinarith)]
      ring

/-- **C154 (signs).** The mean products `A_k` of the counts in two bins at distance `k` are never negative, and `A_0`, the mean square, is at least the mean `r0 tb` (counts are whole numbers), for all dead times, bin times and rates. -/
theorem A_nonneg (k : Nat) (r0 td tb tau : ℝ) (hr : 0 < r0) (htd : 0 < td) (htb : 0 < tb) (htau : 0 < tau) :
    0 ≤ aK poisson k r0 td tb tau ∧ r0 * tb ≤ aK poisson 0 r0 td tb tau := by
  have hA0 : r0 * tb ≤ aK poisson 0 r0 td tb tau := by
    rw [(A_complete poisson 0 r0 td tb tau htd htb).1]
    have : 0 ≤ ∑' i : ℕ, h poisson 1 (i + 1) td tb tau := tsum_nonneg fun i => (h_bounds 1 (i + 1) td tb tau htb htau).1
    have hrt : 0 < r0 * tb := by positivity
    nlinarith
  refine ⟨?_, hA0⟩
  cases k with
  | zero => exact le_trans (by positivity) hA0
  | succ k =>
    rw [(A_complete poisson k r0 td tb tau htd htb).2]
    apply mul_nonneg (by positivity)
    apply tsum_nonneg
    intro i
    have key := phi_second_difference (i + 1) ((((k + 1 : Nat) : ℝ) * tb - (i + 1 : Nat) * td) / tau) (tb / tau) (by positivity)
    have e1 : (((k + 1 : Nat) : ℝ) * tb - (i + 1 : Nat) * td) / tau + tb / tau = (((k + 2 : Nat) : ℝ) * tb - (i + 1 : Nat) * td) / tau := by
      push_cast; field_simp; ring
    have e2 : (((k + 1 : Nat) : ℝ) * tb - (i + 1 : Nat) * td) / tau - tb / tau = ((k : ℝ) * tb - (i + 1 : Nat) * td) / tau := by
      push_cast; field_simp; ring
    have hneg : ∀ z : ℝ, (z / tau < 0) = (z < 0) := fun z => by
      rw [div_lt_iff₀ htau, zero_mul]
    rw [e1, e2] at key
    simp only [hneg] at key
    have h2 := mul_nonneg (by positivity : 0 ≤ tau / tb) key
    rw [h_eq _ _ _ _ _ htb htau, h_eq _ _ _ _ _ htb htau, h_eq _ _ _ _ _ htb htau]
    refine le_of_le_of_eq h2 ?_
    split_ifs <;> ring

example : 0 ≤ aK poisson 3 100 (1 / 400) (1 / 1000) (3 / 400) := (A_nonneg 3 _ _ _ _ (by norm_num) (by norm_num) (by norm_num) (by norm_num)).1

/-! ### The spectrum -/

section Spectrum

variable {K : Type} [Field K] [LinearOrder K] [IsStrictOrderedRing K] [FloorRing K]

/-- Zhang's equation (8): the expected Leahy power at frequency `f`, from the correlation `A_k` of the counts at distances below `limit`, for `N` bins of `tb`. -/
def zhangPower (A : Nat → K) (cosTurn : K → K) (N limit : Nat) (r0 tb f : K) : K :=
  2 * (A 0 - r0 ^ 2 * tb ^ 2) / (r0 * tb) +
    ((List.range (min N limit)).map fun (k : Nat) =>
      if k = 0 then 0 else ((N : K) - k) / N * (4 * (A k - r0 ^ 2 * tb ^ 2) / (r0 * tb)) * cosTurn (f * k * tb)).sum

theorem rates_detected (rate td : K) (hr : 0 < rate) (htd : 0 ≤ td) (hlim : rate * td < 1) :
    rates false rate td = .ok (rate, 1 / rate - td) := by
  have h1 : (1 : K) / rate - td ≠ 0 := by
    have : td < 1 / rate := by rw [lt_div_iff₀ hr]; linarith
    exact (sub_pos.2 this).ne'
  have h2 : (1 : K) / (1 / rate - td) ≠ 0 := one_div_ne_zero h1
  simp only [rates, rIn, pyDiv, bind, Except.bind, if_neg hr.ne', if_neg h1, if_neg h2, one_div_one_div, Bool.false_eq_true, if_false]

theorem rates_incident (rate td : K) (hr : 0 < rate) (htd : 0 ≤ td) :
    rates true rate td = .ok (rate / (1 + rate * td), 1 / rate) := by
  simp only [rates, rDet_eq td rate htd hr, if_true, pyDiv, if_neg hr.ne', bind, Except.bind]

theorem sumFrom1_range (stop : Nat) (f : Nat → K) :
    sumFrom1 stop f = ((List.range stop).map fun (k : Nat) => if k = 0 then 0 else f k).sum := by
  unfold sumFrom1
  cases stop with
  | zero => simp
  | succ m =>
    rw [List.range_succ_eq_map, List.map_cons, List.sum_cons, List.map_map]
    simp [Function.comp_def]

theorem zhang_core (pois : K → Nat → K) (cosTurn : K → K) (N : Nat) (hn : 0 < N / 2) (rate td tb : K) (htb : 0 < tb)
    (limit : Nat) (incident : Bool) (r0 tau : K) (hrates : rates incident rate td = .ok (r0, tau)) :
    ∃ fs ps, pdsModel pois cosTurn N rate td tb limit incident = .ok (fs, ps) ∧ fs.length = N / 2 ∧ ps.length = N / 2 ∧
      ∀ j < N / 2, fs.getD j 0 = j / (((2 * (N / 2) : Nat) : K) * tb) ∧
        ps.getD j 0 = zhangPower (fun k => aK pois k r0 td tb tau) cosTurn N limit r0 tb (j / ((N : K) * tb)) := by
  have hlen : (innerLoop pois cosTurn N tau r0 td tb limit).length = N / 2 := by simp [innerLoop]
  have hn' : ((N / 2 : Nat) : K) ≠ 0 := by exact_mod_cast hn.ne'
  refine ⟨_, _, by simp only [pdsModel, hrates, bind, Except.bind, hlen, pyDiv, if_neg hn']; rfl, by simp, hlen, ?_⟩
  intro j hj
  constructor
  · rw [List.getD_eq_getElem _ _ (by simpa using hj), List.getElem_map, List.getElem_range]
    push_cast
    field_simp
  · rw [List.getD_eq_getElem _ _ (by rw [hlen]; exact hj)]
    simp only [innerLoop, List.getElem_map, List.getElem_range, zhangPower, sumFrom1_range]
    congr 1
    congr 1
    apply List.map_congr_left
    intro k hk
    rw [List.mem_range, lt_min_iff] at hk
    by_cases h0 : k = 0
    · rw [if_pos h0, if_pos h0]
    · rw [if_neg h0, if_neg h0]
      have e : (j : K) * k / N = j / ((N : K) * tb) * k * tb := by
        have : (N : K) ≠ 0 := by exact_mod_cast (by omega : N ≠ 0)
        field_simp
      rw [e]
      unfold safeB bRaw
      rw [if_neg (by omega), if_neg h0]

/-- the rates that belong to each other -/
theorem rates_ok (rate td : K) (hr : 0 < rate) (htd : 0 ≤ td) (incident : Bool) (hlim : incident = false → rate * td < 1) :
    ∃ r0 ri, rates incident rate td = .ok (r0, 1 / ri) ∧ 0 < r0 ∧ 0 < ri ∧ r0 * (1 + ri * td) = ri ∧
      rate = (if incident then ri else r0) := by
  cases incident with
  | true =>
    refine ⟨rate / (1 + rate * td), rate, rates_incident rate td hr htd, by positivity, hr, ?_, rfl⟩
    have : (1 : K) + rate * td ≠ 0 := by positivity
    field_simp
  | false =>
    have hl := hlim rfl
    have hpos : 0 < 1 / rate - td := by
      have : td < 1 / rate := by rw [lt_div_iff₀ hr]; linarith
      linarith
    refine ⟨rate, 1 / (1 / rate - td), by rw [one_div_one_div]; exact rates_detected rate td hr htd hl, hr, by positivity, ?_, rfl⟩
    have h1 := hpos.ne'
    rw [one_div_mul_eq_div, mul_add, mul_one, mul_div_assoc', ← sub_eq_zero]
    field_simp
    ring

/-- **C154 (limit).** `limit_A` is the square of the number of events detected in a bin, `r0 tb` with `r0 (1 + rate td) = rate`. -/
theorem limit_A_value (rate td tb : K) (hr : 0 < rate) (htd : 0 ≤ td) :
    ∃ r0, r0 * (1 + rate * td) = rate ∧ limitA rate td tb = .ok ((r0 * tb) ^ 2) := by
  refine ⟨rate / (1 + rate * td), div_mul_cancel₀ _ (by positivity), ?_⟩
  simp only [limitA, rDet_eq td rate htd hr, bind, Except.bind, mul_pow]

/-- **C154 (spectrum).** For an even number `N = 2 n >= 2` of bins, `pds_model_zhang` gives the `n` frequencies `j / (N tb)` and at each Zhang's expected power, summed over the distances `1 <= k < min(N, limit_k)`, with the detected rate `r0` and the incident rate `ri` related by the dead time. -/
theorem zhang_spectrum (pois : K → Nat → K) (cosTurn : K → K) (n : Nat) (hn : 0 < n) (rate td tb : K) (hr : 0 < rate)
    (htd : 0 ≤ td) (htb : 0 < tb) (limit : Nat) (incident : Bool) (hlim : incident = false → rate * td < 1) :
    ∃ r0 ri fs ps, pdsModel pois cosTurn (2 * n) rate td tb limit incident = .ok (fs, ps) ∧
      0 < r0 ∧ 0 < ri ∧ r0 * (1 + ri * td) = ri ∧ rate = (if incident then ri else r0) ∧
      fs.length = n ∧ ps.length = n ∧
      ∀ j < n, fs.getD j 0 = j / (((2 * n : Nat) : K) * tb) ∧
        ps.getD j 0 = zhangPower (fun k => aK pois k r0 td tb (1 / ri)) cosTurn (2 * n) limit r0 tb (fs.getD j 0) := by
  obtain ⟨r0, ri, hrates, h0, h1, h2, h3⟩ := rates_ok rate td hr htd incident hlim
  have hd : 2 * n / 2 = n := by omega
  obtain ⟨fs, ps, h4, h5, h6, h7⟩ := zhang_core pois cosTurn (2 * n) (by omega) rate td tb htb limit incident r0 (1 / ri) hrates
  rw [hd] at h5 h6 h7
  refine ⟨r0, ri, fs, ps, h4, h0, h1, h2, h3, h5, h6, fun j hj => ?_⟩
  obtain ⟨e1, e2⟩ := h7 j hj
  exact ⟨e1, by rw [e2, e1]⟩

/-- **C154 (negation).** For an odd number `N = 2 n + 1 >= 3` of bins the powers are those at the frequencies `j / (N tb)`, but the frequencies returned are `j / ((N - 1) tb)`, which are higher (but for `j = 0`). -/
theorem zhang_odd (pois : K → Nat → K) (cosTurn : K → K) (n : Nat) (hn : 0 < n) (rate td tb : K) (hr : 0 < rate)
    (htd : 0 ≤ td) (htb : 0 < tb) (limit : Nat) (incident : Bool) (hlim : incident = false → rate * td < 1) :
    ∃ r0 ri fs ps, pdsModel pois cosTurn (2 * n + 1) rate td tb limit incident = .ok (fs, ps) ∧ fs.length = n ∧ ps.length = n ∧
      ∀ j < n, fs.getD j 0 = j / (((2 * n : Nat) : K) * tb) ∧
        ps.getD j 0 = zhangPower (fun k => aK pois k r0 td tb (1 / ri)) cosTurn (2 * n + 1) limit r0 tb (j / (((2 * n + 1 : Nat) : K) * tb)) ∧
        (0 < j → j / (((2 * n + 1 : Nat) : K) * tb) < fs.getD j 0) := by
  obtain ⟨r0, ri, hrates, -⟩ := rates_ok rate td hr htd incident hlim
  have hd : (2 * n + 1) / 2 = n := by omega
  obtain ⟨fs, ps, h4, h5, h6, h7⟩ := zhang_core pois cosTurn (2 * n + 1) (by omega) rate td tb htb limit incident r0 (1 / ri) hrates
  rw [hd] at h5 h6 h7
  refine ⟨r0, ri, fs, ps, h4, h5, h6, fun j hj => ⟨(h7 j hj).1, (h7 j hj).2, fun hj0 => ?_⟩⟩
  rw [(h7 j hj).1]
  have hjp : (0 : K) < j := by exact_mod_cast hj0
  have hnp : (0 : K) < ((2 * n : Nat) : K) := by exact_mod_cast (by omega : 0 < 2 * n)
  apply div_lt_div_of_pos_left hjp (by positivity)
  push_cast
  nlinarith

/-- **C154 (failures).** `pds_model_zhang` fails with a division by zero if there are fewer than 2 bins, if the rate is 0, and if the detected rate is exactly the inverse of the dead time. -/
theorem zhang_refuses (pois : K → Nat → K) (cosTurn : K → K) (N : Nat) (rate td tb : K) (limit : Nat) (incident : Bool) :
    (rate = 0 → pdsModel pois cosTurn N rate td tb limit incident = .error .zeroDivisionError) ∧
    (incident = false → rate ≠ 0 → rate * td = 1 → pdsModel pois cosTurn N rate td tb limit incident = .error .zeroDivisionError) ∧
    (0 < rate → 0 ≤ td → (incident = false → rate * td < 1) → N < 2 →
      pdsModel pois cosTurn N rate td tb limit incident = .error .zeroDivisionError) := by
  refine ⟨?_, ?_, ?_⟩
  · rintro rfl
    cases incident <;> simp [pdsModel, rates, rIn, pyDiv, bind, Except.bind]
  · rintro rfl hr h
    have : 1 / rate - td = 0 := by
      rw [sub_eq_zero, div_eq_iff hr, mul_comm]; exact h.symm
    rw [one_div] at this
    simp [pdsModel, rates, rIn, pyDiv, bind, Except.bind, hr, this]
  · intro hr htd hlim hN
    obtain ⟨r0, ri, hrates, -⟩ := rates_ok rate td hr htd incident hlim
    have hlen : (innerLoop pois cosTurn N (1 / ri) r0 td tb limit).length = 0 := by
      simp [innerLoop]; omega
    simp only [pdsModel, hrates, bind, Except.bind, hlen, pyDiv, Nat.cast_zero, if_true]

example : (pdsModel (fun _ _ => (1 : ℚ)) (fun t => t) 4 1 (1 / 2) 1 5 true).map Prod.fst = .ok [0, 1 / 4] := by decide +kernel

end Spectrum

section Interpolated

variable {K : Type} [Field K] [LinearOrder K] [IsStrictOrderedRing K] [FloorRing K]

theorem count_grid (d x : K) (hd : 0 < d) (n : Nat) :
    ∃ c ≤ n, (List.range n).countP (fun (k : Nat) => decide ((k : K) * d < x)) = c ∧ ∀ k < n, ((k : K) * d < x ↔ k < c) := by
  induction n with
  | zero => exact ⟨0, le_refl _, rfl, fun k hk => absurd hk (Nat.not_lt_zero k)⟩
  | succ n ih =>
    obtain ⟨c, hc, h1, h2⟩ := ih
    rw [List.range_succ, List.countP_append, h1]
    by_cases h : (n : K) * d < x
    · have hcn : c = n := by
        by_contra hne
        have hlt : c < n := by omega
        have : (c : K) * d < x := by
          refine lt_trans ?_ h
          exact mul_lt_mul_of_pos_right (by exact_mod_cast hlt) hd
        exact absurd ((h2 c hlt).1 this) (lt_irrefl c)
      subst hcn
      refine ⟨c + 1, le_refl _, by simp [h], fun k hk => ?_⟩
      rcases Nat.lt_succ_iff_lt_or_eq.1 hk with hk | rfl
      · exact ⟨fun _ => by omega, fun _ => (h2 k hk).2 hk⟩
      · exact ⟨fun _ => by omega, fun _ => h⟩
    · refine ⟨c, by omega, by simp [h], fun k hk => ?_⟩
      rcases Nat.lt_succ_iff_lt_or_eq.1 hk with hk | rfl
      · exact h2 k hk
      · exact ⟨fun h' => absurd h' h, fun h' => by omega⟩

theorem interp_grid (xs ys : List K) (d x : K) (hd : 0 < d) (hx : ∀ k < xs.length, xs.getD k 0 = k * d) (j : Nat)
    (hj : j + 1 < xs.length) (hlo : j = 0 ∨ (j : K) * d ≤ x) (hhi : j + 2 = xs.length ∨ x ≤ ((j + 1 : Nat) : K) * d) :
    interp xs ys x = some (ys.getD j 0 + (ys.getD (j + 1) 0 - ys.getD j 0) * (x / d - j)) := by
  have hxs : xs = (List.range xs.length).map fun (k : Nat) => (k : K) * d := by
    apply List.ext_getElem (by simp)
    intro k h1 h2
    rw [List.getElem_map, List.getElem_range, ← hx k h1, List.getD_eq_getElem _ _ h1]
  obtain ⟨c, hc, h1, h2⟩ := count_grid d x hd xs.length
  have hcount : xs.countP (fun a => decide (a < x)) = c := by
    rw [hxs, List.countP_map]
    exact h1
  have hval : ∀ i, i + 1 < xs.length → min (max c 1) (xs.length - 1) = i + 1 →
      interp xs ys x = some (ys.getD i 0 + (ys.getD (i + 1) 0 - ys.getD i 0) * (x / d - i)) := by
    intro i hi he
    unfold interp
    rw [if_neg (by omega)]
    simp only [hcount, he, Nat.add_sub_cancel]
    rw [hx i (by omega), hx (i + 1) hi]
    have : ((i + 1 : Nat) : K) * d - i * d = d := by push_cast; ring
    rw [this]
    congr 1
    field_simp
    ring
  by_cases hlt : (j : K) * d < x
  · have hjc : j < c := (h2 j (by omega)).1 hlt
    apply hval j hj
    rcases hhi with hhi | hhi
    · omega
    · have : ¬ j + 1 < c := fun h => absurd ((h2 (j + 1) hj).2 h) (not_lt.2 hhi)
      omega
  · have hcj : ¬ j < c := fun h => hlt ((h2 j (by omega)).2 h)
    rcases Nat.eq_zero_or_pos j with rfl | hj0
    · apply hval 0 hj
      omega
    · have hxe : x = (j : K) * d := by
        rcases hlo with h | h
        · omega
        · exact le_antisymm (not_lt.1 hlt) h
      obtain ⟨i, rfl⟩ : ∃ i, j = i + 1 := ⟨j - 1, by omega⟩
      have hic : i < c := by
        apply (h2 i (by omega)).1
        rw [hxe]
        push_cast
        nlinarith
      rw [hval i (by omega) (by omega), hxe]
      congr 1
      have hd' := hd.ne'
      push_cast
      field_simp
      ring

/-- Specification: the line through the powers `P j` and `P (j + 1)` at the distance `u` from the grid's origin, in steps. -/
def onLine (P : Nat → K) (j : Nat) (u : K) : K := P j + (P (j + 1) - P j) * (u - j)

/-- **C155.** For detected rates whose sum is below the inverse of the dead time, `non_paralyzable_dead_time_model` gives one value for each frequency: Zhang's expected power for the total rate, at the frequencies `j / (2 n tb)` (`n` being `n_approx`, at least 2, and `tb` the bin time), interpolated linearly between them and extrapolated beyond the first and the last ones; its excess over 2 is scaled by the source's part of the rate. -/
theorem non_paralyzable_model (pois : K → Nat → K) (cosTurn : K → K) (freqs : List K) (td rate bkg tb : K) (limit n : Nat)
    (hr : 0 < rate) (hb : 0 ≤ bkg) (htd : 0 < td) (htb : 0 < tb) (hlim : (rate + bkg) * td < 1) (hn : 2 ≤ n) :
    ∃ ri out, 0 < ri ∧ (rate + bkg) * (1 + ri * td) = ri ∧
      nonParalyzable pois cosTurn freqs td rate (some tb) limit bkg (some (n : K)) = .ok out ∧ out.length = freqs.length ∧
      ∀ i < freqs.length, ∀ j, j + 1 < n →
        (j = 0 ∨ (j : K) / (((2 * n : Nat) : K) * tb) ≤ freqs.getD i 0) →
        (j + 2 = n ∨ freqs.getD i 0 ≤ ((j + 1 : Nat) : K) / (((2 * n : Nat) : K) * tb)) →
        out.getD i none = some (2 + (onLine (fun m => zhangPower (fun k => aK pois k (rate + bkg) td tb (1 / ri)) cosTurn (2 * n) limit
          (rate + bkg) tb ((m : K) / (((2 * n : Nat) : K) * tb))) j (freqs.getD i 0 * (((2 * n : Nat) : K) * tb)) - 2) * (rate / (rate + bkg))) := by
  have hR : 0 < rate + bkg := by linarith
  obtain ⟨r0, ri, hrates, h0, h1, h2, h3⟩ := rates_ok (rate + bkg) td hR htd.le false (fun _ => hlim)
  simp only [Bool.false_eq_true, if_false] at h3
  subst h3
  have hd : n * 2 / 2 = n := by omega
  obtain ⟨fs, ps, h4, h5, h6, h7⟩ := zhang_core pois cosTurn (n * 2) (by omega) (rate + bkg) td tb htb limit false _ _ hrates
  rw [hd] at h5 h6 h7
  have hcond : ¬ 1 / td < rate + bkg := by
    rw [not_lt, le_div_iff₀ htd]
    exact hlim.le
  refine ⟨ri, freqs.map (interp fs (rescale rate bkg ps)), h1, h2, ?_, by simp, ?_⟩
  · simp only [nonParalyzable, pyDiv, if_neg htd.ne', bind, Except.bind, if_neg hcond, binTime, nBins, Nat.floor_natCast, h4]
  · intro i hi j hj hlo hhi
    have hD : (0 : K) < ((2 * n : Nat) : K) * tb := by
      have : (0 : K) < ((2 * n : Nat) : K) := by exact_mod_cast (by omega : 0 < 2 * n)
      positivity
    have hgrid : ∀ k < fs.length, fs.getD k 0 = (k : K) * (1 / (((2 * n : Nat) : K) * tb)) := by
      intro k hk
      rw [(h7 k (by omega)).1]
      ring
    rw [List.getD_eq_getElem _ _ (by simpa using hi), List.getElem_map, ← List.getD_eq_getElem freqs 0 hi]
    rw [interp_grid fs (rescale rate bkg ps) (1 / (((2 * n : Nat) : K) * tb)) _ (by positivity) hgrid j (by omega)
      (hlo.imp id fun h => by rwa [mul_one_div]) (hhi.imp (fun h => by omega) fun h => by rwa [mul_one_div])]
    have hs : ∀ k < n, (rescale rate bkg ps).getD k 0 = 2 + (ps.getD k 0 - 2) * (rate / (rate + bkg)) := by
      intro k hk
      unfold rescale
      by_cases hb0 : 0 < bkg
      · rw [if_pos hb0, List.getD_eq_getElem _ _ (by rw [List.length_map]; omega), List.getElem_map, List.getD_eq_getElem _ _ (by omega)]
        ring
      · have : bkg = 0 := le_antisymm (not_lt.1 hb0) hb
        rw [if_neg hb0, this, add_zero, div_self hr.ne']
        ring
    have e2 : n * 2 = 2 * n := by omega
    rw [hs j (by omega), hs (j + 1) hj, (h7 j (by omega)).2, (h7 (j + 1) hj).2, e2]
    congr 1
    simp only [onLine]
    rw [div_div_eq_mul_div, div_one]
    ring

/-- **C155 (refusals).** Rates whose sum is above the inverse of the dead time are refused with a `ValueError`, whatever the other arguments; a dead time of 0, and a sum that is exactly the inverse of the dead time, divide by zero. -/
theorem non_paralyzable_refuses (pois : K → Nat → K) (cosTurn : K → K) (freqs : List K) (td rate bkg : K) (limit : Nat) :
    (∀ bt na, 0 < td → 1 < (rate + bkg) * td → nonParalyzable pois cosTurn freqs td rate bt limit bkg na = .error .valueError) ∧
    (∀ bt na, nonParalyzable pois cosTurn freqs 0 rate bt limit bkg na = .error .zeroDivisionError) ∧
    (∀ tb na, (rate + bkg) * td = 1 → nonParalyzable pois cosTurn freqs td rate (some tb) limit bkg (some na) = .error .zeroDivisionError) := by
  refine ⟨?_, ?_, ?_⟩
  · intro bt na htd h
    have : 1 / td < rate + bkg := by rwa [div_lt_iff₀ htd]
    simp only [nonParalyzable, pyDiv, if_neg htd.ne', bind, Except.bind, if_pos this]
  · intro bt na
    simp [nonParalyzable, pyDiv, bind, Except.bind]
  · intro tb na h
    have htd : td ≠ 0 := by rintro rfl; simp at h
    have hR : rate + bkg ≠ 0 := by intro h0; rw [h0] at h; simp at h
    have hc : ¬ 1 / td < rate + bkg := by
      rw [not_lt, one_div]
      exact (eq_inv_of_mul_eq_one_left h).le
    have := (zhang_refuses pois cosTurn (⌊na⌋₊ * 2) (rate + bkg) td tb limit false).2.1 rfl hR h
    simp only [nonParalyzable, pyDiv, if_neg htd, bind, Except.bind, if_neg hc, binTime, nBins, this]

/-- **C155 (defaults).** Without `bin_time`, it is half the inverse of the highest frequency; without `n_approx`, the number of bins is the highest frequency, and at least 10. -/
theorem non_paralyzable_defaults (pois : K → Nat → K) (cosTurn : K → K) (freqs : List K) (td rate bkg : K) (limit : Nat) (m : K)
    (hm : m ∈ freqs) (hmax : ∀ f ∈ freqs, f ≤ m) (hpos : 0 < m) :
    (∀ na, nonParalyzable pois cosTurn freqs td rate none limit bkg na = nonParalyzable pois cosTurn freqs td rate (some (1 / (2 * m))) limit bkg na) ∧
    (∀ bt, nonParalyzable pois cosTurn freqs td rate bt limit bkg none = nonParalyzable pois cosTurn freqs td rate bt limit bkg (some (max m 10))) := by
  have hmx : maxOf freqs = .ok m := by
    cases freqs with
    | nil => cases hm
    | cons a l =>
      have hs := Stingray.UtilsStats.foldl_max_spec l a
      simp only [maxOf]
      congr 1
      apply le_antisymm
      · exact hmax _ hs.1
      · exact hs.2 m hm
  have hb : binTime freqs none = binTime freqs (some (1 / (2 * m))) := by
    simp only [binTime, hmx, bind, Except.bind, pyDiv]
    rw [if_neg (by positivity)]
  have hn : nBins freqs none = nBins freqs (some (max m 10)) := by
    simp only [nBins, hmx, bind, Except.bind]
  constructor
  · intro na
    simp only [nonParalyzable, hb]
  · intro bt
    simp only [nonParalyzable, hn]

/-- **C155 (negation).** Without `n_approx`, the number of bins is not the size of the frequency array, as documented: twelve frequencies up to 6 give ten bins, and another model than twelve bins. -/
theorem non_paralyzable_default_size : ∃ freqs : List ℚ, freqs.length = 12 ∧
    (nonParalyzable (fun x k => x ^ k) (fun t => t * t) freqs (1 / 4) 1 none 3 0 none ≠
      nonParalyzable (fun x k => x ^ k) (fun t => t * t) freqs (1 / 4) 1 none 3 0 (some 12)) ∧
    nonParalyzable (fun x k => x ^ k) (fun t => t * t) freqs (1 / 4) 1 none 3 0 none =
      nonParalyzable (fun x k => x ^ k) (fun t => t * t) freqs (1 / 4) 1 none 3 0 (some 10) := by
  refine ⟨[1 / 2, 1, 3 / 2, 2, 5 / 2, 3, 7 / 2, 4, 9 / 2, 5, 11 / 2, 6], rfl, ?_, ?_⟩ <;> decide +kernel

example : ((1 : ℚ) + 1) * (1 / 4) < 1 ∧ (2 : Nat) ≤ 5 := by decide +kernel

end Interpolated

section Corrected

variable {K : Type} [Field K] [LinearOrder K] [IsStrictOrderedRing K]

/-- Specification: two arrays of the same size, the second being the first times `2 / model`, point by point. -/
def Scaled (model old new : List K) : Prop :=
  old.length = model.length ∧ new.length = model.length ∧ ∀ i < model.length, new.getD i 0 = old.getD i 0 * (2 / model.getD i 0)

/-- Specification: an optional attribute is scaled if it is there. -/
def ScaledAttr (model : List K) : Attr K → Attr K → Prop
  | .absent, b => b = .absent
  | .isNone, _ => False
  | .arr l, b => ∃ l', b = .arr l' ∧ Scaled model l l'

theorem scaled_zip (model l : List K) (h : l.length = model.length) :
    Scaled model l (List.zipWith (· * ·) l (model.map fun x => 2 / x)) := by
  refine ⟨h, by simp [h], fun i hi => ?_⟩
  rw [List.getD_eq_getElem _ _ (by simp [h, hi]), List.getElem_zipWith, List.getElem_map,
    List.getD_eq_getElem _ _ (by omega), List.getD_eq_getElem _ _ hi]

theorem product_ok (model l r : List K) (h : product l (model.map fun x => 2 / x) = .ok r) : Scaled model l r := by
  unfold product at h
  split at h
  · next hl =>
    cases h
    exact scaled_zip model l (by simpa using hl)
  · cases h

theorem attr_ok (model : List K) (a b : Attr K) (h : a.times (model.map fun x => 2 / x) = .ok b) : ScaledAttr model a b := by
  cases a with
  | absent => cases h; rfl
  | isNone => cases h
  | arr l =>
    simp only [Attr.times] at h
    split at h
    · next hl =>
      cases h
      exact ⟨_, rfl, scaled_zip model l (by simpa using hl)⟩
    · cases h

theorem part_ok (model : List K) (p q : Part K) (h : p.times (model.map fun x => 2 / x) = .ok q) :
    q.power = p.power ∧ ScaledAttr model p.unnorm q.unnorm ∧ ScaledAttr model p.powerErr q.powerErr ∧
      ScaledAttr model p.unnormErr q.unnormErr := by
  unfold Part.times at h
  simp only [bind, Except.bind] at h
  split at h
  · cases h
  next u hu =>
  split at h
  · cases h
  next e he =>
  split at h
  · cases h
  next v hv =>
  cases h
  exact ⟨rfl, attr_ok model _ _ hu, attr_ok model _ _ he, attr_ok model _ _ hv⟩

/-- Specification: the saved spectra of the segments are scaled one by one. -/
def ScaledAll (model : List K) : Option (List (List K)) → Option (List (List K)) → Prop
  | none, b => b = none
  | some l, b => ∃ l', b = some l' ∧ List.Forall₂ (Scaled model) l l'

theorem all_ok (model : List K) (a b : Option (List (List K))) (h : timesAll (model.map fun x => 2 / x) a = .ok b) :
    ScaledAll model a b := by
  cases a with
  | none => cases h; rfl
  | some l =>
    simp only [timesAll, bind, Except.bind] at h
    split at h
    · cases h
    next r hr =>
    cases h
    exact ⟨r, rfl, (Stingray.Gti.mapM_ok_forall2 _ _ _ hr).imp fun x y hxy => product_ok model x y hxy⟩

/-- **C156.** A spectrum corrected by `deadtime_correct` is the original one with the powers, the unnormalised powers, their uncertainties and the saved powers of the segments multiplied, frequency by frequency, by the power 2 of Poisson noise over the modelled power; the same holds for the unnormalised powers and the uncertainties of its two power spectra; the frequencies do not change. -/
theorem deadtime_correct_scales (model : List K) (s t : Whole K) (h : deadtimeCorrect false (.ok model) s = .ok t) :
    t.freq = s.freq ∧ Scaled model s.own.power t.own.power ∧ ScaledAttr model s.own.unnorm t.own.unnorm ∧
      ScaledAttr model s.own.powerErr t.own.powerErr ∧ ScaledAttr model s.own.unnormErr t.own.unnormErr ∧
      List.Forall₂ (fun p q => ScaledAttr model p.unnorm q.unnorm ∧ ScaledAttr model p.powerErr q.powerErr ∧
        ScaledAttr model p.unnormErr q.unnormErr) s.pds t.pds ∧
      ScaledAll model s.csAll t.csAll ∧ ScaledAll model s.unnormCsAll t.unnormCsAll := by
  simp only [deadtimeCorrect, Bool.false_eq_true, if_false, bind, Except.bind] at h
  split at h
  · cases h
  next p hp =>
  split at h
  · cases h
  next o ho =>
  split at h
  · cases h
  next d hd =>
  split at h
  · cases h
  next a ha =>
  split at h
  · cases h
  next b hb =>
  cases h
  obtain ⟨e1, e2, e3, e4⟩ := part_ok model _ _ ho
  refine ⟨rfl, ?_, e2, e3, e4, (Stingray.Gti.mapM_ok_forall2 _ _ _ hd).imp fun x y hxy => (part_ok model x y hxy).2, all_ok model _ _ ha, all_ok model _ _ hb⟩
  rw [e1]
  exact product_ok model _ _ hp

/-- **C156 (succeeds).** A spectrum with arrays of the size of the model is corrected. -/
theorem deadtime_correct_ok (model : List K) (s : Whole K)
    (hpart : ∀ p ∈ s.own :: s.pds, ∀ a ∈ [p.unnorm, p.powerErr, p.unnormErr], a = .absent ∨ ∃ l, a = .arr l ∧ l.length = model.length)
    (hpow : s.own.power.length = model.length)
    (hall : ∀ c ∈ [s.csAll, s.unnormCsAll], ∀ l, c = some l → ∀ x ∈ l, x.length = model.length) :
    ∃ t, deadtimeCorrect false (.ok model) s = .ok t := by
  have hattr : ∀ a : Attr K, (a = .absent ∨ ∃ l, a = .arr l ∧ l.length = model.length) →
      ∃ b, a.times (model.map fun x => 2 / x) = .ok b := by
    rintro a (rfl | ⟨l, rfl, hl⟩)
    · exact ⟨_, rfl⟩
    · exact ⟨_, by simp only [Attr.times, List.length_map, if_pos hl]; rfl⟩
  have hp : ∀ p : Part K, (∀ a ∈ [p.unnorm, p.powerErr, p.unnormErr], a = .absent ∨ ∃ l, a = .arr l ∧ l.length = model.length) →
      ∃ q, p.times (model.map fun x => 2 / x) = .ok q := by
    intro p h
    obtain ⟨u, hu⟩ := hattr p.unnorm (h _ (by simp))
    obtain ⟨e, he⟩ := hattr p.powerErr (h _ (by simp))
    obtain ⟨v, hv⟩ := hattr p.unnormErr (h _ (by simp))
    exact ⟨_, by simp only [Part.times, hu, he, hv, bind, Except.bind]; rfl⟩
  have ha : ∀ c ∈ [s.csAll, s.unnormCsAll], ∃ r, timesAll (model.map fun x => 2 / x) c = .ok r := by
    intro c hc
    cases hcc : c with
    | none => exact ⟨_, rfl⟩
    | some l =>
      obtain ⟨r, hr⟩ := Stingray.Gti.mapM_ok_of_forall (fun x => product x (model.map fun x => 2 / x)) l
        (fun x hx => ⟨_, by simp only [product, List.length_map, if_pos (hall c hc l hcc x hx)]; rfl⟩)
      exact ⟨_, by simp only [timesAll, hr, bind, Except.bind]; rfl⟩
  obtain ⟨o, ho⟩ := hp { s.own with power := List.zipWith (· * ·) s.own.power (model.map fun x => 2 / x) } (hpart s.own (by simp))
  obtain ⟨d, hd⟩ := Stingray.Gti.mapM_ok_of_forall (Part.times (model.map fun x => 2 / x)) s.pds
    (fun p h => hp p (hpart p (List.mem_cons_of_mem _ h)))
  obtain ⟨a, ha1⟩ := ha s.csAll (by simp)
  obtain ⟨b, hb1⟩ := ha s.unnormCsAll (by simp)
  exact ⟨_, by simp only [deadtimeCorrect, Bool.false_eq_true, if_false, bind, Except.bind, product, List.length_map, if_pos hpow, ho, hd, ha1, hb1]; rfl⟩

/-- **C156 (refusals).** Paralyzable dead time is refused; so is what the model refuses; and a spectrum whose uncertainties are `None` fails with a `TypeError`. -/
theorem deadtime_correct_refuses (s : Whole K) :
    (∀ m, deadtimeCorrect true m s = .error .runtimeError) ∧
    (∀ e, deadtimeCorrect false (.error e) s = .error e) ∧
    (∀ model : List K, s.own.power.length = model.length → s.own.unnorm = .absent → s.own.powerErr = .isNone →
      deadtimeCorrect false (.ok model) s = .error .typeError) := by
  refine ⟨fun m => rfl, fun e => rfl, fun model hl hu he => ?_⟩
  simp only [deadtimeCorrect, Bool.false_eq_true, if_false, bind, Except.bind, product, List.length_map, if_pos hl, Part.times,
    hu, he, Attr.times]

/-- **C156 (negation).** The normalised powers of the two power spectra attached to a cross spectrum are left uncorrected, although their unnormalised powers and their uncertainties are corrected. -/
theorem deadtime_correct_keeps_pds_power (model : List K) (s t : Whole K) (h : deadtimeCorrect false (.ok model) s = .ok t) :
    List.Forall₂ (fun p q => q.power = p.power ∧ ScaledAttr model p.unnorm q.unnorm) s.pds t.pds := by
  simp only [deadtimeCorrect, Bool.false_eq_true, if_false, bind, Except.bind] at h
  split at h
  · cases h
  next p hp =>
  split at h
  · cases h
  next o ho =>
  split at h
  · cases h
  next d hd =>
  split at h
  · cases h
  next a ha =>
  split at h
  · cases h
  next b hb =>
  cases h
  exact (Stingray.Gti.mapM_ok_forall2 _ _ _ hd).imp fun x y hxy => ⟨(part_ok model x y hxy).1, (part_ok model x y hxy).2.1⟩

example : (deadtimeCorrect false (.ok [(1 : ℚ), 4]) ⟨[1, 2], ⟨[3, 4], .arr [6, 8], .absent, .absent⟩, [⟨[1, 1], .arr [2, 2], .absent, .absent⟩],
    some [[1, 2]], none⟩).map (fun t => (t.own.power, t.pds.map (·.power), t.pds.map (·.unnorm), t.csAll)) =
    .ok ([6, 2], [[1, 1]], [.arr [4, 1]], some [[2, 1]]) := by decide +kernel

end Corrected

end Stingray.DeadTime
