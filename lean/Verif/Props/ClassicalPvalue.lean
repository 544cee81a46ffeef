import Verif.Model.Stats
import Verif.Spec.Poisson
import Mathlib.Analysis.Calculus.Deriv.MeanValue
import Mathlib.Analysis.SpecialFunctions.ExpDeriv
import Mathlib.Analysis.Calculus.Deriv.Pow
import Mathlib.Analysis.Normed.Algebra.Exponential
import Mathlib.Analysis.SpecialFunctions.Exponential

/-!
The classical p-value (C50).
-/

namespace Stingray.Stats

open Stingray.Spec

/-- term of the Poisson distribution -/
noncomputable def pTerm (x : ℝ) (m : Nat) : ℝ := Real.exp (-x) * x ^ m / (m.factorial : ℝ)

theorem poissonBelow_succ (x : ℝ) (n : Nat) : poissonBelow x (n + 1) = poissonBelow x n + pTerm x n := by
  unfold poissonBelow pTerm
  rw [List.range_succ, List.map_append, List.sum_append]
  simp

theorem poissonBelow_zero (x : ℝ) : poissonBelow x 0 = 0 := by simp [poissonBelow]

theorem pTerm_pos {x : ℝ} (hx : 0 < x) (m : Nat) : 0 < pTerm x m := by
  unfold pTerm
  have : (0 : ℝ) < m.factorial := by exact_mod_cast Nat.factorial_pos m
  have := Real.exp_pos (-x)
  positivity

theorem pTerm_nonneg {x : ℝ} (hx : 0 ≤ x) (m : Nat) : 0 ≤ pTerm x m := by
  unfold pTerm
  have := Real.exp_pos (-x)
  positivity

/-- `t_{m+1} (m + 1) = t_m x` -/
theorem pTerm_succ (x : ℝ) (m : Nat) : pTerm x (m + 1) * (m + 1) = pTerm x m * x := by
  unfold pTerm
  have h1 : (m.factorial : ℝ) ≠ 0 := by exact_mod_cast (Nat.factorial_pos m).ne'
  have h2 : (m : ℝ) + 1 ≠ 0 := by positivity
  rw [Nat.factorial_succ]
  push_cast
  field_simp
  try ring

theorem poissonBelow_mono {x : ℝ} (hx : 0 ≤ x) {m n : Nat} (h : m ≤ n) : poissonBelow x m ≤ poissonBelow x n := by
  induction n, h using Nat.le_induction with
  | base => exact le_rfl
  | succ n _ ih => rw [poissonBelow_succ]; linarith [pTerm_nonneg hx n]

theorem poissonBelow_nonneg {x : ℝ} (hx : 0 ≤ x) (n : Nat) : 0 ≤ poissonBelow x n := by
  have := poissonBelow_mono hx (Nat.zero_le n)
  rwa [poissonBelow_zero] at this

theorem poissonBelow_eq_sum (x : ℝ) (n : Nat) :
    poissonBelow x n = Real.exp (-x) * ∑ m ∈ Finset.range n, x ^ m / (m.factorial : ℝ) := by
  induction n with
  | zero => simp [poissonBelow]
  | succ n ih => rw [poissonBelow_succ, ih, Finset.sum_range_succ, pTerm]; ring

theorem poissonBelow_le_one {x : ℝ} (hx : 0 ≤ x) (n : Nat) : poissonBelow x n ≤ 1 := by
  rw [poissonBelow_eq_sum]
  have h := Real.sum_le_exp_of_nonneg hx n
  calc _ ≤ Real.exp (-x) * Real.exp x := mul_le_mul_of_nonneg_left h (Real.exp_pos _).le
    _ = 1 := by rw [← Real.exp_add]; simp

/-- above the mean the terms decrease -/
theorem pTerm_le_of_le {x : ℝ} (hx : 0 < x) {m : Nat} (h : x ≤ m + 1) (d : Nat) : pTerm x (m + d) ≤ pTerm x m := by
  induction d with
  | zero => exact le_rfl
  | succ d ih =>
    refine le_trans ?_ ih
    have hs := pTerm_succ x (m + d)
    have hp := pTerm_pos hx (m + d)
    have hd : (0 : ℝ) < ((m + d : Nat) : ℝ) + 1 := by positivity
    have hle : x ≤ ((m + d : Nat) : ℝ) + 1 := by push_cast; linarith [Nat.cast_nonneg (α := ℝ) d]
    have : pTerm x (m + d + 1) * (((m + d : Nat) : ℝ) + 1) ≤ pTerm x (m + d) * (((m + d : Nat) : ℝ) + 1) := by
      rw [hs]
      exact mul_le_mul_of_nonneg_left hle hp.le
    exact le_of_mul_le_mul_right this hd

theorem upper_block {x : ℝ} (hx : 0 < x) {m : Nat} (h : x ≤ m + 1) (d : Nat) :
    poissonBelow x (m + 1 + d) - poissonBelow x (m + 1) ≤ d * pTerm x m := by
  induction d with
  | zero => simp
  | succ d ih =>
    have := pTerm_le_of_le hx h (d + 1)
    rw [show m + 1 + (d + 1) = (m + 1 + d) + 1 by omega, poissonBelow_succ]
    rw [show m + (d + 1) = m + 1 + d by omega] at this
    push_cast
    linarith

/-- below the mean the terms increase -/
theorem lower_block {x : ℝ} (hx : 0 < x) (m : Nat) (h : (m : ℝ) ≤ x) :
    poissonBelow x (m + 1) ≤ (m + 1) * pTerm x m := by
  induction m with
  | zero => rw [poissonBelow_succ, poissonBelow_zero]; simp
  | succ m ih =>
    have h1 : (m : ℝ) ≤ x := by push_cast at h; linarith
    have hs := pTerm_succ x m
    have hp := pTerm_pos hx (m + 1)
    have hle : pTerm x m ≤ pTerm x (m + 1) := by
      have : pTerm x m * x ≤ pTerm x (m + 1) * x := by
        rw [← hs]
        push_cast at h
        exact mul_le_mul_of_nonneg_left h hp.le
      exact le_of_mul_le_mul_right this hx
    rw [poissonBelow_succ]
    have := ih h1
    push_cast
    have hm : (0 : ℝ) ≤ (m : ℝ) + 1 := by positivity
    nlinarith [mul_le_mul_of_nonneg_left hle hm]

theorem sum_logs (m : Nat) :
    ((List.range (m - 1)).map fun i : Nat => Real.log ((m : ℝ) - i)).sum = Real.log (m.factorial : ℝ) := by
  induction m with
  | zero => simp
  | succ m ih =>
    cases m with
    | zero => simp
    | succ m =>
      rw [show m + 1 + 1 - 1 = m + 1 by omega, List.range_succ_eq_map, List.map_cons, List.sum_cons, List.map_map]
      have e : ((fun i : Nat => Real.log (((m + 1 + 1 : Nat) : ℝ) - i)) ∘ Nat.succ) =
          fun i : Nat => Real.log (((m + 1 : Nat) : ℝ) - i) := by
        funext i
        simp only [Function.comp, Nat.succ_eq_add_one]
        congr 1
        push_cast
        ring
      rw [show m + 1 - 1 = m by omega] at ih
      rw [e, ih, Nat.factorial_succ (m + 1)]
      push_cast
      rw [Real.log_mul (by positivity) (by positivity)]
      simp

theorem pvalTerm_eq {pn : ℝ} (h : 0 < pn) (m : Nat) : pvalTerm pn m = some (pTerm (pn / 2) m) := by
  unfold pvalTerm
  rw [if_neg h.ne']
  simp only [sum_logs, Option.some.injEq]
  have hx : 0 < pn / 2 := by linarith
  have hf : (0 : ℝ) < m.factorial := by exact_mod_cast Nat.factorial_pos m
  rw [Real.exp_sub, Real.exp_log hf, Real.exp_sub, mul_comm (m : ℝ), Real.exp_mul, Real.exp_log hx, Real.rpow_natCast,
    pTerm, Real.exp_neg]
  field_simp

theorem pvalLoop_spec {pn : ℝ} (h : 0 < pn) (n : Nat) (hn : (n : ℝ) ≤ 10 ^ 15) (k : Nat) (hk : k ≤ n) :
    ∃ v, pvalLoop pn k (some (poissonBelow (pn / 2) n - poissonBelow (pn / 2) k)) = some v ∧
      v ≤ poissonBelow (pn / 2) n ∧ poissonBelow (pn / 2) n ≤ v * (1 + n / 10 ^ 15) ∧ 0 ≤ v := by
  have hx : 0 < pn / 2 := by linarith
  induction k with
  | zero =>
    refine ⟨poissonBelow (pn / 2) n, ?_, le_rfl, ?_, poissonBelow_nonneg hx.le n⟩
    · simp [pvalLoop, poissonBelow_zero]
    · have := poissonBelow_nonneg hx.le n
      have h2 : (0 : ℝ) ≤ n / 10 ^ 15 := by positivity
      nlinarith
  | succ m ih =>
    have ht := pTerm_pos hx m
    have hS0 : 0 ≤ poissonBelow (pn / 2) n - poissonBelow (pn / 2) (m + 1) := by
      have := poissonBelow_mono hx.le hk
      linarith
    unfold pvalLoop
    simp only [pvalTerm_eq h m]
    split_ifs with hc
    · obtain ⟨-, hr⟩ := hc
      refine ⟨_, rfl, ?_, ?_, hS0⟩
      · have := poissonBelow_nonneg hx.le (m + 1)
        linarith
      · rw [gt_iff_lt, lt_div_iff₀ ht] at hr
        have hlow : (m : ℝ) + 1 ≤ pn / 2 := by
          by_contra hcon
          have hub := upper_block hx (m := m) (by linarith) (n - (m + 1))
          rw [show m + 1 + (n - (m + 1)) = n by omega] at hub
          have hd : ((n - (m + 1) : Nat) : ℝ) ≤ 10 ^ 15 := by
            refine le_trans ?_ hn
            exact_mod_cast Nat.sub_le n (m + 1)
          have := mul_le_mul_of_nonneg_right hd ht.le
          linarith
        have hlb := lower_block hx m (by linarith)
        have hm : (m : ℝ) + 1 ≤ n := by exact_mod_cast hk
        generalize hSdef : poissonBelow (pn / 2) n - poissonBelow (pn / 2) (m + 1) = S at *
        have e : poissonBelow (pn / 2) n = S + poissonBelow (pn / 2) (m + 1) := by
          linarith
        rw [e]
        have h1 : poissonBelow (pn / 2) (m + 1) ≤ n * pTerm (pn / 2) m :=
          hlb.trans (mul_le_mul_of_nonneg_right hm ht.le)
        have h2 : n * pTerm (pn / 2) m ≤ n * (S / 10 ^ 15) := by
          apply mul_le_mul_of_nonneg_left _ (Nat.cast_nonneg n)
          rw [le_div_iff₀ (by norm_num)]
          linarith
        have h3 : S * (1 + n / 10 ^ 15) = S + n * (S / 10 ^ 15) := by ring
        rw [h3]
        linarith
    · have e : poissonBelow (pn / 2) n - poissonBelow (pn / 2) (m + 1) + pTerm (pn / 2) m =
          poissonBelow (pn / 2) n - poissonBelow (pn / 2) m := by
        rw [poissonBelow_succ]; ring
      rw [e]
      exact ih (by omega)

/-- **C50 (partial).** For a positive power with `power * nspec <= 30000` the classical p-value lies in `[0, 1]` and is the Poisson sum `e^{-x} Σ_{m<nspec} x^m / m!` at `x = power nspec / 2`, up to the terms dropped at the end of
the sum: it is not larger, and smaller by at most the fraction `nspec / 10^15`.
Missing from C50: zero power and `power * nspec > 30000` (false, below). -/
theorem classical_pvalue_sum_partial (power : ℝ) (nspec : Nat) (hp : 0 < power) (hn : 1 ≤ nspec)
    (hn' : (nspec : ℝ) ≤ 10 ^ 15) (hle : power * nspec ≤ 30000) :
    ∃ v, classicalPvalue (some power) (some nspec) = .ok (some v) ∧ 0 ≤ v ∧ v ≤ 1 ∧
      v ≤ poissonBelow (power * nspec / 2) nspec ∧
      poissonBelow (power * nspec / 2) nspec ≤ v * (1 + nspec / 10 ^ 15) := by
  have hn0 : (0 : ℝ) < nspec := by exact_mod_cast hn
  have hpn : 0 < power * nspec := mul_pos hp hn0
  obtain ⟨v, hv, h1, h2, h3⟩ := pvalLoop_spec hpn nspec hn' nspec le_rfl
  rw [sub_self] at hv
  refine ⟨v, ?_, h3, h1.trans (poissonBelow_le_one (by linarith) _), h1, h2⟩
  unfold classicalPvalue
  dsimp only
  rw [if_neg (by linarith)]
  rw [if_neg (by omega), if_neg (by simpa using hle)]
  simp only [Int.toNat_natCast, pavnosigfun, hv]

/-- **C50 (few spectra).** For a single spectrum the p-value is exactly `exp(-power / 2)`, for `0 < power <= 30000`. -/
theorem classical_pvalue_single (power : ℝ) (hp : 0 < power) (hle : power ≤ 30000) :
    classicalPvalue (some power) (some 1) = .ok (some (Real.exp (-(power / 2)))) := by
  unfold classicalPvalue
  dsimp only
  rw [if_neg (by linarith)]
  rw [if_neg (by omega), if_neg (by push_cast; linarith)]
  simp only [pavnosigfun, Int.toNat_one, pvalLoop]
  rw [pvalTerm_eq (by simpa using hp)]
  simp [pTerm]

theorem poissonBelow_hasDerivAt (n : Nat) (x : ℝ) :
    HasDerivAt (fun x => poissonBelow x (n + 1)) (-pTerm x n) x := by
  induction n with
  | zero =>
    have e : (fun x => poissonBelow x (0 + 1)) = fun x => Real.exp (-x) := by
      funext x
      rw [poissonBelow_succ, poissonBelow_zero]
      simp [pTerm]
    rw [e]
    have := (hasDerivAt_neg x).exp
    simpa [pTerm] using this
  | succ n ih =>
    have e : (fun x => poissonBelow x (n + 1 + 1)) = fun x => poissonBelow x (n + 1) + pTerm x (n + 1) := by
      funext x
      rw [poissonBelow_succ]
    rw [e]
    have h1 : HasDerivAt (fun x : ℝ => Real.exp (-x)) (-Real.exp (-x)) x := by
      have := (hasDerivAt_neg x).exp
      simpa using this
    have h2 := (h1.mul (hasDerivAt_pow (n + 1) x)).div_const (((n + 1).factorial : ℝ))
    have h3 := ih.add h2
    refine h3.congr_deriv ?_
    have hs := pTerm_succ x n
    have hf : (n.factorial : ℝ) ≠ 0 := by exact_mod_cast (Nat.factorial_pos n).ne'
    unfold pTerm
    rw [Nat.factorial_succ]
    push_cast
    have : (n : ℝ) + 1 ≠ 0 := by positivity
    field_simp
    simp
    try ring

/-- **C50 (monotone).** The Poisson sum, of which the p-value is the computation, decreases strictly with the power and is 1 at power 0. -/
theorem pvalue_sum_decreasing (nspec : Nat) (hn : 1 ≤ nspec) (p q : ℝ) (hp : 0 ≤ p) (hpq : p < q) :
    poissonBelow (q * nspec / 2) nspec < poissonBelow (p * nspec / 2) nspec ∧ poissonBelow 0 nspec = 1 := by
  obtain ⟨n, rfl⟩ : ∃ k, nspec = k + 1 := ⟨nspec - 1, by omega⟩
  constructor
  · have hanti : StrictAntiOn (fun x => poissonBelow x (n + 1)) (Set.Ici 0) := by
      apply strictAntiOn_of_deriv_neg (convex_Ici 0)
      · intro x _
        exact (poissonBelow_hasDerivAt n x).continuousAt.continuousWithinAt
      · intro x hx
        rw [interior_Ici] at hx
        rw [(poissonBelow_hasDerivAt n x).deriv]
        have := pTerm_pos (Set.mem_Ioi.1 hx) n
        linarith
    have hn0 : (0 : ℝ) < ((n + 1 : Nat) : ℝ) := by positivity
    apply hanti
    · exact Set.mem_Ici.2 (by positivity)
    · exact Set.mem_Ici.2 (by have := hp.trans hpq.le; positivity)
    · have := mul_lt_mul_of_pos_right hpq hn0
      linarith
  · have : ∀ n, poissonBelow 0 (n + 1) = 1 := by
      intro n
      induction n with
      | zero => rw [poissonBelow_succ, poissonBelow_zero]; simp [pTerm]
      | succ n ih => rw [poissonBelow_succ, ih]; simp [pTerm]
    exact this n

/-- **C50 (negation at zero power).** At power 0 the result is NaN, not 1. -/
theorem classical_pvalue_zero (nspec : Nat) (hn : 1 ≤ nspec) :
    classicalPvalue (some 0) (some nspec) = .ok none := by
  have hloop : ∀ k (s : Option ℝ), (k = 0 → s = none) → pvalLoop 0 k s = none := by
    intro k
    induction k with
    | zero => intro s hs; simpa [pvalLoop] using hs rfl
    | succ m ih =>
      intro s _
      unfold pvalLoop
      have hnone : pvalLoop 0 m none = none := by
        cases m with
        | zero => simp [pvalLoop]
        | succ m => exact ih none (by simp)
      cases m with
      | zero => cases s <;> simp [pvalTerm, pvalLoop]
      | succ m =>
        cases s with
        | none => simpa using hnone
        | some s => simpa [pvalTerm] using ih (some s) (by simp)
  unfold classicalPvalue
  dsimp only
  rw [if_neg (by norm_num)]
  rw [if_neg (by omega), if_neg (by simp)]
  simp only [Int.toNat_natCast, pavnosigfun, zero_mul]
  rw [hloop nspec _ (by omega)]

/-- Markov's inequality for the Poisson distribution -/
theorem poissonBelow_markov {x : ℝ} (hx : 0 ≤ x) (n : Nat) : 1 - x / (n + 1) ≤ poissonBelow x (n + 1) := by
  have hn : (0 : ℝ) < (n : ℝ) + 1 := by positivity
  have hblock : ∀ d, poissonBelow x (n + 1 + d) - poissonBelow x (n + 1) ≤
      x / (n + 1) * (poissonBelow x (n + d) - poissonBelow x n) := by
    intro d
    induction d with
    | zero => simp
    | succ d ih =>
      rw [show n + 1 + (d + 1) = (n + 1 + d) + 1 by omega, poissonBelow_succ,
        show n + (d + 1) = (n + d) + 1 by omega, poissonBelow_succ x (n + d)]
      have hs := pTerm_succ x (n + d)
      have ht := pTerm_nonneg hx (n + d)
      have hle : pTerm x (n + 1 + d) ≤ x / (n + 1) * pTerm x (n + d) := by
        rw [show n + 1 + d = n + d + 1 by omega, div_mul_eq_mul_div, le_div_iff₀ hn]
        have h2 := pTerm_nonneg hx (n + d + 1)
        have h3 : (n : ℝ) + 1 ≤ ((n + d : Nat) : ℝ) + 1 := by push_cast; linarith [Nat.cast_nonneg (α := ℝ) d]
        have := mul_le_mul_of_nonneg_left h3 h2
        linarith
      have : x / (n + 1) * (poissonBelow x (n + d) + pTerm x (n + d) - poissonBelow x n) =
        x / (n + 1) * (poissonBelow x (n + d) - poissonBelow x n) + x / (n + 1) * pTerm x (n + d) := by ring
      rw [this]
      linarith
  have hb : ∀ N, poissonBelow x N ≤ poissonBelow x (n + 1) + x / (n + 1) := by
    intro N
    have h1 := hblock N
    have h2 : poissonBelow x N ≤ poissonBelow x (n + 1 + N) := poissonBelow_mono hx (by omega)
    have h3 : poissonBelow x (n + N) - poissonBelow x n ≤ 1 := by
      linarith [poissonBelow_le_one hx (n + N), poissonBelow_nonneg hx n]
    have h4 : x / (n + 1) * (poissonBelow x (n + N) - poissonBelow x n) ≤ x / (n + 1) * 1 :=
      mul_le_mul_of_nonneg_left h3 (by positivity)
    linarith
  have hlim : Filter.Tendsto (fun N => poissonBelow x N) Filter.atTop (nhds 1) := by
    have h := (NormedSpace.expSeries_div_hasSum_exp (𝔸 := ℝ) x).tendsto_sum_nat
    rw [← Real.exp_eq_exp_ℝ] at h
    have h2 := h.const_mul (Real.exp (-x))
    rw [← Real.exp_add, neg_add_cancel, Real.exp_zero] at h2
    refine h2.congr ?_
    intro N
    rw [poissonBelow_eq_sum]
  have := le_of_tendsto' hlim hb
  linarith

/-- **C50 (negation for many spectra).** Whenever `power * nspec > 30000` the result is 0, although the probability it stands for is at least `1 - power / 2`: with 60000 averaged spectra a power of 1, half the noise level, is reported as
certainly not noise. -/
theorem classical_pvalue_many (power : ℝ) (nspec : Nat) (hp : 0 < power) (hn : 1 ≤ nspec) (hbig : 30000 < power * nspec) :
    classicalPvalue (some power) (some nspec) = .ok (some 0) ∧
    1 - power / 2 ≤ poissonBelow (power * nspec / 2) nspec := by
  constructor
  · unfold classicalPvalue
    dsimp only
    rw [if_neg (by linarith)]
    rw [if_neg (by omega), if_pos (by simpa using hbig)]
  · obtain ⟨n, rfl⟩ : ∃ k, nspec = k + 1 := ⟨nspec - 1, by omega⟩
    have h := poissonBelow_markov (x := power * ((n + 1 : Nat) : ℝ) / 2) (by positivity) n
    have e : power * ((n + 1 : Nat) : ℝ) / 2 / (n + 1) = power / 2 := by
      push_cast
      have : (n : ℝ) + 1 ≠ 0 := by positivity
      field_simp
    rw [e] at h
    exact h

/-- the witness: 60000 spectra, power 1 -/
example : classicalPvalue (some 1) (some 60000) = .ok (some 0) ∧ (1 : ℝ) / 2 ≤ poissonBelow (1 * (60000 : Nat) / 2) 60000 := by
  have := classical_pvalue_many 1 60000 one_pos (by norm_num) (by norm_num)
  exact ⟨this.1, by have h := this.2; norm_num at h ⊢; exact h⟩

/-- **C50 (errors).** Negative powers, non-finite arguments and numbers of spectra below 1 are refused. -/
theorem classical_pvalue_errors (power : Option ℝ) (nspec : Option Int)
    (h : power = none ∨ nspec = none ∨ (∃ p, power = some p ∧ p < 0) ∨ (∃ n, nspec = some n ∧ n < 1)) :
    classicalPvalue power nspec = .error .valueError := by
  unfold classicalPvalue
  rcases power with _ | p
  · rfl
  · simp only
    split_ifs with h0
    · rfl
    · rcases nspec with _ | n
      · rfl
      · rcases h with h | h | ⟨q, h, hq⟩ | ⟨k, h, hk⟩
        · cases h
        · cases h
        · cases h; exact absurd hq h0
        · cases h; simp [hk]

end Stingray.Stats
