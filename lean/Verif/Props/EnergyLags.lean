import Verif.Model.EnergyLags
import Mathlib.Analysis.SpecialFunctions.Trigonometric.Arctan
import Mathlib.Algebra.BigOperators.Group.List.Basic

/-!
C181: lags and covariances of an energy band.
-/

set_option linter.unusedSectionVars false

namespace Stingray.EnergyLags

open Stingray

theorem good_eq (f0 f1 : ℝ) (spec : List (ℝ × ℂ)) (h : ∀ p ∈ spec, f0 ≤ p.1 ∧ p.1 < f1) : good f0 f1 spec = spec := by
  rw [good, List.filter_eq_self]
  intro p hp
  simp [h p hp]

theorem sum_norm_nonneg (g : List (ℝ × ℂ)) : 0 ≤ (g.map fun p => ‖p.2‖).sum := List.sum_nonneg (by
  intro x hx
  obtain ⟨p, _, rfl⟩ := List.mem_map.1 hx
  exact norm_nonneg _)

/-- **C181 (band).** Frequencies outside the interval, which has its lower and not its upper end, do not change the lag or the covariance. -/
theorem lag_band (f0 f1 e : ℝ) (a b : List (ℝ × ℂ)) (x : ℝ × ℂ) (hx : ¬ (f0 ≤ x.1 ∧ x.1 < f1)) (common cx : Bool) (ns rp rn nu : ℝ) (fr : Option ℝ) :
    lagOf f0 f1 e (a ++ x :: b) = lagOf f0 f1 e (a ++ b) ∧
      covarianceOf f0 f1 common cx ns rp rn nu fr (a ++ x :: b) = covarianceOf f0 f1 common cx ns rp rn nu fr (a ++ b) := by
  have hg : good f0 f1 (a ++ x :: b) = good f0 f1 (a ++ b) := by
    rw [good, good, List.filter_append, List.filter_append, List.filter_cons, if_neg (by simpa using hx)]
  simp only [lagOf, covarianceOf, hg, and_self]

theorem weighted_mean_mem (g : List (ℝ × ℂ)) (f0 f1 : ℝ) (h : ∀ p ∈ g, f0 ≤ p.1 ∧ p.1 < f1) (hw : (g.map fun p => ‖p.2‖).sum ≠ 0) :
    f0 ≤ (g.map fun p => p.1 * ‖p.2‖).sum / (g.map fun p => ‖p.2‖).sum ∧ (g.map fun p => p.1 * ‖p.2‖).sum / (g.map fun p => ‖p.2‖).sum < f1 := by
  have hpos : 0 < (g.map fun p => ‖p.2‖).sum := lt_of_le_of_ne (sum_norm_nonneg g) (Ne.symm hw)
  rw [le_div_iff₀ hpos, div_lt_iff₀ hpos]
  have key : ∀ l : List (ℝ × ℂ), (∀ p ∈ l, f0 ≤ p.1 ∧ p.1 < f1) →
      f0 * (l.map fun p => ‖p.2‖).sum ≤ (l.map fun p => p.1 * ‖p.2‖).sum ∧
      ((l.map fun p => p.1 * ‖p.2‖).sum ≤ f1 * (l.map fun p => ‖p.2‖).sum ∧
        ((l.map fun p => ‖p.2‖).sum ≠ 0 → (l.map fun p => p.1 * ‖p.2‖).sum < f1 * (l.map fun p => ‖p.2‖).sum)) := by
    intro l
    induction l with
    | nil => intro _; simp
    | cons p l ih =>
      intro hl
      obtain ⟨i1, i2, i3⟩ := ih fun q hq => hl q (by simp [hq])
      have hp := hl p (by simp)
      have n0 := norm_nonneg p.2
      simp only [List.map_cons, List.sum_cons]
      refine ⟨by nlinarith [mul_le_mul_of_nonneg_right hp.1 n0], by nlinarith [mul_le_mul_of_nonneg_right hp.2.le n0], ?_⟩
      intro hne
      by_cases hp0 : ‖p.2‖ = 0
      · rw [hp0] at hne ⊢
        have := i3 (by simpa using hne)
        linarith
      · have : p.1 * ‖p.2‖ < f1 * ‖p.2‖ := mul_lt_mul_of_pos_right hp.2 (lt_of_le_of_ne n0 (Ne.symm hp0))
        nlinarith
  exact ⟨(key g h).1, (key g h).2.2 hw⟩

theorem good_mem (f0 f1 : ℝ) (spec : List (ℝ × ℂ)) : ∀ p ∈ good f0 f1 spec, f0 ≤ p.1 ∧ p.1 < f1 := by
  intro p hp
  rw [good, List.mem_filter] at hp
  simpa using hp.2

/-- **C181 (range).** There is a lag exactly when the cross power does not vanish at all frequencies of the interval (which are positive). The lag is the phase of the mean cross power at a frequency inside the interval, so it is at most half a period of it in size, and its error is that of the phase at the same frequency. -/
theorem lag_range (f0 f1 e : ℝ) (hf : 0 < f0) (spec : List (ℝ × ℂ)) :
    ((lagOf f0 f1 e spec).isSome ↔ ∃ p ∈ spec, f0 ≤ p.1 ∧ p.1 < f1 ∧ p.2 ≠ 0) ∧
    ∀ l err, lagOf f0 f1 e spec = some (l, err) →
      ∃ f, f0 ≤ f ∧ f < f1 ∧ -1 / 2 < l * f ∧ l * f ≤ 1 / 2 ∧ err = e / (2 * Real.pi * f) := by
  have hpi := Real.pi_pos
  have hz : (((good f0 f1 spec).map fun p => ‖p.2‖).sum ≠ 0) ↔ ∃ p ∈ spec, f0 ≤ p.1 ∧ p.1 < f1 ∧ p.2 ≠ 0 := by
    have key : ∀ l : List (ℝ × ℂ), (l.map fun p => ‖p.2‖).sum ≠ 0 ↔ ∃ p ∈ l, p.2 ≠ 0 := by
      intro l
      induction l with
      | nil => simp
      | cons p l ih =>
        simp only [List.map_cons, List.sum_cons, List.mem_cons, exists_eq_or_imp]
        rw [← ih]
        have n0 := norm_nonneg p.2
        have n1 := sum_norm_nonneg l
        constructor
        · intro h
          by_contra hc
          push Not at hc
          rw [hc.1, hc.2] at h
          simp at h
        · rintro (h | h)
          · have : 0 < ‖p.2‖ := norm_pos_iff.2 h
            linarith
          · have : 0 < (l.map fun p => ‖p.2‖).sum := lt_of_le_of_ne n1 (Ne.symm h)
            linarith
    rw [key]
    constructor
    · rintro ⟨p, hp, hne⟩
      have hm := good_mem f0 f1 spec p hp
      exact ⟨p, (List.mem_filter.1 hp).1, hm.1, hm.2, hne⟩
    · rintro ⟨p, hp, h1, h2, hne⟩
      exact ⟨p, List.mem_filter.2 ⟨hp, by simp [h1, h2]⟩, hne⟩
  rw [← hz]
  by_cases hw : ((good f0 f1 spec).map fun p => ‖p.2‖).sum = 0
  · have hmf : meanFrequency (good f0 f1 spec) = none := by simp only [meanFrequency, hw, if_true]
    have hl : lagOf f0 f1 e spec = none := by
      simp only [lagOf, hmf]
      cases meanCross (good f0 f1 spec) <;> rfl
    rw [hl]
    simp [hw]
  · have hmf : meanFrequency (good f0 f1 spec) = some (((good f0 f1 spec).map fun p => p.1 * ‖p.2‖).sum / ((good f0 f1 spec).map fun p => ‖p.2‖).sum) := by
      simp only [meanFrequency, hw, if_false]
    have hmem := weighted_mean_mem _ f0 f1 (good_mem f0 f1 spec) hw
    set f := ((good f0 f1 spec).map fun p => p.1 * ‖p.2‖).sum / ((good f0 f1 spec).map fun p => ‖p.2‖).sum
    have hg : (good f0 f1 spec).length ≠ 0 := by
      intro h
      rw [List.length_eq_zero_iff.1 h] at hw
      simp at hw
    have hfp : 0 < f := by linarith [hmem.1]
    have hl : lagOf f0 f1 e spec = some (Complex.arg (((good f0 f1 spec).map Prod.snd).sum / ((good f0 f1 spec).length : ℂ)) / (2 * Real.pi * f), e / (2 * Real.pi * f)) := by
      simp only [lagOf, hmf, meanCross, hg, if_false, hfp.ne']
    rw [hl]
    refine ⟨by simp [hw], ?_⟩
    intro l err h
    simp only [Option.some.injEq, Prod.mk.injEq] at h
    refine ⟨f, hmem.1, hmem.2, ?_, ?_, h.2.symm⟩
    · rw [← h.1]
      have := Complex.neg_pi_lt_arg (((good f0 f1 spec).map Prod.snd).sum / ((good f0 f1 spec).length : ℂ))
      rw [div_mul_eq_mul_div, lt_div_iff₀ (by positivity)]
      nlinarith
    · rw [← h.1]
      have := Complex.arg_le_pi (((good f0 f1 spec).map Prod.snd).sum / ((good f0 f1 spec).length : ℂ))
      rw [div_mul_eq_mul_div, div_le_iff₀ (by positivity)]
      nlinarith

/-- **C181 (phase lag).** When the cross power has the same phase `φ` at all frequencies of the interval, the lag is `φ / (2 π f)`, with `f` the mean of the frequencies weighted with the moduli. -/
theorem lag_phase (f0 f1 e φ : ℝ) (hf : 0 < f0) (d : List (ℝ × ℝ)) (hd : ∀ p ∈ d, f0 ≤ p.1 ∧ p.1 < f1 ∧ 0 < p.2) (hne : d ≠ []) (hφ : -Real.pi < φ ∧ φ ≤ Real.pi) :
    lagOf f0 f1 e (d.map fun p => (p.1, (p.2 : ℂ) * Complex.exp (φ * Complex.I))) =
      some (φ / (2 * Real.pi * ((d.map fun p => p.1 * p.2).sum / (d.map fun p => p.2).sum)), e / (2 * Real.pi * ((d.map fun p => p.1 * p.2).sum / (d.map fun p => p.2).sum))) := by
  set spec := d.map fun p => (p.1, (p.2 : ℂ) * Complex.exp (φ * Complex.I)) with hspec
  have hgood : good f0 f1 spec = spec := good_eq _ _ _ (by
    intro q hq
    obtain ⟨p, hp, rfl⟩ := List.mem_map.1 hq
    exact ⟨(hd p hp).1, (hd p hp).2.1⟩)
  have hn : ∀ p ∈ d, ‖(p.2 : ℂ) * Complex.exp (φ * Complex.I)‖ = p.2 := by
    intro p hp
    rw [norm_mul, Complex.norm_exp_ofReal_mul_I, mul_one, Complex.norm_real, Real.norm_of_nonneg (hd p hp).2.2.le]
  have hw : (spec.map fun p => ‖p.2‖) = d.map fun p => p.2 := by
    rw [hspec, List.map_map]
    exact List.map_congr_left hn
  have hfw : (spec.map fun p => p.1 * ‖p.2‖) = d.map fun p => p.1 * p.2 := by
    rw [hspec, List.map_map]
    apply List.map_congr_left
    intro p hp
    simp only [Function.comp, hn p hp]
  have hsum : (spec.map Prod.snd).sum = (((d.map fun p => p.2).sum : ℝ) : ℂ) * Complex.exp (φ * Complex.I) := by
    rw [hspec, List.map_map]
    clear hw hfw hspec hgood hn hd hne
    clear spec
    induction d with
    | nil => simp
    | cons p d ih =>
      simp only [List.map_cons, List.sum_cons, ih, Function.comp]
      push_cast
      ring
  have hpos : 0 < (d.map fun p => p.2).sum := by
    cases d with
    | nil => exact absurd rfl hne
    | cons p d =>
      have h1 : 0 ≤ (d.map fun p => p.2).sum := List.sum_nonneg (by
        intro x hx
        obtain ⟨q, hq, rfl⟩ := List.mem_map.1 hx
        exact (hd q (by simp [hq])).2.2.le)
      have h2 := (hd p (by simp)).2.2
      simp only [List.map_cons, List.sum_cons]
      linarith
  have hlen : spec.length ≠ 0 := by
    rw [hspec, List.length_map]
    exact (List.length_pos_iff.2 hne).ne'
  have hfpos : 0 < (d.map fun p => p.1 * p.2).sum / (d.map fun p => p.2).sum := by
    have hm := weighted_mean_mem spec f0 f1 (by
      intro q hq
      obtain ⟨p, hp, rfl⟩ := List.mem_map.1 hq
      exact ⟨(hd p hp).1, (hd p hp).2.1⟩) (by rw [hw]; exact hpos.ne')
    rw [hw, hfw] at hm
    linarith [hm.1]
  have hmc : meanCross spec = some ((((d.map fun p => p.2).sum / spec.length : ℝ) : ℂ) * Complex.exp (φ * Complex.I)) := by
    simp only [meanCross, hlen, if_false, hsum]
    congr 1
    push_cast
    ring
  have hlR : (0 : ℝ) < spec.length := by exact_mod_cast Nat.pos_of_ne_zero hlen
  have harg : Complex.arg ((((d.map fun p => p.2).sum / spec.length : ℝ) : ℂ) * Complex.exp (φ * Complex.I)) = φ := by
    rw [Complex.arg_real_mul _ (div_pos hpos hlR), Complex.arg_exp_mul_I, toIocMod_eq_self]
    constructor
    · exact hφ.1
    · linarith [hφ.2]
  simp only [lagOf, hgood, hmc, meanFrequency, hw, hfw, hpos.ne', if_false, hfpos.ne', harg]

/-- **C181 (delay).** For one frequency in the interval, a delay of less than half a period is recovered exactly. -/
theorem lag_delay (f0 f1 e f a τ : ℝ) (hf0 : 0 < f0) (hf : f0 ≤ f ∧ f < f1) (ha : 0 < a) (hτ : |f * τ| < 1 / 2) :
    lagOf f0 f1 e [(f, (a : ℂ) * Complex.exp ((2 * Real.pi * f * τ : ℝ) * Complex.I))] = some (τ, e / (2 * Real.pi * f)) := by
  have hpi := Real.pi_pos
  have h := lag_phase f0 f1 e (2 * Real.pi * f * τ) hf0 [(f, a)] (by simp [hf, ha]) (by simp) (by
    rw [abs_lt] at hτ
    constructor <;> nlinarith [hτ.1, hτ.2])
  simp only [List.map_cons, List.map_nil, List.sum_cons, List.sum_nil, add_zero] at h
  rw [h]
  have hfp : 0 < f := by linarith [hf.1]
  have e1 : f * a / a = f := by field_simp
  rw [e1]
  congr 2
  field_simp

theorem good_map (f0 f1 : ℝ) (g : ℂ → ℂ) (spec : List (ℝ × ℂ)) : good f0 f1 (spec.map fun p => (p.1, g p.2)) = (good f0 f1 spec).map fun p => (p.1, g p.2) := by
  rw [good, good, List.filter_map]
  rfl

/-- **C181 (exchange).** Exchanging the two bands, which conjugates the cross power, changes the sign of the lag (but for lags of exactly half a period), and multiplying the cross power with a positive number does not change it. -/
theorem lag_exchange (f0 f1 e k : ℝ) (hk : 0 < k) (spec : List (ℝ × ℂ)) :
    (∀ l err, lagOf f0 f1 e spec = some (l, err) → (∀ c, meanCross (good f0 f1 spec) = some c → Complex.arg c ≠ Real.pi) →
      lagOf f0 f1 e (spec.map fun p => (p.1, (starRingEnd ℂ) p.2)) = some (-l, err)) ∧
    lagOf f0 f1 e (spec.map fun p => (p.1, (k : ℂ) * p.2)) = lagOf f0 f1 e spec := by
  have sumc : ∀ l : List (ℝ × ℂ), ((l.map fun p => (starRingEnd ℂ) p.2)).sum = (starRingEnd ℂ) (l.map Prod.snd).sum := by
    intro l
    induction l with
    | nil => simp
    | cons p l ih => simp only [List.map_cons, List.sum_cons, ih, map_add]
  have sumk : ∀ l : List (ℝ × ℂ), ((l.map fun p => (k : ℂ) * p.2)).sum = k * (l.map Prod.snd).sum := by
    intro l
    induction l with
    | nil => simp
    | cons p l ih => simp only [List.map_cons, List.sum_cons, ih]; ring
  have sumn : ∀ (h : ℝ → ℝ) (l : List (ℝ × ℂ)), ((l.map fun p => h p.1 * (k * ‖p.2‖))).sum = k * (l.map fun p => h p.1 * ‖p.2‖).sum := by
    intro h l
    induction l with
    | nil => simp
    | cons p l ih => simp only [List.map_cons, List.sum_cons, ih]; ring
  constructor
  · intro l err h hpi
    have hf : meanFrequency ((good f0 f1 spec).map fun p => (p.1, (starRingEnd ℂ) p.2)) = meanFrequency (good f0 f1 spec) := by
      simp only [meanFrequency, List.map_map, Function.comp_def, RCLike.norm_conj]
    have hc : meanCross ((good f0 f1 spec).map fun p => (p.1, (starRingEnd ℂ) p.2)) = (meanCross (good f0 f1 spec)).map (starRingEnd ℂ) := by
      simp only [meanCross, List.length_map, List.map_map, Function.comp_def, sumc]
      split_ifs
      · rfl
      · simp
    simp only [lagOf, good_map f0 f1 (starRingEnd ℂ), hf, hc] at h ⊢
    cases hm : meanCross (good f0 f1 spec) with
    | none => rw [hm] at h; simp at h
    | some c =>
      cases hq : meanFrequency (good f0 f1 spec) with
      | none => rw [hm, hq] at h; simp at h
      | some f =>
        rw [hm, hq] at h
        simp only [Option.map_some] at h ⊢
        by_cases hf0 : f = 0
        · simp [hf0] at h
        · simp only [hf0, if_false, Option.some.injEq, Prod.mk.injEq] at h ⊢
          refine ⟨?_, h.2⟩
          rw [Complex.arg_conj, if_neg (hpi c hm), ← h.1]
          ring
  · have hf : meanFrequency ((good f0 f1 spec).map fun p => (p.1, (k : ℂ) * p.2)) = meanFrequency (good f0 f1 spec) := by
      have hn : ∀ z : ℂ, ‖(k : ℂ) * z‖ = k * ‖z‖ := by
        intro z
        rw [norm_mul, Complex.norm_real, Real.norm_of_nonneg hk.le]
      have e1 := sumn (fun _ => 1) (good f0 f1 spec)
      have e2 := sumn id (good f0 f1 spec)
      simp only [one_mul] at e1
      simp only [id] at e2
      simp only [meanFrequency, List.map_map, Function.comp_def, hn, e1, e2]
      by_cases hw : ((good f0 f1 spec).map fun p => ‖p.2‖).sum = 0
      · rw [hw]
        simp
      · rw [if_neg hw, if_neg (mul_ne_zero hk.ne' hw), mul_div_mul_left _ _ hk.ne']
    have hc : meanCross ((good f0 f1 spec).map fun p => (p.1, (k : ℂ) * p.2)) = (meanCross (good f0 f1 spec)).map fun z => (k : ℂ) * z := by
      simp only [meanCross, List.length_map, List.map_map, Function.comp_def, sumk]
      split_ifs
      · rfl
      · simp [mul_div_assoc]
    simp only [lagOf, good_map f0 f1 (fun z => (k : ℂ) * z), hf, hc]
    cases meanCross (good f0 f1 spec) with
    | none => rfl
    | some c =>
      cases meanFrequency (good f0 f1 spec) with
      | none => rfl
      | some f => simp only [Option.map_some, Complex.arg_real_mul c hk]

/-- **C181 (negation).** A delay over several frequencies is not recovered exactly: the phase of the mean is not the mean phase. -/
theorem lag_delay_many : ¬ ∀ (f0 f1 e τ : ℝ) (d : List (ℝ × ℝ)), 0 < f0 → d ≠ [] → (∀ p ∈ d, f0 ≤ p.1 ∧ p.1 < f1 ∧ 0 < p.2 ∧ |p.1 * τ| < 1 / 2) →
    (lagOf f0 f1 e (d.map fun p => (p.1, (p.2 : ℂ) * Complex.exp ((2 * Real.pi * p.1 * τ : ℝ) * Complex.I)))).map Prod.fst = some τ := by
  intro h
  have hpi := Real.pi_pos
  have h3 : 0 < Real.sqrt 3 := Real.sqrt_pos.2 (by norm_num)
  have h33 : Real.sqrt 3 * Real.sqrt 3 = 3 := Real.mul_self_sqrt (by norm_num)
  -- delays of 1/8: phases of π/4 at frequency 1 and 3π/4 at frequency 3
  have h1 := h 1 4 0 (1 / 8) [(1, 1), (3, Real.sqrt 3)] (by norm_num) (by simp) (by
    intro p hp
    simp only [List.mem_cons, List.not_mem_nil, or_false] at hp
    rcases hp with rfl | rfl
    · norm_num [abs_of_pos]
    · norm_num [abs_of_pos, h3])
  have a1 : (2 * Real.pi * 1 * (1 / 8) : ℝ) = Real.pi / 4 := by ring
  have a2 : (2 * Real.pi * 3 * (1 / 8) : ℝ) = 3 * Real.pi / 4 := by ring
  simp only [List.map_cons, List.map_nil, a1, a2] at h1
  set z : ℂ := Complex.exp ((Real.pi / 4 : ℝ) * Complex.I) with hz
  have hz2 : Complex.exp ((3 * Real.pi / 4 : ℝ) * Complex.I) = z * Complex.I := by
    rw [hz]
    have : ((3 * Real.pi / 4 : ℝ) : ℂ) * Complex.I = ((Real.pi / 4 : ℝ) : ℂ) * Complex.I + ((Real.pi : ℂ) / 2 * Complex.I) := by push_cast; ring
    rw [this, Complex.exp_add, Complex.exp_pi_div_two_mul_I]
  have hsum : ((1 : ℝ) : ℂ) * z + (Real.sqrt 3 : ℂ) * (z * Complex.I) = ((2 : ℝ) : ℂ) * Complex.exp ((7 * Real.pi / 12 : ℝ) * Complex.I) := by
    have : ((7 * Real.pi / 12 : ℝ) : ℂ) * Complex.I = ((Real.pi / 4 : ℝ) : ℂ) * Complex.I + ((Real.pi / 3 : ℝ) : ℂ) * Complex.I := by push_cast; ring
    rw [this, Complex.exp_add, ← hz, Complex.exp_mul_I ((Real.pi / 3 : ℝ) : ℂ), ← Complex.ofReal_cos, ← Complex.ofReal_sin, Real.cos_pi_div_three, Real.sin_pi_div_three]
    push_cast
    ring
  have harg : Complex.arg ((((1 : ℝ) : ℂ) * z + (Real.sqrt 3 : ℂ) * (z * Complex.I)) / 2) = 7 * Real.pi / 12 := by
    rw [hsum]
    have : ((2 : ℝ) : ℂ) * Complex.exp ((7 * Real.pi / 12 : ℝ) * Complex.I) / 2 = Complex.exp ((7 * Real.pi / 12 : ℝ) * Complex.I) := by push_cast; ring
    rw [this, Complex.arg_exp_mul_I, toIocMod_eq_self]
    constructor <;> linarith
  have n1 : ‖((1 : ℝ) : ℂ) * z‖ = 1 := by
    rw [norm_mul, hz, Complex.norm_exp_ofReal_mul_I, mul_one, Complex.norm_real, Real.norm_of_nonneg (by norm_num)]
  have n2 : ‖(Real.sqrt 3 : ℂ) * (z * Complex.I)‖ = Real.sqrt 3 := by
    rw [norm_mul, norm_mul, hz, Complex.norm_exp_ofReal_mul_I, Complex.norm_I, mul_one, mul_one, Complex.norm_real, Real.norm_of_nonneg h3.le]
  rw [hz2] at h1
  have hg : good 1 4 [(1, ((1 : ℝ) : ℂ) * z), (3, (Real.sqrt 3 : ℂ) * (z * Complex.I))] = [(1, ((1 : ℝ) : ℂ) * z), (3, (Real.sqrt 3 : ℂ) * (z * Complex.I))] := good_eq _ _ _ (by
    intro p hp
    simp only [List.mem_cons, List.not_mem_nil, or_false] at hp
    rcases hp with rfl | rfl <;> norm_num)
  have hw : (1 : ℝ) + Real.sqrt 3 ≠ 0 := by positivity
  have hmf : meanFrequency [(1, ((1 : ℝ) : ℂ) * z), (3, (Real.sqrt 3 : ℂ) * (z * Complex.I))] = some ((1 + 3 * Real.sqrt 3) / (1 + Real.sqrt 3)) := by
    simp only [meanFrequency, List.map_cons, List.map_nil, List.sum_cons, List.sum_nil, n1, n2, add_zero, hw, if_false, one_mul]
  have hmc : meanCross [(1, ((1 : ℝ) : ℂ) * z), (3, (Real.sqrt 3 : ℂ) * (z * Complex.I))] = some ((((1 : ℝ) : ℂ) * z + (Real.sqrt 3 : ℂ) * (z * Complex.I)) / 2) := by
    simp [meanCross]
  have hf : (1 + 3 * Real.sqrt 3) / (1 + Real.sqrt 3) ≠ 0 := by positivity
  simp only [lagOf, hg, hmf, hmc, hf, if_false, harg, Option.map_some, Option.some.injEq] at h1
  rw [div_eq_iff (by positivity)] at h1
  field_simp at h1
  nlinarith

/-- **C181 (negation).** For a band that overlaps the reference band, the noise the bands share (a real number `noise` added to the cross power) is not subtracted from the cross power, as it is for covariances: the lag is pulled towards zero. -/
theorem lag_common_noise : ¬ ∀ (f0 f1 e noise : ℝ) (spec : List (ℝ × ℂ)), 0 < f0 →
    (lagOf f0 f1 e (spec.map fun p => (p.1, p.2 + (noise : ℂ)))).map Prod.fst = (lagOf f0 f1 e spec).map Prod.fst := by
  intro h
  have hpi := Real.pi_pos
  have h1 := h 1 2 0 1 [(1, Complex.I)] (by norm_num)
  have e1 : lagOf 1 2 0 [(1, Complex.I)] = some (1 / 4, 0) := by
    have := lag_delay 1 2 0 1 1 (1 / 4) (by norm_num) (by norm_num) (by norm_num) (by norm_num [abs_of_pos])
    have hI : ((1 : ℝ) : ℂ) * Complex.exp ((2 * Real.pi * 1 * (1 / 4) : ℝ) * Complex.I) = Complex.I := by
      have : ((2 * Real.pi * 1 * (1 / 4) : ℝ) : ℂ) * Complex.I = (Real.pi : ℂ) / 2 * Complex.I := by push_cast; ring
      rw [this, Complex.exp_pi_div_two_mul_I]
      simp
    rw [hI] at this
    simpa using this
  have e2 : lagOf 1 2 0 [(1, Complex.I + ((1 : ℝ) : ℂ))] = some (1 / 8, 0) := by
    have := lag_delay 1 2 0 1 (Real.sqrt 2) (1 / 8) (by norm_num) (by norm_num) (Real.sqrt_pos.2 (by norm_num)) (by norm_num [abs_of_pos])
    have hI : (Real.sqrt 2 : ℂ) * Complex.exp ((2 * Real.pi * 1 * (1 / 8) : ℝ) * Complex.I) = Complex.I + ((1 : ℝ) : ℂ) := by
      have e : (2 * Real.pi * 1 * (1 / 8) : ℝ) = Real.pi / 4 := by ring
      rw [e, Complex.exp_mul_I, ← Complex.ofReal_cos, ← Complex.ofReal_sin, Real.cos_pi_div_four, Real.sin_pi_div_four]
      have h2 : ((Real.sqrt 2 : ℝ) : ℂ) * ((Real.sqrt 2 / 2 : ℝ) : ℂ) = 1 := by
        rw [← Complex.ofReal_mul]
        have : Real.sqrt 2 * (Real.sqrt 2 / 2) = 1 := by
          have := Real.mul_self_sqrt (show (0 : ℝ) ≤ 2 by norm_num)
          linarith
        rw [this]
        simp
      rw [mul_add, ← mul_assoc, h2]
      push_cast
      ring
    rw [hI] at this
    simpa using this
  simp only [List.map_cons, List.map_nil] at h1
  rw [e1, e2] at h1
  norm_num at h1

/-- **C181 (covariance).** With the noise of a band that overlaps the reference band subtracted from its mean cross power, `C`: there is a covariance exactly when there is a frequency in the interval, the reference power is above its noise and (for fractional covariances) the mean rate is not zero. Its squared modulus times the reference power above the noise is `|C|²` times the width of the interval, divided by the squared mean rate for
fractional covariances; the complex covariance has the phase of `C`, the other one is real and not negative. -/
theorem covariance_of_band (f0 f1 : ℝ) (common cx : Bool) (ns rp rn nu : ℝ) (hnu : 0 ≤ nu) (fr : Option ℝ) (spec : List (ℝ × ℂ)) :
    let g := spec.filter fun p => decide (f0 ≤ p.1) && decide (p.1 < f1)
    let c := (g.map Prod.snd).sum / (g.length : ℂ) - if common then (ns : ℂ) else 0
    let rate := fr.getD 1
    ((covarianceOf f0 f1 common cx ns rp rn nu fr spec).isSome ↔ g ≠ [] ∧ rn < rp ∧ rate ≠ 0) ∧
    ∀ v, covarianceOf f0 f1 common cx ns rp rn nu fr spec = some v →
      ‖v‖ ^ 2 * (rp - rn) * rate ^ 2 = ‖c‖ ^ 2 * (g.length * nu) ∧
      (cx = true → ∃ k : ℝ, v = (k : ℂ) * c ∧ (0 < rate → 0 ≤ k)) ∧ (cx = false → ∃ k : ℝ, v = (k : ℂ) ∧ (0 < rate → 0 ≤ k)) := by
  classical
  intro g c rate
  have hg : good f0 f1 spec = g := by
    rw [good]
  by_cases hne : g = []
  · have : covarianceOf f0 f1 common cx ns rp rn nu fr spec = none := by
      simp [covarianceOf, hg, hne, meanCross]
    rw [this]
    simp [hne]
  have hlen : g.length ≠ 0 := (List.length_pos_iff.2 hne).ne'
  have hmc : meanCross (good f0 f1 spec) = some ((g.map Prod.snd).sum / (g.length : ℂ)) := by
    rw [hg]
    simp only [meanCross, hlen, if_false]
  have hc : (if common = true then (g.map Prod.snd).sum / (g.length : ℂ) - (ns : ℂ) else (g.map Prod.snd).sum / (g.length : ℂ)) = c := by
    show _ = (g.map Prod.snd).sum / (g.length : ℂ) - if common = true then (ns : ℂ) else 0
    split_ifs <;> simp
  by_cases hr : rp - rn ≤ 0
  · have : covarianceOf f0 f1 common cx ns rp rn nu fr spec = none := by
      simp only [covarianceOf, hmc, hr, if_true]
    rw [this]
    have : ¬ rn < rp := by linarith
    simp [this]
  have hrp : 0 < rp - rn := not_le.1 hr
  set s := Real.sqrt ((g.length : ℝ) * nu / (rp - rn)) with hs
  have hs0 : 0 ≤ s := Real.sqrt_nonneg _
  have hss : s ^ 2 * (rp - rn) = g.length * nu := by
    rw [hs, Real.sq_sqrt (by positivity)]
    field_simp
  set w : ℂ := if cx = true then c else ((‖c‖ : ℝ) : ℂ) with hwdef
  have hnw : ‖w‖ = ‖c‖ := by
    rw [hwdef]
    split_ifs
    · rfl
    · rw [Complex.norm_real, Real.norm_of_nonneg (norm_nonneg _)]
  have hcov : covarianceOf f0 f1 common cx ns rp rn nu fr spec = if rate = 0 then none else some (w * (s : ℂ) / (rate : ℂ)) := by
    simp only [covarianceOf, hmc, hr, if_false, hc]
    rw [hg]
    cases hfr : fr with
    | none =>
      have h1 : rate = 1 := by show fr.getD 1 = 1; rw [hfr]; rfl
      rw [h1]
      simp [hs, hwdef]
    | some q =>
      have h1 : rate = q := by show fr.getD 1 = q; rw [hfr]; rfl
      rw [h1]
  rw [hcov]
  by_cases hrate : rate = 0
  · simp [hrate]
  · rw [if_neg hrate]
    have hlt : rn < rp := by linarith
    refine ⟨by simp [hne, hrate, hlt], ?_⟩
    intro v hv
    simp only [Option.some.injEq] at hv
    subst hv
    refine ⟨?_, ?_, ?_⟩
    · rw [norm_div, norm_mul, hnw, Complex.norm_real, Complex.norm_real, Real.norm_of_nonneg hs0, div_pow, mul_pow, Real.norm_eq_abs, sq_abs]
      field_simp
      rw [mul_assoc, hss]
      ring
    · intro h
      refine ⟨s / rate, ?_, fun hp => div_nonneg hs0 hp.le⟩
      rw [hwdef, if_pos h]
      push_cast
      ring
    · intro h
      refine ⟨‖c‖ * s / rate, ?_, fun hp => div_nonneg (mul_nonneg (norm_nonneg _) hs0) hp.le⟩
      rw [hwdef, if_neg (by simp [h])]
      push_cast
      ring

example : lagOf 1 3 (Real.pi) [(1 / 2, 5), (2, ((3 : ℝ) : ℂ) * Complex.exp ((2 * Real.pi * 2 * (-1 / 8) : ℝ) * Complex.I))] = some (-1 / 8, 1 / 4) := by
  have hb := (lag_band 1 3 Real.pi [] [(2, ((3 : ℝ) : ℂ) * Complex.exp ((2 * Real.pi * 2 * (-1 / 8) : ℝ) * Complex.I))] (1 / 2, 5) (by norm_num) false false 0 0 0 0 none).1
  simp only [List.nil_append] at hb
  rw [hb, lag_delay 1 3 Real.pi 2 3 (-1 / 8) (by norm_num) (by norm_num) (by norm_num) (by rw [abs_lt]; norm_num)]
  have := Real.pi_ne_zero
  congr 2
  field_simp
  norm_num

example : (covarianceOf 1 3 true false 1 5 1 (1 / 2) (some 4) [(1 / 2, 9), (1, 2), (2, Complex.I)]).isSome := by
  have hne : List.filter (fun p : ℝ × ℂ => decide ((1 : ℝ) ≤ p.1) && decide (p.1 < 3)) [(1 / 2, 9), (1, 2), (2, Complex.I)] ≠ [] :=
    List.ne_nil_of_mem (List.mem_filter.2 ⟨show ((1 : ℝ), (2 : ℂ)) ∈ _ by simp, by norm_num⟩)
  exact (covariance_of_band 1 3 true false 1 5 1 (1 / 2) (by norm_num) (some 4) [(1 / 2, 9), (1, 2), (2, Complex.I)]).1.2 ⟨hne, by norm_num, by norm_num⟩

end Stingray.EnergyLags
