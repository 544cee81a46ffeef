import Verif.Model.DeadTime
import Mathlib.Algebra.Order.Ring.Rat
import Mathlib.Tactic.NormNum
import Mathlib.Tactic.Linarith
import Mathlib.Tactic.FieldSimp
import Mathlib.Tactic.Ring
import Mathlib.Tactic.Positivity

/-!
Incident and detected count rates (C58).
-/

set_option linter.unusedSectionVars false

namespace Stingray.DeadTime

variable {K : Type} [Field K] [LinearOrder K] [IsStrictOrderedRing K]

theorem rDet_eq (td r : K) (htd : 0 ≤ td) (hr : 0 < r) : rDet td r = .ok (r / (1 + r * td)) := by
  have h1 : (1 : K) / r + td ≠ 0 := by positivity
  have h2 : (1 : K) + r * td ≠ 0 := by positivity
  unfold rDet pyDiv
  rw [if_neg hr.ne']
  simp only [bind, Except.bind]
  rw [if_neg h1]
  congr 1
  field_simp

/-- **C58.** For a positive incident rate `r` and any dead time `td >= 0`, `r_det(td, r) = r / (1 + r td)`: it is positive, at most `r`, below `1 / td` (the detector is never dead all the time), and `r_in` recovers `r` from it. -/
theorem r_in_r_det (td r : K) (htd : 0 ≤ td) (hr : 0 < r) :
    ∃ d, rDet td r = .ok d ∧ 0 < d ∧ d ≤ r ∧ d * td < 1 ∧ d * (1 + r * td) = r ∧ rIn td d = .ok r := by
  have h2 : (0 : K) < 1 + r * td := by positivity
  refine ⟨_, rDet_eq td r htd hr, by positivity, ?_, ?_, ?_, ?_⟩
  · rw [div_le_iff₀ h2]
    nlinarith [mul_nonneg (mul_nonneg hr.le hr.le) htd]
  · rw [div_mul_eq_mul_div, div_lt_one h2]
    linarith
  · field_simp
  · have h3 : r / (1 + r * td) ≠ 0 := by positivity
    unfold rIn pyDiv
    rw [if_neg h3]
    simp only [bind, Except.bind]
    have h4 : 1 / (r / (1 + r * td)) - td = 1 / r := by
      field_simp
      ring
    rw [h4, if_neg (by positivity), one_div_one_div]

/-- **C58 (the other way).** Any detected rate between 0 and `1 / td` is the one detected from the incident rate `r_in`. -/
theorem r_det_r_in (td d : K) (htd : 0 ≤ td) (hd : 0 < d) (hlim : d * td < 1) :
    ∃ r, rIn td d = .ok r ∧ 0 < r ∧ d ≤ r ∧ rDet td r = .ok d := by
  have h2 : (0 : K) < 1 - d * td := by linarith
  have hval : rIn td d = .ok (d / (1 - d * td)) := by
    unfold rIn pyDiv
    rw [if_neg hd.ne']
    simp only [bind, Except.bind]
    have h4 : 1 / d - td = (1 - d * td) / d := by field_simp
    rw [h4, if_neg (by positivity), one_div_div]
  refine ⟨_, hval, by positivity, ?_, ?_⟩
  · rw [le_div_iff₀ h2]
    nlinarith [mul_nonneg (mul_nonneg hd.le hd.le) htd]
  · rw [rDet_eq _ _ htd (by positivity)]
    congr 1
    have : 1 + d / (1 - d * td) * td = 1 / (1 - d * td) := by
      field_simp
      ring
    rw [this]
    field_simp

/-- **C58 (monotone).** A source with a larger incident rate has a larger detected rate. -/
theorem r_det_strict_mono (td r r' : K) (htd : 0 ≤ td) (hr : 0 < r) (hrr : r < r') :
    ∃ d d', rDet td r = .ok d ∧ rDet td r' = .ok d' ∧ d < d' := by
  refine ⟨_, _, rDet_eq td r htd hr, rDet_eq td r' htd (hr.trans hrr), ?_⟩
  have h1 : (0 : K) < 1 + r * td := by positivity
  have h2 : (0 : K) < 1 + r' * td := by have := hr.trans hrr; positivity
  rw [div_lt_div_iff₀ h1 h2]
  nlinarith

/-- **C58 (edges).** A zero rate raises in both directions, a detected rate of exactly `1 / td` raises, and one above it gives a negative "incident rate" without any error. -/
theorem rate_edges (td : K) (htd : 0 < td) :
    rDet td 0 = .error .zeroDivisionError ∧ rIn td 0 = .error .zeroDivisionError ∧
    rIn td (1 / td) = .error .zeroDivisionError ∧
    ∀ d, 1 < d * td → ∃ r, rIn td d = .ok r ∧ r < 0 := by
  refine ⟨by simp [rDet, pyDiv, bind, Except.bind], by simp [rIn, pyDiv, bind, Except.bind], ?_, ?_⟩
  · have : (1 : K) / td ≠ 0 := by positivity
    simp [rIn, pyDiv, bind, Except.bind, htd.ne']
  · intro d hd
    have hd0 : 0 < d := by
      by_contra hc
      nlinarith [mul_nonneg (neg_nonneg.2 (not_lt.1 hc)) htd.le]
    have h2 : 1 / d - td < 0 := by
      rw [sub_neg, div_lt_iff₀ hd0]
      linarith
    refine ⟨1 / (1 / d - td), ?_, ?_⟩
    · unfold rIn pyDiv
      rw [if_neg hd0.ne']
      simp only [bind, Except.bind]
      rw [if_neg h2.ne]
    · exact one_div_neg.2 h2

example : rDet (1/400 : ℚ) 400 = .ok 200 ∧ rIn (1/400 : ℚ) 200 = .ok 400 ∧ rIn (1/400 : ℚ) 500 = .ok (-2000) := by decide +kernel

end Stingray.DeadTime
