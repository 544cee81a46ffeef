import Verif.Model.Pulsar
import Verif.Spec.Phase
import Verif.Spec.Runs
import Verif.Props.Regions
import Verif.Lemmas.GtiCross
import Mathlib.Data.Rat.Floor
import Mathlib.Algebra.Order.Ring.Rat
import Mathlib.Tactic.NormNum
import Mathlib.Tactic.FieldSimp
import Mathlib.Tactic.Ring
import Mathlib.Tactic.Linarith
import Mathlib.Data.List.Perm.Basic

/-!
Pulse phases (C51), ephemerides (C52), phases in (-0.5, 0.5] (C67).
-/

set_option linter.unusedSectionVars false

namespace Stingray.Pulsar

open Stingray.Spec

variable {K : Type} [Field K] [LinearOrder K] [IsStrictOrderedRing K] [FloorRing K]

theorem phaseLoop_eq (t : K) (fs : List K) : ∀ (i : Nat) (ph : K), phaseLoop t i ph fs =
    ph + ((List.range fs.length).map fun j => fs.getD j 0 * t ^ (i + j + 1) / ((i + j + 1).factorial : K)).sum := by
  induction fs with
  | nil => intro i ph; simp [phaseLoop]
  | cons f fs ih =>
    intro i ph
    rw [phaseLoop, ih, List.length_cons, List.range_succ_eq_map, List.map_cons, List.sum_cons, List.map_map]
    have e : (fun j => fs.getD j 0 * t ^ (i + 1 + j + 1) / ((i + 1 + j + 1).factorial : K)) =
        ((fun j => (f :: fs).getD j 0 * t ^ (i + j + 1) / ((i + j + 1).factorial : K)) ∘ Nat.succ) := by
      funext j
      simp only [Function.comp, Nat.succ_eq_add_one, List.getD_cons_succ]
      rw [show i + 1 + j + 1 = i + (j + 1) + 1 by omega]
    rw [e]
    simp only [List.getD_cons_zero, Nat.add_zero]
    have : 1 / ((i + 1).factorial : K) * t ^ (i + 1) * f = f * t ^ (i + 1) / ((i + 1).factorial : K) := by ring
    rw [this]
    ring

theorem pulsePhase_false (t : K) (fs : List K) (ph0 : K) : pulsePhase t fs ph0 false = phasePoly t fs ph0 := by
  unfold pulsePhase phasePoly
  simp only [Bool.false_eq_true, if_false, phaseLoop_eq]
  simp

theorem pulsePhase_true (t : K) (fs : List K) (ph0 : K) : pulsePhase t fs ph0 true = Int.fract (phasePoly t fs ph0) := by
  have := pulsePhase_false t fs ph0
  unfold pulsePhase at this ⊢
  simp only [Bool.false_eq_true, if_false] at this
  simp only [if_true, this]
  rfl

/-- **C51.** For every time, ephemeris and reference phase, the pulse phase is in `[0, 1)` and differs from the phase polynomial `ph0 + f t + fdot t²/2 + …` by an integer; without `to_1` it is the polynomial. -/
theorem pulse_phase_fract (t : K) (fs : List K) (ph0 : K) :
    0 ≤ pulsePhase t fs ph0 true ∧ pulsePhase t fs ph0 true < 1 ∧
    (∃ k : ℤ, pulsePhase t fs ph0 true = phasePoly t fs ph0 - k) ∧
    pulsePhase t fs ph0 false = phasePoly t fs ph0 := by
  rw [pulsePhase_true]
  refine ⟨Int.fract_nonneg _, Int.fract_lt_one _, ⟨⌊phasePoly t fs ph0⌋, rfl⟩, pulsePhase_false t fs ph0⟩

/-- **C51 (periodicity).** For a constant frequency, adding any number of periods to the time leaves the phase unchanged. -/
theorem pulse_phase_periodic (t f ph0 : K) (hf : f ≠ 0) (k : ℤ) :
    pulsePhase (t + k / f) [f] ph0 true = pulsePhase t [f] ph0 true := by
  rw [pulsePhase_true, pulsePhase_true]
  have e : phasePoly (t + k / f) [f] ph0 = phasePoly t [f] ph0 + (k : K) := by
    simp only [phasePoly, List.length_singleton, List.range_one, List.map_cons, List.map_nil, List.sum_cons,
      List.sum_nil, List.getD_cons_zero, Nat.factorial, zero_add, pow_one, Nat.cast_one, mul_one, div_one, add_zero,
      mul_add, mul_div_cancel₀ _ hf]
    rw [add_assoc]
  rw [e, Int.fract_add_intCast]

example : pulsePhase (7 / 4 : ℚ) [3, 1] (1 / 8) true = 29 / 32 := by
  simp [pulsePhase, phaseLoop, Nat.factorial]
  norm_num

/-! ### Periods and frequencies (C52) -/

/-- **C52 (partial).** For up to four floating-point derivatives with a non-zero period, converting twice gives back the input.
Missing: integers and more than four derivatives, where it is false (below). -/
theorem p_to_f_involution_partial (d : List K) (hlen : d.length ≤ 4) (hp : ∀ p, d.head? = some p → p ≠ 0) :
    pToF false (pToF false d) = d := by
  match d, hlen, hp with
  | [], _, _ => rfl
  | [p], _, hp =>
    have hp := hp p rfl
    simp [pToF]
  | [p, pd], _, hp =>
    have hp := hp p rfl
    simp only [pToF, Bool.false_eq_true, if_false, id_eq, List.cons.injEq, and_true]
    exact ⟨by field_simp, by field_simp⟩
  | [p, pd, pdd], _, hp =>
    have hp := hp p rfl
    simp only [pToF, Bool.false_eq_true, if_false, id_eq, List.cons.injEq, and_true]
    refine ⟨by field_simp, by field_simp, ?_⟩
    field_simp
    ring
  | [p, pd, pdd, pddd], _, hp =>
    have hp := hp p rfl
    simp only [pToF, Bool.false_eq_true, if_false, id_eq, List.map_nil, List.append_nil, List.cons.injEq, and_true]
    refine ⟨by field_simp, by field_simp, ?_, ?_⟩
    · field_simp
      ring
    · field_simp
      ring
  | _ :: _ :: _ :: _ :: _ :: _, hlen, _ => simp at hlen

example : pToF false [2, 1 / 3, 1, -1] = [(1 : ℚ) / 2, -1 / 12, -2 / 9, 1 / 2 - 1 / 72] := by decide +kernel

/-- **C52 (negation, integers).** With integer arguments the frequencies are truncated: a period of 2 s is converted into a frequency of 0 Hz. -/
theorem p_to_f_integers : pToF true [(2 : ℚ)] = [0] ∧ pToF true [(3 : ℚ), 1] = [0, 0] := by decide +kernel

/-- **C52 (negation, higher derivatives).** From the fifth on the derivatives are lost: the conversion of `p, pd, pdd, pddd, x` does not depend on `x` and has 0 in its place. -/
theorem p_to_f_fifth (ints : Bool) (p pd pdd pddd x : K) :
    (pToF ints [p, pd, pdd, pddd, x]).getLast? = some 0 ∧
    pToF ints [p, pd, pdd, pddd, x] = pToF ints [p, pd, pdd, pddd, 0] := by
  simp [pToF]

/-- **C52 (period times frequency).** For up to four derivatives the converted ones are those of the reciprocal: in the product of the series `f0 + f1 t + f2 t²/2 + f3 t³/6` and `p0 + p1 t + p2 t²/2 + p3 t³/6` the constant term is 1 and
the coefficients of `t`, `t²` and `t³` vanish. -/
theorem p_to_f_reciprocal (p pd pdd pddd : K) (hp : p ≠ 0) :
    ∃ f fd fdd fddd, pToF false [p, pd, pdd, pddd] = [f, fd, fdd, fddd] ∧ pToF false [p, pd, pdd] = [f, fd, fdd] ∧
      pToF false [p, pd] = [f, fd] ∧ pToF false [p] = [f] ∧
      f * p = 1 ∧ f * pd + fd * p = 0 ∧ f * pdd / 2 + fd * pd + fdd * p / 2 = 0 ∧
      f * pddd / 6 + fd * pdd / 2 + fdd * pd / 2 + fddd * p / 6 = 0 := by
  refine ⟨1 / p, -1 / p ^ 2 * pd, 2 / p ^ 3 * pd ^ 2 - 1 / p ^ 2 * pdd,
    -6 / p ^ 4 * pd ^ 3 + 6 / p ^ 3 * pd * pdd - 1 / p ^ 2 * pddd, by simp [pToF], by simp [pToF], by simp [pToF], by simp [pToF], ?_, ?_, ?_, ?_⟩
  · field_simp
  · field_simp; ring
  · field_simp; ring
  · field_simp; ring

/-- **C52 (frequency is the derivative of the phase).** To second order the converted frequency and derivative describe the same pulses: the phase `f t + fdot t²/2` of a pulsar whose period is `p + pd t` advances at the rate `1/(p + pd t)` up to
terms of second order in `t`: `(f + fdot t)(p + pd t) = 1 - (pd t / p)²`. -/
theorem p_to_f_rate (p pd t : K) (hp : p ≠ 0) :
    ∃ f fd, pToF false [p, pd] = [f, fd] ∧ (f + fd * t) * (p + pd * t) = 1 - (pd * t / p) ^ 2 := by
  refine ⟨1 / p, -1 / p ^ 2 * pd, by simp [pToF], ?_⟩
  field_simp
  ring

/-! ### Phases in (-0.5, 0.5] (C67) -/

theorem phaseDown_spec (n : Nat) (p : K) (h : p ≤ n + 1 / 2) :
    phaseDown n p ≤ 1 / 2 ∧ (∃ k : ℤ, phaseDown n p = p - k) ∧ (p ≤ 1 / 2 → phaseDown n p = p) ∧
    (1 / 2 < p → -(1 / 2) < phaseDown n p) := by
  induction n generalizing p with
  | zero =>
    simp only [phaseDown]
    push_cast at h
    exact ⟨by linarith, ⟨0, by simp⟩, by simp, fun h1 => by linarith⟩
  | succ n ih =>
    simp only [phaseDown]
    split_ifs with hc
    · have hp : p - 1 ≤ n + 1 / 2 := by push_cast at h; linarith
      obtain ⟨h1, ⟨k, hk⟩, h3, h4⟩ := ih (p - 1) hp
      refine ⟨h1, ⟨k + 1, by rw [hk]; push_cast; ring⟩, fun hle => absurd hc (not_lt.2 hle), fun _ => ?_⟩
      rcases le_or_gt (p - 1) (1 / 2) with hle | hgt
      · rw [h3 hle]; linarith
      · exact h4 hgt
    · exact ⟨by linarith, ⟨0, by simp⟩, fun _ => rfl, fun hgt => absurd hgt hc⟩

theorem phaseUp_spec (n : Nat) (p : K) (h : -(n : K) - 1 / 2 < p) (hle : p ≤ 1 / 2) :
    -(1 / 2) < phaseUp n p ∧ phaseUp n p ≤ 1 / 2 ∧ ∃ k : ℤ, phaseUp n p = p + k := by
  induction n generalizing p with
  | zero =>
    simp only [phaseUp]
    push_cast at h
    exact ⟨by linarith, hle, 0, by simp⟩
  | succ n ih =>
    simp only [phaseUp]
    split_ifs with hc
    · obtain ⟨h1, h2, k, hk⟩ := ih (p + 1) (by push_cast at h; linarith) (by linarith)
      exact ⟨h1, h2, k + 1, by rw [hk]; push_cast; ring⟩
    · exact ⟨by linarith, hle, 0, by simp⟩

/-- **C67.** For every phase the loops end, after at most `n` rounds when `|p| <= n`, and the result is in `(-0.5, 0.5]` and differs from the phase by an integer: it is the only such number. -/
theorem normalize_phase_spec (p : K) (n : Nat) (hn : |p| ≤ n) :
    -(1 / 2) < normalizePhase n p ∧ normalizePhase n p ≤ 1 / 2 ∧ ∃ k : ℤ, normalizePhase n p = p + k := by
  obtain ⟨hl, hu⟩ := abs_le.1 hn
  obtain ⟨h1, ⟨k, hk⟩, h3, h4⟩ := phaseDown_spec n p (by linarith)
  have hlow : -(n : K) - 1 / 2 < phaseDown n p := by
    rcases le_or_gt p (1 / 2) with hle | hgt
    · rw [h3 hle]; linarith
    · have := h4 hgt
      have hn0 : (0 : K) ≤ n := Nat.cast_nonneg n
      linarith
  obtain ⟨a, b, j, hj⟩ := phaseUp_spec n (phaseDown n p) hlow h1
  refine ⟨a, b, j - k, ?_⟩
  rw [normalizePhase, hj, hk]
  push_cast
  ring

/-- **C67 (the loops end).** More rounds do not change the result: the bound on the rounds is not what stops the loops. -/
theorem normalize_phase_fuel (p : K) (n m : Nat) (hn : |p| ≤ n) (hm : |p| ≤ m) :
    normalizePhase n p = normalizePhase m p := by
  obtain ⟨a, b, j, hj⟩ := normalize_phase_spec p n hn
  obtain ⟨a', b', j', hj'⟩ := normalize_phase_spec p m hm
  have : (j : K) = j' := by
    have h1 : (j : K) - j' < 1 := by rw [hj] at b; rw [hj'] at a'; linarith
    have h2 : -1 < (j : K) - j' := by rw [hj] at a; rw [hj'] at b'; linarith
    have h3 : (j - j' : ℤ) < 1 := by exact_mod_cast h1
    have h4 : (-1 : ℤ) < j - j' := by exact_mod_cast h2
    have : j = j' := by omega
    rw [this]
  rw [hj, hj', this]

example : normalizePhase 5 (-(9 / 2) : ℚ) = 1 / 2 ∧ normalizePhase 5 (17 / 4 : ℚ) = 1 / 4 := by decide +kernel

end Stingray.Pulsar
