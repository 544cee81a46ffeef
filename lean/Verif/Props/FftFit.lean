import Verif.Model.FftFit
import Verif.Props.Pulsar
import Mathlib.Analysis.SpecialFunctions.Trigonometric.Deriv
import Mathlib.Analysis.Calculus.Deriv.Add
import Mathlib.Analysis.Calculus.Deriv.Mul
import Mathlib.Analysis.SpecialFunctions.Complex.Log
import Verif.Lemmas.Parseval

/-!
C182: template fits of pulse profiles.
-/

set_option linter.unusedSectionVars false

namespace Stingray.FftFit

open Stingray ComplexConjugate

/-- Specification: the correlation of the profile with the template delayed by `tau`, in the harmonics `ks`. -/
noncomputable def correlation (ks : List Nat) (prof template : List ℝ) (tau : ℝ) : ℝ :=
  (ks.map fun (k : Nat) => (conj (ft (centre prof) k) * ft (centre template) k * Complex.exp (-(2 * Real.pi * k * tau : ℝ) * Complex.I)).re).sum

theorem polar (prof template : List ℝ) (k : Nat) (x : ℝ) :
    conj (ft (centre prof) k) * ft (centre template) k * Complex.exp (-(x : ℝ) * Complex.I) = (amp prof template k : ℂ) * Complex.exp ((-pha prof template k - x : ℝ) * Complex.I) := by
  set P := ft (centre prof) k with hP
  set T := ft (centre template) k with hT
  have h1 : conj P = (‖P‖ : ℂ) * Complex.exp (-(Complex.arg P : ℂ) * Complex.I) := by
    conv_lhs => rw [← Complex.norm_mul_exp_arg_mul_I P]
    rw [map_mul, Complex.conj_ofReal, ← Complex.exp_conj, map_mul, Complex.conj_ofReal, Complex.conj_I]
    congr 2
    ring
  have h2 : T = (‖T‖ : ℂ) * Complex.exp ((Complex.arg T : ℂ) * Complex.I) := (Complex.norm_mul_exp_arg_mul_I T).symm
  have h3 : ((-pha prof template k - x : ℝ) : ℂ) * Complex.I = -(Complex.arg P : ℂ) * Complex.I + (Complex.arg T : ℂ) * Complex.I + -(x : ℂ) * Complex.I := by
    simp only [pha, ← hP, ← hT]
    push_cast
    ring
  rw [h3, Complex.exp_add, Complex.exp_add, h1]
  conv_lhs => rw [h2]
  simp only [amp, ← hP, ← hT]
  push_cast
  ring

theorem polar_re (prof template : List ℝ) (k : Nat) (x : ℝ) :
    (conj (ft (centre prof) k) * ft (centre template) k * Complex.exp (-(x : ℝ) * Complex.I)).re = amp prof template k * Real.cos (-pha prof template k - x) := by
  rw [polar, Complex.re_ofReal_mul, Complex.exp_ofReal_mul_I_re]

theorem correlation_eq (ks : List Nat) (prof template : List ℝ) (tau : ℝ) :
    correlation ks prof template tau = (ks.map fun (k : Nat) => amp prof template k * Real.cos (-pha prof template k - 2 * Real.pi * k * tau)).sum := by
  simp only [correlation, polar_re]

/-- The harmonics 1 to `m`. -/
def harmonics (m : Nat) : List Nat := (List.range m).map (· + 1)

theorem deriv_correlation (prof template : List ℝ) (m : Nat) (tau : ℝ) :
    HasDerivAt (correlation (harmonics m) prof template) (2 * Real.pi * toMinimize (amp prof template) (pha prof template) m tau) tau := by
  have hfun : correlation (harmonics m) prof template = fun tau => ((List.range m).map fun (i : Nat) => amp prof template (i + 1) * Real.cos (-pha prof template (i + 1) - 2 * Real.pi * (i + 1 : Nat) * tau)).sum := by
    funext t
    rw [correlation_eq, harmonics, List.map_map]
    rfl
  rw [hfun]
  unfold toMinimize bestPhase
  induction m with
  | zero => simpa using hasDerivAt_const tau (0 : ℝ)
  | succ m ih =>
    simp only [List.range_succ, List.map_append, List.map_cons, List.map_nil, List.sum_append, List.sum_cons, List.sum_nil, add_zero]
    have hlin : HasDerivAt (fun t : ℝ => -pha prof template (m + 1) - 2 * Real.pi * ((m + 1 : Nat) : ℝ) * t) (-(2 * Real.pi * ((m + 1 : Nat) : ℝ))) tau := by
      have := ((hasDerivAt_id tau).const_mul (2 * Real.pi * ((m + 1 : Nat) : ℝ))).const_sub (-pha prof template (m + 1))
      simpa using this
    have h := ih (by
      funext t
      rw [correlation_eq, harmonics, List.map_map]
      rfl)
    have hcos := (hlin.cos).const_mul (amp prof template (m + 1))
    refine (h.add hcos).congr_deriv ?_
    rw [mul_add]
    congr 1
    have : -pha prof template (m + 1) + 2 * Real.pi * ((m + 1 : Nat) : ℝ) * -tau = -pha prof template (m + 1) - 2 * Real.pi * ((m + 1 : Nat) : ℝ) * tau := by ring
    rw [this]
    ring

theorem toMinimize_int (a p : Nat → ℝ) (m : Nat) (s : ℝ) (z : ℤ) : toMinimize a p m (s + z) = toMinimize a p m s := by
  unfold toMinimize bestPhase
  congr 1
  apply List.map_congr_left
  intro i _
  have : -p (i + 1) + 2 * Real.pi * ((i + 1 : Nat) : ℝ) * -(s + z) = (-p (i + 1) + 2 * Real.pi * ((i + 1 : Nat) : ℝ) * -s) - ((((i + 1 : Nat) : ℤ) * z : ℤ) : ℝ) * (2 * Real.pi) := by
    push_cast
    ring
  rw [this, Real.sin_sub_int_mul_two_pi]

theorem solve_ok (brentq : (ℝ → ℝ) → ℝ → ℝ → Except PyErr ℝ) (fuel n : Nat) (a p S : Nat → ℝ) (ng : Nat) (b : Option ℝ) (shift : ℝ)
    (h : solve brentq fuel n a p S ng = .ok (some (b, shift))) :
    ∃ x y s, brentq (toMinimize a p (terms n ng)) x y = .ok s ∧ shift = Pulsar.normalizePhase ⌈|s|⌉₊ s ∧ b = amplitude a p S ng shift := by
  unfold solve at h
  simp only at h
  rcases hb : bracket (toMinimize a p (terms n ng)) n (findDelay a p) fuel 0 with _ | best
  · rw [hb] at h; simp at h
  rw [hb] at h
  simp only at h
  rcases hq : brentq (toMinimize a p (terms n ng)) (best - 2 / n) (best + 2 / n) with e | s
  · rw [hq] at h; simp at h
  rw [hq] at h
  simp only [Except.ok.injEq, Option.some.injEq, Prod.mk.injEq] at h
  exact ⟨_, _, s, hq, h.2.symm, by rw [← h.2]; exact h.1.symm⟩

theorem fftfit_ok (brentq : (ℝ → ℝ) → ℝ → ℝ → Except PyErr ℝ) (fuel : Nat) (prof template : List ℝ) (r : Option (Option ℝ × ℝ)) (h : fftfit brentq fuel prof template = .ok r) :
    solve brentq fuel prof.length (amp prof template) (pha prof template) (fun k => ‖ft (centre template) k‖) (ngood prof.length (amp prof template)) = .ok r ∧ template.length = prof.length ∧ prof ≠ [] := by
  unfold fftfit at h
  simp only at h
  split_ifs at h with h1 h2 h3 h4
  exact ⟨h, not_not.1 h2, fun hc => h1 (Or.inr hc)⟩

/-- **C182.** With a root finder that returns roots, the shift is in `(-0.5, 0.5]`, and there the derivative of the correlation of the profile with the shifted template, in the first harmonics, vanishes. The number of harmonics is that of the elements of the transforms for which the product of the moduli is at least the mean one. -/
theorem fftfit_stationary (brentq : (ℝ → ℝ) → ℝ → ℝ → Except PyErr ℝ) (hroot : ∀ f a b s, brentq f a b = .ok s → f s = 0) (fuel : Nat) (prof template : List ℝ) (b : Option ℝ) (shift : ℝ)
    (h : fftfit brentq fuel prof template = .ok (some (b, shift))) :
    -(1 / 2) < shift ∧ shift ≤ 1 / 2 ∧ (1 < prof.length →
      HasDerivAt (correlation (harmonics (Finset.card {k ∈ Finset.range prof.length |
        (∑ j ∈ Finset.range prof.length, ‖ft (centre prof) j‖ * ‖ft (centre template) j‖) / prof.length ≤ ‖ft (centre prof) k‖ * ‖ft (centre template) k‖})) prof template) 0 shift) := by
  classical
  obtain ⟨x, y, s, hq, hsh, _⟩ := solve_ok _ _ _ _ _ _ _ _ _ (fftfit_ok _ _ _ _ _ h).1
  obtain ⟨n1, n2, z, hz⟩ := Pulsar.normalize_phase_spec s ⌈|s|⌉₊ (Nat.le_ceil _)
  rw [← hsh] at n1 n2 hz
  refine ⟨n1, n2, ?_⟩
  intro hlen
  have hs := hroot _ _ _ _ hq
  rw [terms, if_neg (by omega)] at hs
  have hcard : Finset.card {k ∈ Finset.range prof.length |
        (∑ j ∈ Finset.range prof.length, ‖ft (centre prof) j‖ * ‖ft (centre template) j‖) / prof.length ≤ ‖ft (centre prof) k‖ * ‖ft (centre template) k‖} = ngood prof.length (amp prof template) := by
    have hsum : ((List.range prof.length).map (amp prof template)).sum = ∑ j ∈ Finset.range prof.length, ‖ft (centre prof) j‖ * ‖ft (centre template) j‖ := by
      rw [Fourier.list_sum_range]
      rfl
    rw [ngood, hsum, List.countP_eq_length_filter]
    rfl
  rw [hcard]
  have hd := deriv_correlation prof template (ngood prof.length (amp prof template)) shift
  rw [hz, toMinimize_int, hs, mul_zero] at hd
  rw [hz]
  exact hd

theorem ft_cons_append (v : ℝ) (l : List ℝ) (k : Nat) :
    ft (l ++ [v]) k = Complex.exp ((2 * Real.pi * k / (l.length + 1 : Nat) : ℝ) * Complex.I) * ft (v :: l) k := by
  have hn : ((l.length + 1 : Nat) : ℝ) ≠ 0 := by positivity
  unfold ft
  rw [List.length_append, List.length_cons, List.length_cons, List.length_nil, Nat.zero_add, Finset.sum_range_succ, Finset.sum_range_succ', mul_add, Finset.mul_sum]
  congr 1
  · apply Finset.sum_congr rfl
    intro j hj
    have hj := Finset.mem_range.1 hj
    have e1 : (l ++ [v]).getD j 0 = l.getD j 0 := by simp [List.getD_eq_getElem?_getD, List.getElem?_append_left hj]
    have e2 : (v :: l).getD (j + 1) 0 = l.getD j 0 := by simp [List.getD_eq_getElem?_getD]
    rw [e1, e2, mul_left_comm, ← Complex.exp_add]
    congr 2
    push_cast
    field_simp
    ring
  · have e1 : (l ++ [v]).getD l.length 0 = v := by simp [List.getD_eq_getElem?_getD]
    have e2 : (v :: l).getD 0 0 = v := by simp
    rw [e1, e2, mul_left_comm, ← Complex.exp_add]
    congr 1
    rw [Complex.exp_eq_exp_iff_exists_int]
    refine ⟨-(k : ℤ), ?_⟩
    push_cast
    have : ((l.length : ℂ) + 1) ≠ 0 := by exact_mod_cast hn
    field_simp
    ring

theorem ft_rotate (x : List ℝ) (t k : Nat) : ft (x.rotate t) k = Complex.exp ((2 * Real.pi * (t * k : Nat) / x.length : ℝ) * Complex.I) * ft x k := by
  induction t generalizing x with
  | zero => simp
  | succ t ih =>
    cases x with
    | nil => simp [ft]
    | cons v l =>
      rw [List.rotate_cons_succ, ih, ft_cons_append, ← mul_assoc, ← Complex.exp_add]
      congr 2
      have : ((l.length + 1 : Nat) : ℝ) ≠ 0 := by positivity
      rw [List.length_append, List.length_cons, List.length_cons, List.length_nil, Nat.zero_add]
      push_cast
      ring

theorem ft_mul (a : ℝ) (x : List ℝ) (k : Nat) : ft (x.map fun v => a * v) k = (a : ℂ) * ft x k := by
  unfold ft
  rw [List.length_map, Finset.mul_sum]
  apply Finset.sum_congr rfl
  intro j hj
  have e : (x.map fun v => a * v).getD j 0 = a * x.getD j 0 := by
    simp only [List.getD_eq_getElem?_getD, List.getElem?_map]
    cases x[j]? <;> simp
  rw [e]
  push_cast
  ring

theorem centre_rotated (x : List ℝ) (t : Nat) (a c : ℝ) : centre ((x.rotate t).map fun v => a * v + c) = ((centre x).rotate t).map fun v => a * v := by
  by_cases hx : x = []
  · simp [hx, centre]
  have hn : (x.length : ℝ) ≠ 0 := by
    have := List.length_pos_iff.2 hx
    positivity
  have hsum : ∀ l : List ℝ, (l.map fun v => a * v + c).sum = a * l.sum + l.length * c := by
    intro l
    induction l with
    | nil => simp
    | cons v l ih => simp only [List.map_cons, List.sum_cons, List.length_cons, ih]; push_cast; ring
  have hrot : (x.rotate t).sum = x.sum := (List.rotate_perm x t).sum_eq
  unfold centre
  rw [← List.map_rotate, List.map_map, List.map_map, List.length_map, List.length_rotate, hsum, List.length_rotate, hrot]
  apply List.map_congr_left
  intro v _
  simp only [Function.comp]
  field_simp
  ring

theorem ft_rotated (x : List ℝ) (t k : Nat) (a c : ℝ) :
    ft (centre ((x.rotate t).map fun v => a * v + c)) k = (a : ℂ) * (Complex.exp ((2 * Real.pi * (t * k : Nat) / x.length : ℝ) * Complex.I) * ft (centre x) k) := by
  rw [centre_rotated, ft_mul, ft_rotate]
  simp [centre]

theorem correlation_rotated (x : List ℝ) (t k : Nat) (a c τ : ℝ) :
    (conj (ft (centre ((x.rotate t).map fun v => a * v + c)) k) * ft (centre x) k * Complex.exp (-(2 * Real.pi * k * τ : ℝ) * Complex.I)).re =
      a * ‖ft (centre x) k‖ ^ 2 * Real.cos (2 * Real.pi * k * (t / x.length + τ)) := by
  rw [ft_rotated, map_mul, map_mul, Complex.conj_ofReal, ← Complex.exp_conj, map_mul, Complex.conj_ofReal, Complex.conj_I]
  set T := ft (centre x) k
  have h : (a : ℂ) * (Complex.exp (((2 * Real.pi * (t * k : Nat) / x.length : ℝ) : ℂ) * -Complex.I) * conj T) * T * Complex.exp (-(2 * Real.pi * k * τ : ℝ) * Complex.I) =
      ((a * ‖T‖ ^ 2 : ℝ) : ℂ) * Complex.exp ((-(2 * Real.pi * k * (t / x.length + τ)) : ℝ) * Complex.I) := by
    have hT : conj T * T = ((‖T‖ ^ 2 : ℝ) : ℂ) := by
      rw [mul_comm, Complex.mul_conj, Complex.normSq_eq_norm_sq]
    have hexp : ((-(2 * Real.pi * k * (t / x.length + τ)) : ℝ) : ℂ) * Complex.I = ((2 * Real.pi * (t * k : Nat) / x.length : ℝ) : ℂ) * -Complex.I + -(2 * Real.pi * k * τ : ℝ) * Complex.I := by
      push_cast
      ring
    rw [hexp, Complex.exp_add]
    push_cast at hT ⊢
    linear_combination (a : ℂ) * Complex.exp (2 * (Real.pi : ℂ) * ((t : ℂ) * (k : ℂ)) / (x.length : ℂ) * -Complex.I) * Complex.exp (-(2 * (Real.pi : ℂ) * (k : ℂ) * (τ : ℂ)) * Complex.I) * hT
  rw [h, Complex.re_ofReal_mul, Complex.exp_ofReal_mul_I_re, Real.cos_neg]

/-- **C182 (known shift).** For a profile that is the template rotated by `t` bins, multiplied with `a ≥ 0` and with a background `c`, the correlation is largest at the shift `-t / n`, whatever the harmonics; when the fit finds that shift, up to whole periods, the amplitude, if there is one, is `a`. -/
theorem fftfit_rotated (brentq : (ℝ → ℝ) → ℝ → ℝ → Except PyErr ℝ) (fuel : Nat) (template : List ℝ) (t : Nat) (a c : ℝ) (ha : 0 ≤ a) :
    (∀ ks τ, correlation ks ((template.rotate t).map fun v => a * v + c) template τ ≤ correlation ks ((template.rotate t).map fun v => a * v + c) template (-(t / template.length))) ∧
    ∀ b shift, fftfit brentq fuel ((template.rotate t).map fun v => a * v + c) template = .ok (some (some b, shift)) →
      (∃ z : ℤ, shift = -(t / template.length) + z) → b = a := by
  set prof := (template.rotate t).map fun v => a * v + c with hprof
  constructor
  · intro ks τ
    unfold correlation
    apply List.sum_le_sum
    intro k _
    rw [hprof, correlation_rotated, correlation_rotated]
    have h0 : 0 ≤ a * ‖ft (centre template) k‖ ^ 2 := mul_nonneg ha (sq_nonneg _)
    have h1 : (t : ℝ) / template.length + -(t / template.length) = 0 := by ring
    rw [h1, mul_zero, Real.cos_zero]
    exact mul_le_mul_of_nonneg_left (Real.cos_le_one _) h0
  · rintro b shift h ⟨z, hz⟩
    obtain ⟨_, _, s, _, _, hb⟩ := solve_ok _ _ _ _ _ _ _ _ _ (fftfit_ok _ _ _ _ _ h).1
    unfold amplitude at hb
    simp only at hb
    split_ifs at hb with hS
    simp only [Option.some.injEq] at hb
    have hterm : ∀ k : Nat, amp prof template k * Real.cos (-pha prof template k + 2 * Real.pi * k * (-shift)) = a * ‖ft (centre template) k‖ ^ 2 := by
      intro k
      have e : -pha prof template k + 2 * Real.pi * k * (-shift) = -pha prof template k - 2 * Real.pi * k * shift := by ring
      rw [e, ← polar_re, hprof, correlation_rotated, hz]
      have e2 : 2 * Real.pi * k * ((t : ℝ) / template.length + (-(t / template.length) + z)) = (((k : ℤ) * z : ℤ) : ℝ) * (2 * Real.pi) := by
        push_cast
        ring
      rw [e2, Real.cos_int_mul_two_pi, mul_one]
    simp only [hterm] at hb
    rw [List.sum_map_mul_left, mul_div_assoc, div_self hS, mul_one] at hb
    exact hb

example : (∃ z : ℤ, (1 / 4 : ℝ) = -((3 : Nat) / ([5, 1, 1, 1] : List ℝ).length) + z) ∧ ([5, 1, 1, 1] : List ℝ).rotate 3 = [1, 5, 1, 1] :=
  ⟨⟨1, by norm_num⟩, rfl⟩

/-- **C182 (start).** The search starts in `(-0.5, 0.5]` at the one of 64 equally spaced shifts with the largest correlation in the harmonics up to 15. -/
theorem fftfit_start (prof template : List ℝ) :
    -(1 / 2) < findDelay (amp prof template) (pha prof template) ∧ findDelay (amp prof template) (pha prof template) ≤ 1 / 2 ∧
    (∃ j : ℤ, findDelay (amp prof template) (pha prof template) = j / 64) ∧
    ∀ j : Nat, j < 64 → correlation (List.range 16) prof template (j / 64) ≤ correlation (List.range 16) prof template (findDelay (amp prof template) (pha prof template)) := by
  classical
  set a := amp prof template with ha
  set p := pha prof template with hp
  set v := (List.range 64).map (ccf a p) with hv
  set i := v.findIdx fun x => v.all fun y => decide (y ≤ x) with hi
  have hne : v ≠ [] := by simp [hv]
  have hex : ∃ x ∈ v, (v.all fun y => decide (y ≤ x)) = true := by
    obtain ⟨m, hm, hmax⟩ := Finset.exists_max_image v.toFinset id (by simpa using hne)
    exact ⟨m, by simpa using hm, by simpa using hmax⟩
  have hlt : i < v.length := List.findIdx_lt_length.2 hex
  have hmax := List.findIdx_getElem (w := hlt)
  have hlen : v.length = 64 := by simp [hv]
  have hi64 : (i : ℝ) < 64 := by rw [hlen] at hlt; exact_mod_cast hlt
  obtain ⟨n1, n2, z, hz⟩ := Pulsar.normalize_phase_spec ((i : ℝ) / 64) 1 (by
    rw [abs_of_nonneg (by positivity), div_le_iff₀ (by norm_num)]
    push_cast
    linarith)
  have hd : findDelay a p = Pulsar.normalizePhase 1 ((i : ℝ) / 64) := rfl
  have hcorr : ∀ (j : Nat) (z : ℤ), correlation (List.range 16) prof template ((j : ℝ) / 64 + z) = 64 * ccf a p j := by
    intro j z
    rw [correlation_eq, ccf, mul_div_cancel₀ _ (by norm_num : (64 : ℝ) ≠ 0)]
    congr 1
    apply List.map_congr_left
    intro k _
    have e : -pha prof template k - 2 * Real.pi * k * ((j : ℝ) / 64 + z) = -(p k + 2 * Real.pi * (j * k : Nat) / 64 + (((k : ℤ) * z : ℤ) : ℝ) * (2 * Real.pi)) := by
      rw [hp]
      push_cast
      ring
    rw [e, Real.cos_neg, Real.cos_add_int_mul_two_pi]
  rw [hd]
  refine ⟨n1, n2, ⟨i + 64 * z, by rw [hz]; push_cast; ring⟩, ?_⟩
  intro j hj
  have h1 := hcorr j 0
  rw [Int.cast_zero, add_zero] at h1
  rw [h1, hz, hcorr i z]
  have hge : ccf a p j ≤ v[i] := by
    have hall : ∀ y ∈ v, y ≤ v[i] := by simpa using hmax
    exact hall _ (List.mem_map.2 ⟨j, List.mem_range.2 hj, rfl⟩)
  have hvi : v[i] = ccf a p i := by simp [hv]
  rw [hvi] at hge
  linarith

theorem ft_flat (x : List ℝ) (c : ℝ) (h : ∀ v ∈ x, v = c) (k : Nat) : ft (centre x) k = 0 := by
  have hrep : x = List.replicate x.length c := List.eq_replicate_of_mem h
  by_cases hx : x = []
  · simp [hx, centre, ft]
  have hn : (x.length : ℝ) ≠ 0 := by
    have := List.length_pos_iff.2 hx
    positivity
  have hc : centre x = x.map fun _ => (0 : ℝ) := by
    apply List.map_congr_left
    intro v hv
    have hs : x.sum = x.length * c := by
      conv_lhs => rw [hrep]
      simp
    rw [h v hv, hs]
    field_simp
    ring
  rw [hc]
  unfold ft
  apply Finset.sum_eq_zero
  intro j _
  have : (x.map fun _ => (0 : ℝ)).getD j 0 = 0 := by
    simp only [List.getD_eq_getElem?_getD, List.getElem?_map]
    cases x[j]? <;> simp
  rw [this]
  simp

theorem ngood_zero (n : Nat) (a : Nat → ℝ) (h : ∀ k, a k = 0) : ngood n a = n := by
  classical
  have hs : ((List.range n).map a).sum = 0 := by
    apply List.sum_eq_zero
    intro x hx
    obtain ⟨k, _, rfl⟩ := List.mem_map.1 hx
    exact h k
  rw [ngood, hs]
  have : (List.range n).countP (fun (k : Nat) => decide ((0 : ℝ) / n ≤ a k)) = (List.range n).length := by
    rw [List.countP_eq_length]
    intro k _
    simp [h k]
  rw [this, List.length_range]

/-- **C182 (refusals).** A template with another number of bins than the profile is refused with an `IndexError`, and, with the same number of bins, two to 31 of them and flat profiles or templates of at least two bins with a `ValueError`. -/
theorem fftfit_refuses (brentq : (ℝ → ℝ) → ℝ → ℝ → Except PyErr ℝ) (fuel : Nat) (prof template : List ℝ) :
    (prof ≠ [] → template ≠ [] → template.length ≠ prof.length → fftfit brentq fuel prof template = .error .indexError) ∧
    (template.length = prof.length → 2 ≤ prof.length → prof.length < 32 → fftfit brentq fuel prof template = .error .valueError) ∧
    (template.length = prof.length → 2 ≤ prof.length → (∃ c, (∀ v ∈ prof, v = c) ∨ ∀ v ∈ template, v = c) → fftfit brentq fuel prof template = .error .valueError) := by
  refine ⟨?_, ?_, ?_⟩
  · intro h1 h2 h3
    simp [fftfit, h1, h2, h3]
  · intro h1 h2 h3
    have ht : ¬ (template = [] ∨ prof = []) := by
      rintro (h | h)
      · rw [h] at h1; simp at h1; omega
      · rw [h] at h2; simp at h2
    simp only [fftfit, if_neg ht, h1]
    rw [if_neg (by simp), if_pos ⟨by omega, h3⟩]
  · rintro h1 h2 ⟨c, hc⟩
    have ht : ¬ (template = [] ∨ prof = []) := by
      rintro (h | h)
      · rw [h] at h1; simp at h1; omega
      · rw [h] at h2; simp at h2
    have ha : ∀ k, amp prof template k = 0 := by
      intro k
      rcases hc with hc | hc
      · simp [amp, ft_flat prof c hc k]
      · simp [amp, ft_flat template c hc k]
    simp only [fftfit, if_neg ht, h1, ngood_zero _ _ ha]
    rw [if_neg (by simp)]
    split_ifs with h3 h4
    · rfl
    · rfl
    · exact absurd ⟨by omega, le_refl _⟩ h4

/-- **C182 (negation).** A profile and a template of one bin are not refused: the search never ends. -/
theorem fftfit_one_bin : ¬ ∀ (brentq : (ℝ → ℝ) → ℝ → ℝ → Except PyErr ℝ) (prof template : List ℝ), ∃ fuel r, fftfit brentq fuel prof template = r ∧ r ≠ .ok none := by
  intro h
  obtain ⟨fuel, r, hr, hne⟩ := h (fun _ a _ => .ok a) [1] [1]
  apply hne
  rw [← hr]
  have hz : ∀ τ, toMinimize (amp [1] [1]) (pha [1] [1]) (terms 1 (ngood 1 (amp [1] [1]))) τ = 0 := by
    intro τ
    simp [toMinimize, bestPhase, terms]
  have hb : ∀ fuel i, bracket (toMinimize (amp [1] [1]) (pha [1] [1]) (terms 1 (ngood 1 (amp [1] [1])))) 1 (findDelay (amp [1] [1]) (pha [1] [1])) fuel i = none := by
    intro fuel
    induction fuel with
    | zero => intro i; rfl
    | succ fuel ih =>
      intro i
      simp only [bracket, hz, ne_eq, not_true_eq_false, if_false]
      exact ih (i + 1)
  simp [fftfit, solve, hb]

/-- **C182 (negation).** Not all profiles and templates of the same number of at least two bins that are not flat get an answer: those of fewer than 32 bins are refused, however good the root finder. -/
theorem fftfit_few_bins : ¬ ∀ (brentq : (ℝ → ℝ) → ℝ → ℝ → Except PyErr ℝ) (prof template : List ℝ), (∀ f a b, ∃ s, brentq f a b = .ok s) → template.length = prof.length → 2 ≤ prof.length →
    (∃ u ∈ prof, ∃ v ∈ prof, u ≠ v) → (∃ u ∈ template, ∃ v ∈ template, u ≠ v) → ∃ fuel r, fftfit brentq fuel prof template = .ok r := by
  intro h
  obtain ⟨fuel, r, hr⟩ := h (fun _ a _ => .ok a) [1, 2, 3] [1, 2, 3] (fun _ a _ => ⟨a, rfl⟩) rfl (by simp) ⟨1, by simp, 2, by simp, by norm_num⟩ ⟨1, by simp, 2, by simp, by norm_num⟩
  rw [(fftfit_refuses _ fuel [1, 2, 3] [1, 2, 3]).2.1 rfl (by simp) (by simp)] at hr
  simp at hr

theorem centre_centre (x : List ℝ) : centre (centre x) = centre x := by
  by_cases hx : x = []
  · simp [hx, centre]
  have hn : (x.length : ℝ) ≠ 0 := by
    have := List.length_pos_iff.2 hx
    positivity
  have hs : ∀ (m : ℝ) (l : List ℝ), (l.map fun v => v - m).sum = l.sum - l.length * m := by
    intro m l
    induction l with
    | nil => simp
    | cons v l ih => simp only [List.map_cons, List.sum_cons, List.length_cons, ih]; push_cast; ring
  have h0 : (centre x).sum = 0 := by
    rw [centre, hs]
    field_simp
    ring
  conv_lhs => rw [centre, h0]
  simp

/-- **C182 (user interface).** The function of the user gives the same as the fit, as subtracting the mean twice changes nothing. -/
theorem pulsar_fftfit (brentq : (ℝ → ℝ) → ℝ → ℝ → Except PyErr ℝ) (fuel : Nat) (prof template : List ℝ) :
    pulsarFftfit brentq fuel prof (some template) = fftfit brentq fuel prof template := by
  have hl : ∀ x : List ℝ, (centre x).length = x.length := fun x => by simp [centre]
  have he : ∀ x : List ℝ, (centre x = []) = (x = []) := fun x => by simp [centre]
  have ha : amp (centre prof) (centre template) = amp prof template := by
    funext k
    simp only [amp, centre_centre]
  have hp : pha (centre prof) (centre template) = pha prof template := by
    funext k
    simp only [pha, centre_centre]
  simp only [pulsarFftfit, fftfit, hl, he, ha, hp, centre_centre]

/-- **C182 (negation).** Without a template the documented sinusoid is not used: the call is refused. -/
theorem pulsar_fftfit_default : ¬ ∀ (brentq : (ℝ → ℝ) → ℝ → ℝ → Except PyErr ℝ) (fuel : Nat) (prof : List ℝ),
    ∃ sinusoid, pulsarFftfit brentq fuel prof none = pulsarFftfit brentq fuel prof (some sinusoid) := by
  intro h
  obtain ⟨t, ht⟩ := h (fun _ a _ => .ok a) 1 [1]
  rw [pulsar_fftfit] at ht
  have h1 : pulsarFftfit (fun _ a _ => .ok a) 1 [1] none = .error .typeError := rfl
  rw [h1] at ht
  unfold fftfit at ht
  simp only at ht
  split_ifs at ht
  all_goals first
    | cases ht; done
    | (unfold solve at ht
       simp only at ht
       split at ht <;> cases ht)

theorem bracket_spec (f : ℝ → ℝ) (n : Nat) (start : ℝ) (fuel i : Nat) (best : ℝ) (h : bracket f n start fuel i = some best) :
    ∃ j, i ≤ j ∧ (best = start + j / n ∨ best = start - j / n) ∧ SignType.sign (f best) ≠ SignType.sign (f start) ∧
      ∀ m, i ≤ m → m < j → SignType.sign (f (start + m / n)) = SignType.sign (f start) ∧ SignType.sign (f (start - m / n)) = SignType.sign (f start) := by
  classical
  induction fuel generalizing i with
  | zero => simp [bracket] at h
  | succ fuel ih =>
    rw [bracket] at h
    by_cases h1 : SignType.sign (f (start + i / n)) ≠ SignType.sign (f start)
    · rw [if_pos h1] at h
      obtain rfl := Option.some.inj h
      exact ⟨i, le_refl _, Or.inl rfl, h1, fun m a b => by omega⟩
    · rw [if_neg h1] at h
      by_cases h2 : SignType.sign (f (start - i / n)) ≠ SignType.sign (f start)
      · rw [if_pos h2] at h
        obtain rfl := Option.some.inj h
        exact ⟨i, le_refl _, Or.inr rfl, h2, fun m a b => by omega⟩
      · rw [if_neg h2] at h
        obtain ⟨j, hj, hb, hs, hm⟩ := ih (i + 1) h
        refine ⟨j, by omega, hb, hs, ?_⟩
        intro m hm1 hm2
        by_cases hmi : m = i
        · subst hmi
          exact ⟨not_not.1 h1, not_not.1 h2⟩
        · exact hm m (by omega) hm2

/-- **C182 (nearest change of sign).** With a root finder that stays in its interval, the shift is, up to whole periods, within two bins of a change of sign of the derivative of the correlation that is the nearest one to the start, in steps of a bin to both sides. -/
theorem fftfit_nearest (brentq : (ℝ → ℝ) → ℝ → ℝ → Except PyErr ℝ) (hin : ∀ f a b s, brentq f a b = .ok s → a ≤ s ∧ s ≤ b) (fuel : Nat) (prof template : List ℝ) (b : Option ℝ) (shift : ℝ)
    (hlen : 1 < prof.length) (h : fftfit brentq fuel prof template = .ok (some (b, shift))) :
    let start := findDelay (amp prof template) (pha prof template)
    let c := correlation (harmonics (ngood prof.length (amp prof template))) prof template
    ∃ (j : Nat) (best : ℝ) (z : ℤ), (best = start + j / prof.length ∨ best = start - j / prof.length) ∧ |shift + z - best| ≤ 2 / prof.length ∧
      SignType.sign (deriv c best) ≠ SignType.sign (deriv c start) ∧
      ∀ m < j, SignType.sign (deriv c (start + m / prof.length)) = SignType.sign (deriv c start) ∧ SignType.sign (deriv c (start - m / prof.length)) = SignType.sign (deriv c start) := by
  intro start c
  have hd : ∀ τ, SignType.sign (deriv c τ) = SignType.sign (toMinimize (amp prof template) (pha prof template) (ngood prof.length (amp prof template)) τ) := by
    intro τ
    rw [(deriv_correlation prof template _ τ).deriv, sign_mul, sign_pos (by positivity), one_mul]
  have hs := (fftfit_ok _ _ _ _ _ h).1
  unfold solve at hs
  rw [terms, if_neg (by omega)] at hs
  simp only at hs
  rcases hb : bracket (toMinimize (amp prof template) (pha prof template) (ngood prof.length (amp prof template))) prof.length (findDelay (amp prof template) (pha prof template)) fuel 0 with _ | best
  · rw [hb] at hs; simp at hs
  rw [hb] at hs
  simp only at hs
  rcases hq : brentq (toMinimize (amp prof template) (pha prof template) (ngood prof.length (amp prof template))) (best - 2 / prof.length) (best + 2 / prof.length) with e | s
  · rw [hq] at hs; simp at hs
  rw [hq] at hs
  simp only [Except.ok.injEq, Option.some.injEq, Prod.mk.injEq] at hs
  obtain ⟨_, _, z, hz⟩ := Pulsar.normalize_phase_spec s ⌈|s|⌉₊ (Nat.le_ceil _)
  rw [hs.2] at hz
  obtain ⟨j, _, hbest, hsign, hm⟩ := bracket_spec _ _ _ _ _ _ hb
  obtain ⟨i1, i2⟩ := hin _ _ _ _ hq
  refine ⟨j, best, -z, hbest, ?_, ?_, ?_⟩
  · rw [hz, abs_le]
    push_cast
    constructor <;> linarith
  · rw [hd, hd]
    exact hsign
  · intro m hmj
    rw [hd, hd, hd]
    exact hm m (by omega) hmj

end Stingray.FftFit
