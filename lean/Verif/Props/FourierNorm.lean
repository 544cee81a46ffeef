import Verif.Model.Fourier
import Mathlib.Algebra.Order.Ring.Rat
import Mathlib.Tactic.NormNum
import Mathlib.Tactic.Linarith
import Mathlib.Tactic.FieldSimp
import Mathlib.Tactic.Ring
import Mathlib.Data.List.MinMax

/-!
Positive frequencies (C38), normalisations (C39), noise levels (C40), power in a band (C46).
-/

set_option linter.unusedSectionVars false

namespace Stingray.Fourier

variable {K : Type} [Field K] [LinearOrder K] [IsStrictOrderedRing K]

/-! ### Positive frequencies (C38) -/

theorem fftfreq_parts (n : Nat) (d : K) (hn : 0 < n) (hd : 0 < d) :
    (∀ x ∈ (List.range (n / 2)).map (fun (i : Nat) => ((i : K) - (n / 2 : Nat)) * (1 / (n * d))), x < 0) := by
  intro x hx
  rw [List.mem_map] at hx
  obtain ⟨i, hi, rfl⟩ := hx
  rw [List.mem_range] at hi
  have h1 : (0 : K) < 1 / (n * d) := by
    apply one_div_pos.2
    exact mul_pos (by exact_mod_cast hn) hd
  have h2 : (i : K) < ((n / 2 : Nat) : K) := by exact_mod_cast hi
  have : (i : K) - ((n / 2 : Nat) : K) < 0 := by linarith
  exact mul_neg_of_neg_of_pos this h1

/-- **C38.** For every number of bins and sampling time, the slice of the Fourier frequencies is exactly the strictly positive ones (with `include_zero`, the
non-negative ones), and they come in strictly increasing order. -/
theorem positive_fft_bins_exact (n : Nat) (d : K) (hn : 0 < n) (hd : 0 < d) :
    slice (positiveFftBins n false) (fftfreq n d) = (fftfreq n d).filter (fun f => decide (0 < f)) ∧
    slice (positiveFftBins n true) (fftfreq n d) = (fftfreq n d).filter (fun f => decide (0 ≤ f)) ∧
    (slice (positiveFftBins n true) (fftfreq n d)).Pairwise (· < ·) := by
  have hneg := fftfreq_parts n d hn hd
  have hc : (0 : K) < 1 / (n * d) := one_div_pos.2 (mul_pos (by exact_mod_cast hn) hd)
  have hstop : ∀ b, (positiveFftBins n b).2 = (n - 1) / 2 + 1 := by
    intro b
    unfold positiveFftBins
    split_ifs <;> simp only <;> omega
  have h0 : (positiveFftBins n false).1 = 1 := by
    unfold positiveFftBins; by_cases h : n % 2 = 0 <;> simp [h]
  have h0' : (positiveFftBins n true).1 = 0 := by
    unfold positiveFftBins; by_cases h : n % 2 = 0 <;> simp [h]
  have htake : ∀ b, (fftfreq n d).take (positiveFftBins n b).2 =
      (List.range ((n - 1) / 2 + 1)).map (fun (i : Nat) => (i : K) * (1 / (n * d))) := by
    intro b
    rw [hstop b, fftfreq]
    apply List.take_left'
    simp
  have hfilt : ∀ (p : K → Bool), (∀ x, x < 0 → p x = false) →
      (fftfreq n d).filter p =
      ((List.range ((n - 1) / 2 + 1)).map (fun (i : Nat) => (i : K) * (1 / (n * d)))).filter p := by
    intro p hp
    rw [fftfreq, List.filter_append]
    have : ((List.range (n / 2)).map (fun (i : Nat) => ((i : K) - (n / 2 : Nat)) * (1 / (n * d)))).filter p = [] := by
      rw [List.filter_eq_nil_iff]
      intro x hx
      simp [hp x (hneg x hx)]
    rw [this, List.append_nil]
  refine ⟨?_, ?_, ?_⟩
  · rw [slice, htake, h0, hfilt _ (by intro x hx; simpa using hx.le)]
    rw [List.range_succ_eq_map]
    simp only [List.map_cons, List.drop_one, List.tail_cons, Nat.cast_zero, zero_mul, lt_irrefl, decide_false,
      List.filter_cons, Bool.false_eq_true, if_false]
    symm
    rw [List.filter_eq_self]
    intro x hx
    rw [List.map_map, List.mem_map] at hx
    obtain ⟨i, -, rfl⟩ := hx
    simp only [Function.comp, decide_eq_true_eq]
    exact mul_pos (by exact_mod_cast Nat.succ_pos i) hc
  · rw [slice, htake, h0', hfilt _ (by intro x hx; simpa using hx)]
    simp only [List.drop_zero]
    symm
    rw [List.filter_eq_self]
    intro x hx
    rw [List.mem_map] at hx
    obtain ⟨i, -, rfl⟩ := hx
    simp only [decide_eq_true_eq]
    exact mul_nonneg (Nat.cast_nonneg i) hc.le
  · rw [slice, htake, h0', List.drop_zero, List.pairwise_map]
    apply List.Pairwise.imp _ List.pairwise_lt_range
    intro a b hab
    exact mul_lt_mul_of_pos_right (by exact_mod_cast hab) hc

example : slice (positiveFftBins 5 false) (fftfreq 5 (1 : ℚ)) = [1/5, 2/5] ∧
    slice (positiveFftBins 6 false) (fftfreq 6 (1 : ℚ)) = [1/6, 1/3] ∧
    fftfreq 6 (1 : ℚ) = [0, 1/6, 1/3, -1/2, -1/3, -1/6] := by decide +kernel

/-! ### Normalisations (C39) -/

/-- Both functions succeed, and undoing the normalisation gives the power back. -/
def RoundTrip (norm : Norm) (dt nBin meanFlux nPh : K) (variance : Option K) (background : K) : Prop :=
  ∃ f g, normalizer norm dt nBin meanFlux nPh variance background = .ok f ∧
    unnormalizer norm dt nBin nPh variance background = .ok g ∧ ∀ p, g (f p) = p ∧ f (g p) = p

/-- **C39 (partial).** Normalising and un-normalising are inverse of each other for `none`, `abs`, `frac` (with and without background) and `leahy` without a
variance, whatever the powers, when the mean flux is the number of photons per bin.
What is missing from C39: `leahy` with a variance, where it is false (next theorem). -/
theorem unnormalize_normalize_partial (norm : Norm) (dt nBin nPh : K) (variance : Option K)
    (background : K) (hdt : dt ≠ 0) (hn : nBin ≠ 0) (hp : nPh ≠ 0)
    (hb : 0 < background → nPh / nBin ≠ background) (hnorm : norm ≠ .other)
    (hv : norm = .leahy → variance = none) :
    RoundTrip norm dt nBin (nPh / nBin) nPh variance background := by
  unfold RoundTrip normalizer unnormalizer
  cases norm with
  | other => exact absurd rfl hnorm
  | none => exact ⟨_, _, rfl, rfl, fun p => ⟨rfl, rfl⟩⟩
  | abs =>
    refine ⟨_, _, rfl, rfl, fun p => ⟨?_, ?_⟩⟩ <;> field_simp
  | leahy =>
    rw [hv rfl]
    refine ⟨_, _, rfl, rfl, fun p => ⟨?_, ?_⟩⟩ <;> field_simp
  | frac =>
    by_cases h : 0 < background
    · simp only [h, if_true]
      have hd : nPh / nBin - background ≠ 0 := sub_ne_zero.2 (hb h)
      refine ⟨_, _, rfl, rfl, fun p => ⟨?_, ?_⟩⟩
      · generalize nPh / nBin - background = x at hd
        field_simp
      · generalize nPh / nBin - background = x at hd
        field_simp
    · simp only [h, if_false]
      refine ⟨_, _, rfl, rfl, fun p => ⟨?_, ?_⟩⟩ <;> field_simp

/-- **C39 (negation).** With the Leahy normalisation and a variance, un-normalising does not undo normalising, unless the number of photons happens
to be the number of bins: the result is `nPh / nBin` times the power. -/
theorem unnormalize_leahy_variance (dt nBin nPh v background : K) (hn : nBin ≠ 0) (hv : v ≠ 0) :
    ∃ f g, normalizer .leahy dt nBin (nPh / nBin) nPh (some v) background = .ok f ∧
      unnormalizer .leahy dt nBin nPh (some v) background = .ok g ∧ ∀ p, g (f p) = nPh / nBin * p := by
  unfold normalizer unnormalizer
  simp only [hv, if_false]
  refine ⟨_, _, rfl, rfl, fun p => ?_⟩
  field_simp

theorem unnormalize_leahy_variance_witness :
    ¬ RoundTrip .leahy (1 : ℚ) 4 (20 / 4) 20 (some 3) 0 := by
  rintro ⟨f, g, hf, hg, h⟩
  obtain ⟨f', g', hf', hg', h'⟩ := unnormalize_leahy_variance (1 : ℚ) 4 20 3 0 (by norm_num) (by norm_num)
  rw [hf] at hf'
  rw [hg] at hg'
  cases hf'; cases hg'
  have := (h 1).1.symm.trans (h' 1)
  norm_num at this

example : RoundTrip .frac (1 / 10 : ℚ) 100 (1000 / 100) 1000 none 2 :=
  unnormalize_normalize_partial .frac (1/10) 100 1000 none 2 (by norm_num) (by norm_num) (by norm_num)
    (by norm_num) (by decide) (by decide)

/-! ### What is refused, and the power types (C106) -/

/-- **C106.** What the power types give: the normalised powers, their real parts, or their absolute values. -/
theorem normalize_powers_by_type (sqrt : K → K) (norm : Norm) (dt nBin meanFlux nPh : K) (variance : Option K)
    (background : K) (f : K → K) (hf : normalizer norm dt nBin meanFlux nPh variance background = .ok f) :
    (∀ p, normalizeRe norm dt nBin meanFlux nPh variance background .all p = .ok (p.map f)) ∧
    (∀ p, normalizeRe norm dt nBin meanFlux nPh variance background .real p = .ok (p.map f)) ∧
    (∀ p, normalizeRe norm dt nBin meanFlux nPh variance background .abs p = .ok (p.map fun x => |f x|)) ∧
    (∀ p, normalizeCx sqrt norm dt nBin meanFlux nPh variance background .all p = .ok (p.map fun z => ⟨f z.re, f z.im⟩)) ∧
    (∀ p, normalizeCx sqrt norm dt nBin meanFlux nPh variance background .real p = .ok (p.map fun z => ⟨f z.re, 0⟩)) ∧
    (∀ p, normalizeCx sqrt norm dt nBin meanFlux nPh variance background .abs p =
      .ok (p.map fun z => ⟨sqrt (f z.re ^ 2 + f z.im ^ 2), 0⟩)) := by
  refine ⟨?_, ?_, ?_, ?_, ?_, ?_⟩ <;> intro p <;>
    simp only [normalizeRe, normalizeCx, hf, bind, Except.bind, List.map_map, pow_two] <;> rfl

example : normalizeRe .none (1 : ℚ) 4 1 4 none 0 .abs [-3, 2] = .ok [3, 2] := by decide +kernel

/-- **C106.** `normalize_periodograms` raises `ValueError` exactly for an unknown norm, an unknown power type, or the Leahy norm with a variance of zero; nothing else is refused. -/
theorem normalize_refuses_iff (sqrt : K → K) (norm : Norm) (dt nBin meanFlux nPh : K) (variance : Option K)
    (background : K) (pt : PowerType) (p : List (Cx K)) :
    (normalizeCx sqrt norm dt nBin meanFlux nPh variance background pt p = .error .valueError ↔
      norm = .other ∨ pt = .other ∨ (norm = .leahy ∧ variance = some 0)) ∧
    (∀ e, normalizeCx sqrt norm dt nBin meanFlux nPh variance background pt p = .error e → e = .valueError) := by
  unfold normalizeCx normalizer
  cases norm with
  | leahy =>
    cases variance with
    | none => cases pt <;> simp [bind, Except.bind]
    | some v => by_cases hv : v = 0 <;> cases pt <;> simp [hv, bind, Except.bind]
  | frac => by_cases hb : 0 < background <;> cases pt <;> simp [hb, bind, Except.bind]
  | abs => cases pt <;> simp [bind, Except.bind]
  | none => cases pt <;> simp [bind, Except.bind]
  | other => cases pt <;> simp [bind, Except.bind]

/-- **C106 (power types).** Of the powers returned for `power_type="all"`, `"real"` gives the real parts and `"abs"` the moduli (the number whose square is `re² + im²`, for a correct square root). -/
theorem normalize_power_types (sqrt : K → K) (norm : Norm) (dt nBin meanFlux nPh : K) (variance : Option K)
    (background : K) (p q : List (Cx K))
    (h : normalizeCx sqrt norm dt nBin meanFlux nPh variance background .all p = .ok q) :
    q.length = p.length ∧
    normalizeCx sqrt norm dt nBin meanFlux nPh variance background .real p = .ok (q.map fun a => ⟨a.re, 0⟩) ∧
    ∃ r, normalizeCx sqrt norm dt nBin meanFlux nPh variance background .abs p = .ok r ∧
      r.map Cx.im = q.map (fun _ => 0) ∧
      ((∀ x, 0 ≤ x → 0 ≤ sqrt x ∧ sqrt x ^ 2 = x) →
        r.map (fun a => a.re ^ 2) = q.map (fun a => a.re ^ 2 + a.im ^ 2) ∧ ∀ a ∈ r, 0 ≤ a.re) := by
  unfold normalizeCx at h ⊢
  cases hn : normalizer norm dt nBin meanFlux nPh variance background with
  | error e => simp [hn, bind, Except.bind] at h
  | ok f =>
    simp only [hn, bind, Except.bind] at h ⊢
    cases h
    refine ⟨by simp, rfl, _, rfl, by simp [Function.comp_def], ?_⟩
    intro hs
    have hsq : ∀ a : Cx K, 0 ≤ a.re * a.re + a.im * a.im := fun a =>
      add_nonneg (mul_self_nonneg _) (mul_self_nonneg _)
    constructor
    · rw [List.map_map]
      apply List.map_congr_left
      intro a _
      simp only [Function.comp]
      rw [(hs _ (hsq a)).2]
      ring
    · intro a ha
      obtain ⟨b, _, rfl⟩ := List.mem_map.1 ha
      exact (hs _ (hsq b)).1

/-- **C106 (noise level).** `poisson_level` raises `ValueError` exactly when what the normalisation needs is missing (the mean rate for `abs` and `frac`, the number of
photons for `none`) or the norm is unknown. -/
theorem poisson_level_refuses_iff (norm : Norm) (meanrate nPh : Option K) (backrate : K) :
    (poissonLevel norm meanrate nPh backrate = .error .valueError ↔
      norm = .other ∨ (meanrate = none ∧ (norm = .abs ∨ norm = .frac)) ∨ (nPh = none ∧ norm = .none)) ∧
    (∀ e, poissonLevel norm meanrate nPh backrate = .error e → e = .valueError) := by
  unfold poissonLevel
  cases norm <;> cases meanrate <;> cases nPh <;> simp

example : normalizeCx (fun x : ℚ => x) .leahy 1 4 2 8 (some 0) 0 .all [⟨1, 1⟩] = .error .valueError := by decide +kernel
example : normalizeCx (fun x : ℚ => x) .abs (1/2) 4 2 8 none 0 .all [⟨1, 3⟩] = .ok [⟨1, 3⟩] := by decide +kernel

/-! ### Noise levels (C40) -/

/-- **C40.** The Poisson noise level is what the normalisation makes of the noise power in un-normalised units, the number of photons `nPh`: for each normalisation,
with rate `nPh / (nBin dt)` and background rate `background / dt`. -/
theorem poisson_level_consistent (norm : Norm) (dt nBin nPh background : K) (hdt : 0 < dt)
    (hn : 0 < nBin) (hp : 0 < nPh) (hb : 0 ≤ background) (hnorm : norm ≠ .other) :
    ∃ f lev, normalizer norm dt nBin (nPh / nBin) nPh none background = .ok f ∧
      poissonLevel norm (some (nPh / (nBin * dt))) (some nPh) (background / dt) = .ok lev ∧
      f nPh = lev := by
  unfold normalizer poissonLevel
  have hdt' := hdt.ne'
  have hn' := hn.ne'
  have hp' := hp.ne'
  cases norm with
  | other => exact absurd rfl hnorm
  | none => exact ⟨_, _, rfl, rfl, rfl⟩
  | abs => refine ⟨_, _, rfl, rfl, ?_⟩; field_simp
  | leahy => refine ⟨_, _, rfl, rfl, ?_⟩; field_simp
  | frac =>
    by_cases h : 0 < background
    · simp only [h, if_true]
      refine ⟨_, _, rfl, rfl, ?_⟩
      have e : nPh / (nBin * dt) - background / dt = (nPh / nBin - background) / dt := by field_simp
      rw [e]
      generalize nPh / nBin - background = x
      rcases eq_or_ne x 0 with rfl | hx
      · simp
      · field_simp
    · have h0 : background = 0 := le_antisymm (not_lt.1 h) hb
      subst h0
      simp only [lt_irrefl, if_false]
      refine ⟨_, _, rfl, rfl, ?_⟩
      simp only [zero_div, sub_zero]
      field_simp

/-- **C40 (relations).** The normalisations differ by powers of the count rate: `leahy = frac * rate` and `abs = frac * rate ^ 2`. -/
theorem norm_relations (dt nBin nPh : K) (hdt : dt ≠ 0) (hn : nBin ≠ 0) (hp : nPh ≠ 0) :
    ∃ fr le ab, normalizer .frac dt nBin (nPh / nBin) nPh none 0 = .ok fr ∧
      normalizer .leahy dt nBin (nPh / nBin) nPh none 0 = .ok le ∧
      normalizer .abs dt nBin (nPh / nBin) nPh none 0 = .ok ab ∧
      ∀ p, le p = fr p * (nPh / (nBin * dt)) ∧ ab p = fr p * (nPh / (nBin * dt)) ^ 2 := by
  unfold normalizer
  simp only [lt_irrefl, if_false]
  refine ⟨_, _, _, rfl, rfl, rfl, fun p => ⟨?_, ?_⟩⟩ <;> field_simp

example : poissonLevel .frac (some (100 : ℚ)) none 0 = .ok (1 / 50) ∧
    poissonLevel .frac (none : Option ℚ) none 0 = .error .valueError := by decide +kernel

/-! ### Power in a band (C46) -/

/-- the part of the bin inside the band -/
def bandOverlap (b : PowerBin K) (a e : K) : K :=
  max 0 (min (b.f + b.df / 2) e - max (b.f - b.df / 2) a)

/-- the integral of the (noise-subtracted) power over the band -/
def bandIntegral (bins : List (PowerBin K)) (a e : K) : K :=
  (bins.map fun b => (b.power - b.noise) * bandOverlap b a e).sum

/-- Adjacent bins of positive width, in increasing order of frequency. -/
def Contiguous : List (PowerBin K) → Prop
  | [] => True
  | [b] => 0 < b.df
  | b :: c :: l => 0 < b.df ∧ b.f + b.df / 2 = c.f - c.df / 2 ∧ Contiguous (c :: l)

/-- does the bin meet the band? -/
def Meets (a e : K) (b : PowerBin K) : Prop := a < b.f + b.df / 2 ∧ b.f - b.df / 2 < e

instance (a e : K) (b : PowerBin K) : Decidable (Meets a e b) := by unfold Meets; infer_instance

theorem contiguous_pos : ∀ (l : List (PowerBin K)), Contiguous l → ∀ b ∈ l, 0 < b.df
  | [], _, b, hb => by simp at hb
  | [c], h, b, hb => by simp at hb; subst hb; exact h
  | c :: d :: l, h, b, hb => by
    rcases List.mem_cons.1 hb with rfl | hb
    · exact h.1
    · exact contiguous_pos (d :: l) h.2.2 b hb

theorem contiguous_pairwise : ∀ (l : List (PowerBin K)), Contiguous l →
    l.Pairwise (fun b c => b.f + b.df / 2 ≤ c.f - c.df / 2)
  | [], _ => List.Pairwise.nil
  | [c], _ => List.pairwise_singleton _ _
  | c :: d :: l, h => by
    have ih := contiguous_pairwise (d :: l) h.2.2
    rw [List.pairwise_cons]
    refine ⟨?_, ih⟩
    intro b hb
    rcases List.mem_cons.1 hb with rfl | hb
    · exact h.2.1.le
    · have h1 := (List.pairwise_cons.1 ih).1 b hb
      have h2 := contiguous_pos _ h.2.2 d (by simp)
      have := h.2.1
      linarith

theorem first_meets (a e : K) (hae : a < e) : ∀ (l : List (PowerBin K)), Contiguous l →
    (∀ b ∈ l.head?, b.f - b.df / 2 ≤ a) → ∀ x xs, l.filter (fun b => decide (Meets a e b)) = x :: xs →
    x.f - x.df / 2 ≤ a
  | [], _, _, x, xs, h => by simp at h
  | b :: l, hc, hh, x, xs, h => by
    have hb : b.f - b.df / 2 ≤ a := hh b (by simp)
    by_cases hm : Meets a e b
    · simp only [List.filter_cons, hm, decide_true, if_true, List.cons.injEq] at h
      rw [← h.1]; exact hb
    · simp only [List.filter_cons, hm, decide_false, Bool.false_eq_true, if_false] at h
      have hup : b.f + b.df / 2 ≤ a := by
        by_contra hlt
        exact hm ⟨not_le.1 hlt, lt_of_le_of_lt hb hae⟩
      cases l with
      | nil => simp at h
      | cons c l =>
        apply first_meets a e hae (c :: l) hc.2.2 ?_ x xs h
        intro y hy
        simp at hy
        subst hy
        rw [← hc.2.1]; exact hup

theorem last_meets (a e : K) : ∀ (l : List (PowerBin K)), Contiguous l →
    (∀ b ∈ l.getLast?, e ≤ b.f + b.df / 2) → ∀ y, (l.filter (fun b => decide (Meets a e b))).getLast? = some y →
    e ≤ y.f + y.df / 2
  | [], _, _, y, h => by simp at h
  | [b], hc, hh, y, h => by
    by_cases hm : Meets a e b
    · simp [List.filter_cons, hm] at h
      subst h
      exact hh b (by simp)
    · simp [List.filter_cons, hm] at h
  | b :: c :: l, hc, hh, y, h => by
    have hh' : ∀ x ∈ (c :: l).getLast?, e ≤ x.f + x.df / 2 := by
      intro x hx
      exact hh x (by rw [List.getLast?_cons_cons]; exact hx)
    cases hf : (c :: l).filter (fun b => decide (Meets a e b)) with
    | cons z zs =>
      apply last_meets a e (c :: l) hc.2.2 hh' y
      rw [hf]
      by_cases hm : Meets a e b
      · rw [List.filter_cons_of_pos (by simpa using hm), hf, List.getLast?_cons_cons] at h
        exact h
      · rw [List.filter_cons_of_neg (by simpa using hm), hf] at h
        exact h
    | nil =>
      by_cases hm : Meets a e b
      · rw [List.filter_cons_of_pos (by simpa using hm), hf] at h
        simp at h
        subst h
        have hcm : ¬ Meets a e c := by
          intro hcm
          rw [List.filter_cons_of_pos (by simpa using hcm)] at hf
          simp at hf
        by_contra hlt
        apply hcm
        have hp := contiguous_pos _ hc.2.2 c (by simp)
        have h1 := hm.1
        have h2 := hc.2.1
        refine ⟨?_, ?_⟩
        · linarith
        · linarith [not_le.1 hlt]
      · rw [List.filter_cons_of_neg (by simpa using hm), hf] at h
        simp at h

theorem bandOverlap_of_not_meets (a e : K) (b : PowerBin K) (h : ¬ Meets a e b) : bandOverlap b a e = 0 := by
  unfold bandOverlap
  apply max_eq_left
  by_contra hc
  apply h
  have hc := not_le.1 hc
  have h1 := min_le_left (b.f + b.df / 2) e
  have h2 := min_le_right (b.f + b.df / 2) e
  have h3 := le_max_left (b.f - b.df / 2) a
  have h4 := le_max_right (b.f - b.df / 2) a
  exact ⟨by linarith, by linarith⟩

theorem bandIntegral_filter (bins : List (PowerBin K)) (a e : K) :
    bandIntegral bins a e = bandIntegral (bins.filter (fun b => decide (Meets a e b))) a e := by
  unfold bandIntegral
  induction bins with
  | nil => rfl
  | cons b l ih =>
    by_cases hm : Meets a e b
    · rw [List.filter_cons_of_pos (by simpa using hm), List.map_cons, List.map_cons, List.sum_cons,
        List.sum_cons, ih]
    · rw [List.filter_cons_of_neg (by simpa using hm), List.map_cons, List.sum_cons, ih,
        bandOverlap_of_not_meets a e b hm]
      simp

theorem fixLast_sum (e a : K) : ∀ (l : List (PowerBin K)) (y : PowerBin K), y ∈ l.getLast? →
    l.Pairwise (fun b c => b.f + b.df / 2 ≤ c.f - c.df / 2) →
    (∀ b ∈ l, Meets a e b ∧ 0 < b.df ∧ a ≤ b.f - b.df / 2) → e ≤ y.f + y.df / 2 →
    ((fixLast e (l.map fun b => (b, 1))).map
      fun x => (x.1.power - x.1.noise) * (x.1.df * x.2)).sum = bandIntegral l a e
  | [], y, hy, _, _, _ => by simp at hy
  | [b], y, hy, _, hall, he => by
    simp at hy
    subst hy
    obtain ⟨hm, hd, ha⟩ := hall b (by simp)
    have h1 : bandOverlap b a e = e - (b.f - b.df / 2) := by
      unfold bandOverlap
      rw [min_eq_right he, max_eq_left ha, max_eq_right]
      linarith [hm.2]
    simp only [List.map_cons, List.map_nil, fixLast, List.sum_cons, List.sum_nil, bandIntegral, h1]
    have := hd.ne'
    field_simp
    ring
  | b :: c :: l, y, hy, hpw, hall, he => by
    rw [List.getLast?_cons_cons] at hy
    rw [List.pairwise_cons] at hpw
    have ih := fixLast_sum e a (c :: l) y hy hpw.2 (fun x hx => hall x (by simp [hx])) he
    obtain ⟨hm, hd, ha⟩ := hall b (by simp)
    have hc := hpw.1 c (by simp)
    have hcm := (hall c (by simp)).1
    have h1 : bandOverlap b a e = b.df := by
      unfold bandOverlap
      rw [min_eq_left (by linarith [hcm.2]), max_eq_left ha, max_eq_right]
      · ring
      · linarith
    have e1 : fixLast e ((b :: c :: l).map fun b => (b, (1 : K))) =
        (b, 1) :: fixLast e ((c :: l).map fun b => (b, (1 : K))) := rfl
    rw [e1, List.map_cons, List.sum_cons, ih]
    simp only [bandIntegral, List.map_cons, List.sum_cons, h1, mul_one]

theorem integratePower_eq (bins : List (PowerBin K)) (a e : K) :
    integratePower bins a e =
      if (bins.filter (fun b => decide (Meets a e b))).isEmpty then .error .indexError
      else .ok (((fixLast e (fixFirst a ((bins.filter (fun b => decide (Meets a e b))).map
        fun b => (b, 1)))).map fun x => (x.1.power - x.1.noise) * (x.1.df * x.2)).sum) := by
  have : (fun b : PowerBin K => decide (a < b.f + b.df / 2) && decide (b.f - b.df / 2 < e)) =
      (fun b => decide (Meets a e b)) := by
    funext b
    rw [Bool.eq_iff_iff, decide_eq_true_iff, Meets, Bool.and_eq_true, decide_eq_true_iff, decide_eq_true_iff]
  unfold integratePower
  simp only [this]

/-- **C46 (partial).** For adjacent frequency bins and a band inside their span that meets at least two bins, the result is the integral of the power over the band,
each bin weighted by the part of it inside the band.
What is missing from C46: bands that meet a single bin, and bands that go beyond the span of the bins (negations below). -/
theorem integrate_power_partial (bins : List (PowerBin K)) (a e : K) (hae : a < e)
    (hc : Contiguous bins) (hfirst : ∀ b ∈ bins.head?, b.f - b.df / 2 ≤ a)
    (hlast : ∀ b ∈ bins.getLast?, e ≤ b.f + b.df / 2)
    (h2 : 2 ≤ (bins.filter (fun b => decide (Meets a e b))).length) :
    integratePower bins a e = .ok (bandIntegral bins a e) := by
  rw [integratePower_eq, bandIntegral_filter]
  have hmeet : ∀ b ∈ bins.filter (fun b => decide (Meets a e b)), Meets a e b := by
    intro b hb
    simpa using (List.mem_filter.1 hb).2
  have hpos : ∀ b ∈ bins.filter (fun b => decide (Meets a e b)), 0 < b.df := by
    intro b hb
    exact contiguous_pos bins hc b (List.mem_filter.1 hb).1
  have hpw := (contiguous_pairwise bins hc).sublist (List.filter_sublist (p := fun b => decide (Meets a e b)))
  have hF := first_meets a e hae bins hc hfirst
  have hL := last_meets a e bins hc hlast
  generalize bins.filter (fun b => decide (Meets a e b)) = l at *
  match l, h2 with
  | b :: c :: l, _ =>
    have hb := hF b _ rfl
    rw [List.pairwise_cons] at hpw
    simp only [List.isEmpty_cons, Bool.false_eq_true, if_false]
    congr 1
    have e1 : fixLast e (fixFirst a ((b :: c :: l).map fun b => (b, (1 : K)))) =
        (b, (b.f + 1 / 2 * b.df - a) / b.df) :: fixLast e ((c :: l).map fun b => (b, (1 : K))) := rfl
    have hyl : (c :: l).getLast? = some ((c :: l).getLast (by simp)) := List.getLast?_eq_some_getLast (by simp)
    have h1 := fixLast_sum e a (c :: l) ((c :: l).getLast (by simp)) hyl hpw.2 (by
        intro x hx
        refine ⟨hmeet x (by simp [hx]), hpos x (by simp [hx]), ?_⟩
        have := hpw.1 x hx
        have := (hmeet b (by simp)).1
        linarith) (hL _ (by rw [List.getLast?_cons_cons]; exact hyl))
    rw [e1, List.map_cons, List.sum_cons, h1]
    simp only [bandIntegral, List.map_cons, List.sum_cons]
    congr 1
    have hd := hpos b (by simp)
    have hcm := hmeet c (by simp)
    have hbc := hpw.1 c (by simp)
    have h2 : bandOverlap b a e = b.f + b.df / 2 - a := by
      unfold bandOverlap
      rw [min_eq_left (by linarith [hcm.2]), max_eq_right hb, max_eq_right]
      linarith [(hmeet b (by simp)).1]
    rw [h2]
    have := hd.ne'
    field_simp

/-- **C46 (negation).** A band inside a single bin gets the wrong weight (its second correction replaces the first): here half of the bin is in the band, and it is
counted as three quarters. -/
theorem integrate_power_single_bin : ∃ (bins : List (PowerBin ℚ)) (a e : ℚ), a < e ∧ Contiguous bins ∧
    (∀ b ∈ bins.head?, b.f - b.df / 2 ≤ a) ∧ (∀ b ∈ bins.getLast?, e ≤ b.f + b.df / 2) ∧
    integratePower bins a e = .ok (3 / 2) ∧ bandIntegral bins a e = 1 :=
  ⟨[⟨1, 1, 5, 0⟩, ⟨2, 1, 2, 0⟩, ⟨3, 1, 7, 0⟩], 7/4, 9/4, by norm_num,
    by simp only [Contiguous]; norm_num, by norm_num, by norm_num, by decide +kernel, by decide +kernel⟩

/-- **C46 (negation, outside).** A band that begins before the first bin, as `[0, …]` always does, gives that bin a weight above 1. -/
theorem integrate_power_outside : ∃ (bins : List (PowerBin ℚ)) (e : ℚ), 0 < e ∧ Contiguous bins ∧
    (∀ b ∈ bins.getLast?, e ≤ b.f + b.df / 2) ∧
    2 ≤ (bins.filter (fun b => decide (Meets 0 e b))).length ∧
    integratePower bins 0 e = .ok (17 / 2) ∧ bandIntegral bins 0 e = 6 :=
  ⟨[⟨1, 1, 5, 0⟩, ⟨2, 1, 2, 0⟩, ⟨3, 1, 7, 0⟩], 2, by norm_num,
    by simp only [Contiguous]; norm_num, by norm_num, by decide +kernel, by decide +kernel, by decide +kernel⟩

example : integratePower [(⟨1, 1, 5, 0⟩ : PowerBin ℚ), ⟨2, 1, 2, 0⟩, ⟨3, 1, 7, 0⟩] (3/4) 3 =
    .ok (37/4) := by decide +kernel

end Stingray.Fourier
