import Verif.Lemmas.LombScargle
import Verif.Lemmas.GtiSegments

/-!
C176: spectra of unevenly sampled light curves (Lomb-Scargle).
-/

namespace Stingray.LombScargle

open Stingray

set_option linter.unusedSectionVars false

section Frequencies

variable {K : Type} [Field K] [LinearOrder K] [IsStrictOrderedRing K] [FloorRing K]

/-- **C176 (frequencies).** With a lowest frequency, a highest frequency and a resolution, the frequencies start at the lowest, are spaced by the resolution, and the last of them is the first that is not below the highest requested. -/
theorem ls_frequencies (lo hi d : K) (dt length : Option K) (nyq : K) (h0 : 0 < lo) (hd : 0 < d) (hle : lo ≤ hi) :
    ∃ n : Nat, autofrequency (some lo) (some hi) (some d) dt length nyq = .ok ((List.range (n + 1)).map fun (j : Nat) => lo + j * d) ∧
      hi ≤ lo + n * d ∧ lo + n * d < hi + d := by
  have hpos : 0 < (hi + d - lo) / d := by
    apply div_pos _ hd; linarith
  obtain ⟨n, hn⟩ : ∃ n, ⌈(hi + d - lo) / d⌉₊ = n + 1 := ⟨⌈(hi + d - lo) / d⌉₊ - 1, by have := Nat.ceil_pos.2 hpos; omega⟩
  refine ⟨n, ?_, ?_, ?_⟩
  · have e1 : (some d).filter (fun x => decide (0 < x)) = some d := by simp [Option.filter, hd]
    have e2 : (some lo).filter (fun x => decide (0 < x)) = some lo := by simp [Option.filter, h0]
    simp only [autofrequency, e1, e2, Option.getD_some]
    unfold Gti.arange
    rw [hn]
  · have h := Nat.le_ceil ((hi + d - lo) / d)
    rw [hn, div_le_iff₀ hd] at h
    push_cast at h
    linarith
  · have h : n < ⌈(hi + d - lo) / d⌉₊ := by omega
    rw [Nat.lt_ceil, lt_div_iff₀ hd] at h
    linarith

example : (0 : ℚ) < 1 ∧ (0 : ℚ) < 2 ∧ (1 : ℚ) ≤ 4 := by decide +kernel

/-- **C176 (defaults).** A missing or non-positive resolution is the inverse of the length of the observation, a missing highest frequency is the Nyquist frequency times the factor, a missing or non-positive lowest frequency is half the resolution; without a resolution and a length, or without a highest frequency and a bin time, a ValueError is raised. -/
theorem ls_defaults (lo hi df dt length : Option K) (nyq d D : K) (hdf : df.all fun x => decide (x ≤ 0)) :
    (∀ T, 0 < T → autofrequency lo hi df dt (some T) nyq = autofrequency lo hi (some (1 / T)) dt (some T) nyq) ∧
    autofrequency lo hi df dt none nyq = .error .valueError ∧
    (0 < d → autofrequency lo none (some d) none length nyq = .error .valueError ∧ autofrequency lo none (some d) (some 0) length nyq = .error .valueError) ∧
    (0 < d → D ≠ 0 → autofrequency lo none (some d) (some D) length nyq = autofrequency lo (some (nyq / (2 * D))) (some d) (some D) length nyq) ∧
    (0 < d → lo.all (fun x => decide (x ≤ 0)) → autofrequency lo hi (some d) dt length nyq = autofrequency (some (d / 2)) hi (some d) dt length nyq) := by
  have hf : ∀ o : Option K, o.all (fun x => decide (x ≤ 0)) → o.filter (fun x => decide (0 < x)) = none := by
    intro o ho
    cases o with
    | none => rfl
    | some x =>
      have : ¬ 0 < x := by simpa using ho
      simp [Option.filter, this]
  have hs : ∀ x : K, 0 < x → (some x).filter (fun x => decide (0 < x)) = some x := by
    intro x hx; simp [Option.filter, hx]
  refine ⟨fun T hT => ?_, ?_, ?_, ?_, ?_⟩
  · have hT' : (0 : K) < 1 / T := by positivity
    simp only [autofrequency, hf df hdf, hs _ hT', Option.getD_some, Option.getD_none]
  · simp only [autofrequency, hf df hdf]
  · intro hd
    constructor
    · simp [autofrequency, hs d hd]
    · have e : (some (0 : K)).filter (fun x => decide (x ≠ 0)) = none := by simp [Option.filter]
      simp only [autofrequency, hs d hd, e]
  · intro hd hD
    have e : (some D).filter (fun x => decide (x ≠ 0)) = some D := by simp [Option.filter, hD]
    have e2 : nyq * (1 / 2) / D = nyq / (2 * D) := by field_simp
    simp only [autofrequency, hs d hd, e, Option.getD_some, Option.getD_none, e2]
  · intro hd hlo
    have h2 : (0 : K) < d / 2 := by positivity
    simp only [autofrequency, hs d hd, hf lo hlo, hs _ h2, Option.getD_some, Option.getD_none]

example : (none : Option ℚ).all (fun x => decide (x ≤ 0)) = true ∧ (0 : ℚ) < 1 ∧ (2 : ℚ) ≠ 0 := by decide +kernel

/-- **C176 (negation).** `max_freq` is not the highest frequency: with `min_freq=1`, `max_freq=2`, `df=2` the spectrum reaches 3. -/
theorem ls_max_freq : ∃ fs : List ℚ, autofrequency (some 1) (some 2) (some 2) none none 1 = .ok fs ∧ ∃ f ∈ fs, 2 < f :=
  ⟨[1, 3], by decide +kernel, 3, by decide +kernel, by decide +kernel⟩

/-- **C176 (negation).** The resolution asked for is not used by the cross spectrum: whatever `df`, the frequencies are those of the default resolution. -/
theorem ls_df_ignored :
    (∀ (lo hi df dt length : Option K) (nyq : K), crossFrequencies lo hi df dt length nyq = crossFrequencies lo hi none dt length nyq) ∧
    ∃ a b : List ℚ, crossFrequencies (some 1) (some 2) (some (1 / 2)) none (some 1) 1 = .ok a ∧ autofrequency (some 1) (some 2) (some (1 / 2)) none (some 1) 1 = .ok b ∧ a ≠ b :=
  ⟨fun _ _ _ _ _ _ => rfl, [1, 2], [1, 3 / 2, 2], by decide +kernel, by decide +kernel, by decide +kernel⟩

/-- **C176 (checks).** The arguments are accepted exactly if the names are known, the frequency limits are non-negative and in order, and the data are two event lists with a bin time above the resolution, or two light curves. -/
theorem ls_checks (res : K) (a : Args K) :
    initialChecks res a = .ok () ↔
      (∃ n ∈ a.norm, n ∈ ["frac", "abs", "leahy", "none"]) ∧ (∃ p ∈ a.powerType, p ∈ ["all", "absolute", "real"]) ∧
      (∀ x ∈ a.minFreq, 0 ≤ x) ∧ (∀ x ∈ a.maxFreq, 0 ≤ x) ∧ (∀ x ∈ a.maxFreq, ∀ y ∈ a.minFreq, y < x) ∧
      a.method ∈ ["fast", "slow"] ∧ a.oversamplingIsInt = true ∧ a.fullspecIsBool = true ∧
      ((a.data1 = .events ∧ a.data2 = .events ∧ ∃ t ∈ a.dt, res < t) ∨ (a.data1 = .lightcurve ∧ a.data2 = .lightcurve)) := by
  obtain ⟨d1, d2, nrm, pt, dt, lo, hi, me, ov, fu⟩ := a
  cases nrm with
  | none => simp [initialChecks]
  | some nrm =>
  cases pt with
  | none => simp [initialChecks]
  | some pt =>
  by_cases h1 : nrm ∈ ["frac", "abs", "leahy", "none"]
  swap
  · simp only [initialChecks, if_pos h1]
    constructor
    · intro h; simp at h
    · rintro ⟨⟨n, hn, hm⟩, _⟩
      cases hn; exact absurd hm h1
  by_cases h2 : pt ∈ ["all", "absolute", "real"]
  swap
  · simp only [initialChecks, if_neg (not_not.2 h1), if_pos h2]
    constructor
    · intro h; simp at h
    · rintro ⟨_, ⟨n, hn, hm⟩, _⟩
      cases hn; exact absurd hm h2
  by_cases h3 : me ∈ ["fast", "slow"]
  swap
  · simp only [initialChecks, if_neg (not_not.2 h1), if_neg (not_not.2 h2), if_pos h3]
    constructor
    · intro h
      split_ifs at h
    · rintro ⟨_, _, _, _, _, hm, _⟩
      exact absurd hm h3
  simp only [initialChecks, if_neg (not_not.2 h1), if_neg (not_not.2 h2), if_neg (not_not.2 h3)]
  have e1 : (lo.any fun x => decide (x < 0)) = true ↔ ¬ ∀ x ∈ lo, 0 ≤ x := by
    cases lo <;> simp
  have e2 : (hi.any fun x => decide (x < 0)) = true ↔ ¬ ∀ x ∈ hi, 0 ≤ x := by
    cases hi <;> simp
  have e3 : (hi.any fun x => lo.any fun y => decide (x ≤ y)) = true ↔ ¬ ∀ x ∈ hi, ∀ y ∈ lo, y < x := by
    cases hi <;> cases lo <;> simp
  have e4 : (dt.all fun x => decide (x ≤ res)) = true ↔ ¬ ∃ t ∈ dt, res < t := by
    cases dt <;> simp
  constructor
  · intro h
    split_ifs at h with g0 g1 g2 g3 g4 g5 g6 g7 g8 g9
    · have hA := not_not.1 (fun c => g1 (e1.2 c))
      have hB := not_not.1 (fun c => g2 (e2.2 c))
      have hC := not_not.1 (fun c => g3 (e3.2 c))
      have hD := not_not.1 (fun c => g8 (e4.2 c))
      exact ⟨⟨nrm, rfl, h1⟩, ⟨pt, rfl, h2⟩, hA, hB, hC, h3, by simpa using g4, by simpa using g5, Or.inl ⟨g7, (not_not.1 g6) ▸ g7, hD⟩⟩
    · have hA := not_not.1 (fun c => g1 (e1.2 c))
      have hB := not_not.1 (fun c => g2 (e2.2 c))
      have hC := not_not.1 (fun c => g3 (e3.2 c))
      exact ⟨⟨nrm, rfl, h1⟩, ⟨pt, rfl, h2⟩, hA, hB, hC, h3, by simpa using g4, by simpa using g5, Or.inr ⟨g9, (not_not.1 g6) ▸ g9⟩⟩
  · rintro ⟨_, _, hA, hB, hC, _, ho, hf, hk⟩
    subst ho hf
    have g1 : ¬ (lo.any fun x => decide (x < 0)) = true := fun c => e1.1 c hA
    have g2 : ¬ (hi.any fun x => decide (x < 0)) = true := fun c => e2.1 c hB
    have g3 : ¬ (hi.any fun x => lo.any fun y => decide (x ≤ y)) = true := fun c => e3.1 c hC
    rw [if_neg (by rcases hk with ⟨rfl, rfl, _⟩ | ⟨rfl, rfl⟩ <;> simp), if_neg g1, if_neg g2, if_neg g3]
    rcases hk with ⟨rfl, rfl, hD⟩ | ⟨rfl, rfl⟩
    · have g8 : ¬ (dt.all fun x => decide (x ≤ res)) = true := fun c => e4.1 c hD
      simp only [g8]; simp
    · simp

/-- **C176 (length).** The length used for the resolution is that of the shortest interval with all the times of both light curves. -/
theorem ls_span (t1 t2 : List K) (h1 : t1.Pairwise (· ≤ ·)) (h2 : t2.Pairwise (· ≤ ·)) (n1 : t1 ≠ []) (n2 : t2 ≠ []) :
    IsLeast {L : K | ∃ a, ∀ t ∈ t1 ++ t2, a ≤ t ∧ t ≤ a + L} (span t1 t2) := by
  have hlo : ∀ (l : List K), l.Pairwise (· ≤ ·) → ∀ t ∈ l, l.headD 0 ≤ t := by
    intro l hl t ht
    cases l with
    | nil => simp at ht
    | cons x xs =>
      rcases List.mem_cons.1 ht with rfl | h
      · exact le_refl _
      · exact (List.pairwise_cons.1 hl).1 t h
  have hhi : ∀ (l : List K), l.Pairwise (· ≤ ·) → ∀ t ∈ l, t ≤ l.getLastD 0 := by
    intro l hl t ht
    obtain ⟨l', x, rfl⟩ : ∃ l' x, l = l' ++ [x] := by
      rcases List.eq_nil_or_concat l with rfl | ⟨l', x, h⟩
      · simp at ht
      · exact ⟨l', x, by rw [h, List.concat_eq_append]⟩
    rw [List.getLastD_eq_getLast?, List.getLast?_concat]
    rcases List.mem_append.1 ht with h | h
    · exact (List.pairwise_append.1 hl).2.2 t h x (by simp)
    · simp at h; simp [h]
  have hm : ∀ l : List K, l ≠ [] → l.headD 0 ∈ l ∧ l.getLastD 0 ∈ l := by
    intro l hl
    obtain ⟨x, xs, rfl⟩ := List.exists_cons_of_ne_nil hl
    refine ⟨by simp, ?_⟩
    rw [List.getLastD_eq_getLast?, List.getLast?_eq_getLast_of_ne_nil hl]
    exact List.getLast_mem hl
  constructor
  · refine ⟨min (t1.headD 0) (t2.headD 0), fun t ht => ?_⟩
    have : min (t1.headD 0) (t2.headD 0) + span t1 t2 = max (t1.getLastD 0) (t2.getLastD 0) := by unfold span; ring
    rw [this]
    rcases List.mem_append.1 ht with h | h
    · exact ⟨(min_le_left _ _).trans (hlo t1 h1 t h), (hhi t1 h1 t h).trans (le_max_left _ _)⟩
    · exact ⟨(min_le_right _ _).trans (hlo t2 h2 t h), (hhi t2 h2 t h).trans (le_max_right _ _)⟩
  · rintro L ⟨a, ha⟩
    have p1 := ha _ (List.mem_append_left t2 (hm t1 n1).1)
    have p2 := ha _ (List.mem_append_left t2 (hm t1 n1).2)
    have q1 := ha _ (List.mem_append_right t1 (hm t2 n2).1)
    have q2 := ha _ (List.mem_append_right t1 (hm t2 n2).2)
    have hA : a ≤ min (t1.headD 0) (t2.headD 0) := le_min p1.1 q1.1
    have hB : max (t1.getLastD 0) (t2.getLastD 0) ≤ a + L := max_le p2.2 q2.2
    unfold span
    linarith

example : ([1, 2] : List ℚ).Pairwise (· ≤ ·) ∧ ([0, 5] : List ℚ).Pairwise (· ≤ ·) := by decide +kernel

example : initialChecks (0 : ℚ) ⟨.lightcurve, .lightcurve, some "leahy", some "all", none, some 1, some 2, "fast", true, true⟩ = .ok () := by decide +kernel

end Frequencies

/-- **C176 (least squares).** Twice the squared modulus of the transform, over the number of points, is what the best sinusoid of that frequency takes off the sum of squares of the mean-subtracted counts, wherever the samples lie. -/
theorem ls_least_squares (d : List (ℝ × ℝ)) (f : ℝ) (F : ℂ) (hf : f ≠ 0) (h : slowAt 1 d f = some F) :
    IsLeast {r : ℝ | ∃ a b : ℝ, r = (d.map fun p => (p.2 - mean d - (a * Real.cos (2 * Real.pi * f * p.1) + b * Real.sin (2 * Real.pi * f * p.1))) ^ 2).sum}
      ((d.map fun p => (p.2 - mean d) ^ 2).sum - 2 / d.length * ‖F‖ ^ 2) := by
  simp only [slowAt, if_neg (w_ne hf)] at h
  have ho := orthogonal d (f * 2 * Real.pi)
  set w := f * 2 * Real.pi with hw
  set τ := 1 / 2 * arctan2 (d.map fun p => Real.sin (2 * w * p.1)).sum (d.map fun p => Real.cos (2 * w * p.1)).sum with hτ
  set P := (d.map fun p => (p.2 - mean d) * Real.cos (w * p.1 - τ)).sum with hP
  set Q := (d.map fun p => (p.2 - mean d) * Real.sin (w * p.1 - τ)).sum with hQ
  set A := (d.map fun p => Real.cos (w * p.1 - τ) ^ 2).sum with hA
  set B := (d.map fun p => Real.sin (w * p.1 - τ) ^ 2).sum with hB
  have hA0 : 0 ≤ A := sum_sq_nonneg d fun p => Real.cos (w * p.1 - τ)
  have hB0 : 0 ≤ B := sum_sq_nonneg d fun p => Real.sin (w * p.1 - τ)
  by_cases hz : A = 0 ∨ B = 0
  · rw [if_pos hz] at h; simp at h
  rw [if_neg hz, Option.some.injEq] at h
  push Not at hz
  have hAp : 0 < A := lt_of_le_of_ne hA0 (Ne.symm hz.1)
  have hBp : 0 < B := lt_of_le_of_ne hB0 (Ne.symm hz.2)
  have hn : (0 : ℝ) < d.length := by
    rcases d with _ | ⟨p, d⟩
    · simp [hA] at hz
    · simp; positivity
  have hF : 2 / (d.length : ℝ) * ‖F‖ ^ 2 = P ^ 2 / A + Q ^ 2 / B := by
    rw [← h, norm_mul, norm_exp_neg_I, mul_one, norm_mk_sq]
    have s1 : √(1 / 2 * (d.length : ℝ)) ^ 2 = 1 / 2 * d.length := Real.sq_sqrt (by positivity)
    have s2 : √A ^ 2 = A := Real.sq_sqrt hA0
    have s3 : √B ^ 2 = B := Real.sq_sqrt hB0
    simp only [sign_one, SignType.coe_one, mul_one, div_pow, mul_pow, s1, s2, s3]
    field_simp
  have key : ∀ a b : ℝ, (d.map fun p => (p.2 - mean d - (a * Real.cos (2 * Real.pi * f * p.1) + b * Real.sin (2 * Real.pi * f * p.1))) ^ 2).sum =
      (d.map fun p => (p.2 - mean d) ^ 2).sum - (P ^ 2 / A + Q ^ 2 / B) +
        A * (a * Real.cos τ + b * Real.sin τ - P / A) ^ 2 + B * (b * Real.cos τ - a * Real.sin τ - Q / B) ^ 2 := by
    intro a b
    have e : ∀ p ∈ d, (p.2 - mean d - (a * Real.cos (2 * Real.pi * f * p.1) + b * Real.sin (2 * Real.pi * f * p.1))) ^ 2 =
        (p.2 - mean d - ((a * Real.cos τ + b * Real.sin τ) * Real.cos (w * p.1 - τ) + (b * Real.cos τ - a * Real.sin τ) * Real.sin (w * p.1 - τ))) ^ 2 := by
      intro p _
      have hx : 2 * Real.pi * f * p.1 = (w * p.1 - τ) + τ := by rw [hw]; ring
      rw [hx, Real.cos_add, Real.sin_add]
      ring
    rw [sum_map_congr e, residuals d (fun p => p.2 - mean d) (fun p => Real.cos (w * p.1 - τ)) (fun p => Real.sin (w * p.1 - τ)) _ _ ho]
    simp only [← hP, ← hQ, ← hA, ← hB]
    field_simp
    ring
  rw [hF]
  constructor
  · refine ⟨P / A * Real.cos τ - Q / B * Real.sin τ, P / A * Real.sin τ + Q / B * Real.cos τ, ?_⟩
    rw [key]
    have hcs := Real.sin_sq_add_cos_sq τ
    have e1 : (P / A * Real.cos τ - Q / B * Real.sin τ) * Real.cos τ + (P / A * Real.sin τ + Q / B * Real.cos τ) * Real.sin τ - P / A = 0 := by
      linear_combination (P / A) * hcs
    have e2 : (P / A * Real.sin τ + Q / B * Real.cos τ) * Real.cos τ - (P / A * Real.cos τ - Q / B * Real.sin τ) * Real.sin τ - Q / B = 0 := by
      linear_combination (Q / B) * hcs
    rw [e1, e2]; ring
  · rintro r ⟨a, b, rfl⟩
    rw [key]
    have h1 : 0 ≤ A * (a * Real.cos τ + b * Real.sin τ - P / A) ^ 2 := by positivity
    have h2 : 0 ≤ B * (b * Real.cos τ - a * Real.sin τ - Q / B) ^ 2 := by positivity
    linarith

/-- **C176 (affine).** A constant added to the counts does not change the transform, and a factor multiplies it. -/
theorem ls_affine (sign c k : ℝ) (d : List (ℝ × ℝ)) (f : ℝ) :
    slowAt sign (d.map fun p => (p.1, c * p.2 + k)) f = (slowAt sign d f).map fun z => (c : ℂ) * z := by
  have hh : ((d.map fun p => (p.1, c * p.2 + k)).headD (0, 0)).1 = (d.headD (0, 0)).1 := by cases d <;> rfl
  have hs : ∀ g : ℝ → ℝ, ((d.map fun p => (p.1, c * p.2 + k)).map fun p => (p.2 - mean (d.map fun p => (p.1, c * p.2 + k))) * g p.1).sum = c * (d.map fun p => (p.2 - mean d) * g p.1).sum := by
    intro g
    rw [List.map_map, ← List.sum_map_mul_left]
    apply sum_map_congr
    intro p hp
    simp only [Function.comp]
    rw [affine_sub_mean d c k p hp]; ring
  have ht : ∀ g : ℝ → ℝ, ((d.map fun p => (p.1, c * p.2 + k)).map fun p => g p.1).sum = (d.map fun p => g p.1).sum := by
    intro g; rw [List.map_map]; rfl
  have h1 := hs (fun _ => 1)
  simp only [mul_one] at h1
  simp only [slowAt, hh, List.length_map]
  rw [h1, ht (fun t => Real.cos (2 * (f * 2 * Real.pi) * t)), ht (fun t => Real.sin (2 * (f * 2 * Real.pi) * t))]
  set τ := 1 / 2 * arctan2 (d.map fun p => Real.sin (2 * (f * 2 * Real.pi) * p.1)).sum (d.map fun p => Real.cos (2 * (f * 2 * Real.pi) * p.1)).sum
  rw [hs (fun t => Real.cos (f * 2 * Real.pi * t - τ)), hs (fun t => Real.sin (f * 2 * Real.pi * t - τ)),
    ht (fun t => Real.cos (f * 2 * Real.pi * t - τ) ^ 2), ht (fun t => Real.sin (f * 2 * Real.pi * t - τ) ^ 2)]
  split_ifs
  · simp only [Option.map_some, Option.some.injEq]
    push_cast; ring
  · rfl
  · simp only [Option.map_some, Option.some.injEq]
    have hc : ∀ u v x u' v' x' : ℝ, (⟨u * (c * v) / x, u' * (c * v') / x'⟩ : ℂ) = (c : ℂ) * ⟨u * v / x, u' * v' / x'⟩ := by
      intro u v x u' v' x'
      apply Complex.ext
      · simp only [Complex.re_ofReal_mul]; ring
      · simp only [Complex.im_ofReal_mul]; ring
    rw [hc, mul_assoc]

/-- **C176 (time shift).** Moving all the samples in time does not change the transform, except where the sums of `cos 2wt` and `sin 2wt` both vanish. -/
theorem ls_time_shift (sign s : ℝ) (d : List (ℝ × ℝ)) (f : ℝ)
    (hz : (d.map fun p => Real.cos (2 * (2 * Real.pi * f) * p.1)).sum ≠ 0 ∨ (d.map fun p => Real.sin (2 * (2 * Real.pi * f) * p.1)).sum ≠ 0) :
    slowAt sign (d.map fun p => (p.1 + s, p.2)) f = slowAt sign d f := by
  have hw : 2 * Real.pi * f = f * 2 * Real.pi := by ring
  rw [hw] at hz
  have hd : d ≠ [] := by rintro rfl; simp at hz
  obtain ⟨q, ds, rfl⟩ : ∃ q ds, d = q :: ds := List.exists_cons_of_ne_nil hd
  set d := q :: ds with hdd
  have hh : ((d.map fun p => (p.1 + s, p.2)).headD (0, 0)).1 = (d.headD (0, 0)).1 + s := rfl
  have hm := mean_shift d s
  have ht : ∀ g : ℝ × ℝ → ℝ, ((d.map fun p => (p.1 + s, p.2)).map g).sum = (d.map fun p => g (p.1 + s, p.2)).sum := by
    intro g; rw [List.map_map]; rfl
  simp only [slowAt, hh, hm, List.length_map, ht]
  set w := f * 2 * Real.pi with hww
  by_cases hw0 : w = 0
  · rw [if_pos hw0, if_pos hw0]
  rw [if_neg hw0, if_neg hw0]
  set C := (d.map fun p => Real.cos (2 * w * p.1)).sum with hC
  set S := (d.map fun p => Real.sin (2 * w * p.1)).sum with hS
  have hrot : (⟨(d.map fun p => Real.cos (2 * w * (p.1 + s))).sum, (d.map fun p => Real.sin (2 * w * (p.1 + s))).sum⟩ : ℂ) = (⟨C, S⟩ : ℂ) * Complex.exp (((2 * w * s : ℝ) : ℂ) * Complex.I) := by
    have e1 := expSum d (fun _ => 1) (fun p => 2 * w * (p.1 + s))
    have e2 := expSum d (fun _ => 1) (fun p => 2 * w * p.1)
    simp only [one_mul] at e1 e2
    rw [← e1, hC, hS, ← e2, ← List.sum_map_mul_right]
    apply sum_map_congr
    intro p _
    rw [Complex.ofReal_one, one_mul, one_mul, ← Complex.exp_add]
    congr 1; push_cast; ring
  obtain ⟨k, hk⟩ := Spectroscopy.arg_rotate (⟨C, S⟩ : ℂ) (by
    intro h0
    rw [Complex.ext_iff] at h0
    simp at h0
    rcases hz with h | h
    · exact h h0.1
    · exact h h0.2) (2 * w * s)
  have hτ : 1 / 2 * arctan2 (d.map fun p => Real.sin (2 * w * (p.1 + s))).sum (d.map fun p => Real.cos (2 * w * (p.1 + s))).sum = 1 / 2 * arctan2 S C + w * s + k * Real.pi := by
    unfold arctan2
    rw [hrot, hk]; ring
  rw [hτ]
  set τ := 1 / 2 * arctan2 S C with hττ
  have hcos : ∀ t : ℝ, Real.cos (w * (t + s) - (τ + w * s + k * Real.pi)) = (-1) ^ k * Real.cos (w * t - τ) := by
    intro t
    rw [← Real.cos_sub_int_mul_pi]; congr 1; ring
  have hsin : ∀ t : ℝ, Real.sin (w * (t + s) - (τ + w * s + k * Real.pi)) = (-1) ^ k * Real.sin (w * t - τ) := by
    intro t
    rw [← Real.sin_sub_int_mul_pi]; congr 1; ring
  have hε : ((-1 : ℝ) ^ k) ^ 2 = 1 := by
    rcases Int.even_or_odd k with h | h
    · rw [h.neg_one_zpow]; norm_num
    · rw [h.neg_one_zpow]; norm_num
  have hexp : Complex.exp (-Complex.I * ((τ + w * s + k * Real.pi - w * ((d.headD (0, 0)).1 + s) : ℝ) : ℂ)) = (((-1 : ℝ) ^ k : ℝ) : ℂ) * Complex.exp (-Complex.I * ((τ - w * (d.headD (0, 0)).1 : ℝ) : ℂ)) := by
    have e1 : (-Complex.I * ((τ + w * s + k * Real.pi - w * ((d.headD (0, 0)).1 + s) : ℝ) : ℂ)) = (-Complex.I * ((τ - w * (d.headD (0, 0)).1 : ℝ) : ℂ)) + -((k : ℂ) * (Real.pi * Complex.I)) := by
      push_cast; ring
    rw [e1, Complex.exp_add, Complex.exp_neg, Complex.exp_int_mul, Complex.exp_pi_mul_I, mul_comm]
    congr 1
    rcases Int.even_or_odd k with h | h
    · rw [h.neg_one_zpow, h.neg_one_zpow]; simp
    · rw [h.neg_one_zpow, h.neg_one_zpow]; simp
  simp only [hcos, hsin]
  have m1 : ∀ g : ℝ × ℝ → ℝ, (d.map fun p => (p.2 - mean d) * ((-1) ^ k * g p)).sum = (-1) ^ k * (d.map fun p => (p.2 - mean d) * g p).sum := by
    intro g
    rw [← List.sum_map_mul_left]
    apply sum_map_congr
    intro p _; ring
  have m2 : ∀ g : ℝ × ℝ → ℝ, (d.map fun p => ((-1) ^ k * g p) ^ 2).sum = (d.map fun p => g p ^ 2).sum := by
    intro g
    apply sum_map_congr
    intro p _
    rw [mul_pow, hε, one_mul]
  rw [m1 (fun p => Real.cos (w * p.1 - τ)), m1 (fun p => Real.sin (w * p.1 - τ)), m2 (fun p => Real.cos (w * p.1 - τ)), m2 (fun p => Real.sin (w * p.1 - τ)), hexp]
  split_ifs
  · rfl
  · congr 1
    rw [← mul_assoc]
    congr 1
    set ε : ℝ := (-1) ^ k
    apply Complex.ext
    · simp only [Complex.mul_re, Complex.ofReal_re, Complex.ofReal_im, mul_zero, sub_zero]
      have : ∀ u v x : ℝ, u * (ε * v) / x * ε = ε ^ 2 * (u * v / x) := fun u v x => by ring
      rw [this, hε, one_mul]
    · simp only [Complex.mul_im, Complex.ofReal_re, Complex.ofReal_im, mul_zero, zero_add]
      have : ∀ u v x : ℝ, u * (ε * v) / x * ε = ε ^ 2 * (u * v / x) := fun u v x => by ring
      rw [this, hε, one_mul]

/-- the transforms where the sums of `cos 2wt` and `sin 2wt` vanish -/
theorem slow_of_balanced (d : List (ℝ × ℝ)) (f : ℝ) (hf : f ≠ 0) (hd : d ≠ [])
    (hC : (d.map fun p => Real.cos (2 * (f * 2 * Real.pi) * p.1)).sum = 0) (hS : (d.map fun p => Real.sin (2 * (f * 2 * Real.pi) * p.1)).sum = 0) :
    slowAt 1 d f = some ((d.map fun p => ((p.2 - mean d : ℝ) : ℂ) * Complex.exp (Complex.I * ((f * 2 * Real.pi * p.1 : ℝ) : ℂ))).sum *
      Complex.exp (Complex.I * ((f * 2 * Real.pi * (d.headD (0, 0)).1 : ℝ) : ℂ))) := by
  have hn : (0 : ℝ) < d.length := by exact_mod_cast List.length_pos_of_ne_nil hd
  have ha : arctan2 0 0 = 0 := by
    unfold arctan2
    exact Complex.arg_zero
  have hc : ∀ x : ℝ, Real.cos x ^ 2 = 1 / 2 + 1 / 2 * Real.cos (2 * x) := fun x => by rw [Real.cos_sq]; ring
  have hs : ∀ x : ℝ, Real.sin x ^ 2 = 1 / 2 - 1 / 2 * Real.cos (2 * x) := fun x => by rw [Real.sin_sq, Real.cos_sq]; ring
  have h1 : (d.map fun p => Real.cos (f * 2 * Real.pi * p.1) ^ 2).sum = 1 / 2 * d.length := by
    have : (d.map fun p => Real.cos (f * 2 * Real.pi * p.1) ^ 2).sum = 1 / 2 * d.length + 1 / 2 * (d.map fun p => Real.cos (2 * (f * 2 * Real.pi) * p.1)).sum := by
      clear hC hS hn hd
      induction d with
      | nil => simp
      | cons p d ih =>
        simp only [List.map_cons, List.sum_cons, List.length_cons]
        rw [ih, hc]; push_cast
        rw [show 2 * (f * 2 * Real.pi * p.1) = 2 * (f * 2 * Real.pi) * p.1 by ring]; ring
    rw [this, hC]; ring
  have h2 : (d.map fun p => Real.sin (f * 2 * Real.pi * p.1) ^ 2).sum = 1 / 2 * d.length := by
    have : (d.map fun p => Real.sin (f * 2 * Real.pi * p.1) ^ 2).sum = 1 / 2 * d.length - 1 / 2 * (d.map fun p => Real.cos (2 * (f * 2 * Real.pi) * p.1)).sum := by
      clear hC hS hn hd h1
      induction d with
      | nil => simp
      | cons p d ih =>
        simp only [List.map_cons, List.sum_cons, List.length_cons]
        rw [ih, hs]; push_cast
        rw [show 2 * (f * 2 * Real.pi * p.1) = 2 * (f * 2 * Real.pi) * p.1 by ring]; ring
    rw [this, hC]; ring
  have hne : (1 / 2 * (d.length : ℝ)) ≠ 0 := by positivity
  have hq : √(1 / 2 * (d.length : ℝ)) ≠ 0 := by positivity
  simp only [slowAt, if_neg (w_ne hf), hC, hS, ha, mul_zero, sub_zero, h1, h2, hne, or_self, if_false, sign_one, SignType.coe_one, mul_one, zero_sub]
  rw [expSum]
  congr 2
  · apply Complex.ext
    · simp only; field_simp
    · simp only; field_simp
  · congr 1; push_cast; ring

/-- the discrete Fourier transform of `x 0, …, x (n - 1)` at `k` -/
noncomputable def dftC (n : Nat) (x : Nat → ℝ) (k : Nat) : ℂ := ((List.range n).map fun (j : Nat) => (x j : ℂ) * Complex.exp (-(2 * Real.pi * Complex.I * j * k / n))).sum

theorem roots_sum (n : Nat) (hn : 0 < n) (m : Nat) (hm : ¬ n ∣ m) : ((List.range n).map fun (j : Nat) => Complex.exp (2 * Real.pi * Complex.I * j * m / n)).sum = 0 := by
  have hn' : (n : ℂ) ≠ 0 := by exact_mod_cast hn.ne'
  set z : ℂ := Complex.exp (2 * Real.pi * Complex.I * m / n) with hz
  have hzn : z ^ n = 1 := by
    rw [hz, ← Complex.exp_nat_mul, Complex.exp_eq_one_iff]
    exact ⟨m, by push_cast; field_simp⟩
  have hz1 : z ≠ 1 := by
    intro h
    rw [hz, Complex.exp_eq_one_iff] at h
    obtain ⟨q, hq⟩ := h
    have hpi : (2 * (Real.pi : ℂ) * Complex.I) ≠ 0 := by simp [Real.pi_ne_zero]
    have h3 : (m : ℂ) = n * q := by
      have h2 : 2 * (Real.pi : ℂ) * Complex.I * m = 2 * (Real.pi : ℂ) * Complex.I * (n * q) := by
        rw [div_eq_iff hn'] at hq
        rw [hq]; ring
      exact mul_left_cancel₀ hpi h2
    have h4 : (m : ℤ) = n * q := by exact_mod_cast h3
    exact hm (Int.natCast_dvd_natCast.1 ⟨q, h4⟩)
  have hg := geom_sum_eq hz1 n
  rw [hzn, sub_self, zero_div] at hg
  rw [← hg]
  change _ = ((List.range n).map fun j => z ^ j).sum
  apply sum_map_congr
  intro j _
  rw [hz, ← Complex.exp_nat_mul]
  congr 1; ring

/-- A light curve sampled every `dt` from `t0` on. -/
noncomputable def evenly (n : Nat) (t0 dt : ℝ) (x : Nat → ℝ) : List (ℝ × ℝ) := (List.range n).map fun (j : Nat) => (t0 + j * dt, x j)

theorem evenly_balanced (n k : Nat) (t0 dt : ℝ) (x : Nat → ℝ) (hn : 0 < n) (hdt : dt ≠ 0) (hk : ¬ n ∣ 2 * k) :
    ((evenly n t0 dt x).map fun p => Real.cos (2 * ((k : ℝ) / (n * dt) * 2 * Real.pi) * p.1)).sum = 0 ∧
    ((evenly n t0 dt x).map fun p => Real.sin (2 * ((k : ℝ) / (n * dt) * 2 * Real.pi) * p.1)).sum = 0 := by
  have hn' : (n : ℂ) ≠ 0 := by exact_mod_cast hn.ne'
  have hdt' : (dt : ℂ) ≠ 0 := by exact_mod_cast hdt
  have e := expSum (evenly n t0 dt x) (fun _ => 1) (fun p => 2 * ((k : ℝ) / (n * dt) * 2 * Real.pi) * p.1)
  have z : ((evenly n t0 dt x).map fun p => ((1 : ℝ) : ℂ) * Complex.exp (Complex.I * ((2 * ((k : ℝ) / (n * dt) * 2 * Real.pi) * p.1 : ℝ) : ℂ))).sum = 0 := by
    have h := roots_sum n hn (2 * k) hk
    rw [evenly, List.map_map]
    have : ((List.range n).map ((fun p : ℝ × ℝ => ((1 : ℝ) : ℂ) * Complex.exp (Complex.I * ((2 * ((k : ℝ) / (n * dt) * 2 * Real.pi) * p.1 : ℝ) : ℂ))) ∘ fun (j : Nat) => (t0 + j * dt, x j))).sum =
        ((List.range n).map fun (j : Nat) => Complex.exp (Complex.I * (2 * ((k : ℝ) / (n * dt) * 2 * Real.pi) * t0 : ℝ)) * Complex.exp (2 * Real.pi * Complex.I * j * (2 * k : Nat) / n)).sum := by
      apply sum_map_congr
      intro j _
      simp only [Function.comp, Complex.ofReal_one, one_mul]
      rw [← Complex.exp_add]
      congr 1; push_cast; field_simp
    rw [this, List.sum_map_mul_left, h, mul_zero]
  rw [z] at e
  have e' := Complex.ext_iff.1 e
  simp only [one_mul, Complex.zero_re, Complex.zero_im] at e'
  exact ⟨e'.1.symm, e'.2.symm⟩

theorem evenly_transform (n k : Nat) (t0 dt : ℝ) (x : Nat → ℝ) (hn : 0 < n) (hdt : dt ≠ 0) (hk : ¬ n ∣ k) :
    ((evenly n t0 dt x).map fun p => ((p.2 - mean (evenly n t0 dt x) : ℝ) : ℂ) * Complex.exp (Complex.I * (((k : ℝ) / (n * dt) * 2 * Real.pi * p.1 : ℝ) : ℂ))).sum =
      Complex.exp (Complex.I * (((k : ℝ) / (n * dt) * 2 * Real.pi * t0 : ℝ) : ℂ)) * starRingEnd ℂ (dftC n x k) := by
  have hn' : (n : ℂ) ≠ 0 := by exact_mod_cast hn.ne'
  have hdt' : (dt : ℂ) ≠ 0 := by exact_mod_cast hdt
  set m := mean (evenly n t0 dt x)
  have h := roots_sum n hn k hk
  have hconj : starRingEnd ℂ (dftC n x k) = ((List.range n).map fun (j : Nat) => (x j : ℂ) * Complex.exp (2 * Real.pi * Complex.I * j * k / n)).sum := by
    unfold dftC
    rw [map_list_sum, List.map_map]
    apply sum_map_congr
    intro j _
    simp only [Function.comp, map_mul, Complex.conj_ofReal, ← Complex.exp_conj]
    congr 2
    simp only [map_neg, map_div₀, map_mul, Complex.conj_ofReal, Complex.conj_I, map_natCast, map_ofNat]
    ring
  rw [hconj, ← List.sum_map_mul_left, evenly, List.map_map]
  have e1 : ((List.range n).map fun (j : Nat) => Complex.exp (Complex.I * (((k : ℝ) / (n * dt) * 2 * Real.pi * t0 : ℝ) : ℂ)) * ((x j : ℂ) * Complex.exp (2 * Real.pi * Complex.I * j * k / n))).sum =
      ((List.range n).map fun (j : Nat) => Complex.exp (Complex.I * (((k : ℝ) / (n * dt) * 2 * Real.pi * t0 : ℝ) : ℂ)) * (((x j - m : ℝ) : ℂ) * Complex.exp (2 * Real.pi * Complex.I * j * k / n))).sum := by
    have : ∀ j ∈ List.range n, Complex.exp (Complex.I * (((k : ℝ) / (n * dt) * 2 * Real.pi * t0 : ℝ) : ℂ)) * ((x j : ℂ) * Complex.exp (2 * Real.pi * Complex.I * j * k / n)) =
        Complex.exp (Complex.I * (((k : ℝ) / (n * dt) * 2 * Real.pi * t0 : ℝ) : ℂ)) * (((x j - m : ℝ) : ℂ) * Complex.exp (2 * Real.pi * Complex.I * j * k / n)) +
        Complex.exp (Complex.I * (((k : ℝ) / (n * dt) * 2 * Real.pi * t0 : ℝ) : ℂ)) * m * Complex.exp (2 * Real.pi * Complex.I * j * k / n) := by
      intro j _; push_cast; ring
    rw [sum_map_congr this, List.sum_map_add, List.sum_map_mul_left (f := fun (j : Nat) => Complex.exp (2 * Real.pi * Complex.I * j * k / n)), h, mul_zero, add_zero]
  rw [e1]
  apply sum_map_congr
  intro j _
  simp only [Function.comp]
  rw [mul_left_comm, ← Complex.exp_add]
  congr 2; push_cast; field_simp

/-- **C176 (even sampling).** For two light curves with the same even sampling, at a Fourier frequency other than zero and the Nyquist frequency, the cross spectrum is `conj(X1) X2` of the discrete Fourier transforms: what the ordinary cross spectrum gives, whatever the first time. -/
theorem ls_even (n k : Nat) (t0 dt : ℝ) (x y : Nat → ℝ) (hdt : 0 < dt) (hk : 0 < k) (hkn : k < n) (h2 : 2 * k ≠ n) :
    crossAt (slowAt 1 (evenly n t0 dt x) (k / (n * dt))) (slowAt 1 (evenly n t0 dt y) (k / (n * dt))) =
      some (starRingEnd ℂ (dftC n x k) * dftC n y k) := by
  have hn : 0 < n := by omega
  have hd2 : ¬ n ∣ 2 * k := by
    rintro ⟨q, hq⟩
    have hq1 : q < 2 := by
      by_contra hc
      have : n * 2 ≤ n * q := Nat.mul_le_mul_left n (by omega)
      omega
    have : q = 0 ∨ q = 1 := by omega
    rcases this with rfl | rfl <;> omega
  have hd1 : ¬ n ∣ k := fun h => hd2 (h.mul_left 2)
  have hf : (k : ℝ) / (n * dt) ≠ 0 := by
    have : (0 : ℝ) < k := by exact_mod_cast hk
    have : (0 : ℝ) < n := by exact_mod_cast hn
    positivity
  have hne : ∀ x, evenly n t0 dt x ≠ [] := by
    intro x h
    have := congrArg List.length h
    simp [evenly] at this
    omega
  have hhead : ∀ x, ((evenly n t0 dt x).headD (0, 0)).1 = t0 := by
    intro x
    obtain ⟨m, rfl⟩ : ∃ m, n = m + 1 := ⟨n - 1, by omega⟩
    simp [evenly, List.range_succ_eq_map]
  have hX : ∀ x, slowAt 1 (evenly n t0 dt x) (k / (n * dt)) = some (Complex.exp (Complex.I * (((k : ℝ) / (n * dt) * 2 * Real.pi * t0 : ℝ) : ℂ)) * starRingEnd ℂ (dftC n x k) * Complex.exp (Complex.I * (((k : ℝ) / (n * dt) * 2 * Real.pi * t0 : ℝ) : ℂ))) := by
    intro x
    obtain ⟨hC, hS⟩ := evenly_balanced n k t0 dt x hn hdt.ne' hd2
    rw [slow_of_balanced _ _ hf (hne x) hC hS, evenly_transform n k t0 dt x hn hdt.ne' hd1, hhead]
  rw [hX, hX]
  simp only [crossAt, Option.bind_some, Option.map_some, Option.some.injEq, map_mul, Complex.conj_conj]
  set E := Complex.exp (Complex.I * (((k : ℝ) / (n * dt) * 2 * Real.pi * t0 : ℝ) : ℂ)) with hE
  have hEE : E * starRingEnd ℂ E = 1 := by
    rw [Complex.mul_conj, Complex.normSq_eq_norm_sq, hE, mul_comm, Complex.norm_exp_ofReal_mul_I]; simp
  calc E * starRingEnd ℂ (dftC n x k) * E * (starRingEnd ℂ E * dftC n y k * starRingEnd ℂ E)
      = (E * starRingEnd ℂ E) * (E * starRingEnd ℂ E) * (starRingEnd ℂ (dftC n x k) * dftC n y k) := by ring
    _ = _ := by rw [hEE]; ring

example : (0 : ℝ) < 1 ∧ 0 < 1 ∧ 1 < 4 ∧ 2 * 1 ≠ 4 := by norm_num

/-- **C176 (fast, partial).** Where the sums of `cos 2wt` and `sin 2wt` vanish, as for even sampling, the fast transform is the slow one, however many frequencies. For other samplings see `ls_fast_differs`. -/
theorem ls_fast_partial (d : List (ℝ × ℝ)) (num : Nat) (hnum : 0 < num) (f : ℝ) (hf : f ≠ 0) (hd : d ≠ [])
    (hC : (d.map fun p => Real.cos (2 * (2 * Real.pi * f) * p.1)).sum = 0) (hS : (d.map fun p => Real.sin (2 * (2 * Real.pi * f) * p.1)).sum = 0) :
    fastAt 1 num d f = slowAt 1 d f := by
  have ew : 2 * Real.pi * f = f * 2 * Real.pi := by ring
  have hn : (0 : ℝ) < num := by exact_mod_cast hnum
  rw [slow_of_balanced d f hf hd (by rw [← ew]; exact hC) (by rw [← ew]; exact hS), expSum]
  have ha : arctan2 0 0 = 0 := by
    unfold arctan2
    exact Complex.arg_zero
  have t1 : ∀ c : ℝ, trigSum d (fun _ => c) (2 * f) = (0, 0) := by
    intro c
    simp only [trigSum]
    rw [List.sum_map_mul_left, List.sum_map_mul_left]
    have e : 2 * Real.pi * (2 * f) = 2 * (2 * Real.pi * f) := by ring
    rw [e, hC, hS, mul_zero]
  have hq : √(1 / 2) * √(num : ℝ) = √(1 / 2 * num) := (Real.sqrt_mul (by norm_num) _).symm
  have hp : ¬ (1 / 2 * (num : ℝ) ≤ 0) := by push Not; positivity
  have hr : √(1 / 2 * (num : ℝ)) ≠ 0 := by positivity
  simp only [fastAt, t1, ha, mul_zero, zero_mul, Real.cos_zero, Real.sin_zero, mul_one, add_zero, sub_zero, if_neg hf, hp, or_self, if_false, sign_one, SignType.coe_one, hq, zero_sub]
  simp only [trigSum, ew]
  congr 2
  · apply Complex.ext
    · simp only; field_simp
    · simp only; field_simp
  · congr 1; push_cast; ring

/-- **C176 (negation).** The two methods do not give the same spectrum: for counts 1, 0, 0 at times 0, 1, 2 the squared modulus at the frequency 1/4 is 11/12 by the slow and 10/9 by the fast method, however many frequencies (which exchanges the sums of sines and cosines, and counts the frequencies instead of the points). -/
theorem ls_fast_differs (num : Nat) (hnum : 0 < num) :
    ∃ a b : ℂ, slowAt 1 [(0, 1), (1, 0), (2, 0)] (1 / 4) = some a ∧ fastAt 1 num [(0, 1), (1, 0), (2, 0)] (1 / 4) = some b ∧ ‖a‖ ^ 2 = 11 / 12 ∧ ‖b‖ ^ 2 = 10 / 9 := by
  have hn : (0 : ℝ) < num := by exact_mod_cast hnum
  have hw : (1 / 4 : ℝ) * 2 * Real.pi = Real.pi / 2 := by ring
  have hw' : 2 * Real.pi * (1 / 4 : ℝ) = Real.pi / 2 := by ring
  have hw2 : 2 * Real.pi * (2 * (1 / 4) : ℝ) = Real.pi := by ring
  have hm : mean [(0, 1), (1, 0), (2, 0)] = 1 / 3 := by simp [mean]
  have a1 : arctan2 0 1 = 0 := by unfold arctan2; exact Complex.arg_one
  have a2 : arctan2 (1 / 3) 0 = Real.pi / 2 := by
    unfold arctan2
    have : (⟨0, 1 / 3⟩ : ℂ) = ((1 / 3 : ℝ) : ℂ) * Complex.I := by apply Complex.ext <;> simp
    rw [this, Complex.arg_real_mul _ (by norm_num), Complex.arg_I]
  have c2 : Real.cos (Real.pi / 2 * 2) = -1 := by rw [show Real.pi / 2 * 2 = Real.pi by ring]; exact Real.cos_pi
  have s2 : Real.sin (Real.pi / 2 * 2) = 0 := by rw [show Real.pi / 2 * 2 = Real.pi by ring]; exact Real.sin_pi
  have e : 2 * (Real.pi / 2) = Real.pi := by ring
  have cs : ([((0 : ℝ), (1 : ℝ)), (1, 0), (2, 0)].map fun p => Real.cos (2 * (Real.pi / 2) * p.1)).sum = 1 := by
    simp [e, mul_comm Real.pi 2]
  have ss : ([((0 : ℝ), (1 : ℝ)), (1, 0), (2, 0)].map fun p => Real.sin (2 * (Real.pi / 2) * p.1)).sum = 0 := by
    simp [e, mul_comm Real.pi 2]
  have hP : ([((0 : ℝ), (1 : ℝ)), (1, 0), (2, 0)].map fun p => (p.2 - 1 / 3) * Real.cos (Real.pi / 2 * p.1)).sum = 1 := by
    simp only [List.map_cons, List.map_nil, List.sum_cons, List.sum_nil, mul_zero, mul_one, Real.cos_zero, Real.cos_pi_div_two, c2]; norm_num
  have hQ : ([((0 : ℝ), (1 : ℝ)), (1, 0), (2, 0)].map fun p => (p.2 - 1 / 3) * Real.sin (Real.pi / 2 * p.1)).sum = -1 / 3 := by
    simp only [List.map_cons, List.map_nil, List.sum_cons, List.sum_nil, mul_zero, mul_one, Real.sin_zero, Real.sin_pi_div_two, s2]; norm_num
  have hA : ([((0 : ℝ), (1 : ℝ)), (1, 0), (2, 0)].map fun p => Real.cos (Real.pi / 2 * p.1) ^ 2).sum = 2 := by
    simp only [List.map_cons, List.map_nil, List.sum_cons, List.sum_nil, mul_zero, mul_one, Real.cos_zero, Real.cos_pi_div_two, c2]; norm_num
  have hB : ([((0 : ℝ), (1 : ℝ)), (1, 0), (2, 0)].map fun p => Real.sin (Real.pi / 2 * p.1) ^ 2).sum = 1 := by
    simp only [List.map_cons, List.map_nil, List.sum_cons, List.sum_nil, mul_zero, mul_one, Real.sin_zero, Real.sin_pi_div_two, s2]; norm_num
  have T1 : trigSum [(0, 1), (1, 0), (2, 0)] (fun p => p.2 - 1 / 3) (1 / 4) = (-1 / 3, 1) := by
    simp only [trigSum, hw', hP, hQ]
  have T2 : ∀ c : ℝ, trigSum [(0, 1), (1, 0), (2, 0)] (fun _ => c) (2 * (1 / 4)) = (0, c) := by
    intro c
    simp only [trigSum, hw2]
    rw [List.sum_map_mul_left, List.sum_map_mul_left, ← e, cs, ss, mul_zero, mul_one]
  have hne : ¬ ((1 / 4 : ℝ) = 0) := by norm_num
  have hwne : ¬ (Real.pi / 2 = 0) := by have := Real.pi_ne_zero; positivity
  have hz : ¬ ((2 : ℝ) = 0 ∨ (1 : ℝ) = 0) := by norm_num
  have h4 : 2 * (1 / 2 * (Real.pi / 2)) = Real.pi / 2 := by ring
  have hl : (([((0 : ℝ), (1 : ℝ)), (1, 0), (2, 0)].length : ℕ) : ℝ) = 3 := by norm_num
  have hs : slowAt 1 [(0, 1), (1, 0), (2, 0)] (1 / 4) = some ((⟨√(1 / 2 * 3) * 1 / √2, √(1 / 2 * 3) * 1 * (-1 / 3) / √1⟩ : ℂ) * Complex.exp (-Complex.I * ((0 - Real.pi / 2 * 0 : ℝ) : ℂ))) := by
    simp only [slowAt, hw, hm, hl, cs, ss, a1, mul_zero, sub_zero, hP, hQ, hA, hB, if_neg hwne, if_neg hz, sign_one, SignType.coe_one, List.headD_cons]
  have hcτ : Real.cos (1 / 2 * (Real.pi / 2)) = √2 / 2 := by rw [show 1 / 2 * (Real.pi / 2) = Real.pi / 4 by ring]; exact Real.cos_pi_div_four
  have hsτ : Real.sin (1 / 2 * (Real.pi / 2)) = √2 / 2 := by rw [show 1 / 2 * (Real.pi / 2) = Real.pi / 4 by ring]; exact Real.sin_pi_div_four
  have hp : ¬ (1 / 2 * (num : ℝ) ≤ 0 ∨ 1 / 2 * (num : ℝ) ≤ 0) := by
    rw [or_self]; push Not; positivity
  have hf : fastAt 1 num [(0, 1), (1, 0), (2, 0)] (1 / 4) = some ((⟨√(1 / 2) * √num * (1 * (√2 / 2) + -1 / 3 * (√2 / 2)) / √(1 / 2 * num), √(1 / 2) * √num * 1 * (-1 / 3 * (√2 / 2) - 1 * (√2 / 2)) / √(1 / 2 * num)⟩ : ℂ) * Complex.exp (-Complex.I * ((1 / 2 * (Real.pi / 2) - 1 / 4 * 2 * Real.pi * 0 : ℝ) : ℂ))) := by
    simp only [fastAt, hm, hl, T1, T2, a2, h4, Real.cos_pi_div_two, Real.sin_pi_div_two, mul_zero, zero_mul, add_zero, sub_zero, if_neg hne, if_neg hp, sign_one, SignType.coe_one, List.headD_cons, hcτ, hsτ]
  refine ⟨_, _, hs, hf, ?_, ?_⟩
  · rw [norm_mul, norm_exp_neg_I, mul_one, norm_mk_sq]
    have s1 : √(1 / 2 * 3 : ℝ) ^ 2 = 1 / 2 * 3 := Real.sq_sqrt (by norm_num)
    have s3 : √(2 : ℝ) ^ 2 = 2 := Real.sq_sqrt (by norm_num)
    rw [Real.sqrt_one]
    simp only [mul_pow, div_pow, s1, s3]
    norm_num
  · rw [norm_mul, norm_exp_neg_I, mul_one, norm_mk_sq]
    have hq : √(1 / 2) * √(num : ℝ) = √(1 / 2 * num) := (Real.sqrt_mul (by norm_num) _).symm
    have hr : √(1 / 2 * (num : ℝ)) ≠ 0 := by positivity
    have s3 : √(2 : ℝ) ^ 2 = 2 := Real.sq_sqrt (by norm_num)
    rw [hq, mul_one, mul_div_assoc, mul_div_assoc, mul_div_left_comm, mul_div_left_comm (√(1 / 2 * (num : ℝ))), div_self hr, mul_one, mul_one]
    linear_combination (5 / 9) * s3

/-- the hypotheses of `ls_least_squares` are met -/
example : ∃ F, slowAt 1 [(0, 1), (1, 0), (2, 0)] (1 / 4) = some F ∧ F ≠ 0 := by
  obtain ⟨a, _, ha, _, hr, _⟩ := ls_fast_differs 1 Nat.one_pos
  refine ⟨a, ha, ?_⟩
  rintro rfl
  norm_num at hr

/-- **C176 (negation).** A light curve and the same light curve moved in time by any amount have a real, positive cross spectrum: the lag between them does not show, because each transform counts the phase from the first time of its own light curve. -/
theorem ls_no_lag (s : ℝ) : ∃ r : ℝ, 0 < r ∧
    crossAt (slowAt 1 [(0, 1), (1, 0), (2, 0)] (1 / 4)) (slowAt 1 ([(0, 1), (1, 0), (2, 0)].map fun p => (p.1 + s, p.2)) (1 / 4)) = some (r : ℂ) := by
  obtain ⟨a, _, ha, _, hr, _⟩ := ls_fast_differs 1 Nat.one_pos
  refine ⟨‖a‖ ^ 2, by rw [hr]; norm_num, ?_⟩
  rw [ls_time_shift 1 s _ (1 / 4) (by
    left
    have e : 2 * (2 * Real.pi * (1 / 4 : ℝ)) = Real.pi := by ring
    rw [e]
    simp [mul_comm Real.pi 2]), ha]
  simp only [crossAt, Option.bind_some, Option.map_some, Option.some.injEq]
  rw [Complex.mul_conj, Complex.normSq_eq_norm_sq]

/-- **C176 (method).** The slow method drops the negative frequencies, treats each frequency by itself and gives zero at zero; the fast one refuses fewer than two frequencies. -/
theorem ls_method (sign : ℝ) (d : List (ℝ × ℝ)) (a b : List ℝ) :
    lsftSlow sign d (a ++ b) = lsftSlow sign d a ++ lsftSlow sign d b ∧
    (∀ f, 0 ≤ f → lsftSlow sign d [f] = [slowAt sign d f]) ∧ (∀ f < 0, lsftSlow sign d [f] = []) ∧
    (∀ f, lsftFast sign d [f] = .error .indexError) ∧
    slowAt sign d 0 = some 0 := by
  refine ⟨by simp [lsftSlow], fun f hf => by simp [lsftSlow, hf], fun f hf => by simp [lsftSlow, hf], fun f => ?_, ?_⟩
  · have : ([f].filter fun f => decide (0 ≤ f)).length < 2 := by
      have := List.length_filter_le (fun f : ℝ => decide (0 ≤ f)) [f]
      simp only [List.length_cons, List.length_nil] at this
      omega
    simp only [lsftFast, if_pos this]
  · simp only [slowAt, zero_mul, if_true]
    have : (d.map fun p => p.2 - mean d).sum = 0 := by
      have h : ∀ c : ℝ, (d.map fun p => p.2 - c).sum = (d.map fun p => p.2).sum - d.length * c := by
        intro c
        induction d with
        | nil => simp
        | cons p d ih => simp only [List.map_cons, List.sum_cons, List.length_cons]; rw [ih]; push_cast; ring
      rw [h, mean]
      rcases d with _ | ⟨p, d⟩
      · simp
      · have : (((p :: d).length : ℕ) : ℝ) ≠ 0 := by simp; positivity
        field_simp
        ring
    rw [this]; simp

/-- **C176 (cross spectrum).** The cross spectrum of two light curves is, at each non-negative frequency, the transform of the first times the conjugate of the transform of the second; that of a light curve with itself is its squared modulus. -/
theorem ls_cross (d1 d2 : List (ℝ × ℝ)) (freqs : List ℝ) :
    crossSlow d1 d2 freqs = (freqs.filter fun f => decide (0 ≤ f)).map (fun f => crossAt (slowAt 1 d1 f) (slowAt 1 d2 f)) ∧
    (∀ a b : ℂ, crossAt (some a) (some b) = some (a * starRingEnd ℂ b)) ∧ (∀ z, crossAt none z = none ∧ crossAt z none = none) ∧
    (∀ a : ℂ, crossAt (some a) (some a) = some ((‖a‖ ^ 2 : ℝ) : ℂ)) := by
  refine ⟨?_, fun a b => rfl, fun z => ⟨rfl, by cases z <;> rfl⟩, fun a => ?_⟩
  · simp only [crossSlow, lsftSlow]
    rw [List.zipWith_map, List.zipWith_self]
  · simp only [crossAt, Option.bind_some, Option.map_some, Option.some.injEq]
    rw [Complex.mul_conj, Complex.normSq_eq_norm_sq]

/-- **C176 (symmetry).** `fullspec` keeps the values at the positive frequencies, gives their conjugates at the negative frequencies, and zero at zero. -/
theorem ls_symmetry (ft : List ℂ) (fs : List ℝ) (hl : ft.length = fs.length) (i : Nat) (hi : i < fs.length) :
    (imposeSymmetry ft fs).1.length = 2 * fs.length + 1 ∧ (imposeSymmetry ft fs).2.length = 2 * fs.length + 1 ∧
    (imposeSymmetry ft fs).1[fs.length]? = some 0 ∧ (imposeSymmetry ft fs).2[fs.length]? = some 0 ∧
    (imposeSymmetry ft fs).1[fs.length + 1 + i]? = ft[i]? ∧ (imposeSymmetry ft fs).2[fs.length + 1 + i]? = fs[i]? ∧
    (imposeSymmetry ft fs).1[fs.length - 1 - i]? = (ft[i]?).map (starRingEnd ℂ) ∧ (imposeSymmetry ft fs).2[fs.length - 1 - i]? = (fs[i]?).map (fun f => -f) := by
  have hi' : i < ft.length := by omega
  have l1 : (ft.reverse.map (starRingEnd ℂ) ++ [(0 : ℂ)]).length = fs.length + 1 := by simp [hl]
  have l2 : ((fs.map fun f => -f).reverse ++ [(0 : ℝ)]).length = fs.length + 1 := by simp
  simp only [imposeSymmetry]
  refine ⟨?_, ?_, ?_, ?_, ?_, ?_, ?_, ?_⟩
  · rw [List.length_append, l1, hl]; omega
  · rw [List.length_append, l2]; omega
  · rw [List.getElem?_append_left (by omega), List.getElem?_append_right (by simp [hl])]; simp [hl]
  · rw [List.getElem?_append_left (by omega), List.getElem?_append_right (by simp)]; simp
  · rw [List.getElem?_append_right (by omega), l1, Nat.add_sub_cancel_left]
  · rw [List.getElem?_append_right (by omega), l2, Nat.add_sub_cancel_left]
  · rw [List.getElem?_append_left (by omega), List.getElem?_append_left (by simp [hl]; omega), List.getElem?_map, List.getElem?_reverse (by omega)]
    rw [show ft.length - 1 - (fs.length - 1 - i) = i by omega]
  · rw [List.getElem?_append_left (by omega), List.getElem?_append_left (by simp; omega), List.getElem?_reverse (by simp; omega), List.getElem?_map]
    rw [List.length_map, show fs.length - 1 - (fs.length - 1 - i) = i by omega]

example : ([1, Complex.I] : List ℂ).length = ([1, 2] : List ℝ).length ∧ 1 < ([1, 2] : List ℝ).length := by decide

/-- **C176 (power type, partial).** `power` is the normalised cross spectrum, its real part or its modulus, as asked; with `"all"` the unnormalised powers are the cross spectrum. For the other types see `ls_unnorm`. -/
theorem ls_powers_partial (normalize : ℂ → ℂ) (cross : List ℂ) :
    (powers normalize "all" cross).1 = cross.map normalize ∧ (powers normalize "all" cross).2 = cross ∧
    (powers normalize "real" cross).1 = cross.map (fun z => ((normalize z).re : ℂ)) ∧
    (powers normalize "absolute" cross).1 = cross.map (fun z => ((‖normalize z‖ : ℝ) : ℂ)) := by
  refine ⟨?_, ?_, ?_, ?_⟩ <;> simp [powers, Function.comp_def]

/-- **C176 (negation).** With power type `"real"` or `"absolute"` the unnormalised powers are lost: they are the normalised ones, so with a normalisation that halves the powers the unnormalised powers are half of what they should be. -/
theorem ls_unnorm (normalize : ℂ → ℂ) (cross : List ℂ) :
    (powers normalize "real" cross).2 = (powers normalize "real" cross).1 ∧ (powers normalize "absolute" cross).2 = (powers normalize "absolute" cross).1 ∧
    (powers (fun z => z / 2) "real" [2]).2 = [1] := by
  refine ⟨?_, ?_, ?_⟩ <;> simp [powers, Function.comp_def]

end Stingray.LombScargle
