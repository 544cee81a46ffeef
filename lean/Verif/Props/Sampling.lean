import Verif.Model.Sampling
import Verif.Props.UtilsStats
import Mathlib.Tactic.FieldSimp
import Mathlib.Tactic.Ring
import Mathlib.Algebra.Order.Chebyshev

/-!
Summaries of MCMC chains (C166).
-/

set_option linter.unusedSectionVars false

namespace Stingray.Sampling

open Stingray Stingray.UtilsStats

variable {K : Type} [Field K] [LinearOrder K] [IsStrictOrderedRing K] [FloorRing K]

theorem summary_fields (sqrt : K → K) (sort : KeySort (fun (x : K) => x)) (chain : List (List K)) (accepted : List K) (short logGiven : Bool) (ciMin ciMax : K) (s : Summary K)
    (h : summary sqrt sort chain accepted short logGiven ciMin ciMax = .ok s) :
    chain ≠ [] ∧ (short && logGiven) = false ∧ computeRhat (dims chain).1 (dims chain).2 chain = .ok s.rhat ∧ bounds sort chain.flatten ciMin ciMax = .ok s.ci ∧
      s.samples = chain.flatten ∧ s.acceptance = mean accepted ∧ s.effective = mean accepted * (chain.flatten.length : K) ∧ s.mean = mean chain.flatten ∧
      s.std = sqrt (variance chain.flatten) := by
  unfold summary at h
  by_cases hc : chain = []
  · simp only [hc, if_true] at h; cases h
  · simp only [hc, if_false] at h
    cases hs : (short && logGiven)
    · simp only [hs, Bool.false_eq_true, if_false] at h
      rcases hr : computeRhat (dims chain).1 (dims chain).2 chain with e | r
      · simp only [hr] at h; cases h
      · simp only [hr] at h
        rcases hb : bounds sort chain.flatten ciMin ciMax with e | c
        · simp only [hb] at h; cases h
        · simp only [hb] at h; cases h
          exact ⟨hc, rfl, rfl, rfl, rfl, rfl, rfl, rfl, rfl⟩
    · simp only [hs, if_true] at h; cases h

theorem bounds_ok (sort : KeySort (fun (x : K) => x)) (l : List K) (ciMin ciMax : K) (c : Option K × Option K) (h : bounds sort l ciMin ciMax = .ok c) :
    (0 ≤ ciMin ∧ ciMin ≤ 100 ∧ 0 ≤ ciMax ∧ ciMax ≤ 100) ∧ c = (percentile (sort.sort l) (ciMin / 100), percentile (sort.sort l) (ciMax / 100)) := by
  unfold bounds at h
  split at h
  · rename_i hc; cases h; exact ⟨hc, rfl⟩
  · cases h

theorem rhat_ok (a b : Nat) (chain : List (List K)) (r : K) (h : computeRhat a b chain = .ok r) :
    a ≠ 1 ∧ b ≠ 0 ∧ r = ((b : K) - 1) / (b : K) * mean (chain.map variance) +
      1 / (b : K) * ((b : K) / ((a : K) - 1) * ((chain.map mean).map fun m => (m - mean chain.flatten) ^ 2).sum) := by
  unfold computeRhat at h
  by_cases ha : a = 1
  · simp only [ha, if_true] at h; cases h
  · simp only [ha, if_false] at h
    by_cases hb : b = 0
    · simp only [hb, if_true] at h; cases h
    · simp only [hb, if_false] at h; cases h
      exact ⟨ha, hb, rfl⟩

/-- Specification: a chain of `steps` steps of `walkers` walkers. -/
def Shape (chain : List (List K)) (steps walkers : Nat) : Prop := chain.length = steps ∧ ∀ row ∈ chain, row.length = walkers

theorem flatten_length (chain : List (List K)) (steps walkers : Nat) (h : Shape chain steps walkers) : chain.flatten.length = steps * walkers := by
  obtain ⟨rfl, h⟩ := h
  induction chain with
  | nil => simp
  | cons row l ih =>
    rw [List.flatten_cons, List.length_append, ih fun r hr => h r (List.mem_cons_of_mem _ hr), h row List.mem_cons_self, List.length_cons]
    ring

theorem dims_shape (chain : List (List K)) (steps walkers : Nat) (h : Shape chain steps walkers) (hs : steps ≠ 0) : dims chain = (steps, walkers) := by
  obtain ⟨rfl, h⟩ := h
  cases chain with
  | nil => exact absurd rfl hs
  | cons row l => simp [dims, h row List.mem_cons_self]

/-- **C166.** The mean, standard deviation and effective number of samples that the summary of a chain reports are those of all the samples of all walkers: `n` times the mean is their sum, `n` times the squared standard deviation is the sum of the squared deviations from
the mean, and the effective number is the average acceptance fraction times the number of samples. -/
theorem sampling_moments (sqrt : K → K) (hsqrt : ∀ x, 0 ≤ x → 0 ≤ sqrt x ∧ sqrt x ^ 2 = x) (sort : KeySort (fun (x : K) => x)) (chain : List (List K)) (steps walkers : Nat)
    (hshape : Shape chain steps walkers) (accepted : List K) (hacc : accepted.length = walkers) (short logGiven : Bool) (ciMin ciMax : K) (s : Summary K)
    (h : summary sqrt sort chain accepted short logGiven ciMin ciMax = .ok s) :
    s.samples = chain.flatten ∧ (s.samples.length : K) = (steps : K) * (walkers : K) ∧ (s.samples.length : K) * s.mean = s.samples.sum ∧ 0 ≤ s.std ∧
      (s.samples.length : K) * s.std ^ 2 = (s.samples.map fun x => (x - s.mean) ^ 2).sum ∧ s.effective = (steps : K) * accepted.sum := by
  obtain ⟨hne, _, hr, _, hsam, _, heff, hm, hstd⟩ := summary_fields sqrt sort chain accepted short logGiven ciMin ciMax s h
  have hs0 : steps ≠ 0 := by
    intro h0
    exact hne (List.length_eq_zero_iff.1 (hshape.1.trans h0))
  have hd := dims_shape chain steps walkers hshape hs0
  rw [hd] at hr
  obtain ⟨_, hw0, _⟩ := rhat_ok _ _ _ _ hr
  have hlen : (chain.flatten.length : K) = (steps : K) * (walkers : K) := by rw [flatten_length chain steps walkers hshape]; push_cast; ring
  have hsK : (steps : K) ≠ 0 := Nat.cast_ne_zero.2 hs0
  have hwK : (walkers : K) ≠ 0 := Nat.cast_ne_zero.2 hw0
  have hn : (chain.flatten.length : K) ≠ 0 := by rw [hlen]; exact mul_ne_zero hsK hwK
  have hvar : 0 ≤ variance chain.flatten := by
    unfold variance mean
    refine div_nonneg (List.sum_nonneg ?_) (by positivity)
    intro x hx
    obtain ⟨y, _, rfl⟩ := List.mem_map.1 hx
    exact sq_nonneg _
  rw [hsam, hm, hstd, heff]
  refine ⟨rfl, hlen, by unfold mean; field_simp, (hsqrt _ hvar).1, ?_, ?_⟩
  · rw [(hsqrt _ hvar).2]
    unfold variance
    rw [show mean (chain.flatten.map fun x => (x - mean chain.flatten) ^ 2) = (chain.flatten.map fun x => (x - mean chain.flatten) ^ 2).sum / (chain.flatten.length : K) by
      rw [mean, List.length_map]]
    field_simp
  · rw [hlen, mean, hacc]
    field_simp

/-- **C166.** The credible interval is in order, and between samples. -/
theorem sampling_interval (sqrt : K → K) (sort : KeySort (fun (x : K) => x)) (chain : List (List K)) (accepted : List K) (short logGiven : Bool) (ciMin ciMax : K) (hci : ciMin ≤ ciMax)
    (s : Summary K) (h : summary sqrt sort chain accepted short logGiven ciMin ciMax = .ok s) (hne : s.samples ≠ []) :
    ∃ lo hi, s.ci = (some lo, some hi) ∧ lo ≤ hi ∧ (∃ x ∈ s.samples, x ≤ lo) ∧ (∃ x ∈ s.samples, lo ≤ x) ∧ (∃ x ∈ s.samples, hi ≤ x) ∧ ∃ x ∈ s.samples, x ≤ hi := by
  obtain ⟨_, _, _, hb, hsam, _⟩ := summary_fields sqrt sort chain accepted short logGiven ciMin ciMax s h
  obtain ⟨⟨h0, h1, h2, h3⟩, hc⟩ := bounds_ok sort _ _ _ _ hb
  rw [hsam] at hne ⊢
  have hperm := sort.perm chain.flatten
  have hne' : sort.sort chain.flatten ≠ [] := fun h => hne (List.Perm.nil_eq (h ▸ hperm)).symm
  have hso : (sort.sort chain.flatten).Pairwise (· ≤ ·) := sort.sorted _
  have q0 : (0 : K) ≤ ciMin / 100 := by positivity
  have q1 : ciMin / 100 ≤ (1 : K) := by rw [div_le_one (by norm_num)]; exact h1
  have q2 : (0 : K) ≤ ciMax / 100 := by positivity
  have q3 : ciMax / 100 ≤ (1 : K) := by rw [div_le_one (by norm_num)]; exact h3
  obtain ⟨lo, hlo, ⟨x1, hx1, hl1⟩, ⟨x2, hx2, hl2⟩⟩ := percentile_between _ hso hne' _ q0 q1
  obtain ⟨hi, hhi, ⟨x3, hx3, hl3⟩, ⟨x4, hx4, hl4⟩⟩ := percentile_between _ hso hne' _ q2 q3
  refine ⟨lo, hi, by rw [hc, hlo, hhi], percentile_mono _ hso hne' _ _ _ _ q0 (by gcongr) q3 hlo hhi, ⟨x1, hperm.mem_iff.1 hx1, hl1⟩, ⟨x2, hperm.mem_iff.1 hx2, hl2⟩,
    ⟨x4, hperm.mem_iff.1 hx4, hl4⟩, ⟨x3, hperm.mem_iff.1 hx3, hl3⟩⟩

/-- **C166.** When the samples are distinct, the number of them below each bound of the credible interval is the one that the percentage asks for, rounded upwards: `ci_min` (`ci_max`) hundredths of the number of intervals between successive samples. -/
theorem sampling_interval_count (sqrt : K → K) (sort : KeySort (fun (x : K) => x)) (chain : List (List K)) (accepted : List K) (short logGiven : Bool) (ciMin ciMax : K)
    (s : Summary K) (h : summary sqrt sort chain accepted short logGiven ciMin ciMax = .ok s) (hne : s.samples ≠ []) (hnd : s.samples.Nodup) :
    ∃ lo hi, s.ci = (some lo, some hi) ∧ ((s.samples.filter fun x => decide (x < lo)).length : Int) = ⌈ciMin / 100 * ((s.samples.length : K) - 1)⌉ ∧
      ((s.samples.filter fun x => decide (x < hi)).length : Int) = ⌈ciMax / 100 * ((s.samples.length : K) - 1)⌉ := by
  obtain ⟨_, _, _, hb, hsam, _⟩ := summary_fields sqrt sort chain accepted short logGiven ciMin ciMax s h
  obtain ⟨⟨h0, h1, h2, h3⟩, hc⟩ := bounds_ok sort _ _ _ _ hb
  rw [hsam] at hne hnd ⊢
  have hperm := sort.perm chain.flatten
  have hne' : sort.sort chain.flatten ≠ [] := fun h => hne (List.Perm.nil_eq (h ▸ hperm)).symm
  have hso : (sort.sort chain.flatten).Pairwise (· ≤ ·) := sort.sorted _
  have hnd' : (sort.sort chain.flatten).Nodup := hperm.nodup_iff.2 hnd
  have hlt : (sort.sort chain.flatten).Pairwise (· < ·) := by
    refine (hso.and hnd').imp ?_
    rintro a b ⟨hab, hne⟩
    exact lt_of_le_of_ne hab hne
  have q0 : (0 : K) ≤ ciMin / 100 := by positivity
  have q1 : ciMin / 100 ≤ (1 : K) := by rw [div_le_one (by norm_num)]; exact h1
  have q2 : (0 : K) ≤ ciMax / 100 := by positivity
  have q3 : ciMax / 100 ≤ (1 : K) := by rw [div_le_one (by norm_num)]; exact h3
  obtain ⟨lo, hlo, _⟩ := percentile_between _ hso hne' _ q0 q1
  obtain ⟨hi, hhi, _⟩ := percentile_between _ hso hne' _ q2 q3
  refine ⟨lo, hi, by rw [hc, hlo, hhi], ?_, ?_⟩
  · have := percentile_count _ hlt hne' _ _ q0 q1 hlo
    rw [(hperm.filter _).length_eq, hperm.length_eq] at this
    exact this
  · have := percentile_count _ hlt hne' _ _ q2 q3 hhi
    rw [(hperm.filter _).length_eq, hperm.length_eq] at this
    exact this

theorem mean_perm {l l' : List K} (h : l.Perm l') : mean l = mean l' := by
  unfold mean
  rw [h.sum_eq, h.length_eq]

theorem variance_perm {l l' : List K} (h : l.Perm l') : variance l = variance l' := by
  unfold variance
  rw [mean_perm h]
  exact mean_perm (h.map _)

theorem sort_perm (sort : KeySort (fun (x : K) => x)) {l l' : List K} (h : l.Perm l') : sort.sort l = sort.sort l' :=
  ((sort.perm l).trans (h.trans (sort.perm l').symm)).eq_of_pairwise (fun _ _ _ _ hab hba => le_antisymm hab hba) (sort.sorted l) (sort.sorted l')

/-- **C166.** The mean, standard deviation and interval do not depend on which walker, or at which step, a sample was drawn: two chains with the same samples have the same. -/
theorem sampling_order (sqrt : K → K) (sort : KeySort (fun (x : K) => x)) (chain chain' : List (List K)) (hperm : chain.flatten.Perm chain'.flatten) (accepted : List K) (short logGiven : Bool)
    (ciMin ciMax : K) (s s' : Summary K) (h : summary sqrt sort chain accepted short logGiven ciMin ciMax = .ok s) (h' : summary sqrt sort chain' accepted short logGiven ciMin ciMax = .ok s') :
    s.mean = s'.mean ∧ s.std = s'.std ∧ s.ci = s'.ci ∧ s.effective = s'.effective := by
  obtain ⟨_, _, _, hb, _, _, he, hm, hstd⟩ := summary_fields sqrt sort chain accepted short logGiven ciMin ciMax s h
  obtain ⟨_, _, _, hb', _, _, he', hm', hstd'⟩ := summary_fields sqrt sort chain' accepted short logGiven ciMin ciMax s' h'
  refine ⟨by rw [hm, hm', mean_perm hperm], by rw [hstd, hstd', variance_perm hperm], ?_, by rw [he, he', hperm.length_eq]⟩
  rw [(bounds_ok _ _ _ _ _ hb).2, (bounds_ok _ _ _ _ _ hb').2, sort_perm sort hperm]

theorem sum_affine (a b : K) (l : List K) : (l.map fun x => a * x + b).sum = a * l.sum + (l.length : K) * b := by
  induction l with
  | nil => simp
  | cons x l ih => simp only [List.map_cons, List.sum_cons, ih, List.length_cons]; push_cast; ring

theorem mean_affine (a b : K) (l : List K) (hl : l ≠ []) : mean (l.map fun x => a * x + b) = a * mean l + b := by
  have hn : (l.length : K) ≠ 0 := Nat.cast_ne_zero.2 (fun h => hl (List.length_eq_zero_iff.1 h))
  unfold mean
  rw [sum_affine, List.length_map]
  field_simp

theorem mean_scale (a : K) (l : List K) : mean (l.map fun x => a * x) = a * mean l := by
  unfold mean
  rw [List.sum_map_mul_left, List.length_map, List.map_id', mul_div_assoc]

theorem variance_affine (a b : K) (l : List K) : variance (l.map fun x => a * x + b) = a ^ 2 * variance l := by
  rcases eq_or_ne l [] with rfl | hl
  · simp [variance, mean]
  · have e : ((l.map fun x => a * x + b).map fun x => (x - (a * mean l + b)) ^ 2) = ((l.map fun x => (x - mean l) ^ 2).map fun x => a ^ 2 * x) := by
      rw [List.map_map, List.map_map]
      refine List.map_congr_left fun x _ => ?_
      simp only [Function.comp]
      ring
    unfold variance
    rw [mean_affine a b l hl, e, mean_scale]

theorem percentile_affine (a b : K) (l : List K) (q : K) : percentile (l.map fun x => a * x + b) q = (percentile l q).map fun x => a * x + b := by
  unfold percentile
  simp only [List.length_map, List.getElem?_map]
  rcases l[⌊q * ((l.length : K) - 1)⌋.toNat]? with _ | x
  · rfl
  · simp only [Option.map_some]
    rcases l[⌊q * ((l.length : K) - 1)⌋.toNat + 1]? with _ | y
    · rfl
    · simp only [Option.map_some]
      congr 1
      ring

theorem sort_affine (sort : KeySort (fun (x : K) => x)) (a b : K) (ha : 0 ≤ a) (l : List K) : sort.sort (l.map fun x => a * x + b) = (sort.sort l).map fun x => a * x + b := by
  refine ((sort.perm _).trans ((sort.perm l).map _).symm).eq_of_pairwise (fun _ _ _ _ hab hba => le_antisymm hab hba) (sort.sorted _) ?_
  refine List.Pairwise.map _ ?_ (sort.sorted l)
  intro x y hxy
  have := mul_le_mul_of_nonneg_left hxy ha
  linarith

/-- **C166.** A change of unit and origin of the parameter (`x` becomes `a x + b`, with `a` positive) changes the mean and the interval in the same way, and multiplies the standard deviation by `a`. -/
theorem sampling_units (sqrt : K → K) (hsqrt : ∀ x, 0 ≤ x → 0 ≤ sqrt x ∧ sqrt x ^ 2 = x) (sort : KeySort (fun (x : K) => x)) (chain : List (List K)) (accepted : List K) (short logGiven : Bool)
    (ciMin ciMax a b : K) (ha : 0 < a) (s s' : Summary K) (hne : s.samples ≠ []) (h : summary sqrt sort chain accepted short logGiven ciMin ciMax = .ok s)
    (h' : summary sqrt sort (chain.map fun row => row.map fun x => a * x + b) accepted short logGiven ciMin ciMax = .ok s') :
    s'.mean = a * s.mean + b ∧ s'.std = a * s.std ∧ s'.ci = (s.ci.1.map fun x => a * x + b, s.ci.2.map fun x => a * x + b) := by
  obtain ⟨_, _, _, hb, hsam, _, _, hm, hstd⟩ := summary_fields sqrt sort chain accepted short logGiven ciMin ciMax s h
  obtain ⟨_, _, _, hb', _, _, _, hm', hstd'⟩ := summary_fields sqrt sort _ accepted short logGiven ciMin ciMax s' h'
  have hfl : (chain.map fun row => row.map fun x => a * x + b).flatten = chain.flatten.map fun x => a * x + b := List.map_flatten.symm
  rw [hsam] at hne
  have hvar : 0 ≤ variance chain.flatten := by
    unfold variance mean
    refine div_nonneg (List.sum_nonneg ?_) (by positivity)
    intro x hx
    obtain ⟨y, _, rfl⟩ := List.mem_map.1 hx
    exact sq_nonneg _
  refine ⟨by rw [hm', hm, hfl, mean_affine a b _ hne], ?_, ?_⟩
  · rw [hstd', hstd, hfl, variance_affine]
    have h1 := hsqrt _ hvar
    have h2 := hsqrt _ (mul_nonneg (sq_nonneg a) hvar)
    have : sqrt (a ^ 2 * variance chain.flatten) ^ 2 = (a * sqrt (variance chain.flatten)) ^ 2 := by rw [h2.2, mul_pow, h1.2]
    rcases sq_eq_sq_iff_eq_or_eq_neg.1 this with h3 | h3
    · exact h3
    · have := mul_nonneg ha.le h1.1
      have := h2.1
      linarith
  · rw [(bounds_ok _ _ _ _ _ hb').2, (bounds_ok _ _ _ _ _ hb).2, hfl, sort_affine sort a b ha.le, percentile_affine, percentile_affine]

/-- **C166 (R-hat, partial).** For a chain of at least two steps, the reported R-hat is never negative, and it is the sum of the average variance of the walkers at one step, times `(walkers - 1) / walkers`, and of the variance (with `steps - 1`) of the averages
over the walkers at each step. Missing: the variances along the chain of each walker and between the walkers, which the statistic of Gelman and Rubin compares. -/
theorem rhat_value_partial (sqrt : K → K) (sort : KeySort (fun (x : K) => x)) (chain : List (List K)) (steps walkers : Nat) (hshape : Shape chain steps walkers) (hs : 2 ≤ steps)
    (accepted : List K) (short logGiven : Bool) (ciMin ciMax : K) (s : Summary K) (h : summary sqrt sort chain accepted short logGiven ciMin ciMax = .ok s) :
    s.rhat = ((walkers : K) - 1) / (walkers : K) * ((chain.map variance).sum / (steps : K)) + (chain.map fun row => (mean row - s.mean) ^ 2).sum / ((steps : K) - 1) ∧ 0 ≤ s.rhat := by
  obtain ⟨hne, _, hr, _, _, _, _, hm, _⟩ := summary_fields sqrt sort chain accepted short logGiven ciMin ciMax s h
  rw [dims_shape chain steps walkers hshape (by omega)] at hr
  obtain ⟨_, hw0, hv⟩ := rhat_ok _ _ _ _ hr
  have hwK : (walkers : K) ≠ 0 := Nat.cast_ne_zero.2 hw0
  have hw1 : (1 : K) ≤ walkers := by exact_mod_cast Nat.one_le_iff_ne_zero.2 hw0
  have hs1 : (2 : K) ≤ steps := by exact_mod_cast hs
  have hsK : (steps : K) - 1 ≠ 0 := by
    intro h0
    linarith
  have e : s.rhat = ((walkers : K) - 1) / (walkers : K) * ((chain.map variance).sum / (steps : K)) + (chain.map fun row => (mean row - s.mean) ^ 2).sum / ((steps : K) - 1) := by
    rw [hv, hm, List.map_map]
    rw [show mean (chain.map variance) = (chain.map variance).sum / (steps : K) by rw [mean, List.length_map, hshape.1]]
    rw [show ((fun m => (m - mean chain.flatten) ^ 2) ∘ mean) = fun row => (mean row - mean chain.flatten) ^ 2 from rfl]
    field_simp
  refine ⟨e, ?_⟩
  rw [e]
  have v0 : 0 ≤ (chain.map variance).sum := by
    refine List.sum_nonneg fun x hx => ?_
    obtain ⟨row, _, rfl⟩ := List.mem_map.1 hx
    unfold variance mean
    refine div_nonneg (List.sum_nonneg fun y hy => ?_) (by positivity)
    obtain ⟨z, _, rfl⟩ := List.mem_map.1 hy
    exact sq_nonneg _
  have m0 : 0 ≤ (chain.map fun row => (mean row - s.mean) ^ 2).sum := by
    refine List.sum_nonneg fun x hx => ?_
    obtain ⟨row, _, rfl⟩ := List.mem_map.1 hx
    exact sq_nonneg _
  exact add_nonneg (mul_nonneg (div_nonneg (by linarith) (by linarith)) (div_nonneg v0 (by linarith))) (div_nonneg m0 (by linarith))

/-- Specification: the values of each walker at the successive steps. -/
def walkersOf (chain : List (List K)) (walkers : Nat) : List (List K) := (List.range walkers).map fun (j : Nat) => chain.map fun row => row.getD j 0

/-- Specification: the sum of the squared deviations of the averages of the walkers from the average of all samples. Zero when all walkers have the same average. -/
def betweenWalkers (chain : List (List K)) (walkers : Nat) : K := ((walkersOf chain walkers).map fun l => (mean l - mean chain.flatten) ^ 2).sum

/-- **C166 (negation).** R-hat does not depend on which walker has which value: exchanging the walkers with each other, in another way at each step, leaves it unchanged. So it cannot tell walkers that never leave their place from walkers that move through the
whole distribution. -/
theorem rhat_blind (sqrt : K → K) (sort : KeySort (fun (x : K) => x)) (chain chain' : List (List K)) (hperm : List.Forall₂ List.Perm chain chain') (accepted : List K) (short logGiven : Bool)
    (ciMin ciMax : K) (s s' : Summary K) (h : summary sqrt sort chain accepted short logGiven ciMin ciMax = .ok s) (h' : summary sqrt sort chain' accepted short logGiven ciMin ciMax = .ok s') :
    s.rhat = s'.rhat := by
  have hr := (summary_fields sqrt sort chain accepted short logGiven ciMin ciMax s h).2.2.1
  have hr' := (summary_fields sqrt sort chain' accepted short logGiven ciMin ciMax s' h').2.2.1
  have hd : dims chain = dims chain' := by
    cases hperm with
    | nil => rfl
    | cons h1 h2 => simp [dims, h1.length_eq, h2.length_eq]
  have hf : chain.flatten.Perm chain'.flatten := by
    clear hr hr' hd h h'
    induction hperm with
    | nil => exact List.Perm.refl _
    | cons h1 _ ih => exact h1.append ih
  have hm : chain.map mean = chain'.map mean := by
    clear hr hr' hd h h' hf
    induction hperm with
    | nil => rfl
    | cons h1 _ ih => simp only [List.map_cons, mean_perm h1, ih]
  have hv : chain.map variance = chain'.map variance := by
    clear hr hr' hd h h' hf hm
    induction hperm with
    | nil => rfl
    | cons h1 _ ih => simp only [List.map_cons, variance_perm h1, ih]
  rw [(rhat_ok _ _ _ _ hr).2.2, (rhat_ok _ _ _ _ hr').2.2, hd, hm, hv, mean_perm hf]

/-- **C166 (negation).** Two walkers that stay at 0 and at 1 for ever, and two walkers that exchange their places at each step, have the same R-hat; the averages of the walkers differ in the first case only. -/
theorem rhat_stuck :
    ((summary id (stableSort _) [[0, 1], [0, 1], [0, 1], [0, (1 : ℚ)]] [1 / 2, 1 / 2] false false 5 95).map Summary.rhat = .ok (1 / 8)) ∧
    ((summary id (stableSort _) [[0, 1], [1, 0], [0, 1], [1, (0 : ℚ)]] [1 / 2, 1 / 2] false false 5 95).map Summary.rhat = .ok (1 / 8)) ∧
    betweenWalkers [[0, 1], [0, 1], [0, 1], [0, (1 : ℚ)]] 2 = 1 / 2 ∧ betweenWalkers [[0, 1], [1, 0], [0, 1], [1, (0 : ℚ)]] 2 = 0 := by
  decide +kernel

/-- **C166 (negation).** R-hat is not a ratio of variances, to be compared with 1: when the unit of the parameter changes (`x` becomes `a x + b`), it is multiplied by `a` squared. -/
theorem rhat_units (sqrt : K → K) (sort : KeySort (fun (x : K) => x)) (chain : List (List K)) (hrows : ∀ row ∈ chain, row ≠ []) (accepted : List K) (short logGiven : Bool)
    (ciMin ciMax a b : K) (s s' : Summary K) (h : summary sqrt sort chain accepted short logGiven ciMin ciMax = .ok s)
    (h' : summary sqrt sort (chain.map fun row => row.map fun x => a * x + b) accepted short logGiven ciMin ciMax = .ok s') : s'.rhat = a ^ 2 * s.rhat := by
  obtain ⟨hne, _, hr, _⟩ := summary_fields sqrt sort chain accepted short logGiven ciMin ciMax s h
  obtain ⟨_, _, hr', _⟩ := summary_fields sqrt sort _ accepted short logGiven ciMin ciMax s' h'
  have hd : dims (chain.map fun row => row.map fun x => a * x + b) = dims chain := by
    cases chain with
    | nil => rfl
    | cons row l => simp [dims]
  have hfl : (chain.map fun row => row.map fun x => a * x + b).flatten = chain.flatten.map fun x => a * x + b := List.map_flatten.symm
  have hfne : chain.flatten ≠ [] := by
    cases chain with
    | nil => exact absurd rfl hne
    | cons row l =>
      rw [List.flatten_cons]
      exact List.append_ne_nil_of_left_ne_nil (hrows row List.mem_cons_self) _
  have hv : (chain.map fun row => row.map fun x => a * x + b).map variance = (chain.map variance).map fun x => a ^ 2 * x := by
    rw [List.map_map, List.map_map]
    exact List.map_congr_left fun row _ => variance_affine a b row
  have hm : (((chain.map fun row => row.map fun x => a * x + b).map mean).map fun m => (m - (a * mean chain.flatten + b)) ^ 2) =
      ((chain.map mean).map fun m => (m - mean chain.flatten) ^ 2).map fun x => a ^ 2 * x := by
    rw [List.map_map, List.map_map, List.map_map, List.map_map]
    refine List.map_congr_left fun row hrow => ?_
    simp only [Function.comp]
    rw [mean_affine a b row (hrows row hrow)]
    ring
  rw [(rhat_ok _ _ _ _ hr').2.2, (rhat_ok _ _ _ _ hr).2.2, hd, hv, mean_scale, hfl, mean_affine a b _ hfne, hm, List.sum_map_mul_left, List.map_id']
  ring

/-- **C166.** Errors: a chain of one step cannot be summarised (a division by zero), a percentage outside 0 to 100 is refused, and so is a chain too short for the autocorrelation time when a log is given. -/
theorem sampling_refuses (sqrt : K → K) (sort : KeySort (fun (x : K) => x)) (chain : List (List K)) (accepted : List K) (short logGiven : Bool) (ciMin ciMax : K) :
    (chain = [] → summary sqrt sort chain accepted short logGiven ciMin ciMax = .error .attributeError) ∧
    (chain.length = 1 → (short && logGiven) = false → summary sqrt sort chain accepted short logGiven ciMin ciMax = .error .zeroDivisionError) ∧
    (∀ walkers, 2 ≤ chain.length → 1 ≤ walkers → Shape chain chain.length walkers → (short && logGiven) = false →
      ((∃ s, summary sqrt sort chain accepted short logGiven ciMin ciMax = .ok s) ↔ (0 ≤ ciMin ∧ ciMin ≤ 100 ∧ 0 ≤ ciMax ∧ ciMax ≤ 100)) ∧
      (¬ (0 ≤ ciMin ∧ ciMin ≤ 100 ∧ 0 ≤ ciMax ∧ ciMax ≤ 100) → summary sqrt sort chain accepted short logGiven ciMin ciMax = .error .valueError)) := by
  refine ⟨fun h => by simp only [summary, h, if_true], ?_, ?_⟩
  · intro h1 hl
    have hc : chain ≠ [] := by rintro rfl; simp at h1
    have hr : computeRhat (dims chain).1 (dims chain).2 chain = .error .zeroDivisionError := by
      simp only [computeRhat, dims, h1, if_true]
    simp only [summary, hc, hl, hr, if_false, Bool.false_eq_true]
  · intro walkers h2 hw hshape hl
    have hc : chain ≠ [] := by rintro rfl; simp at h2
    have hd := dims_shape chain _ walkers hshape (by omega)
    obtain ⟨r, hr⟩ : ∃ r, computeRhat (dims chain).1 (dims chain).2 chain = .ok r := by
      simp only [computeRhat, hd, show chain.length ≠ 1 by omega, show walkers ≠ 0 by omega, if_false]
      exact ⟨_, rfl⟩
    refine ⟨⟨?_, ?_⟩, ?_⟩
    · rintro ⟨s, hs⟩
      exact (bounds_ok _ _ _ _ _ (summary_fields sqrt sort chain accepted short logGiven ciMin ciMax s hs).2.2.2.1).1
    · intro hb
      simp only [summary, hc, hl, hr, bounds, hb, and_self, if_false, if_true, Bool.false_eq_true]
      exact ⟨_, rfl⟩
    · intro hb
      simp only [summary, hc, hl, hr, bounds, if_neg hb, if_false, Bool.false_eq_true]

/-- **C166 (negation).** A log given by the caller is never used: printing the results then fails, and so does the summary of a chain too short for the autocorrelation time. -/
theorem sampling_log (sqrt : K → K) (sort : KeySort (fun (x : K) => x)) (chain : List (List K)) (accepted : List K) (ciMin ciMax : K) :
    printResults true = .error .attributeError ∧ printResults false = .ok () ∧ summary sqrt sort chain accepted true true ciMin ciMax = .error .attributeError := by
  refine ⟨rfl, rfl, ?_⟩
  unfold summary
  by_cases hc : chain = []
  · simp only [hc, if_true]
  · simp only [hc, if_false, Bool.and_self, if_true]

/-! Non-vacuity: a chain of three steps of two walkers. -/

example : (summary id (stableSort _) [[0, 1], [2, 3], [4, (5 : ℚ)]] [1 / 2, 1 / 4] true false 5 95).map (fun s => (s.mean, s.std, s.ci)) =
    .ok (5 / 2, 35 / 12, (some (1 / 4), some (19 / 4))) := by decide +kernel

example : (summary id (stableSort _) [[0, 1], [2, 3], [4, (5 : ℚ)]] [1 / 2, 1 / 4] true false 5 95).map (fun s => (s.rhat, s.effective, s.nwalkers, s.niter)) =
    .ok (33 / 8, 9 / 4, 3, 2) := by decide +kernel

example : Shape [[0, 1], [2, 3], [4, (5 : ℚ)]] 3 2 := ⟨rfl, by simp⟩

example : List.Forall₂ List.Perm [[0, 1], [2, (3 : ℚ)]] [[1, 0], [2, 3]] := .cons (List.Perm.swap _ _ _) (.cons (List.Perm.refl _) .nil)

end Stingray.Sampling
