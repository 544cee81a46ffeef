import Verif.Model.UtilsStats
import Verif.Lemmas.GtiSegments
import Mathlib.Algebra.BigOperators.Ring.List
import Mathlib.Algebra.Order.Ring.Rat
import Mathlib.Data.Rat.Floor
import Mathlib.Tactic.Linarith
import Mathlib.Tactic.Positivity
import Mathlib.Tactic.FieldSimp
import Mathlib.Tactic.NormNum
import Mathlib.Tactic.Ring

/-!
Excess variance and standard errors (C134), ranges of energy with equal counts (C135).
-/

set_option linter.unusedSectionVars false

namespace Stingray.UtilsStats

open Stingray Stingray.Gti

section

variable {K : Type} [Field K] [LinearOrder K] [IsStrictOrderedRing K]

/-! ## Excess variance -/

/-- The mean of a list. -/
def avg (l : List K) : K := l.sum / (l.length : K)

/-- The variance of the counts minus the mean of the squared errors. -/
def excess (counts errs : List K) : K := avg (counts.map fun x => (x - avg counts) ^ 2) - avg (errs.map fun e => e ^ 2)

/-- **C134 (values).** The excess variance is the variance of the counts minus the mean squared error; normalised, it is divided by the squared mean; `fvar` is the root of the normalised one, and has a value exactly when the excess variance is not negative. -/
theorem excess_variance_values (sqrt : K → K) (hsqrt : ∀ x, 0 ≤ x → 0 ≤ sqrt x ∧ sqrt x ^ 2 = x) (counts errs : List K) (hm : avg counts ≠ 0) :
    (∃ e, excessVariance sqrt counts errs .none = some (some (excess counts errs), e)) ∧
    (∃ e, excessVariance sqrt counts errs .normXs = some (some (excess counts errs / avg counts ^ 2), e)) ∧
    (∃ f e, excessVariance sqrt counts errs .fvar = some (f, e) ∧ (f.isSome = true ↔ 0 ≤ excess counts errs) ∧ ∀ v, f = some v → 0 ≤ v ∧ v ^ 2 = excess counts errs / avg counts ^ 2) := by
  refine ⟨⟨_, rfl⟩, ⟨_, rfl⟩, ⟨_, _, rfl, ?_, ?_⟩⟩
  · change (root sqrt (excess counts errs / avg counts ^ 2)).isSome = true ↔ _
    have hm2 : 0 < avg counts ^ 2 := by positivity
    unfold root
    split_ifs with h
    · simp only [Option.isSome_none, Bool.false_eq_true, false_iff, not_le]
      by_contra h'
      exact absurd h (not_lt.2 (div_nonneg (not_lt.1 h') hm2.le))
    · simp only [Option.isSome_some, true_iff]
      by_contra h'
      exact h (div_neg_of_neg_of_pos (not_le.1 h') hm2)
  · intro v hv
    change root sqrt (excess counts errs / avg counts ^ 2) = some v at hv
    unfold root at hv
    split_ifs at hv with h
    cases hv
    exact hsqrt _ (not_lt.1 h)

/-- **C134 (errors, partial).** When the excess variance is not negative, the squared error of the normalised excess variance is `(2 s² / n + 4 s x / n) / mean⁴`, with `s` the mean squared error, `x` the excess variance and `n` the number of samples; the error without normalisation is
that one times the squared mean; and for a positive excess variance, the error of `fvar` times `2 fvar` is that of the normalised one (propagation of errors). Missing: negative excess variance, see `excess_variance_no_errors`. -/
theorem excess_variance_errors_partial (sqrt : K → K) (hsqrt : ∀ x, 0 ≤ x → 0 ≤ sqrt x ∧ sqrt x ^ 2 = x) (counts errs : List K) (hm : avg counts ≠ 0) (hn : counts ≠ [])
    (hx : 0 ≤ excess counts errs) :
    ∃ e, (excessVariance sqrt counts errs .normXs).map Prod.snd = some (some e) ∧ 0 ≤ e ∧
      e ^ 2 = (2 * avg (errs.map fun e => e ^ 2) ^ 2 / counts.length + 4 * avg (errs.map fun e => e ^ 2) * excess counts errs / counts.length) / avg counts ^ 4 ∧
      (excessVariance sqrt counts errs .none).map Prod.snd = some (some (e * avg counts ^ 2)) ∧
      (0 < excess counts errs → ∃ f fe, excessVariance sqrt counts errs .fvar = some (some f, some fe) ∧ 2 * f * fe = e) := by
  have hm2 : 0 < avg counts ^ 2 := by positivity
  have hlen : (0 : K) < counts.length := by
    have := List.length_pos_iff.2 hn
    exact_mod_cast this
  have hs : 0 ≤ avg (errs.map fun e => e ^ 2) := by
    unfold avg
    apply div_nonneg _ (Nat.cast_nonneg _)
    apply List.sum_nonneg
    intro x hx
    obtain ⟨y, _, rfl⟩ := List.mem_map.1 hx
    positivity
  set s := avg (errs.map fun e => e ^ 2) with hsdef
  set x := excess counts errs with hxdef
  set m := avg counts with hmdef
  have hq : 0 ≤ x / m ^ 2 := div_nonneg hx hm2.le
  obtain ⟨hf0, hf2⟩ := hsqrt _ hq
  obtain ⟨_, ha2⟩ := hsqrt (2 / (counts.length : K)) (by positivity)
  obtain ⟨_, hb2⟩ := hsqrt (s / (counts.length : K)) (by positivity)
  set f := sqrt (x / m ^ 2) with hfdef
  have hroot : root sqrt (x / m ^ 2) = some f := by unfold root; rw [if_neg (not_lt.2 hq)]
  set A := sqrt (2 / (counts.length : K)) * s / m ^ 2 with hA
  set B := sqrt (s / (counts.length : K)) * 2 * f / m with hB
  have hAB : 0 ≤ A ^ 2 + B ^ 2 := by positivity
  obtain ⟨he0, he2⟩ := hsqrt _ hAB
  have hE : root sqrt (A ^ 2 + B ^ 2) = some (sqrt (A ^ 2 + B ^ 2)) := by unfold root; rw [if_neg (not_lt.2 hAB)]
  have hnx : excessVariance sqrt counts errs .normXs = some (some (x / m ^ 2), some (sqrt (A ^ 2 + B ^ 2))) := by
    change some (some (x / m ^ 2), ((root sqrt (x / m ^ 2)).map fun f => sqrt (s / (counts.length : K)) * 2 * f / m).bind fun b => root sqrt (A ^ 2 + b ^ 2)) = _
    rw [hroot]
    simp only [Option.map_some, Option.bind_some, ← hB, hE]
  have hno : excessVariance sqrt counts errs .none = some (some x, some (sqrt (A ^ 2 + B ^ 2) * m ^ 2)) := by
    change some (some x, (((root sqrt (x / m ^ 2)).map fun f => sqrt (s / (counts.length : K)) * 2 * f / m).bind fun b => root sqrt (A ^ 2 + b ^ 2)).map fun e => e * m ^ 2) = _
    rw [hroot]
    simp only [Option.map_some, Option.bind_some, ← hB, hE]
  have hfv : excessVariance sqrt counts errs .fvar = some (some f, quot (sqrt (A ^ 2 + B ^ 2)) (2 * f)) := by
    change some (root sqrt (x / m ^ 2), (((root sqrt (x / m ^ 2)).map fun f => sqrt (s / (counts.length : K)) * 2 * f / m).bind fun b => root sqrt (A ^ 2 + b ^ 2)).bind fun e =>
      (root sqrt (x / m ^ 2)).bind fun f => quot e (2 * f)) = _
    rw [hroot]
    simp only [Option.map_some, Option.bind_some, ← hB, hE]
  refine ⟨sqrt (A ^ 2 + B ^ 2), by rw [hnx]; rfl, he0, ?_, by rw [hno]; rfl, ?_⟩
  · rw [he2, hA, hB]
    have e1 : (sqrt (2 / (counts.length : K)) * s / m ^ 2) ^ 2 = 2 / (counts.length : K) * s ^ 2 / m ^ 4 := by
      rw [div_pow, mul_pow, ha2]; ring
    have e2 : (sqrt (s / (counts.length : K)) * 2 * f / m) ^ 2 = s / (counts.length : K) * 4 * (x / m ^ 2) / m ^ 2 := by
      rw [div_pow, mul_pow, mul_pow, hb2, hf2]; ring
    rw [e1, e2]
    field_simp
  · intro hx0
    have hfp : f ≠ 0 := by
      intro h0
      rw [h0] at hf2
      have : 0 < x / m ^ 2 := div_pos hx0 hm2
      rw [← hf2] at this
      simp at this
    refine ⟨f, sqrt (A ^ 2 + B ^ 2) / (2 * f), ?_, ?_⟩
    · rw [hfv]; unfold quot; rw [if_neg (mul_ne_zero two_ne_zero hfp)]
    · field_simp

/-- **C134 (errors, negation).** With a negative excess variance, a common case for weak variability, no normalisation has an error (not a number), not even those whose value exists. -/
theorem excess_variance_no_errors (sqrt : K → K) (counts errs : List K) (hm : avg counts ≠ 0) (hx : excess counts errs < 0) :
    excessVariance sqrt counts errs .normXs = some (some (excess counts errs / avg counts ^ 2), none) ∧ excessVariance sqrt counts errs .none = some (some (excess counts errs), none) ∧
    excessVariance sqrt counts errs .fvar = some (none, none) := by
  have hm2 : 0 < avg counts ^ 2 := by positivity
  have hroot : root sqrt (excess counts errs / avg counts ^ 2) = none := by
    unfold root; rw [if_pos (div_neg_of_neg_of_pos hx hm2)]
  refine ⟨?_, ?_, ?_⟩
  · change some (_, ((root sqrt (excess counts errs / avg counts ^ 2)).map _).bind _) = _
    rw [hroot]; rfl
  · change some (_, (((root sqrt (excess counts errs / avg counts ^ 2)).map _).bind _).map _) = _
    rw [hroot]; rfl
  · change some (root sqrt (excess counts errs / avg counts ^ 2), (((root sqrt (excess counts errs / avg counts ^ 2)).map _).bind _).bind _) = _
    rw [hroot]; rfl

example : excess [10, 20, 30, (20 : ℚ)] [1, 2, 3, 2] = 91/2 ∧ avg [10, 20, 30, (20 : ℚ)] ≠ 0 ∧ excess [10, 11, (12 : ℚ)] [3, 3, 3] < 0 := by decide +kernel

theorem avg_scale (c : K) (l : List K) : avg (l.map (c * ·)) = c * avg l := by
  unfold avg
  rw [List.length_map, List.sum_map_mul_left, List.map_id', mul_div_assoc]

/-- **C134 (unit).** Measuring counts and errors in another unit multiplies the excess variance by the square of the factor, and leaves its normalised value alone. -/
theorem excess_variance_unit (c : K) (hc : c ≠ 0) (counts errs : List K) :
    excess (counts.map (c * ·)) (errs.map (c * ·)) = c ^ 2 * excess counts errs ∧
    excess (counts.map (c * ·)) (errs.map (c * ·)) / avg (counts.map (c * ·)) ^ 2 = excess counts errs / avg counts ^ 2 := by
  have h : excess (counts.map (c * ·)) (errs.map (c * ·)) = c ^ 2 * excess counts errs := by
    unfold excess
    have h1 : ((counts.map (c * ·)).map fun x => (x - avg (counts.map (c * ·))) ^ 2) = (counts.map fun x => (x - avg counts) ^ 2).map (c ^ 2 * ·) := by
      rw [avg_scale, List.map_map, List.map_map]
      apply List.map_congr_left; intro x _; simp only [Function.comp]; ring
    have h2 : ((errs.map (c * ·)).map fun e => e ^ 2) = (errs.map fun e => e ^ 2).map (c ^ 2 * ·) := by
      rw [List.map_map, List.map_map]
      apply List.map_congr_left; intro x _; simp only [Function.comp]; ring
    rw [h1, h2, avg_scale, avg_scale, mul_sub]
  refine ⟨h, ?_⟩
  rw [h, avg_scale, mul_pow, mul_div_mul_left _ _ (pow_ne_zero 2 hc)]

/-- **C134 (standard errors).** The squared standard error of at least two values, times `n (n - 1)`, is the sum of the squared distances from the mean; of one value there is none. -/
theorem standard_error_spec (sqrt : K → K) (hsqrt : ∀ x, 0 ≤ x → 0 ≤ sqrt x ∧ sqrt x ^ 2 = x) (xs : List K) (m : K) :
    (2 ≤ xs.length → ∃ e, standardError sqrt xs m = some e ∧ 0 ≤ e ∧ e ^ 2 * ((xs.length : K) * ((xs.length : K) - 1)) = (xs.map fun x => (x - m) ^ 2).sum) ∧
    (xs.length = 1 → standardError sqrt xs m = none) := by
  constructor
  · intro h
    have hl : (2 : K) ≤ xs.length := by exact_mod_cast h
    have h1 : (0 : K) < (xs.length : K) - 1 := by linarith
    have h0 : (0 : K) < (xs.length : K) := by linarith
    have hs : 0 ≤ (xs.map fun x => (x - m) ^ 2).sum := by
      apply List.sum_nonneg
      intro x hx
      obtain ⟨y, _, rfl⟩ := List.mem_map.1 hx
      positivity
    have hq : 0 ≤ (xs.map fun x => (x - m) ^ 2).sum / ((xs.length : K) - 1) / (xs.length : K) := by positivity
    obtain ⟨ha, hb⟩ := hsqrt _ hq
    refine ⟨_, ?_, ha, ?_⟩
    · unfold standardError quot root
      rw [if_neg h1.ne', Option.bind_some, if_neg (not_lt.2 hq)]
    · rw [hb]; field_simp
  · intro h
    unfold standardError quot
    rw [h, if_pos (by norm_num)]; rfl

end

/-! ## Ranges of energy -/

section

variable {K : Type} [Field K] [LinearOrder K] [IsStrictOrderedRing K] [FloorRing K]

theorem percentile_cases (l : List K) (hl : l ≠ []) (q : K) (h0 : 0 ≤ q) (h1 : q ≤ 1) :
    ∃ (j : Nat) (t a v : K), l[j]? = some a ∧ percentile l q = some v ∧ q * ((l.length : K) - 1) = (j : K) + t ∧ 0 ≤ t ∧ t < 1 ∧
      ((v = a ∧ t = 0) ∨ ∃ b, l[j + 1]? = some b ∧ v = a + (b - a) * t) := by
  have hlen : 1 ≤ l.length := List.length_pos_iff.2 hl
  have hlenK : (1 : K) ≤ l.length := by exact_mod_cast hlen
  have hpos : 0 ≤ q * ((l.length : K) - 1) := mul_nonneg h0 (by linarith)
  have hposle : q * ((l.length : K) - 1) ≤ (l.length : K) - 1 := by
    have := mul_le_mul_of_nonneg_right h1 (show (0 : K) ≤ (l.length : K) - 1 by linarith)
    linarith
  set pos := q * ((l.length : K) - 1) with hposdef
  have hfl : 0 ≤ ⌊pos⌋ := Int.floor_nonneg.2 hpos
  obtain ⟨j, hj⟩ : ∃ j : Nat, ⌊pos⌋ = (j : Int) := ⟨⌊pos⌋.toNat, (Int.toNat_of_nonneg hfl).symm⟩
  have hjK : (j : K) ≤ pos := by
    have := Int.floor_le pos
    rw [hj] at this; exact_mod_cast this
  have hjK1 : pos < (j : K) + 1 := by
    have := Int.lt_floor_add_one pos
    rw [hj] at this; exact_mod_cast this
  have hjl : j < l.length := by
    have : (j : K) < l.length := by linarith
    exact_mod_cast this
  have ha : l[j]? = some l[j] := List.getElem?_eq_getElem hjl
  have hp : percentile l q = match l[j + 1]? with
    | none => some l[j]
    | some b => some (l[j] + (b - l[j]) * (pos - (j : K))) := by
    unfold percentile
    simp only [← hposdef, hj, Int.toNat_natCast, ha, Int.cast_natCast]
    cases l[j + 1]? <;> rfl
  by_cases hj1 : j + 1 < l.length
  · refine ⟨j, pos - j, l[j], _, ha, by rw [hp, List.getElem?_eq_getElem hj1], by ring, by linarith, by linarith, Or.inr ⟨l[j + 1], List.getElem?_eq_getElem hj1, rfl⟩⟩
  · have e : (j : K) + 1 = l.length := by
      have : j + 1 = l.length := by omega
      exact_mod_cast this
    refine ⟨j, pos - j, l[j], l[j], ha, by rw [hp, List.getElem?_eq_none (by omega)], by ring, by linarith, by linarith, Or.inl ⟨rfl, by linarith⟩⟩

theorem sorted_get_le (l : List K) (hs : l.Pairwise (· ≤ ·)) (i j : Nat) (a b : K) (hi : l[i]? = some a) (hj : l[j]? = some b) (hij : i ≤ j) : a ≤ b := by
  obtain ⟨hi', rfl⟩ := List.getElem?_eq_some_iff.1 hi
  obtain ⟨hj', rfl⟩ := List.getElem?_eq_some_iff.1 hj
  rcases hij.eq_or_lt with rfl | h
  · exact le_rfl
  · exact List.pairwise_iff_getElem.1 hs i j hi' hj' h

/-- Between the elements on both sides. -/
theorem percentile_between (l : List K) (hs : l.Pairwise (· ≤ ·)) (hl : l ≠ []) (q : K) (h0 : 0 ≤ q) (h1 : q ≤ 1) :
    ∃ v, percentile l q = some v ∧ (∃ x ∈ l, x ≤ v) ∧ (∃ x ∈ l, v ≤ x) := by
  obtain ⟨j, t, a, v, ha, hv, _, ht0, ht1, h⟩ := percentile_cases l hl q h0 h1
  refine ⟨v, hv, ?_⟩
  rcases h with ⟨rfl, _⟩ | ⟨b, hb, rfl⟩
  · exact ⟨⟨_, List.mem_of_getElem? ha, le_rfl⟩, ⟨_, List.mem_of_getElem? ha, le_rfl⟩⟩
  · have hab := sorted_get_le l hs j (j + 1) a b ha hb (by omega)
    have := mul_nonneg (sub_nonneg.2 hab) ht0
    have h2 := mul_le_mul_of_nonneg_left ht1.le (sub_nonneg.2 hab)
    exact ⟨⟨a, List.mem_of_getElem? ha, by linarith⟩, ⟨b, List.mem_of_getElem? hb, by linarith⟩⟩

theorem percentile_mono (l : List K) (hs : l.Pairwise (· ≤ ·)) (hl : l ≠ []) (q q' v v' : K) (h0 : 0 ≤ q) (hq : q ≤ q') (h1 : q' ≤ 1)
    (hv : percentile l q = some v) (hv' : percentile l q' = some v') : v ≤ v' := by
  obtain ⟨j, t, a, w, ha, hw, hp, ht0, ht1, h⟩ := percentile_cases l hl q h0 (hq.trans h1)
  obtain ⟨j', t', a', w', ha', hw', hp', ht0', ht1', h'⟩ := percentile_cases l hl q' (h0.trans hq) h1
  rw [hv] at hw; cases hw
  rw [hv'] at hw'; cases hw'
  have hlenK : (1 : K) ≤ l.length := by
    have : 1 ≤ l.length := List.length_pos_iff.2 hl
    exact_mod_cast this
  have hpp : (j : K) + t ≤ (j' : K) + t' := by
    rw [← hp, ← hp']
    exact mul_le_mul_of_nonneg_right hq (by linarith)
  have hjj : j ≤ j' := by
    by_contra hc
    have : (j' : K) + 1 ≤ j := by exact_mod_cast (not_le.1 hc)
    linarith
  have hav' : a' ≤ v' := by
    rcases h' with ⟨rfl, _⟩ | ⟨b', hb', rfl⟩
    · exact le_rfl
    · have := mul_nonneg (sub_nonneg.2 (sorted_get_le l hs j' (j' + 1) a' b' ha' hb' (by omega))) ht0'
      linarith
  rcases hjj.eq_or_lt with rfl | hlt
  · rw [ha] at ha'; cases ha'
    have htt : t ≤ t' := by linarith
    rcases h with ⟨rfl, _⟩ | ⟨b, hb, rfl⟩
    · exact hav'
    · have hab := sorted_get_le l hs j (j + 1) a b ha hb (by omega)
      rcases h' with ⟨rfl, ht⟩ | ⟨b', hb', rfl⟩
      · have : t = 0 := by linarith
        rw [this]; simp
      · rw [hb] at hb'; cases hb'
        have := mul_le_mul_of_nonneg_left htt (sub_nonneg.2 hab)
        linarith
  · refine le_trans ?_ hav'
    rcases h with ⟨rfl, _⟩ | ⟨b, hb, rfl⟩
    · exact sorted_get_le l hs j j' _ _ ha ha' hjj
    · have hab := sorted_get_le l hs j (j + 1) a b ha hb (by omega)
      have h2 := mul_le_mul_of_nonneg_left ht1.le (sub_nonneg.2 hab)
      have := sorted_get_le l hs (j + 1) j' b a' hb ha' hlt
      linarith

/-- Distinct elements: as many are below the percentile as the position says. -/
theorem percentile_count (l : List K) (hs : l.Pairwise (· < ·)) (hl : l ≠ []) (q v : K) (h0 : 0 ≤ q) (h1 : q ≤ 1) (hv : percentile l q = some v) :
    ((l.filter fun x => decide (x < v)).length : Int) = ⌈q * ((l.length : K) - 1)⌉ := by
  have hs' : l.Pairwise (· ≤ ·) := hs.imp le_of_lt
  obtain ⟨j, t, a, w, ha, hw, hp, ht0, ht1, h⟩ := percentile_cases l hl q h0 h1
  rw [hv] at hw; cases hw
  rw [hp]
  have key : ∀ c : Nat, (∀ (i : Nat) (x : K), l[i]? = some x → (x < v ↔ i < c)) → c ≤ l.length → (l.filter fun x => decide (x < v)).length = c := by
    intro c hc hcl
    have hle : ∀ i, i < l.length → (i < (l.filter fun x => decide (x < v)).length ↔ i < c) := by
      intro i hi
      rw [← hc i _ (List.getElem?_eq_getElem hi)]
      exact lt_searchsortedLeft_iff l hs' v i _ (List.getElem?_eq_getElem hi)
    have hfl : (l.filter fun x => decide (x < v)).length ≤ l.length := List.length_filter_le _ _
    apply le_antisymm
    · by_contra hcon
      exact absurd ((hle c (by omega)).1 (by omega)) (lt_irrefl _)
    · by_contra hcon
      exact absurd ((hle _ (by omega)).2 (by omega)) (lt_irrefl _)
  have hjl := (List.getElem?_eq_some_iff.1 ha).1
  have hlt : ∀ (i k : Nat) (x y : K), l[i]? = some x → l[k]? = some y → i < k → x < y := by
    intro i k x y hx hy hik
    obtain ⟨hi', rfl⟩ := List.getElem?_eq_some_iff.1 hx
    obtain ⟨hk', rfl⟩ := List.getElem?_eq_some_iff.1 hy
    exact List.pairwise_iff_getElem.1 hs i k hi' hk' hik
  rcases ht0.eq_or_lt with ht | ht
  · have hva : v = a := by
      rcases h with ⟨rfl, _⟩ | ⟨b, _, rfl⟩
      · rfl
      · rw [← ht]; ring
    rw [← ht, add_zero, Int.ceil_natCast, key j ?_ hjl.le]
    intro i x hx
    rw [hva]
    constructor
    · intro hlt'
      by_contra hc
      exact absurd hlt' (not_lt.2 (sorted_get_le l hs' j i a x ha hx (by omega)))
    · intro hi
      exact hlt i j x a hx ha hi
  · rcases h with ⟨_, h⟩ | ⟨b, hb, hvb⟩
    · exact absurd h ht.ne'
    · have hab := hlt j (j + 1) a b ha hb (by omega)
      have hc : ⌈(j : K) + t⌉ = (j : Int) + 1 := by
        rw [Int.ceil_eq_iff]
        push_cast
        constructor <;> linarith
      have hav : a < v := by
        have := mul_pos (sub_pos.2 hab) ht
        linarith
      have hvlt : v < b := by
        have := mul_lt_mul_of_pos_left ht1 (sub_pos.2 hab)
        linarith
      rw [hc, key (j + 1) ?_ (List.getElem?_eq_some_iff.1 hb).1.le]
      · push_cast; rfl
      · intro i x hx
        constructor
        · intro hlt'
          by_contra hcon
          have := sorted_get_le l hs' (j + 1) i b x hb hx (by omega)
          linarith
        · intro hi
          exact lt_of_le_of_lt (sorted_get_le l hs' i j x a hx ha (by omega)) hav

theorem foldl_min_spec : ∀ (l : List K) (x : K), l.foldl min x ∈ x :: l ∧ ∀ y ∈ x :: l, l.foldl min x ≤ y := by
  intro l
  induction l with
  | nil => intro x; simp
  | cons y l ih =>
    intro x
    obtain ⟨h1, h2⟩ := ih (min x y)
    rw [List.foldl_cons]
    refine ⟨?_, ?_⟩
    · rcases List.mem_cons.1 h1 with h | h
      · rw [h]
        rcases min_choice x y with h' | h' <;> rw [h'] <;> simp
      · exact List.mem_cons_of_mem _ (List.mem_cons_of_mem _ h)
    · intro z hz
      have h3 := h2 (min x y) (List.mem_cons_self ..)
      rcases List.mem_cons.1 hz with rfl | hz
      · exact h3.trans (min_le_left _ _)
      · rcases List.mem_cons.1 hz with rfl | hz
        · exact h3.trans (min_le_right _ _)
        · exact h2 z (List.mem_cons_of_mem _ hz)

theorem foldl_max_spec : ∀ (l : List K) (x : K), l.foldl max x ∈ x :: l ∧ ∀ y ∈ x :: l, y ≤ l.foldl max x := by
  intro l
  induction l with
  | nil => intro x; simp
  | cons y l ih =>
    intro x
    obtain ⟨h1, h2⟩ := ih (max x y)
    rw [List.foldl_cons]
    refine ⟨?_, ?_⟩
    · rcases List.mem_cons.1 h1 with h | h
      · rw [h]
        rcases max_choice x y with h' | h' <;> rw [h'] <;> simp
      · exact List.mem_cons_of_mem _ (List.mem_cons_of_mem _ h)
    · intro z hz
      have h3 := h2 (max x y) (List.mem_cons_self ..)
      rcases List.mem_cons.1 hz with rfl | hz
      · exact (le_max_left _ _).trans h3
      · rcases List.mem_cons.1 hz with rfl | hz
        · exact (le_max_right _ _).trans h3
        · exact h2 z (List.mem_cons_of_mem _ hz)

/-- The energies between the given limits; without limits, all. -/
def inLimits (energies : List K) (emin emax : Option K) : List K :=
  energies.filter fun e => (emin.all fun lo => decide (lo ≤ e)) && (emax.all fun hi => decide (e ≤ hi))

/-- What `limitOr` gives: the limit given by the user, or the extremum. -/
theorem limitOr_min (energies : List K) (emin : Option K) (hne : energies ≠ []) : ∃ lo, limitOr min emin energies = .ok lo ∧
    (∀ e ∈ energies, (emin.all fun lo => decide (lo ≤ e)) = decide (lo ≤ e)) ∧ (emin = none → lo ∈ energies) ∧ ∀ v, emin = some v → lo = v := by
  cases emin with
  | some v => exact ⟨v, rfl, fun _ _ => rfl, fun h => (by cases h), fun w h => by cases h; rfl⟩
  | none =>
    obtain ⟨x, l, rfl⟩ := List.exists_cons_of_ne_nil hne
    obtain ⟨h1, h2⟩ := foldl_min_spec l x
    exact ⟨_, rfl, fun e he => by simp [h2 e he], fun _ => h1, fun w h => by cases h⟩

theorem limitOr_max (energies : List K) (emax : Option K) (hne : energies ≠ []) : ∃ hi, limitOr max emax energies = .ok hi ∧
    (∀ e ∈ energies, (emax.all fun hi => decide (e ≤ hi)) = decide (e ≤ hi)) ∧ (emax = none → hi ∈ energies) ∧ ∀ v, emax = some v → hi = v := by
  cases emax with
  | some v => exact ⟨v, rfl, fun _ _ => rfl, fun h => (by cases h), fun w h => by cases h; rfl⟩
  | none =>
    obtain ⟨x, l, rfl⟩ := List.exists_cons_of_ne_nil hne
    obtain ⟨h1, h2⟩ := foldl_max_spec l x
    exact ⟨_, rfl, fun e he => by simp [h2 e he], fun _ => h1, fun w h => by cases h⟩

/-- **C135 (partial).** Dividing the energies (not empty, with some between the limits) into `n > 1` ranges: there are `n + 1` edges, in non-decreasing order, the first is the lower limit and the last the upper one (those given, or the lowest and highest energy); and when the energies are distinct, the number of
energies within the limits and below edge `k`, for `0 < k < n`, is `k / n` of the number of energies minus one, rounded up: so the numbers in any two ranges differ by at most one, the highest energy left aside. Missing: equal energies, see `ranges_ties`. -/
theorem equal_count_ranges_partial (sort : KeySort (fun (x : K) => x)) (energies : List K) (n : Nat) (hn : 1 < n) (emin emax : Option K) (hne : inLimits energies emin emax ≠ []) :
    ∃ edges : List K, equalCountRanges sort energies n emin emax = .ok (edges.map some) ∧ edges.length = n + 1 ∧ edges.Pairwise (· ≤ ·) ∧
      (∃ lo hi, edges.head? = some lo ∧ edges.getLast? = some hi ∧ (∀ v, emin = some v → lo = v) ∧ (∀ v, emax = some v → hi = v) ∧ (emin = none → lo ∈ energies) ∧ (emax = none → hi ∈ energies) ∧
        ∀ e ∈ inLimits energies emin emax, lo ≤ e ∧ e ≤ hi) ∧
      (energies.Nodup → ∀ (k : Nat) (v : K), 0 < k → k < n → edges[k]? = some v →
        (((inLimits energies emin emax).filter fun e => decide (e < v)).length : Int) = ⌈(k : K) / n * (((inLimits energies emin emax).length : K) - 1)⌉) := by
  have hne' : energies ≠ [] := by
    rintro rfl
    exact hne rfl
  obtain ⟨lo, hlo, hlo1, hlo2, hlo3⟩ := limitOr_min energies emin hne'
  obtain ⟨hi, hhi, hhi1, hhi2, hhi3⟩ := limitOr_max energies emax hne'
  have hkept : (if emin.isSome || emax.isSome then energies.filter fun e => decide (lo ≤ e) && decide (e ≤ hi) else energies) = inLimits energies emin emax := by
    unfold inLimits
    split_ifs with h
    · apply List.filter_congr
      intro e he
      rw [hlo1 e he, hhi1 e he]
    · cases emin with
      | some v => simp at h
      | none =>
        cases emax with
        | some v => simp at h
        | none => simp
  have hbounds : ∀ e ∈ inLimits energies emin emax, lo ≤ e ∧ e ≤ hi := by
    intro e he
    obtain ⟨he1, he2⟩ := List.mem_filter.1 he
    rw [hlo1 e he1, hhi1 e he1] at he2
    simpa using he2
  set kept := inLimits energies emin emax with hkeptdef
  have hsorted : (sort.sort kept).Pairwise (· ≤ ·) := sort.sorted kept
  have hperm := sort.perm kept
  have hsne : sort.sort kept ≠ [] := by
    intro h
    rw [h] at hperm
    exact hne (List.nil_perm.1 hperm)
  have hn0 : (0 : K) < n := by
    have : 0 < n := by omega
    exact_mod_cast this
  have hq : ∀ k : Nat, k ≤ n → 0 ≤ (k : K) / n ∧ (k : K) / n ≤ 1 := by
    intro k hk
    refine ⟨by positivity, ?_⟩
    rw [div_le_one hn0]; exact_mod_cast hk
  have hex : ∀ k : Nat, ∃ v, k ≤ n → percentile (sort.sort kept) ((k : K) / n) = some v := by
    intro k
    by_cases hk : k ≤ n
    · obtain ⟨v, hv, _⟩ := percentile_between _ hsorted hsne _ (hq k hk).1 (hq k hk).2
      exact ⟨v, fun _ => hv⟩
    · exact ⟨0, fun h => absurd h hk⟩
  choose val hval using hex
  have hvb : ∀ k, k ≤ n → lo ≤ val k ∧ val k ≤ hi := by
    intro k hk
    obtain ⟨v, hv, ⟨x, hx, hxv⟩, ⟨y, hy, hyv⟩⟩ := percentile_between _ hsorted hsne _ (hq k hk).1 (hq k hk).2
    rw [hval k hk] at hv; cases hv
    exact ⟨(hbounds x (hperm.subset hx)).1.trans hxv, hyv.trans (hbounds y (hperm.subset hy)).2⟩
  have hmid : (List.range (n - 1)).map (fun (k : Nat) => percentile (sort.sort kept) (((k : K) + 1) / (n : K))) = ((List.range (n - 1)).map fun k => val (k + 1)).map some := by
    rw [List.map_map]
    apply List.map_congr_left
    intro k hk
    have hk := List.mem_range.1 hk
    have := hval (k + 1) (by omega)
    push_cast at this
    simp only [Function.comp, this]
  refine ⟨lo :: ((List.range (n - 1)).map fun k => val (k + 1)) ++ [hi], ?_, ?_, ?_, ?_, ?_⟩
  · unfold equalCountRanges
    simp only [hlo, hhi, hkept, ← hkeptdef]
    rw [if_pos (by omega)]
    simp only [Int.toNat_natCast, hmid]
    simp
  · simp; omega
  · rw [List.cons_append, List.pairwise_cons, List.pairwise_append, List.pairwise_map]
    obtain ⟨e0, he0⟩ := List.exists_mem_of_ne_nil _ hne
    have hlohi : lo ≤ hi := (hbounds e0 he0).1.trans (hbounds e0 he0).2
    refine ⟨?_, ?_, List.pairwise_singleton _ _, ?_⟩
    · intro a ha
      rcases List.mem_append.1 ha with ha | ha
      · obtain ⟨k, hk, rfl⟩ := List.mem_map.1 ha
        have := List.mem_range.1 hk
        exact (hvb (k + 1) (by omega)).1
      · rw [List.mem_singleton.1 ha]; exact hlohi
    · apply List.Pairwise.imp_of_mem (R := (· < ·)) _ (List.pairwise_lt_range)
      intro a b ha hb hab
      have ha := List.mem_range.1 ha
      have hb := List.mem_range.1 hb
      refine percentile_mono _ hsorted hsne _ _ _ _ (hq (a + 1) (by omega)).1 ?_ (hq (b + 1) (by omega)).2 (hval (a + 1) (by omega)) (hval (b + 1) (by omega))
      apply div_le_div_of_nonneg_right _ hn0.le
      exact_mod_cast (by omega : a + 1 ≤ b + 1)
    · intro a ha b hb
      obtain ⟨k, hk, rfl⟩ := List.mem_map.1 ha
      have := List.mem_range.1 hk
      rw [List.mem_singleton.1 hb]
      exact (hvb (k + 1) (by omega)).2
  · exact ⟨lo, hi, rfl, by rw [List.getLast?_append]; rfl, hlo3, hhi3, hlo2, hhi2, hbounds⟩
  · intro hnd k v hk0 hkn hv
    obtain ⟨k, rfl⟩ := Nat.exists_eq_succ_of_ne_zero hk0.ne'
    rw [List.cons_append, Nat.succ_eq_add_one, List.getElem?_cons_succ, List.getElem?_append_left (by simp; omega), List.getElem?_map, List.getElem?_range (by omega)] at hv
    cases hv
    have hstrict : (sort.sort kept).Pairwise (· < ·) := by
      have hnodup : (sort.sort kept).Nodup := hperm.nodup_iff.2 (hnd.filter _)
      exact (List.pairwise_and_iff.2 ⟨hsorted, hnodup⟩).imp fun h => lt_of_le_of_ne h.1 h.2
    have := percentile_count _ hstrict hsne _ _ (hq (k + 1) (by omega)).1 (hq (k + 1) (by omega)).2 (hval (k + 1) (by omega))
    rw [hperm.length_eq] at this
    rw [← this, (hperm.filter _).length_eq]

end

/-- **C135 (negation).** With equal energies the ranges do not have equal counts: here the first of the two ranges is empty. -/
theorem ranges_ties : equalCountRanges (stableSort _) [1, 1, 1, 1, (2 : ℚ)] 2 none none = .ok [some 1, some 1, some 2] := by decide +kernel

/-- **C135 (negation).** When there are no energies between the limits there is no error, but edges without a value. -/
theorem ranges_empty : equalCountRanges (stableSort _) [1, 2, 3, (4 : ℚ)] 2 (some 10) (some 20) = .ok [some 10, none, some 20] := by decide +kernel

example : equalCountRanges (stableSort _) [5, 3, 1, 4, (2 : ℚ)] 4 (some 0) none = .ok [some 0, some 2, some 3, some 4, some 5] := by decide +kernel
example : inLimits [5, 3, 1, 4, (2 : ℚ)] (some 2) none = [5, 3, 4, 2] := by decide +kernel

end Stingray.UtilsStats
