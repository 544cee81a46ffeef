import Verif.Model.UtilsStats
import Mathlib.Tactic.Linarith
import Mathlib.Tactic.Positivity
import Mathlib.Tactic.FieldSimp
import Mathlib.Tactic.NormNum
import Mathlib.Tactic.Ring

/-!
Window functions (C133).
-/

set_option linter.unusedSectionVars false

namespace Stingray.UtilsStats

/-- **C133 (length).** A window has as many samples as asked for (the sign of the length is ignored). -/
theorem window_length (N : Int) (name : String) (l : List (Option ℝ)) (h : createWindow N name = .ok l) : l.length = N.natAbs := by
  unfold createWindow at h
  split at h
  · cases h
  · simp only at h
    split_ifs at h with h0 h1
    · cases h; rw [h0]; rfl
    · cases h; rw [h1.1]; rfl
    · cases h; simp

theorem cos_flip (k : Nat) (n i : Nat) (hn : 1 < n) (hi : i < n) :
    Real.cos ((2 * k : ℝ) * Real.pi * ((n - 1 - i : Nat) : ℝ) / ((n : ℝ) - 1)) = Real.cos ((2 * k : ℝ) * Real.pi * (i : ℝ) / ((n : ℝ) - 1)) := by
  have hn' : (n : ℝ) - 1 ≠ 0 := by
    have : (1 : ℝ) < n := by exact_mod_cast hn
    linarith
  have e : ((n - 1 - i : Nat) : ℝ) = (n : ℝ) - 1 - i := by
    rw [Nat.cast_sub (by omega), Nat.cast_sub (by omega)]; norm_num
  have : (2 * k : ℝ) * Real.pi * ((n : ℝ) - 1 - i) / ((n : ℝ) - 1) = (k : ℝ) * (2 * Real.pi) - (2 * k : ℝ) * Real.pi * (i : ℝ) / ((n : ℝ) - 1) := by
    field_simp
  rw [e, this, Real.cos_nat_mul_two_pi_sub]

theorem windowValue_flip (w : Window) (n i : Nat) (hn : 1 < n) (hi : i < n) (hw : (w ≠ .triangular ∧ w ≠ .parzen) ∨ n % 2 = 1) :
    windowValue w n (n - 1 - i) = windowValue w n i := by
  have h2 := cos_flip 1 n i hn hi
  have h4 := cos_flip 2 n i hn hi
  have h6 := cos_flip 3 n i hn hi
  have h8 := cos_flip 4 n i hn hi
  norm_num at h2 h4 h6 h8
  have e : ((n - 1 - i : Nat) : ℝ) = (n : ℝ) - 1 - i := by
    rw [Nat.cast_sub (by omega), Nat.cast_sub (by omega)]; norm_num
  cases w with
  | uniform => rfl
  | hamming => simp only [windowValue, h2]
  | hanning => simp only [windowValue, h2]
  | blackmann => simp only [windowValue, h2, h4]
  | flatTop => simp only [windowValue, h2, h4, h6, h8]
  | welch =>
    simp only [windowValue, e]
    ring
  | triangular =>
    rcases hw with hw | hw
    · exact absurd rfl hw.1
    · obtain ⟨p, rfl⟩ : ∃ p, n = 2 * p + 1 := ⟨n / 2, by omega⟩
      simp only [windowValue, e]
      rw [show (2 * p + 1 - 1) / 2 = p by omega]
      have : ((2 * p + 1 : Nat) : ℝ) - 1 - i - p = -((i : ℝ) - p) := by push_cast; ring
      rw [this, neg_div, abs_neg]
  | parzen =>
    rcases hw with hw | hw
    · exact absurd rfl hw.2
    · obtain ⟨p, rfl⟩ : ∃ p, n = 2 * p + 1 := ⟨n / 2, by omega⟩
      simp only [windowValue]
      rw [show (2 * p + 1 + 2) / 2 - 1 = p by omega, show (2 * p + 1 + 2) / 2 = p + 1 by omega]
      by_cases h : i < p
      · rw [if_neg (by omega), if_pos h]
        congr 1; omega
      · rw [if_neg h]
        by_cases h' : i = p
        · rw [if_neg (by omega)]; congr 1; omega
        · rw [if_pos (by omega)]; congr 1; omega

/-- **C133 (partial).** Windows are symmetric: reading them backwards gives the same values. Missing: triangular and Parzen windows of an even number of samples, see `window_asymmetric`. -/
theorem window_symmetric_partial (N : Int) (name : String) (l : List (Option ℝ)) (h : createWindow N name = .ok l)
    (hw : (windowOf name ≠ some .triangular ∧ windowOf name ≠ some .parzen) ∨ N.natAbs % 2 = 1) : l.reverse = l := by
  unfold createWindow at h
  cases hn : windowOf name with
  | none => rw [hn] at h; cases h
  | some w =>
    rw [hn] at h hw
    simp only at h
    split_ifs at h with h0 h1
    · cases h; rfl
    · cases h; rfl
    · cases h
      apply List.ext_getElem?
      intro i
      by_cases hi : i < N.natAbs
      · rw [List.getElem?_reverse (by simpa using hi)]
        simp only [List.length_map, List.length_range, List.getElem?_map]
        rw [List.getElem?_range (by omega), List.getElem?_range hi]
        simp only [Option.map_some, Option.some.injEq]
        by_cases h1' : N.natAbs = 1
        · rw [h1']; congr 1; omega
        · exact windowValue_flip w _ i (by omega) hi (by simpa using hw)
      · rw [List.getElem?_eq_none (by simpa using hi), List.getElem?_eq_none (by simpa using hi)]

/-- **C133 (negation).** Triangular and Parzen windows of an even number of samples are not symmetric. -/
theorem window_asymmetric :
    createWindow 2 "triangular" = .ok [some 1, some (1/2)] ∧ createWindow 4 "parzen" = .ok [some 0, some (1/4), some 1, some (1/4)] := by
  have h1 : windowOf "triangular" = some .triangular := by decide +kernel
  have h2 : windowOf "parzen" = some .parzen := by decide +kernel
  constructor
  · unfold createWindow
    rw [h1]
    norm_num [windowValue, List.range_succ]
  · unfold createWindow
    rw [h2]
    norm_num [windowValue, parzenHalf, List.range_succ]

theorem parzenHalf_bounds (np i : Nat) (hn : 1 < np) (hi : i < np) : 0 ≤ parzenHalf np i ∧ parzenHalf np i ≤ 1 := by
  have hd : (0 : ℝ) < (np : ℝ) - 1 := by
    have : (1 : ℝ) < np := by exact_mod_cast hn
    linarith
  unfold parzenHalf
  simp only
  have hx0 : 0 ≤ (i : ℝ) / ((np : ℝ) - 1) := by positivity
  have hx1 : (i : ℝ) / ((np : ℝ) - 1) ≤ 1 := by
    rw [div_le_one hd]
    have : (i : ℝ) + 1 ≤ np := by exact_mod_cast hi
    linarith
  have hhalf : ¬ i < np / 2 + 1 → 1 / 2 ≤ (i : ℝ) / ((np : ℝ) - 1) := by
    intro h
    rw [le_div_iff₀ hd]
    have : np ≤ 2 * i := by omega
    have : (np : ℝ) ≤ 2 * i := by exact_mod_cast this
    linarith
  set x := (i : ℝ) / ((np : ℝ) - 1)
  split_ifs with h
  · constructor
    · nlinarith [mul_nonneg hx0 (sq_nonneg (3 * x - 2)), sq_nonneg (3 * x - 2)]
    · have := mul_nonneg (mul_nonneg (sub_nonneg.2 hx1) hx0) hx0
      linarith
  · have hh := hhalf h
    have h0 : 0 ≤ 1 - x := by linarith
    constructor
    · positivity
    · have a : (1 - x) * (1 - x) ≤ 1 / 2 * (1 / 2) := mul_le_mul (by linarith) (by linarith) h0 (by norm_num)
      have b : (1 - x) * (1 - x) * (1 - x) ≤ 1 / 2 * (1 / 2) * (1 / 2) := mul_le_mul a (by linarith) h0 (by norm_num)
      linarith

theorem windowValue_bounds (w : Window) (n i : Nat) (hn : 1 < n) (hi : i < n) (hw : w ≠ .flatTop) : 0 ≤ windowValue w n i ∧ windowValue w n i ≤ 1 := by
  have hn1 : (1 : ℝ) < n := by exact_mod_cast hn
  have hi1 : (i : ℝ) + 1 ≤ n := by exact_mod_cast hi
  have hi0 : (0 : ℝ) ≤ i := Nat.cast_nonneg i
  have c1 := Real.neg_one_le_cos (2 * Real.pi * (i : ℝ) / ((n : ℝ) - 1))
  have c2 := Real.cos_le_one (2 * Real.pi * (i : ℝ) / ((n : ℝ) - 1))
  cases w with
  | uniform => simp [windowValue]
  | hamming => simp only [windowValue]; constructor <;> linarith
  | hanning => simp only [windowValue]; constructor <;> linarith
  | flatTop => exact absurd rfl hw
  | blackmann =>
    simp only [windowValue]
    have : Real.cos (4 * Real.pi * (i : ℝ) / ((n : ℝ) - 1)) = 2 * Real.cos (2 * Real.pi * (i : ℝ) / ((n : ℝ) - 1)) ^ 2 - 1 := by
      rw [← Real.cos_two_mul]; congr 1; ring
    rw [this]
    set c := Real.cos (2 * Real.pi * (i : ℝ) / ((n : ℝ) - 1))
    constructor <;> nlinarith
  | welch =>
    simp only [windowValue]
    have hd : (0 : ℝ) < ((n : ℝ) - 1) / 2 := by linarith
    have h1 : -1 ≤ ((i : ℝ) - ((n : ℝ) - 1) / 2) / (((n : ℝ) - 1) / 2) := by rw [le_div_iff₀ hd]; linarith
    have h2 : ((i : ℝ) - ((n : ℝ) - 1) / 2) / (((n : ℝ) - 1) / 2) ≤ 1 := by rw [div_le_one hd]; linarith
    constructor <;> nlinarith
  | triangular =>
    simp only [windowValue]
    have hp : (((n - 1) / 2 : Nat) : ℝ) + 1 ≤ n := by
      have : (n - 1) / 2 + 1 ≤ n := by omega
      exact_mod_cast this
    have hp0 : (0 : ℝ) ≤ (((n - 1) / 2 : Nat) : ℝ) := Nat.cast_nonneg _
    have hd : (0 : ℝ) < n := by linarith
    have : |((i : ℝ) - (((n - 1) / 2 : Nat) : ℝ)) / (n : ℝ)| ≤ 1 := by
      rw [abs_le]
      constructor
      · rw [le_div_iff₀ hd]; linarith
      · rw [div_le_one hd]; linarith
    have := abs_nonneg (((i : ℝ) - (((n - 1) / 2 : Nat) : ℝ)) / (n : ℝ))
    constructor <;> linarith
  | parzen =>
    simp only [windowValue]
    split_ifs with h
    · exact parzenHalf_bounds _ _ (by omega) (by omega)
    · exact parzenHalf_bounds _ _ (by omega) (by omega)

/-- **C133 (values).** All values of windows of at least two samples, other than flat-top windows, are between 0 and 1. -/
theorem window_bounds (N : Int) (name : String) (l : List (Option ℝ)) (h : createWindow N name = .ok l) (hN : 1 < N.natAbs) (hw : windowOf name ≠ some .flatTop) :
    ∀ v ∈ l, ∃ x : ℝ, v = some x ∧ 0 ≤ x ∧ x ≤ 1 := by
  unfold createWindow at h
  cases hn : windowOf name with
  | none => rw [hn] at h; cases h
  | some w =>
    rw [hn] at h hw
    simp only at h
    split_ifs at h with h0 h1
    · rw [h0] at hN; exact absurd hN (by decide)
    · omega
    · cases h
      intro v hv
      obtain ⟨i, hi, rfl⟩ := List.mem_map.1 hv
      exact ⟨_, rfl, windowValue_bounds w _ i hN (List.mem_range.1 hi) (by simpa using hw)⟩

/-- **C133 (peak).** In the middle of an odd number of samples (at least three) the window has its peak, 1, for all types but the Blackman and flat-top ones. -/
theorem window_peak (p : Nat) (hp : 0 < p) (name : String) (l : List (Option ℝ)) (h : createWindow (2 * p + 1) name = .ok l) (hw : windowOf name ≠ some .flatTop ∧ windowOf name ≠ some .blackmann) :
    l[p]? = some (some 1) := by
  unfold createWindow at h
  cases hn : windowOf name with
  | none => rw [hn] at h; cases h
  | some w =>
    rw [hn] at h hw
    have ha : (2 * (p : Int) + 1).natAbs = 2 * p + 1 := by omega
    simp only [ha] at h
    rw [if_neg (by omega), if_neg (by omega)] at h
    cases h
    rw [List.getElem?_map, List.getElem?_range (by omega)]
    simp only [Option.map_some, Option.some.injEq]
    have hp' : (p : ℝ) ≠ 0 := by exact_mod_cast hp.ne'
    have hc : Real.cos (2 * Real.pi * (p : ℝ) / (((2 * p + 1 : Nat) : ℝ) - 1)) = -1 := by
      rw [← Real.cos_pi]; congr 1; push_cast; field_simp; ring
    cases w with
    | uniform => rfl
    | hamming => simp only [windowValue, hc]; norm_num
    | hanning => simp only [windowValue, hc]; norm_num
    | flatTop => exact absurd rfl hw.1
    | blackmann => exact absurd rfl hw.2
    | welch => simp only [windowValue]; push_cast; ring
    | triangular =>
      simp only [windowValue]
      rw [show (2 * p + 1 - 1) / 2 = p by omega]; simp
    | parzen =>
      simp only [windowValue]
      rw [if_neg (by omega), show p - ((2 * p + 1 + 2) / 2 - 1) = 0 by omega]
      simp [parzenHalf]

/-- **C133 (errors).** Only the eight known names are accepted, whatever the length, in any case. -/
theorem window_errors (N : Int) (name : String) : createWindow N name = .error .valueError ↔
    name.toLower ∉ ["uniform", "parzen", "hamming", "hanning", "triangular", "welch", "blackmann", "flat-top"] := by
  have hiff : windowOf name = none ↔ name.toLower ∉ ["uniform", "parzen", "hamming", "hanning", "triangular", "welch", "blackmann", "flat-top"] := by
    unfold windowOf
    split <;> simp_all
  rw [← hiff]
  unfold createWindow
  cases hn : windowOf name with
  | none => simp
  | some w =>
    simp only [reduceCtorEq, iff_false]
    split_ifs <;> simp

example : windowOf "HanNing" = some .hanning := by decide +kernel

/-- **C133 (ends).** The first value of a window of at least four samples, by name: 1 for the uniform one, 0 for the Parzen, Hanning, Welch and flat-top ones, 0.08 for the Hamming one, 0.006879 for the Blackman one, and just over one half for the triangular one. -/
theorem window_ends (n : Nat) (hn : 4 ≤ n) :
    ∀ p ∈ [("uniform", (1 : ℝ)), ("parzen", 0), ("hamming", 8 / 100), ("hanning", 0), ("triangular", 1 - ((n - 1) / 2 : Nat) / (n : ℝ)), ("welch", 0),
      ("blackmann", 6879 / 1000000), ("flat-top", 0)],
      ∃ l, createWindow n p.1 = .ok l ∧ l[0]? = some (some p.2) := by
  have hw : ∀ (name : String) (w : Window) (v : ℝ), windowOf name = some w → windowValue w n 0 = v →
      ∃ l, createWindow n name = .ok l ∧ l[0]? = some (some v) := by
    intro name w v h1 h2
    refine ⟨(List.range n).map fun i => some (windowValue w n i), ?_, ?_⟩
    · unfold createWindow
      rw [h1]
      simp only [Int.natAbs_natCast]
      rw [if_neg (by omega), if_neg (by omega)]
    · rw [List.getElem?_map, List.getElem?_range (by omega)]
      simp [h2]
  have hn0 : (n : ℝ) - 1 ≠ 0 := by
    have : (4 : ℝ) ≤ n := by exact_mod_cast hn
    linarith
  intro p hp
  simp only [List.mem_cons, List.not_mem_nil, or_false] at hp
  rcases hp with rfl | rfl | rfl | rfl | rfl | rfl | rfl | rfl
  · exact hw _ .uniform _ (by decide +kernel) rfl
  · refine hw _ .parzen _ (by decide +kernel) ?_
    have h1 : 0 < (n + 2) / 2 - 1 := by omega
    have h2 : ¬ ((n + 2) / 2 - 1 - 0 < (n + 2) / 2 / 2 + 1) := by omega
    simp only [windowValue, if_pos h1, parzenHalf, if_neg h2]
    have h3 : (((n + 2) / 2 - 1 - 0 : Nat) : ℝ) = (((n + 2) / 2 : Nat) : ℝ) - 1 := by
      rw [Nat.sub_zero, Nat.cast_sub (by omega)]; simp
    have h4 : (((n + 2) / 2 : Nat) : ℝ) - 1 ≠ 0 := by
      rw [← h3]; exact_mod_cast (by omega : (n + 2) / 2 - 1 - 0 ≠ 0)
    rw [h3, div_self h4]; ring
  · refine hw _ .hamming _ (by decide +kernel) ?_
    simp only [windowValue, Nat.cast_zero, mul_zero, zero_div, Real.cos_zero]; norm_num
  · refine hw _ .hanning _ (by decide +kernel) ?_
    simp only [windowValue, Nat.cast_zero, mul_zero, zero_div, Real.cos_zero]; norm_num
  · refine hw "triangular" .triangular _ (by decide +kernel) ?_
    simp only [windowValue, Nat.cast_zero, zero_sub, neg_div, abs_neg]
    rw [abs_of_nonneg (by positivity)]
  · refine hw _ .welch _ (by decide +kernel) ?_
    simp only [windowValue, Nat.cast_zero]
    field_simp
    ring
  · refine hw _ .blackmann _ (by decide +kernel) ?_
    simp only [windowValue, Nat.cast_zero, mul_zero, zero_div, Real.cos_zero]; norm_num
  · refine hw _ .flatTop _ (by decide +kernel) ?_
    simp only [windowValue, Nat.cast_zero, mul_zero, zero_div, Real.cos_zero]; norm_num

/-- **C133 (Parzen).** The values of a Parzen window of `8k + 1` samples at the quarters of its left half: 0, 1/32, 1/4 and, in the middle, 1. -/
theorem parzen_quarters (k : Nat) (hk : 0 < k) : ∃ l, createWindow (8 * k + 1 : Nat) "parzen" = .ok l ∧
    l[0]? = some (some 0) ∧ l[k]? = some (some (1 / 32)) ∧ l[2 * k]? = some (some (1 / 4)) ∧ l[4 * k]? = some (some 1) := by
  have hk' : (k : ℝ) ≠ 0 := by exact_mod_cast hk.ne'
  refine ⟨(List.range (8 * k + 1)).map fun i => some (windowValue .parzen (8 * k + 1) i), ?_, ?_, ?_, ?_, ?_⟩
  · have h1 : windowOf "parzen" = some .parzen := by decide +kernel
    unfold createWindow
    rw [h1]
    simp only [Int.natAbs_natCast]
    rw [if_neg (by omega), if_neg (by omega)]
  all_goals rw [List.getElem?_map, List.getElem?_range (by omega)]
  all_goals simp only [Option.map_some, Option.some.injEq, windowValue, show (8 * k + 1 + 2) / 2 = 4 * k + 1 by omega, Nat.add_sub_cancel, parzenHalf,
    show (4 * k + 1) / 2 = 2 * k by omega]
  · rw [if_pos (by omega), if_neg (by omega), Nat.sub_zero]
    push_cast; field_simp; ring
  · rw [if_pos (by omega), if_neg (by omega), show 4 * k - k = 3 * k by omega]
    push_cast; field_simp; ring
  · rw [if_pos (by omega), if_pos (by omega), show 4 * k - 2 * k = 2 * k by omega]
    push_cast; field_simp; ring
  · rw [if_neg (by omega), Nat.sub_self, if_pos (by omega)]
    simp

end Stingray.UtilsStats
