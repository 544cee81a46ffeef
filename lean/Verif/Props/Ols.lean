import Verif.Model.Ols
import Verif.Lemmas.Parseval
import Mathlib.Analysis.SpecialFunctions.Complex.Log
import Mathlib.Algebra.Field.GeomSum

/-!
Overlap-and-save convolution (C69).
-/

set_option linter.unusedSectionVars false

namespace Stingray.Ols

open Complex Stingray.Fourier

/-- The signal, zero outside its samples. -/
noncomputable def sample (x : List ℂ) (i : Int) : ℂ := if 0 ≤ i then x.getD i.toNat 0 else 0

/-- The specification: sample `i` of the convolution `Σ_k h_k x_{i+c-k}`, where `c = ⌊(nh-1)/2⌋` is the centre of `scipy.signal.fftconvolve(x, h, mode='same')`. -/
noncomputable def sameConvolution (x h : List ℂ) (i : Nat) : ℂ :=
  ∑ k ∈ Finset.range h.length, h.getD k 0 * sample x ((i : Int) + ((h.length - 1) / 2 : Nat) - k)

theorem sum_exp (n : Nat) (hn : 0 < n) (m : ℤ) :
    ∑ k ∈ Finset.range n, exp (2 * Real.pi * I * m * k / n) = if (n : ℤ) ∣ m then (n : ℂ) else 0 := by
  have hn' : (n : ℂ) ≠ 0 := by exact_mod_cast hn.ne'
  set z : ℂ := exp (2 * Real.pi * I * m / n) with hz
  have hpow : ∀ k : Nat, exp (2 * Real.pi * I * m * k / n) = z ^ k := by
    intro k
    rw [hz, ← Complex.exp_nat_mul]
    congr 1
    ring
  simp only [hpow]
  split_ifs with hd
  · obtain ⟨c, rfl⟩ := hd
    have : z = 1 := by
      rw [hz, Complex.exp_eq_one_iff]
      refine ⟨c, ?_⟩
      push_cast
      field_simp
    simp [this]
  · have hz1 : z ≠ 1 := by
      rw [hz, ne_eq, Complex.exp_eq_one_iff]
      rintro ⟨c, hc⟩
      apply hd
      refine ⟨c, ?_⟩
      have h2 : (2 * Real.pi * I : ℂ) ≠ 0 := by simp [Real.pi_ne_zero]
      have : (m : ℂ) = n * c := by
        field_simp at hc
        exact hc
      exact_mod_cast this
    have hzn : z ^ n = 1 := by
      rw [hz, ← Complex.exp_nat_mul, Complex.exp_eq_one_iff]
      exact ⟨m, by field_simp⟩
    rw [geom_sum_eq hz1, hzn]
    simp

/-- the correlation theorem, where no sample wraps around -/
theorem fft_product (nfft : Nat) (x g : List ℂ) (n : Nat) (hg : ∀ b, b < g.length → n + b < nfft) (hlen : g.length ≤ nfft) (hn : n < nfft) :
    ifft nfft (fun k => fft nfft x k * starRingEnd ℂ (fft nfft g k)) n =
      ∑ b ∈ Finset.range g.length, starRingEnd ℂ (g.getD b 0) * x.getD (n + b) 0 := by
  have hpos : 0 < nfft := by omega
  have hn' : (nfft : ℂ) ≠ 0 := by exact_mod_cast hpos.ne'
  unfold ifft fft
  simp only [list_sum_range]
  have hconj : ∀ k : Nat, starRingEnd ℂ (∑ a ∈ Finset.range nfft, g.getD a 0 * exp (-(2 * Real.pi * I * a * k / nfft))) =
      ∑ b ∈ Finset.range nfft, starRingEnd ℂ (g.getD b 0) * exp (2 * Real.pi * I * b * k / nfft) := by
    intro k
    rw [map_sum]
    apply Finset.sum_congr rfl
    intro b _
    rw [map_mul, ← Complex.exp_conj]
    congr 2
    simp [Complex.conj_ofReal]
    have h2 : (starRingEnd ℂ) 2 = 2 := Complex.conj_ofNat 2
    rw [h2]
    ring
  simp only [hconj]
  have hterm : ∀ k : Nat, (∑ a ∈ Finset.range nfft, x.getD a 0 * exp (-(2 * Real.pi * I * a * k / nfft))) *
      (∑ b ∈ Finset.range nfft, starRingEnd ℂ (g.getD b 0) * exp (2 * Real.pi * I * b * k / nfft)) * exp (2 * Real.pi * I * n * k / nfft) =
      ∑ b ∈ Finset.range nfft, ∑ a ∈ Finset.range nfft, starRingEnd ℂ (g.getD b 0) * x.getD a 0 *
        exp (2 * Real.pi * I * (((n : ℤ) + b - a : ℤ) : ℂ) * k / nfft) := by
    intro k
    rw [Finset.sum_mul_sum, Finset.sum_comm, Finset.sum_mul]
    apply Finset.sum_congr rfl
    intro b _
    rw [Finset.sum_mul]
    apply Finset.sum_congr rfl
    intro a _
    have : exp (2 * Real.pi * I * (((n : ℤ) + b - a : ℤ) : ℂ) * k / nfft) =
        exp (-(2 * Real.pi * I * a * k / nfft)) * exp (2 * Real.pi * I * b * k / nfft) * exp (2 * Real.pi * I * n * k / nfft) := by
      rw [← Complex.exp_add, ← Complex.exp_add]
      congr 1
      push_cast
      field_simp
      ring
    rw [this]
    ring
  simp only [hterm]
  rw [Finset.sum_comm]
  have hinner : ∀ b ∈ Finset.range nfft, (∑ k ∈ Finset.range nfft, ∑ a ∈ Finset.range nfft, starRingEnd ℂ (g.getD b 0) * x.getD a 0 *
        exp (2 * Real.pi * I * (((n : ℤ) + b - a : ℤ) : ℂ) * k / nfft)) =
      if b < g.length then (nfft : ℂ) * (starRingEnd ℂ (g.getD b 0) * x.getD (n + b) 0) else 0 := by
    intro b _
    split_ifs with hb
    · rw [Finset.sum_comm]
      simp only [← Finset.mul_sum, sum_exp nfft hpos]
      rw [Finset.sum_eq_single (n + b)]
      · rw [if_pos ⟨0, by push_cast; ring⟩]
        ring
      · intro a ha hne
        rw [if_neg, mul_zero]
        rintro ⟨c, hc⟩
        have h1 := hg b hb
        rw [Finset.mem_range] at ha
        have : c = 0 := by
          by_contra hc0
          have h2 : (n : ℤ) + b - a = nfft * c := hc
          rcases lt_or_gt_of_ne hc0 with h | h
          · have : (nfft : ℤ) * c ≤ nfft * (-1) := by
              apply mul_le_mul_of_nonneg_left <;> omega
            omega
          · have : (nfft : ℤ) * 1 ≤ nfft * c := by
              apply mul_le_mul_of_nonneg_left <;> omega
            omega
        rw [this] at hc
        omega
      · intro h
        exact absurd (Finset.mem_range.2 (hg b hb)) h
    · have : g.getD b 0 = 0 := by
        rw [List.getD_eq_getElem?_getD, List.getElem?_eq_none (by omega)]
        rfl
      simp only [this, map_zero, zero_mul, Finset.sum_const_zero]
  rw [Finset.sum_congr rfl hinner]
  rw [← Finset.sum_filter]
  have hfil : (Finset.range nfft).filter (fun b => b < g.length) = Finset.range g.length := by
    ext b
    simp only [Finset.mem_filter, Finset.mem_range]
    omega
  rw [hfil, ← Finset.mul_sum]
  field_simp

theorem padEdges_get (x : List ℂ) (lo hi : Int) (hlh : lo ≤ hi) (hlo : lo ≤ x.length) (hhi : 0 ≤ hi) (i : Nat) (hlt : (i : Int) < hi - lo) :
    (padEdges x lo hi).getD i 0 = sample x (lo + i) := by
  have hx : ∀ j : Nat, x.length ≤ j → x[j]?.getD 0 = 0 := by
    intro j hj
    rw [List.getElem?_eq_none hj]
    rfl
  unfold padEdges
  by_cases hc : 0 ≤ lo ∧ hi ≤ x.length
  · rw [if_pos hc, List.getD_eq_getElem?_getD, List.getElem?_drop, List.getElem?_take, if_pos (by omega)]
    unfold sample
    rw [if_pos (by omega), List.getD_eq_getElem?_getD]
    congr 2
    omega
  · rw [if_neg hc]
    dsimp only
    rw [List.getD_eq_getElem?_getD, List.getElem?_take, if_pos (by omega)]
    set before := if lo < 0 then (-lo).toNat else 0 with hb
    set part := (x.take (min (x.length : Int) hi).toNat).drop (max 0 lo).toNat with hp
    have hpl : part.length = (min (x.length : Int) hi).toNat - (max 0 lo).toNat := by
      rw [hp, List.length_drop, List.length_take]
      omega
    unfold sample
    by_cases h1 : i < before
    · have hneg : lo + i < 0 := by
        rw [hb] at h1
        split_ifs at h1 <;> omega
      rw [List.append_assoc, List.getElem?_append_left (by simpa using h1), List.getElem?_replicate, if_pos h1, if_neg (by omega)]
      rfl
    · have hpos : 0 ≤ lo + i := by
        rw [hb] at h1
        split_ifs at h1 <;> omega
      have hbi : (before : Int) = -(min 0 lo) := by
        rw [hb]
        split_ifs <;> omega
      rw [if_pos hpos, List.getD_eq_getElem?_getD, List.append_assoc, List.getElem?_append_right (by simpa using h1), List.length_replicate]
      by_cases h2 : i - before < part.length
      · rw [List.getElem?_append_left h2, hp, List.getElem?_drop, List.getElem?_take, if_pos (by omega)]
        congr 2
        omega
      · rw [List.getElem?_append_right (by omega), hx (lo + i).toNat (by omega), List.getElem?_replicate]
        split_ifs <;> rfl

theorem olsStep_eq (x h : List ℂ) (hh : h ≠ []) (start size nfft : Nat) (hs : start ≤ x.length) :
    olsStep x h start size nfft =
      if min size (x.length - start) + h.length - 1 ≤ nfft then
        .ok ((List.range (min size (x.length - start))).map fun n => sameConvolution x h (start + n))
      else .error .assertionError := by
  have hnh := List.length_pos_iff.2 hh
  unfold olsStep
  dsimp only
  by_cases hc : min size (x.length - start) + h.length - 1 ≤ nfft
  · rw [if_neg (not_not.2 hc), if_pos hc]
    congr 1
    apply List.map_congr_left
    intro n hn
    rw [List.mem_range] at hn
    set g := (h.map (starRingEnd ℂ)).reverse with hg
    have hgl : g.length = h.length := by simp [hg]
    set xp := padEdges x ((start : Int) - (h.length / 2 : Nat))
      ((start : Int) + (min size (x.length - start) : Nat) + h.length - 1 - (h.length / 2 : Nat)) with hxp
    have hprep : (fun k => fft nfft xp k * prepareh h nfft k) = fun k => fft nfft xp k * starRingEnd ℂ (fft nfft g k) := rfl
    rw [hprep, fft_product nfft xp g n (by intro b hb; omega) (by omega) (by omega), hgl]
    unfold sameConvolution
    rw [← Finset.sum_range_reflect]
    apply Finset.sum_congr rfl
    intro k hk
    rw [Finset.mem_range] at hk
    have h1 : starRingEnd ℂ (g.getD (h.length - 1 - k) 0) = h.getD k 0 := by
      rw [hg, List.getD_eq_getElem?_getD, List.getElem?_reverse (by simp; omega), List.length_map, List.getElem?_map,
        List.getD_eq_getElem?_getD]
      have : h.length - 1 - (h.length - 1 - k) = k := by omega
      rw [this, List.getElem?_eq_getElem hk]
      simp
    rw [h1, hxp, padEdges_get]
    · congr 2
      have : ((h.length / 2 : Nat) : Int) + ((h.length - 1) / 2 : Nat) = h.length - 1 := by omega
      push_cast at this ⊢
      omega
    · omega
    · omega
    · omega
    · omega
  · rw [if_pos hc, if_neg hc]

theorem olsLoop_ok (x h : List ℂ) (hh : h ≠ []) (size nfft : Nat) (hsize : 0 < size)
    (hfft : min size x.length + h.length - 1 ≤ nfft) (k start : Nat) (hk : k = (x.length - start + size - 1) / size)
    (hst : start ≤ x.length) :
    olsLoop x h size nfft start k = .ok ((List.range (x.length - start)).map fun n => sameConvolution x h (start + n)) := by
  induction k generalizing start with
  | zero =>
    have : x.length - start = 0 := by
      by_contra hc
      have : 1 ≤ (x.length - start + size - 1) / size := (Nat.le_div_iff_mul_le hsize).2 (by omega)
      omega
    rw [this]
    rfl
  | succ k ih =>
    have hpos : 0 < x.length - start := by
      by_contra hc
      have h0 : x.length - start = 0 := by omega
      rw [h0, Nat.zero_add, Nat.div_eq_of_lt (by omega)] at hk
      omega
    unfold olsLoop
    rw [olsStep_eq x h hh start size nfft hst, if_pos (by omega)]
    dsimp only
    by_cases hfull : size ≤ x.length - start
    · have hk' : k = (x.length - (start + size) + size - 1) / size := by
        have e : x.length - start + size - 1 = (x.length - (start + size) + size - 1) + size := by omega
        rw [e, Nat.add_div_right _ hsize] at hk
        omega
      rw [ih (start + size) hk' (by omega)]
      dsimp only
      congr 1
      rw [min_eq_left hfull]
      have e : x.length - start = size + (x.length - (start + size)) := by omega
      rw [e, List.range_add, List.map_append, List.map_map]
      congr 1
      apply List.map_congr_left
      intro n _
      simp only [Function.comp]
      rw [Nat.add_assoc]
    · have hk0 : k = 0 := by
        have h1 : (x.length - start + size - 1) / size < 2 := by
          rw [Nat.div_lt_iff_lt_mul hsize]
          omega
        omega
      subst hk0
      unfold olsLoop
      dsimp only
      rw [List.append_nil, min_eq_right (by omega)]

/-- **C69.** For every signal, every non-empty filter, every block size and every transform length that is long enough, overlap-and-save gives the convolution of the whole signal with the filter, centred as in `scipy.signal.fftconvolve(x, h, mode='same')`: the result has the length
of the signal and does not depend on the block size or on the transform length. A transform length that is too short, or blocks of size 0, are refused. -/
theorem ols_same (x h : List ℂ) (hh : h ≠ []) (size nfft : Nat) :
    (0 < size → min size x.length + h.length - 1 ≤ nfft → ols x h size nfft = .ok ((List.range x.length).map (sameConvolution x h))) ∧
    (x ≠ [] → (size = 0 ∨ nfft < min size x.length + h.length - 1) → ols x h size nfft = .error .assertionError) := by
  have hnh := List.length_pos_iff.2 hh
  constructor
  · intro hs hf
    unfold ols
    rw [if_neg (by omega), olsLoop_ok x h hh size nfft hs hf _ 0 (by rw [Nat.sub_zero]) (by omega)]
    simp
  · intro hx hc
    have hxl := List.length_pos_iff.2 hx
    unfold ols
    by_cases h0 : size = 0
    · rw [if_pos h0]
    · rw [if_neg h0]
      have hk : ∃ k, (x.length + size - 1) / size = k + 1 := by
        have : 1 ≤ (x.length + size - 1) / size := (Nat.le_div_iff_mul_le (by omega)).2 (by omega)
        exact ⟨_, (Nat.succ_pred_eq_of_pos this).symm⟩
      obtain ⟨k, hk⟩ := hk
      rw [hk]
      unfold olsLoop
      rw [olsStep_eq x h hh 0 size nfft (by omega), if_neg]
      rw [Nat.sub_zero]
      omega

/-- the hypotheses can be met: a signal of 5 samples in blocks of 2, with a filter of 3; the value of a sample -/
example : ols [1, 2, 3, 4, 5] [10, 1, 0] 2 4 = .ok ((List.range 5).map (sameConvolution [1, 2, 3, 4, 5] [10, 1, 0])) ∧
    sameConvolution [1, 2, 3, 4, 5] [10, 1, 0] 1 = 32 := by
  refine ⟨(ols_same _ _ (by simp) 2 4).1 (by norm_num) (by simp), ?_⟩
  simp [sameConvolution, sample, Finset.sum_range_succ]
  norm_num

end Stingray.Ols
